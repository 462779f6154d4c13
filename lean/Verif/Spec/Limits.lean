import Verif.Model.DecisionTree

/-! # Specification: the top of a tree -/

namespace Verif

variable {F : Type} [Dbl F]

/-- the node without what is below it -/
def Node.asLeaf : Node F → Node F
  | .mk c _ s d _ => .mk c true s d []

/-- the root and its children, nothing below -/
def Node.top : Node F → Node F
  | .mk c leaf s d ch => .mk c leaf s d (ch.map Node.asLeaf)

end Verif
