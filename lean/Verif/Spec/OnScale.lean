import Verif.Model.DecisionTree
import Verif.Model.DblReal

/-! # The same data with numbers on other scales, and what is left of a tree without its thresholds -/

namespace Verif

/-- a number `v` becomes `f v` (its logarithm, its rank, ...); other attributes stay -/
def Attr.onScale (f : ℝ → ℝ) : Attr ℝ → Attr ℝ
  | .continuous v => .continuous (f v)
  | t => t

/-- the same instance with the numbers of attribute `i` on the scale given by `f i` -/
def onScale (f : Nat → ℝ → ℝ) (x : Inst ℝ) : Inst ℝ :=
  { x with attrs := x.attrs.mapIdx (fun i t => t.onScale (f i)) }

/-- a condition without its threshold: attribute, comparison and, unless it is a number, value -/
def Cond.sketch {F : Type} (c : Cond F) : Cond F :=
  { c with value := match c.value with
    | some (.continuous _) => none
    | v => v }

mutual
/-- the tree without its thresholds: the attributes tested at every node, their values unless they
are numbers, leaves, class labels and class distributions -/
def Node.sketch {F : Type} : Node F → Node F
  | .mk c l s d ch => .mk c.sketch l s d (Node.sketchIn ch)
/-- the children without their thresholds -/
def Node.sketchIn {F : Type} : List (Node F) → List (Node F)
  | [] => []
  | n :: ns => Node.sketch n :: Node.sketchIn ns
end

end Verif
