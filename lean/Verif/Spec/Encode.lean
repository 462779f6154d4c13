import Verif.Model.Attribute

/-! # Specification of the numeric encoding of attributes -/

namespace Verif
variable {F : Type} [Dbl F]

/-- The numeric encoding of one attribute in the words of the documentation: a continuous
value is itself, an indexed value is the one-hot vector of its index, plain discrete and
binary values contribute nothing. -/
def encodeAttr : Attr F → List F
  | .continuous v => [v]
  | .indexed _ i m => (List.range m.toNat).map (fun (j : Nat) => if (j : Int) = i then Dbl.one else Dbl.zero)
  | _ => []

/-- all indexed attributes have a non-negative number of values -/
def NonNegMax : Attr F → Prop
  | .indexed _ _ m => 0 ≤ m
  | _ => True

end Verif
