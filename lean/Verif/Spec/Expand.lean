import Verif.Model.Instance
import Verif.Spec.DataSet

/-! # Writing out indexed attributes as columns of zeros and ones -/

namespace Verif
variable {F : Type} [Dbl F]

/-- an indexed attribute with `m` values is written out as `m` numbers, one of which is 1: that
of its index; other attributes stay as they are -/
def expandAttr : Attr F → List (Attr F)
  | .indexed _ k m => (List.range m.toNat).map (fun (j : Nat) => .continuous (if (j : Int) = k then Dbl.one else Dbl.zero))
  | a => [a]

/-- the instance with its indexed attributes written out -/
def expand (x : Inst F) : Inst F := { x with attrs := x.attrs.flatMap expandAttr }

/-- `none`: a number; `some m`: an indexed value with an index below `m` -/
def FitsColumn : Option Nat → Attr F → Prop
  | none, .continuous _ => True
  | some m, .indexed _ k m' => m' = m ∧ 0 ≤ k ∧ k < m
  | _, _ => False

/-- the columns of the instance are those of `S` -/
def Coded (S : List (Option Nat)) (x : Inst F) : Prop := List.Forall₂ FitsColumn S x.attrs

/-- the attribute has the type of the column, and if it is indexed, the number of values of the column and an index
below it -/
def FitsShape (c : AttrType × Nat) (a : Attr F) : Prop :=
  typeOf a = c.1 ∧ ∀ v k m, a = .indexed v k m → m = c.2 ∧ 0 ≤ k ∧ k < m

/-- the columns of the instance have the types (and numbers of values) of `cs` -/
def Shaped (cs : List (AttrType × Nat)) (x : Inst F) : Prop := List.Forall₂ FitsShape cs x.attrs

end Verif
