import Verif.Model.Instance

/-! # Specification: the same data with one more column -/

namespace Verif

/-- `x` with the attribute `a` put in at position `p` (before the attribute that was there) -/
def insertColumn {F : Type} (p : Nat) (a : Attr F) (x : Inst F) : Inst F :=
  { x with attrs := x.attrs.take p ++ a :: x.attrs.drop p }

/-- `x` with one more column, at position `p`, whose value `g x` may depend on the instance -/
def withColumn {F : Type} (p : Nat) (g : Inst F → Attr F) (x : Inst F) : Inst F := insertColumn p (g x) x

end Verif
