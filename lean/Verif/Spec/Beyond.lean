import Verif.Spec.Tree

/-! # Numbers beyond those of a list of instances -/

namespace Verif
open Dbl

variable {F : Type} [Dbl F]

/-- `u` is at least every number of column `i` -/
def AboveAll (data : IList F) (i : Nat) (u : F) : Prop :=
  ∀ y ∈ data, ∀ v, y.attrs[i]? = some (.continuous v) → (v <=. u) = true

/-- `u` is at most every number of column `i` -/
def BelowAll (data : IList F) (i : Nat) (u : F) : Prop :=
  ∀ y ∈ data, ∀ v, y.attrs[i]? = some (.continuous v) → (u <=. v) = true

/-- `z` is `x`, except that numbers at or beyond an end of what `data` has in their column may be other numbers
at or beyond the same end (for instance, the end itself) -/
structure SameWithin (data : IList F) (x z : Inst F) : Prop where
  attrs : ∀ i : Nat, x.attrs[i]? = z.attrs[i]? ∨ ∃ u w : F, x.attrs[i]? = some (.continuous u) ∧
    z.attrs[i]? = some (.continuous w) ∧
    (AboveAll data i u ∧ AboveAll data i w ∨ BelowAll data i u ∧ BelowAll data i w)
  possible : z.possible = x.possible

end Verif
