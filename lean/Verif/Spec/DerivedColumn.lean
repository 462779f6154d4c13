import Verif.Spec.ConstColumn
import Verif.Model.DblReal
import Verif.Model.InstanceList
import Mathlib.Order.Monotone.Defs

/-! # Specification of C220: columns computed from another column -/

namespace Verif

/-- `g` computes its value from column `j` of the instances of `data`: from a nominal column in any way, from numbers by a
function that rises or one that falls (not necessarily strictly), from an indexed column by a renumbering. -/
def ComputedFrom (j : Nat) (g : Inst ℝ → Attr ℝ) (data : IList ℝ) : Prop :=
  (∃ f : String → Attr ℝ, ∀ x ∈ data, ∃ v, x.attrs[j]? = some (.discrete v) ∧ g x = f v) ∨
  (∃ f : ℝ → ℝ, (Monotone f ∨ Antitone f) ∧
    ∀ x ∈ data, ∃ v, x.attrs[j]? = some (.continuous v) ∧ g x = .continuous (f v)) ∨
  (∃ f : Int → Int, Function.Injective f ∧ (∀ k, 0 ≤ f k → 0 ≤ k) ∧
    ∀ x ∈ data, ∃ s k m s' m', x.attrs[j]? = some (.indexed s k m) ∧ g x = .indexed s' (f k) m')

end Verif
