import Verif.Model.Deps
import Verif.Model.Dbl
import Mathlib.Data.Real.Basic

/-! # Specification: a most probable class -/

namespace Verif

/-- `c` is reported with a probability, and no class is reported with a larger one -/
def MostProbable (p : OMap ℝ) (c : String) : Prop := ∃ q, (c, q) ∈ p ∧ ∀ b r, (b, r) ∈ p → r ≤ q

end Verif
