import Mathlib.Analysis.SpecialFunctions.Log.Base
import Mathlib.Algebra.BigOperators.Group.Finset.Basic

/-! # Shannon entropy of a list of labels -/

namespace Verif

/-- Shannon entropy in bits of the empirical distribution of a list of labels:
`-Σ p_s log₂ p_s`, where `p_s` is the share of label `s`. -/
noncomputable def shannon (l : List String) : ℝ :=
  ∑ s ∈ l.toFinset, -((l.count s : ℝ) / l.length * Real.logb 2 ((l.count s : ℝ) / l.length))

theorem shannon_perm {l l' : List String} (h : l.Perm l') : shannon l = shannon l' := by
  unfold shannon
  rw [List.toFinset_eq_of_perm _ _ h, h.length_eq]
  simp only [h.count_eq]

end Verif
