import Mathlib.Analysis.Real.Sqrt
import Mathlib.Tactic.Linarith
import Mathlib.Tactic.Ring
import Mathlib.Algebra.BigOperators.Group.List.Basic

/-! # Textbook statistics of a column of real numbers -/

namespace Verif

/-- arithmetic mean -/
noncomputable def mean (vs : List ℝ) : ℝ := vs.sum / vs.length

/-- sample variance: squared deviations from the mean over `n - 1` -/
noncomputable def sampleVar (vs : List ℝ) : ℝ :=
  (vs.map (fun v => (v - mean vs) ^ 2)).sum / ((vs.length : ℝ) - 1)

/-- sample standard deviation -/
noncomputable def sampleSD (vs : List ℝ) : ℝ := Real.sqrt (sampleVar vs)

theorem sum_map_sub_const (vs : List ℝ) (c : ℝ) :
    (vs.map (fun v => v - c)).sum = vs.sum - vs.length * c := by
  induction vs with
  | nil => simp
  | cons a vs ih => simp [ih]; ring

theorem sum_map_add_const (vs : List ℝ) (c : ℝ) :
    (vs.map (fun v => v + c)).sum = vs.sum + vs.length * c := by
  induction vs with
  | nil => simp
  | cons a vs ih => simp [ih]; ring

theorem deviations_sum_zero {vs : List ℝ} (h : vs ≠ []) :
    (vs.map (fun v => v - mean vs)).sum = 0 := by
  have hl : (vs.length : ℝ) ≠ 0 := by
    simpa using h
  rw [sum_map_sub_const, mean]
  field_simp
  ring

theorem sum_le_of_forall_le {vs : List ℝ} {b : ℝ} (h : ∀ v ∈ vs, v ≤ b) :
    vs.sum ≤ vs.length * b := by
  induction vs with
  | nil => simp
  | cons a vs ih =>
    have h1 := h a (by simp)
    have h2 := ih (fun v hv => h v (by simp [hv]))
    simp only [List.sum_cons, List.length_cons, Nat.cast_add, Nat.cast_one]
    linarith

theorem le_sum_of_forall_le {vs : List ℝ} {b : ℝ} (h : ∀ v ∈ vs, b ≤ v) :
    vs.length * b ≤ vs.sum := by
  induction vs with
  | nil => simp
  | cons a vs ih =>
    have h1 := h a (by simp)
    have h2 := ih (fun v hv => h v (by simp [hv]))
    simp only [List.sum_cons, List.length_cons, Nat.cast_add, Nat.cast_one]
    linarith

theorem mean_le {vs : List ℝ} (hne : vs ≠ []) {b : ℝ} (h : ∀ v ∈ vs, v ≤ b) : mean vs ≤ b := by
  have hl : (0 : ℝ) < vs.length := by
    have : 0 < vs.length := List.length_pos_iff.2 hne
    exact_mod_cast this
  rw [mean, div_le_iff₀ hl]
  have := sum_le_of_forall_le h
  linarith

theorem le_mean {vs : List ℝ} (hne : vs ≠ []) {b : ℝ} (h : ∀ v ∈ vs, b ≤ v) : b ≤ mean vs := by
  have hl : (0 : ℝ) < vs.length := by
    have : 0 < vs.length := List.length_pos_iff.2 hne
    exact_mod_cast this
  rw [mean, le_div_iff₀ hl]
  have := le_sum_of_forall_le h
  linarith

theorem sum_sq_nonneg {α : Type} (l : List α) (f : α → ℝ) : 0 ≤ (l.map (fun v => (f v) ^ 2)).sum := by
  induction l with
  | nil => simp
  | cons a l ih =>
    simp only [List.map_cons, List.sum_cons]
    have := sq_nonneg (f a)
    linarith

theorem sum_sq_eq_zero {α : Type} {l : List α} {f : α → ℝ}
    (h : (l.map (fun v => (f v) ^ 2)).sum = 0) : ∀ a ∈ l, f a = 0 := by
  induction l with
  | nil => simp
  | cons b l ih =>
    simp only [List.map_cons, List.sum_cons] at h
    have h1 := sq_nonneg (f b)
    have h2 := sum_sq_nonneg l f
    have h3 : (f b) ^ 2 = 0 := by linarith
    have h4 : (l.map (fun v => (f v) ^ 2)).sum = 0 := by linarith
    intro a ha
    rcases List.mem_cons.1 ha with rfl | ha
    · exact pow_eq_zero_iff (two_ne_zero) |>.1 h3
    · exact ih h4 a ha

theorem mean_add_const {vs : List ℝ} (h : vs ≠ []) (c : ℝ) :
    mean (vs.map (fun v => v + c)) = mean vs + c := by
  have hl : (vs.length : ℝ) ≠ 0 := by simpa using h
  unfold mean
  rw [sum_map_add_const, List.length_map]
  field_simp

theorem sampleVar_add_const (vs : List ℝ) (c : ℝ) :
    sampleVar (vs.map (fun v => v + c)) = sampleVar vs := by
  by_cases h : vs = []
  · subst h; rfl
  · unfold sampleVar
    rw [mean_add_const h, List.map_map, List.length_map]
    congr 2
    apply List.map_congr_left
    intro v _
    simp only [Function.comp_apply]
    ring

theorem sampleVar_nonneg {vs : List ℝ} (h : 2 ≤ vs.length) : 0 ≤ sampleVar vs := by
  have : (2 : ℝ) ≤ vs.length := by exact_mod_cast h
  apply div_nonneg (sum_sq_nonneg vs _)
  linarith

theorem sampleVar_eq_zero_iff {vs : List ℝ} (h : 2 ≤ vs.length) :
    sampleVar vs = 0 ↔ ∀ a ∈ vs, ∀ b ∈ vs, a = b := by
  have h2 : (2 : ℝ) ≤ vs.length := by exact_mod_cast h
  have hne : vs ≠ [] := by rintro rfl; simp at h
  have hd : ((vs.length : ℝ) - 1) ≠ 0 := by linarith
  constructor
  · intro h0 a ha b hb
    unfold sampleVar at h0
    rw [div_eq_zero_iff] at h0
    have h0' := h0.resolve_right hd
    have hz := sum_sq_eq_zero (f := fun v => v - mean vs) h0'
    have e1 := hz a ha
    have e2 := hz b hb
    linarith
  · intro hall
    have hmean : ∀ a ∈ vs, a = mean vs := by
      intro a ha
      apply le_antisymm
      · exact le_mean hne (fun v hv => le_of_eq (hall a ha v hv))
      · exact mean_le hne (fun v hv => le_of_eq (hall v hv a ha))
    unfold sampleVar
    have : vs.map (fun v => (v - mean vs) ^ 2) = vs.map (fun _ => (0 : ℝ)) := by
      apply List.map_congr_left
      intro a ha
      rw [← hmean a ha]; ring
    rw [this]
    simp

theorem sampleSD_eq_zero_iff {vs : List ℝ} (h : 2 ≤ vs.length) :
    sampleSD vs = 0 ↔ ∀ a ∈ vs, ∀ b ∈ vs, a = b := by
  rw [sampleSD, Real.sqrt_eq_zero (sampleVar_nonneg h), sampleVar_eq_zero_iff h]

end Verif
