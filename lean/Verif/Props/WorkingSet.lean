import Verif.Props.Solver

/-! # C69: the choice of the working pair -/

set_option linter.unusedSectionVars false
set_option linter.unusedVariables false

namespace Verif
open Dbl

open Classical in
/-- the loop body on a row with label `+1` or `-1` -/
theorem selRow_eq (t : Smo.Sel ℝ) (i : Nat) (y g : ℝ) (u : AlphaStatus) (hy : y = 1 ∨ y = -1) :
    Smo.selRow t i y g u =
      (let t1 := if (y = 1 ∧ u ≠ .upper) ∨ (y = -1 ∧ u ≠ .lower) then t.offer0 (-(y * g)) i else t
       if (y = 1 ∧ u ≠ .lower) ∨ (y = -1 ∧ u ≠ .upper) then t1.offer1 (y * g) i else t1) := by
  have h1 : ¬ ((-1 : ℝ) = 1) := by norm_num
  have h2 : ¬ ((1 : ℝ) = -1) := by norm_num
  rcases hy with rfl | rfl
  · unfold Smo.selRow
    cases u <;> simp [h2]
  · unfold Smo.selRow
    cases u <;> simp [h1]
    simp only [Smo.Sel.offer0, Smo.Sel.offer1]
    split_ifs <;> simp_all

/-- what is known after `m` rows about one of the two maxima: `P` says which rows count, `v` what they
offer -/
structure MaxSoFar (P : Nat → Prop) (v : Nat → ℝ) (m : Nat) (g : ℝ) (o : Option Nat) : Prop where
  bound : ∀ k, k < m → P k → v k ≤ g
  choice : (∃ i, o = some i ∧ i < m ∧ P i ∧ g = v i) ∨ (g = -(Dbl.maxVal : ℝ) ∧ ∀ k, k < m → ¬ P k)

theorem MaxSoFar.skip {P : Nat → Prop} {v : Nat → ℝ} {m : Nat} {g : ℝ} {o : Option Nat}
    (h : MaxSoFar P v m g o) (hm : ¬ P m) : MaxSoFar P v (m + 1) g o := by
  constructor
  · intro k hk hP
    rcases Nat.lt_succ_iff_lt_or_eq.mp hk with hk | rfl
    · exact h.bound k hk hP
    · exact absurd hP hm
  · rcases h.choice with ⟨i, e, hi, hP, hg⟩ | ⟨hg, hn⟩
    · exact Or.inl ⟨i, e, by omega, hP, hg⟩
    · refine Or.inr ⟨hg, ?_⟩
      intro k hk
      rcases Nat.lt_succ_iff_lt_or_eq.mp hk with hk | rfl
      · exact hn k hk
      · exact hm

theorem MaxSoFar.take {P : Nat → Prop} {v : Nat → ℝ} {m : Nat} {g : ℝ} {o : Option Nat}
    (h : MaxSoFar P v m g o) (hm : P m) (hv : g ≤ v m) : MaxSoFar P v (m + 1) (v m) (some m) := by
  constructor
  · intro k hk hP
    rcases Nat.lt_succ_iff_lt_or_eq.mp hk with hk | rfl
    · exact (h.bound k hk hP).trans hv
    · exact le_refl _
  · exact Or.inl ⟨m, rfl, by omega, hm, rfl⟩

theorem MaxSoFar.keep {P : Nat → Prop} {v : Nat → ℝ} {m : Nat} {g : ℝ} {o : Option Nat}
    (h : MaxSoFar P v m g o) (hm : P m) (hv : ¬ g ≤ v m) (hr : -(Dbl.maxVal : ℝ) ≤ v m) :
    MaxSoFar P v (m + 1) g o := by
  constructor
  · intro k hk hP
    rcases Nat.lt_succ_iff_lt_or_eq.mp hk with hk | rfl
    · exact h.bound k hk hP
    · exact le_of_lt (not_le.mp hv)
  · rcases h.choice with ⟨i, e, hi, hP, hg⟩ | ⟨hg, hn⟩
    · exact Or.inl ⟨i, e, by omega, hP, hg⟩
    · exact absurd (hg ▸ hr) hv

section select
variable {s : Smo ℝ}

theorem abs_label_slope (h : s.RowsOk) {k : Nat} (hk : k < s.activeSize) :
    |s.label k * s.slope k| ≤ (Dbl.maxVal : ℝ) := by
  have hr := h.range k hk
  rcases h.sign k hk with e | e <;> rw [e] <;> simpa using hr

/-- the loop over the active rows -/
theorem selLoop_ok (h : s.RowsOk) (m : Nat) (hm : m ≤ s.activeSize) (out : WorkSet) :
    ∃ t, (List.range m).foldlM s.selStep ⟨Dbl.neg Dbl.maxVal, Dbl.neg Dbl.maxVal, out⟩ = .ok t ∧
      MaxSoFar s.MayRise (fun k => -(s.label k * s.slope k)) m t.g0 t.out.first ∧
      MaxSoFar s.MayFall (fun k => s.label k * s.slope k) m t.g1 t.out.second := by
  induction m with
  | zero =>
    refine ⟨_, rfl, ⟨by simp, Or.inr ⟨rfl, by simp⟩⟩, ⟨by simp, Or.inr ⟨rfl, by simp⟩⟩⟩
  | succ m ih =>
    obtain ⟨t, e, h0, h1⟩ := ih (by omega)
    have hk : m < s.activeSize := by omega
    have hy : idxR s.y m = .ok (s.label m) := idxR_getD0 s.y m (by have := h.labels; omega)
    have hg : idxR s.G m = .ok (s.slope m) := idxR_getD0 s.G m (by have := h.slopes; omega)
    have hu : idxR s.status m = .ok (s.mark m) := by
      have hl : m < s.status.length := by have := h.marks; omega
      rw [idxR_ok_of_lt hl]; simp [Smo.mark, hl]
    have hstep : s.selStep t m = .ok (Smo.selRow t m (s.label m) (s.slope m) (s.mark m)) := by
      unfold Smo.selStep
      rw [hy, res_bind_ok, hu, res_bind_ok, hg, res_bind_ok]
      rfl
    rw [List.range_succ, List.foldlM_append, e, res_bind_ok]
    simp only [List.foldlM_cons, List.foldlM_nil]
    rw [hstep, res_bind_ok]
    refine ⟨_, rfl, ?_⟩
    rw [selRow_eq _ _ _ _ _ (h.sign m hk)]
    have habs := abs_le.mp (abs_label_slope h hk)
    obtain ⟨t1, ht1, a0, a1, a2⟩ : ∃ t1 : Smo.Sel ℝ,
        t1 = (if (s.label m = 1 ∧ s.mark m ≠ .upper) ∨ (s.label m = -1 ∧ s.mark m ≠ .lower)
          then t.offer0 (-(s.label m * s.slope m)) m else t) ∧
        MaxSoFar s.MayRise (fun k => -(s.label k * s.slope k)) (m + 1) t1.g0 t1.out.first ∧
        t1.g1 = t.g1 ∧ t1.out.second = t.out.second := by
      refine ⟨_, rfl, ?_⟩
      by_cases hr : s.MayRise m
      · rw [if_pos (show (_ ∧ _) ∨ (_ ∧ _) from hr)]
        unfold Smo.Sel.offer0
        by_cases hv : t.g0 ≤ -(s.label m * s.slope m)
        · simp only [le_real, hv, decide_true, if_true]
          exact ⟨h0.take hr hv, trivial, trivial⟩
        · simp only [le_real, hv, decide_false, Bool.false_eq_true, if_false]
          exact ⟨h0.keep hr hv (by linarith), trivial, trivial⟩
      · rw [if_neg (show ¬ ((_ ∧ _) ∨ (_ ∧ _)) from hr)]
        exact ⟨h0.skip hr, rfl, rfl⟩
    rw [← ht1]
    simp only
    rw [← a1] at h1
    rw [← a2] at h1
    by_cases hr : s.MayFall m
    · rw [if_pos (show (_ ∧ _) ∨ (_ ∧ _) from hr)]
      unfold Smo.Sel.offer1
      by_cases hv : t1.g1 ≤ s.label m * s.slope m
      · simp only [le_real, hv, decide_true, if_true]
        exact ⟨a0, h1.take hr hv⟩
      · simp only [le_real, hv, decide_false, Bool.false_eq_true, if_false]
        exact ⟨a0, h1.keep hr hv (by linarith)⟩
    · rw [if_neg (show ¬ ((_ ∧ _) ∨ (_ ∧ _)) from hr)]
      exact ⟨a0, h1.skip hr⟩

/-- **C69**: `selectWorkingSet` answers `true` exactly when no pair of active rows that can still move
violates optimality by 0.001 or more; when it answers `false`, both indices have been set, are
active and different, the first can rise, the second can fall, they violate optimality by at least 0.001
and no other pair does so more. -/
theorem C69_select (h : s.RowsOk) (out : WorkSet) :
    ∃ stop o, s.selectWorkingSet out = .ok (stop, o) ∧
      (stop = true ↔ ∀ i j, i < s.activeSize → j < s.activeSize → s.MayRise i → s.MayFall j →
        s.violation i j < 1/1000) ∧
      (stop = false → ∃ i j, o = ⟨some i, some j⟩ ∧ i < s.activeSize ∧ j < s.activeSize ∧
        s.MayRise i ∧ s.MayFall j ∧ i ≠ j ∧ 1/1000 ≤ s.violation i j ∧
        ∀ i' j', i' < s.activeSize → j' < s.activeSize → s.MayRise i' → s.MayFall j' →
          s.violation i' j' ≤ s.violation i j) := by
  obtain ⟨t, e, h0, h1⟩ := selLoop_ok h s.activeSize (le_refl _) out
  have hval : (Dbl.lit (1/1000) : ℝ) = 1/1000 := by simp
  refine ⟨(t.g0 +. t.g1) <. Dbl.lit (1/1000), t.out, ?_, ?_, ?_⟩
  · unfold Smo.selectWorkingSet
    rw [e, res_bind_ok]; rfl
  · rw [lt_real, add_real, hval, decide_eq_true_iff]
    constructor
    · intro hlt i j hi hj hr hf
      have a := h0.bound i hi hr
      have b := h1.bound j hj hf
      unfold Smo.violation
      linarith
    · intro hall
      have hpos := maxVal_real_pos
      have hbig : (1 : ℝ) ≤ Dbl.maxVal := by rw [maxVal_real]; exact one_le_pow₀ (by norm_num)
      rcases h0.choice with ⟨i, _, hi, hr, hg⟩ | ⟨hg, _⟩ <;>
        rcases h1.choice with ⟨j, _, hj, hf, hg'⟩ | ⟨hg', _⟩
      · have := hall i j hi hj hr hf
        unfold Smo.violation at this
        rw [hg, hg']; linarith
      · have := abs_le.mp (abs_label_slope h hi)
        rw [hg, hg']; linarith
      · have := abs_le.mp (abs_label_slope h hj)
        rw [hg, hg']; linarith
      · rw [hg, hg']; linarith
  · rw [lt_real, add_real, hval, decide_eq_false_iff_not, not_lt]
    intro hge
    have hbig : (1 : ℝ) ≤ Dbl.maxVal := by rw [maxVal_real]; exact one_le_pow₀ (by norm_num)
    rcases h0.choice with ⟨i, ei, hi, hr, hg⟩ | ⟨hg, _⟩ <;>
      rcases h1.choice with ⟨j, ej, hj, hf, hg'⟩ | ⟨hg', _⟩
    · have hv : 1/1000 ≤ s.violation i j := by
        unfold Smo.violation
        rw [hg, hg'] at hge; linarith
      refine ⟨i, j, ?_, hi, hj, hr, hf, ?_, hv, ?_⟩
      · rw [← ei, ← ej]
      · rintro rfl
        unfold Smo.violation at hv
        norm_num at hv
      · intro i' j' hi' hj' hr' hf'
        have a := h0.bound i' hi' hr'
        have b := h1.bound j' hj' hf'
        unfold Smo.violation
        rw [hg] at a; rw [hg'] at b
        linarith
    · have := abs_le.mp (abs_label_slope h hi)
      rw [hg, hg'] at hge; linarith
    · have := abs_le.mp (abs_label_slope h hj)
      rw [hg, hg'] at hge; linarith
    · rw [hg, hg'] at hge; linarith

end select

end Verif
