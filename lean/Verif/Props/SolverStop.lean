import Verif.Props.SolverRun
import Mathlib.Topology.Algebra.InfiniteSum.Real
import Mathlib.Topology.Algebra.InfiniteSum.Order
import Mathlib.Topology.Instances.Real.Lemmas

/-! # C127: the SMO solver makes progress and stops -/

set_option linter.unusedSectionVars false
set_option linter.unusedVariables false
set_option linter.unusedSimpArgs false

namespace Verif
open Dbl

/-! ## the length of a step -/

/-- how far `y a` can rise -/
noncomputable def roomUp (C y a : ℝ) : ℝ := if y = 1 then C - a else a
/-- how far `y a` can fall -/
noncomputable def roomDown (C y a : ℝ) : ℝ := if y = 1 then a else C - a

theorem fmaxD_pos (a : ℝ) (h : 0 < a) : fmaxD a (0 : ℝ) = a := by
  unfold fmaxD
  simp only [le_real, decide_eq_true_eq]
  rw [if_pos (le_of_lt h)]

theorem clipDiff_up (C ai aj δ : ℝ) (hδ : 0 < δ) (h1 : 0 ≤ ai) (h2 : ai ≤ C) (h3 : 0 ≤ aj) (h4 : aj ≤ C) :
    ∃ t, (if 0 < ai - aj then clipDiff C (ai - aj) (ai + δ, aj + δ) else clipDiffNeg C (ai - aj) (ai + δ, aj + δ)) =
      (ai + t, aj + t) ∧ 0 ≤ t ∧ t ≤ δ ∧ (t = δ ∨ t = C - ai ∨ t = C - aj) := by
  unfold clipDiff clipDiffNeg
  simp only [lt_real, zero_real, sub_real, add_real, neg_real, decide_eq_true_eq]
  rw [if_neg (by linarith : ¬ (aj + δ < 0)), if_neg (by linarith : ¬ (ai + δ < 0))]
  simp only
  split_ifs with c1 c2 c3
  · refine ⟨C - ai, ?_, by linarith, by linarith, Or.inr (Or.inl rfl)⟩
    rw [Prod.mk.injEq]; constructor <;> ring
  · exact ⟨δ, rfl, by linarith, by linarith, Or.inl rfl⟩
  · refine ⟨C - aj, ?_, by linarith, by linarith, Or.inr (Or.inr rfl)⟩
    rw [Prod.mk.injEq]; constructor <;> ring
  · exact ⟨δ, rfl, by linarith, by linarith, Or.inl rfl⟩

theorem clipDiff_down (C ai aj δ : ℝ) (hδ : 0 < δ) (h1 : 0 ≤ ai) (h2 : ai ≤ C) (h3 : 0 ≤ aj) (h4 : aj ≤ C) :
    ∃ t, (if 0 < ai - aj then clipDiff C (ai - aj) (ai + -δ, aj + -δ) else clipDiffNeg C (ai - aj) (ai + -δ, aj + -δ)) =
      (ai - t, aj - t) ∧ 0 ≤ t ∧ t ≤ δ ∧ (t = δ ∨ t = ai ∨ t = aj) := by
  unfold clipDiff clipDiffNeg
  simp only [lt_real, zero_real, sub_real, add_real, neg_real, decide_eq_true_eq]
  split_ifs with c1 c2 c3 c4 c5 c6
  all_goals simp only at *
  · exfalso; linarith
  · refine ⟨aj, ?_, by linarith, by linarith, Or.inr (Or.inr rfl)⟩
    rw [Prod.mk.injEq]; constructor <;> ring
  · exfalso; linarith
  · refine ⟨δ, ?_, by linarith, by linarith, Or.inl rfl⟩
    rw [Prod.mk.injEq]; constructor <;> ring
  · exfalso; linarith
  · refine ⟨ai, ?_, by linarith, by linarith, Or.inr (Or.inl rfl)⟩
    rw [Prod.mk.injEq]; constructor <;> ring
  · exfalso; linarith
  · refine ⟨δ, ?_, by linarith, by linarith, Or.inl rfl⟩
    rw [Prod.mk.injEq]; constructor <;> ring

theorem clipSum_up (C ai aj δ : ℝ) (hδ : 0 < δ) (h1 : 0 ≤ ai) (h2 : ai ≤ C) (h3 : 0 ≤ aj) (h4 : aj ≤ C) :
    ∃ t, (if C < ai + aj then clipSumHigh C (ai + aj) (ai - -δ, aj + -δ) else clipSumLow (ai + aj) (ai - -δ, aj + -δ)) =
      (ai + t, aj - t) ∧ 0 ≤ t ∧ t ≤ δ ∧ (t = δ ∨ t = C - ai ∨ t = aj) := by
  unfold clipSumHigh clipSumLow
  simp only [lt_real, zero_real, sub_real, add_real, neg_real, decide_eq_true_eq]
  split_ifs with c1 c2 c3 c4 c5 c6
  all_goals simp only at *
  · exfalso; linarith
  · refine ⟨C - ai, ?_, by linarith, by linarith, Or.inr (Or.inl rfl)⟩
    rw [Prod.mk.injEq]; constructor <;> ring
  · exfalso; linarith
  · refine ⟨δ, ?_, by linarith, by linarith, Or.inl rfl⟩
    rw [Prod.mk.injEq]; constructor <;> ring
  · exfalso; linarith
  · refine ⟨aj, ?_, by linarith, by linarith, Or.inr (Or.inr rfl)⟩
    rw [Prod.mk.injEq]; constructor <;> ring
  · exfalso; linarith
  · refine ⟨δ, ?_, by linarith, by linarith, Or.inl rfl⟩
    rw [Prod.mk.injEq]; constructor <;> ring

theorem clipSum_down (C ai aj δ : ℝ) (hδ : 0 < δ) (h1 : 0 ≤ ai) (h2 : ai ≤ C) (h3 : 0 ≤ aj) (h4 : aj ≤ C) :
    ∃ t, (if C < ai + aj then clipSumHigh C (ai + aj) (ai - δ, aj + δ) else clipSumLow (ai + aj) (ai - δ, aj + δ)) =
      (ai - t, aj + t) ∧ 0 ≤ t ∧ t ≤ δ ∧ (t = δ ∨ t = ai ∨ t = C - aj) := by
  unfold clipSumHigh clipSumLow
  simp only [lt_real, zero_real, sub_real, add_real, neg_real, decide_eq_true_eq]
  split_ifs with c1 c2 c3 c4 c5 c6
  all_goals simp only at *
  · exfalso; linarith
  · exfalso; linarith
  · refine ⟨C - aj, ?_, by linarith, by linarith, Or.inr (Or.inr rfl)⟩
    rw [Prod.mk.injEq]; constructor <;> ring
  · refine ⟨δ, ?_, by linarith, by linarith, Or.inl rfl⟩
    rw [Prod.mk.injEq]; constructor <;> ring
  · exfalso; linarith
  · exfalso; linarith
  · refine ⟨ai, ?_, by linarith, by linarith, Or.inr (Or.inl rfl)⟩
    rw [Prod.mk.injEq]; constructor <;> ring
  · refine ⟨δ, ?_, by linarith, by linarith, Or.inl rfl⟩
    rw [Prod.mk.injEq]; constructor <;> ring

theorem movePair_step (C yi yj gi gj ai aj qii qjj qij η : ℝ) (hyi : yi = 1 ∨ yi = -1) (hyj : yj = 1 ∨ yj = -1)
    (hai : 0 ≤ ai) (hai' : ai ≤ C) (haj : 0 ≤ aj) (haj' : aj ≤ C)
    (hη : η = qii + qjj - 2 * (yi * yj * qij)) (hpos : 0 < η) (hgain : 0 < yj * gj - yi * gi) :
    ∃ t, movePair C yi yj gi gj ai aj qii qjj qij = (ai + yi * t, aj - yj * t) ∧
      0 ≤ t ∧ t ≤ (yj * gj - yi * gi) / η ∧
      (t = (yj * gj - yi * gi) / η ∨ t = roomUp C yi ai ∨ t = roomDown C yj aj) := by
  obtain ⟨δ, hδ⟩ : ∃ δ, δ = (yj * gj - yi * gi) / η := ⟨_, rfl⟩
  have hδ0 : 0 < δ := by rw [hδ]; positivity
  rw [← hδ]
  have hn : ¬ ((-1 : ℝ) = 1) := by norm_num
  have hn' : ¬ ((1 : ℝ) = -1) := by norm_num
  unfold movePair roomUp roomDown
  simp only [eq_real, zero_real, lt_real, sub_real, add_real, div_real, mul_real, neg_real, ofInt_real, decide_eq_true_eq,
    decide_eq_false_iff_not]
  rcases hyi with rfl | rfl <;> rcases hyj with rfl | rfl
  · have e : qii + qjj - ((2 : ℤ) : ℝ) * qij = η := by rw [hη]; push_cast; ring
    have e2 : (gi - gj) / η = - δ := by rw [hδ, ← neg_div]; congr 1; ring
    rw [if_neg (by simp), e, fmaxD_pos η hpos, e2]
    obtain ⟨t, e3, h1, h2, h3⟩ := clipSum_up C ai aj δ hδ0 hai hai' haj haj'
    refine ⟨t, ?_, h1, h2, by simpa using h3⟩
    rw [e3, one_mul]
  · have e : qii + qjj + ((2 : ℤ) : ℝ) * qij = η := by rw [hη]; push_cast; ring
    have e2 : (-gi - gj) / η = δ := by rw [hδ]; congr 1; ring
    rw [if_pos hn', e, fmaxD_pos η hpos, e2]
    obtain ⟨t, e3, h1, h2, h3⟩ := clipDiff_up C ai aj δ hδ0 hai hai' haj haj'
    refine ⟨t, ?_, h1, h2, by simpa [hn] using h3⟩
    rw [e3, Prod.mk.injEq]; constructor <;> ring
  · have e : qii + qjj + ((2 : ℤ) : ℝ) * qij = η := by rw [hη]; push_cast; ring
    have e2 : (-gi - gj) / η = -δ := by rw [hδ, ← neg_div]; congr 1; ring
    rw [if_pos hn, e, fmaxD_pos η hpos, e2]
    obtain ⟨t, e3, h1, h2, h3⟩ := clipDiff_down C ai aj δ hδ0 hai hai' haj haj'
    refine ⟨t, ?_, h1, h2, by simpa [hn] using h3⟩
    rw [e3, Prod.mk.injEq]; constructor <;> ring
  · have e : qii + qjj - ((2 : ℤ) : ℝ) * qij = η := by rw [hη]; push_cast; ring
    have e2 : (gi - gj) / η = δ := by rw [hδ]; congr 1; ring
    rw [if_neg (by simp), e, fmaxD_pos η hpos, e2]
    obtain ⟨t, e3, h1, h2, h3⟩ := clipSum_down C ai aj δ hδ0 hai hai' haj haj'
    refine ⟨t, ?_, h1, h2, by simpa [hn] using h3⟩
    rw [e3, Prod.mk.injEq]; constructor <;> ring

/-! ## one round -/

section progress
variable {P : SvmProblem} {A A' : Nat → ℝ}

/-- a round that moves the multipliers `p` (up) and `r` (down) by the amount `t` -/
structure Step (P : SvmProblem) (A A' : Nat → ℝ) (p r : Nat) (t : ℝ) : Prop where
  hp : p < P.size
  hr : r < P.size
  ne : p ≠ r
  gapPos : 0 < P.gap p r
  rise : P.CanRise A p
  fall : P.CanFall A r
  gain : 1/1000 ≤ P.y r * P.gradient A r - P.y p * P.gradient A p
  moveP : A' p = A p + P.y p * t
  moveR : A' r = A r - P.y r * t
  others : ∀ k, k ≠ p → k ≠ r → A' k = A k
  nonneg : 0 ≤ t
  short : t ≤ (P.y r * P.gradient A r - P.y p * P.gradient A p) / P.gap p r
  ends : t = (P.y r * P.gradient A r - P.y p * P.gradient A p) / P.gap p r ∨
    t = roomUp P.param.C (P.y p) (A p) ∨ t = roomDown P.param.C (P.y r) (A r)

theorem y_sq (hv : P.Valid) {i : Nat} (hi : i < P.size) : P.y i * P.y i = 1 := by
  rcases hv.sign i hi with h | h <;> rw [h] <;> norm_num

theorem gap_eq (hv : P.Valid) {i j : Nat} (hi : i < P.size) (hj : j < P.size) :
    P.gap i j = P.q i i + P.q j j - 2 * (P.y i * P.y j * P.q i j) := by
  unfold SvmProblem.gap SvmProblem.q
  have h1 := y_sq hv hi
  have h2 := y_sq hv hj
  have : P.y i * P.y j * (P.y i * P.y j * P.kernel i j) = (P.y i * P.y i) * (P.y j * P.y j) * P.kernel i j := by ring
  rw [this, h1, h2]; ring

theorem gap_pos_of_gain (hd : P.Consistent) {p r : Nat} (hp : p < P.size) (hr : r < P.size)
    (h3 : 1/1000 ≤ P.y r * P.gradient A r - P.y p * P.gradient A p) : 0 < P.gap p r := by
  rcases hd p r hp hr with h | ⟨h1, h2, h4⟩
  · exact h
  · exfalso
    have : P.gradient A p = P.gradient A r := by
      unfold SvmProblem.gradient SvmProblem.q SvmProblem.kernel
      rw [h1, h2, h4]
    rw [this, h2] at h3
    norm_num at h3

theorem step_of_choice (hv : P.Valid) (hd : P.Consistent) (hf : P.Feasible A) {p r : Nat} (hp : p < P.size) (hr : r < P.size)
    (hpr : p ≠ r) (h1 : P.CanRise A p) (h2 : P.CanFall A r)
    (h3 : 1/1000 ≤ P.y r * P.gradient A r - P.y p * P.gradient A p) :
    ∃ t, Step P A (movedTo P A p r) p r t := by
  have hg := gap_pos_of_gain hd hp hr h3
  obtain ⟨t, e, t1, t2, t3⟩ := movePair_step P.param.C (P.y p) (P.y r) (P.gradient A p) (P.gradient A r) (A p) (A r)
    (P.q p p) (P.q r r) (P.q p r) (P.gap p r) (hv.sign p hp) (hv.sign r hr) (hf.lower p hp) (hf.upper p hp)
    (hf.lower r hr) (hf.upper r hr) (gap_eq hv hp hr) hg (by linarith)
  refine ⟨t, hp, hr, hpr, hg, h1, h2, h3, ?_, ?_, ?_, t1, t2, t3⟩
  · unfold movedTo
    simp only [e]
    rw [Function.update_of_ne hpr, Function.update_self]
  · unfold movedTo
    simp only [e]
    rw [Function.update_self]
  · intro k k1 k2
    unfold movedTo
    rw [Function.update_of_ne k2, Function.update_of_ne k1]

theorem sum_two (n : Nat) (f : Nat → ℝ) (p r : Nat) (hp : p < n) (hr : r < n) (hpr : p ≠ r)
    (h : ∀ k, k ≠ p → k ≠ r → f k = 0) : ∑ k ∈ Finset.range n, f k = f p + f r := by
  have := sum_two_changes n (fun _ => 0) f p r hp hr hpr h
  simpa using this

/-- the objective at a sum -/
theorem objective_add (A D : Nat → ℝ) :
    P.objective (fun k => A k + D k) = P.objective A + ∑ i ∈ Finset.range P.size, D i * P.gradient A i +
      (∑ i ∈ Finset.range P.size, ∑ j ∈ Finset.range P.size, D i * D j * P.q i j) / 2 := by
  unfold SvmProblem.objective SvmProblem.gradient
  have e1 : ∑ i ∈ Finset.range P.size, ∑ j ∈ Finset.range P.size, (A i + D i) * (A j + D j) * P.q i j =
      ∑ i ∈ Finset.range P.size, ∑ j ∈ Finset.range P.size, A i * A j * P.q i j +
      ∑ i ∈ Finset.range P.size, ∑ j ∈ Finset.range P.size, D i * A j * P.q i j +
      ∑ i ∈ Finset.range P.size, ∑ j ∈ Finset.range P.size, A i * D j * P.q i j +
      ∑ i ∈ Finset.range P.size, ∑ j ∈ Finset.range P.size, D i * D j * P.q i j := by
    simp only [← Finset.sum_add_distrib]
    apply Finset.sum_congr rfl; intro i _
    apply Finset.sum_congr rfl; intro j _
    ring
  have e2 : ∑ i ∈ Finset.range P.size, ∑ j ∈ Finset.range P.size, A i * D j * P.q i j =
      ∑ i ∈ Finset.range P.size, ∑ j ∈ Finset.range P.size, D i * A j * P.q i j := by
    rw [Finset.sum_comm]
    apply Finset.sum_congr rfl; intro i _
    apply Finset.sum_congr rfl; intro j _
    rw [P.q_comm]; ring
  have e3 : ∑ i ∈ Finset.range P.size, D i * (P.b i + ∑ j ∈ Finset.range P.size, A j * P.q i j) =
      ∑ i ∈ Finset.range P.size, P.b i * D i + ∑ i ∈ Finset.range P.size, ∑ j ∈ Finset.range P.size, D i * A j * P.q i j := by
    rw [← Finset.sum_add_distrib]
    apply Finset.sum_congr rfl; intro i _
    rw [mul_add, Finset.mul_sum]
    congr 1
    · ring
    · apply Finset.sum_congr rfl; intro j _; ring
  have e4 : ∑ i ∈ Finset.range P.size, P.b i * (A i + D i) =
      ∑ i ∈ Finset.range P.size, P.b i * A i + ∑ i ∈ Finset.range P.size, P.b i * D i := by
    rw [← Finset.sum_add_distrib]
    apply Finset.sum_congr rfl; intro i _; ring
  rw [e1, e2, e3, e4]; ring

theorem Step.objective_eq (hv : P.Valid) {p r : Nat} {t : ℝ} (h : Step P A A' p r t) :
    P.objective A' = P.objective A - (P.y r * P.gradient A r - P.y p * P.gradient A p) * t + P.gap p r * t ^ 2 / 2 := by
  have e : A' = fun k => A k + (A' k - A k) := by funext k; ring
  have hz : ∀ k, k ≠ p → k ≠ r → A' k - A k = 0 := fun k h1 h2 => by rw [h.others k h1 h2]; ring
  have hdp : A' p - A p = P.y p * t := by rw [h.moveP]; ring
  have hdr : A' r - A r = -(P.y r * t) := by rw [h.moveR]; ring
  rw [e, objective_add]
  rw [sum_two P.size (fun i => (A' i - A i) * P.gradient A i) p r h.hp h.hr h.ne
    (fun k h1 h2 => by simp only [hz k h1 h2, zero_mul])]
  rw [sum_two P.size (fun i => ∑ j ∈ Finset.range P.size, (A' i - A i) * (A' j - A j) * P.q i j) p r h.hp h.hr h.ne
    (fun k h1 h2 => by
      simp only [hz k h1 h2, zero_mul, Finset.sum_const_zero])]
  rw [sum_two P.size (fun j => (A' p - A p) * (A' j - A j) * P.q p j) p r h.hp h.hr h.ne
    (fun k h1 h2 => by simp only [hz k h1 h2, zero_mul, mul_zero])]
  rw [sum_two P.size (fun j => (A' r - A r) * (A' j - A j) * P.q r j) p r h.hp h.hr h.ne
    (fun k h1 h2 => by simp only [hz k h1 h2, zero_mul, mul_zero])]
  rw [hdp, hdr, gap_eq hv h.hp h.hr, P.q_comm r p]
  have h1 := y_sq hv h.hp
  have h2 := y_sq hv h.hr
  have e1 : P.y p * t * (P.y p * t) * P.q p p = P.q p p * t ^ 2 := by
    calc _ = (P.y p * P.y p) * (P.q p p * t ^ 2) := by ring
      _ = _ := by rw [h1, one_mul]
  have e2 : -(P.y r * t) * -(P.y r * t) * P.q r r = P.q r r * t ^ 2 := by
    calc _ = (P.y r * P.y r) * (P.q r r * t ^ 2) := by ring
      _ = _ := by rw [h2, one_mul]
  rw [e1, e2]; ring

theorem Step.decrease (hv : P.Valid) {p r : Nat} {t : ℝ} (h : Step P A A' p r t) :
    P.objective A' + t / 2000 ≤ P.objective A := by
  rw [h.objective_eq hv]
  have hg := h.gapPos
  have h1 : P.gap p r * t ≤ P.y r * P.gradient A r - P.y p * P.gradient A p := by
    have := h.short
    rw [le_div_iff₀ hg] at this
    linarith
  have h2 := h.gain
  have h3 := h.nonneg
  nlinarith

theorem roomUp_pos {k : Nat} (h : P.CanRise A k) : 0 < roomUp P.param.C (P.y k) (A k) := by
  unfold roomUp
  rcases h with ⟨h1, h2⟩ | ⟨h1, h2⟩ <;> rw [h1]
  · rw [if_pos rfl]; linarith
  · rw [if_neg (by norm_num)]; exact h2

theorem roomDown_pos {k : Nat} (h : P.CanFall A k) : 0 < roomDown P.param.C (P.y k) (A k) := by
  unfold roomDown
  rcases h with ⟨h1, h2⟩ | ⟨h1, h2⟩ <;> rw [h1]
  · rw [if_pos rfl]; exact h2
  · rw [if_neg (by norm_num)]; linarith

theorem Step.pos {p r : Nat} {t : ℝ} (h : Step P A A' p r t) : 0 < t := by
  rcases h.ends with e | e | e <;> rw [e]
  · have := h.gapPos
    have := h.gain
    positivity
  · exact roomUp_pos h.rise
  · exact roomDown_pos h.fall

/-- the objective is bounded below on the feasible points -/
theorem objective_bounded (hv : P.Valid) : ∃ B, ∀ A, P.Feasible A → -B ≤ P.objective A := by
  refine ⟨∑ i ∈ Finset.range P.size, |P.b i| * P.param.C +
    (∑ i ∈ Finset.range P.size, ∑ j ∈ Finset.range P.size, P.param.C * P.param.C * |P.q i j|) / 2, ?_⟩
  intro A hf
  have hC := hv.C_pos
  have h1 : -(∑ i ∈ Finset.range P.size, |P.b i| * P.param.C) ≤ ∑ i ∈ Finset.range P.size, P.b i * A i := by
    rw [← Finset.sum_neg_distrib]
    apply Finset.sum_le_sum
    intro i hi
    have hi := Finset.mem_range.mp hi
    have : |P.b i * A i| ≤ |P.b i| * P.param.C := by
      rw [abs_mul, abs_of_nonneg (hf.lower i hi)]
      exact mul_le_mul_of_nonneg_left (hf.upper i hi) (abs_nonneg _)
    linarith [neg_abs_le (P.b i * A i)]
  have h2 : -(∑ i ∈ Finset.range P.size, ∑ j ∈ Finset.range P.size, P.param.C * P.param.C * |P.q i j|) ≤
      ∑ i ∈ Finset.range P.size, ∑ j ∈ Finset.range P.size, A i * A j * P.q i j := by
    rw [← Finset.sum_neg_distrib]
    apply Finset.sum_le_sum
    intro i hi
    rw [← Finset.sum_neg_distrib]
    apply Finset.sum_le_sum
    intro j hj
    have hi := Finset.mem_range.mp hi
    have hj := Finset.mem_range.mp hj
    have : |A i * A j * P.q i j| ≤ P.param.C * P.param.C * |P.q i j| := by
      rw [abs_mul, abs_mul, abs_of_nonneg (hf.lower i hi), abs_of_nonneg (hf.lower j hj)]
      apply mul_le_mul_of_nonneg_right _ (abs_nonneg _)
      exact mul_le_mul (hf.upper i hi) (hf.upper j hj) (hf.lower j hj) (le_of_lt hC)
    linarith [neg_abs_le (A i * A j * P.q i j)]
  unfold SvmProblem.objective
  linarith

/-! ## no infinite sequence of rounds -/

open Filter Topology

theorem no_infinite_run (hv : P.Valid) (A : Nat → Nat → ℝ) (p r : Nat → Nat) (t : Nat → ℝ)
    (hf : ∀ n, P.Feasible (A n)) (h : ∀ n, Step P (A n) (A (n + 1)) (p n) (r n) (t n)) : False := by
  have hC := hv.C_pos
  -- the lengths of the steps are summable
  obtain ⟨B, hB⟩ := objective_bounded hv
  have tel : ∀ n, P.objective (A n) + (∑ k ∈ Finset.range n, t k) / 2000 ≤ P.objective (A 0) := by
    intro n
    induction n with
    | zero => simp
    | succ n ih =>
      rw [Finset.sum_range_succ]
      have := (h n).decrease hv
      linarith
  have hsum : Summable t := by
    apply summable_of_sum_range_le (c := 2000 * (P.objective (A 0) + B)) (fun n => (h n).nonneg)
    intro n
    have h1 := tel n
    have h2 := hB _ (hf n)
    linarith
  have ht0 : Tendsto t atTop (𝓝 0) := hsum.tendsto_atTop_zero
  -- the multipliers converge
  have hdist : ∀ k n, dist (A n k) (A (n + 1) k) ≤ t n := by
    intro k n
    have hs := h n
    have ab : ∀ i, i < P.size → |P.y i| = 1 := by
      intro i hi
      rcases hv.sign i hi with h | h <;> rw [h] <;> simp
    rw [Real.dist_eq]
    by_cases k1 : k = p n
    · rw [k1, hs.moveP]
      have : A n (p n) - (A n (p n) + P.y (p n) * t n) = -(P.y (p n) * t n) := by ring
      rw [this, abs_neg, abs_mul, ab _ hs.hp, one_mul, abs_of_nonneg hs.nonneg]
    · by_cases k2 : k = r n
      · rw [k2, hs.moveR]
        have : A n (r n) - (A n (r n) - P.y (r n) * t n) = P.y (r n) * t n := by ring
        rw [this, abs_mul, ab _ hs.hr, one_mul, abs_of_nonneg hs.nonneg]
      · rw [hs.others k k1 k2, sub_self, abs_zero]; exact hs.nonneg
  have hlim : ∀ k, ∃ a, Tendsto (fun n => A n k) atTop (𝓝 a) := fun k =>
    cauchySeq_tendsto_of_complete (cauchySeq_of_dist_le_of_summable t (hdist k) hsum)
  choose L hL using hlim
  have hw : ∀ k, Tendsto (fun n => P.y k * P.gradient (A n) k) atTop (𝓝 (P.y k * P.gradient L k)) := by
    intro k
    apply Tendsto.const_mul
    unfold SvmProblem.gradient
    apply Tendsto.const_add
    apply tendsto_finsetSum
    intro j _
    exact (hL j).mul_const _
  obtain ⟨w, hwdef⟩ : ∃ w : Nat → ℝ, w = fun k => P.y k * P.gradient L k := ⟨_, rfl⟩
  -- from some round on the values are close to their limits and the steps are short
  have ev1 : ∀ᶠ n in atTop, ∀ k ∈ Finset.range P.size, |P.y k * P.gradient (A n) k - w k| < 1/4000 := by
    rw [eventually_all_finset]
    intro k _
    have := (Metric.tendsto_nhds.mp (hw k)) (1/4000) (by norm_num)
    filter_upwards [this] with n hn
    rw [Real.dist_eq] at hn
    rw [hwdef]; exact hn
  have ev2 : ∀ᶠ n in atTop, ∀ i ∈ Finset.range P.size, ∀ j ∈ Finset.range P.size, 0 < P.gap i j → t n < (1/1000) / P.gap i j := by
    rw [eventually_all_finset]
    intro i hi
    rw [eventually_all_finset]
    intro j hj
    by_cases hg : ¬ 0 < P.gap i j
    · exact Eventually.of_forall (fun n hne => absurd hne hg)
    · rw [not_not] at hg
      filter_upwards [ht0.eventually (gt_mem_nhds (show (0 : ℝ) < (1/1000) / P.gap i j by positivity))] with n hn
      intro _; exact hn
  have ev3 : ∀ᶠ n in atTop, t n < P.param.C := ht0.eventually (gt_mem_nhds hC)
  obtain ⟨n0, hn0⟩ := eventually_atTop.mp (ev1.and (ev2.and ev3))
  -- the potential
  obtain ⟨up, hup⟩ : ∃ up : Nat → Nat, up = fun k => ((Finset.range P.size).filter (fun m => w k < w m)).card := ⟨_, rfl⟩
  obtain ⟨dn, hdn⟩ : ∃ dn : Nat → Nat, dn = fun k => ((Finset.range P.size).filter (fun m => w m < w k)).card := ⟨_, rfl⟩
  obtain ⟨φ, hφ⟩ : ∃ φ : Nat → Nat → Nat, φ = fun n k =>
    if roomUp P.param.C (P.y k) (A n k) = 0 then up k else if roomDown P.param.C (P.y k) (A n k) = 0 then dn k else 0 := ⟨_, rfl⟩
  have hstep : ∀ n, n0 ≤ n → ∑ k ∈ Finset.range P.size, φ n k + 1 ≤ ∑ k ∈ Finset.range P.size, φ (n + 1) k := by
    intro n hn
    obtain ⟨c1, c2, c3⟩ := hn0 n hn
    have hs := h n
    have hg := hs.gapPos
    have htp := hs.pos
    have hpw := c1 (p n) (Finset.mem_range.mpr hs.hp)
    have hrw := c1 (r n) (Finset.mem_range.mpr hs.hr)
    have hlt : w (p n) < w (r n) := by
      have := hs.gain
      rw [abs_lt] at hpw hrw
      linarith [hpw.1, hpw.2, hrw.1, hrw.2]
    have hupl : up (r n) + 1 ≤ up (p n) := by
      rw [hup]
      apply Nat.succ_le_of_lt
      apply Finset.card_lt_card
      refine ⟨?_, ?_⟩
      · intro m hm
        rw [Finset.mem_filter] at hm ⊢
        exact ⟨hm.1, lt_trans hlt hm.2⟩
      · intro hsub
        have : r n ∈ (Finset.range P.size).filter (fun m => w (r n) < w m) :=
          hsub (Finset.mem_filter.mpr ⟨Finset.mem_range.mpr hs.hr, hlt⟩)
        exact lt_irrefl _ (Finset.mem_filter.mp this).2
    have hdnl : dn (p n) + 1 ≤ dn (r n) := by
      rw [hdn]
      apply Nat.succ_le_of_lt
      apply Finset.card_lt_card
      refine ⟨?_, ?_⟩
      · intro m hm
        rw [Finset.mem_filter] at hm ⊢
        exact ⟨hm.1, lt_trans hm.2 hlt⟩
      · intro hsub
        have : p n ∈ (Finset.range P.size).filter (fun m => w m < w (p n)) :=
          hsub (Finset.mem_filter.mpr ⟨Finset.mem_range.mpr hs.hp, hlt⟩)
        exact lt_irrefl _ (Finset.mem_filter.mp this).2
    -- rooms before and after
    have room : ∀ k, k < P.size → ∀ a, roomUp P.param.C (P.y k) a + roomDown P.param.C (P.y k) a = P.param.C := by
      intro k hk a
      unfold roomUp roomDown
      split_ifs <;> ring
    have up1 : roomUp P.param.C (P.y (p n)) (A (n + 1) (p n)) = roomUp P.param.C (P.y (p n)) (A n (p n)) - t n := by
      rw [hs.moveP]; unfold roomUp
      rcases hv.sign _ hs.hp with e | e <;> rw [e]
      · simp; ring
      · rw [if_neg (by norm_num), if_neg (by norm_num)]; ring
    have up2 : roomUp P.param.C (P.y (r n)) (A (n + 1) (r n)) = roomUp P.param.C (P.y (r n)) (A n (r n)) + t n := by
      rw [hs.moveR]; unfold roomUp
      rcases hv.sign _ hs.hr with e | e <;> rw [e]
      · simp; ring
      · rw [if_neg (by norm_num), if_neg (by norm_num)]; ring
    have r1 := room _ hs.hp (A n (p n))
    have r2 := room _ hs.hp (A (n + 1) (p n))
    have r3 := room _ hs.hr (A n (r n))
    have r4 := room _ hs.hr (A (n + 1) (r n))
    have p1 := roomUp_pos hs.rise
    have p2 := roomDown_pos hs.fall
    have nonneg : ∀ n k, k < P.size → 0 ≤ roomUp P.param.C (P.y k) (A n k) ∧ 0 ≤ roomDown P.param.C (P.y k) (A n k) := by
      intro n k hk
      have l1 := (hf n).lower k hk
      have l2 := (hf n).upper k hk
      unfold roomUp roomDown
      split_ifs <;> constructor <;> linarith
    have q1 := nonneg n _ hs.hp
    have q2 := nonneg (n + 1) _ hs.hp
    have q3 := nonneg n _ hs.hr
    have q4 := nonneg (n + 1) _ hs.hr
    have clipped : roomUp P.param.C (P.y (p n)) (A (n + 1) (p n)) = 0 ∨ roomDown P.param.C (P.y (r n)) (A (n + 1) (r n)) = 0 := by
      rcases hs.ends with e | e | e
      · exfalso
        have := c2 _ (Finset.mem_range.mpr hs.hp) _ (Finset.mem_range.mpr hs.hr) hg
        rw [e] at this
        have := (div_lt_div_iff_of_pos_right hg).mp this
        linarith [hs.gain]
      · left; rw [up1, ← e]; ring
      · right; linarith
    have hsumN : ∑ k ∈ Finset.range P.size, φ (n + 1) k + φ n (p n) + φ n (r n) =
        ∑ k ∈ Finset.range P.size, φ n k + φ (n + 1) (p n) + φ (n + 1) (r n) := by
      have := sum_two_changes P.size (fun k => (φ n k : ℝ)) (fun k => (φ (n + 1) k : ℝ)) (p n) (r n) hs.hp hs.hr hs.ne
        (fun k k1 k2 => by rw [hφ]; simp only [hs.others k k1 k2])
      have e : ((∑ k ∈ Finset.range P.size, φ (n + 1) k + φ n (p n) + φ n (r n) : Nat) : ℝ) =
          ((∑ k ∈ Finset.range P.size, φ n k + φ (n + 1) (p n) + φ (n + 1) (r n) : Nat) : ℝ) := by
        push_cast
        linarith
      exact_mod_cast e
    have fp : φ n (p n) = if roomDown P.param.C (P.y (p n)) (A n (p n)) = 0 then dn (p n) else 0 := by
      rw [hφ]; simp only; rw [if_neg (ne_of_gt p1)]
    have fp' : φ (n + 1) (p n) = if roomUp P.param.C (P.y (p n)) (A (n + 1) (p n)) = 0 then up (p n) else 0 := by
      rw [hφ]; simp only
      have : roomDown P.param.C (P.y (p n)) (A (n + 1) (p n)) ≠ 0 := by
        have : 0 < roomDown P.param.C (P.y (p n)) (A (n + 1) (p n)) := by linarith [q1.2]
        exact ne_of_gt this
      rw [if_neg this]
    have fr : φ n (r n) = if roomUp P.param.C (P.y (r n)) (A n (r n)) = 0 then up (r n) else 0 := by
      rw [hφ]; simp only; rw [if_neg (ne_of_gt p2)]
    have fr' : φ (n + 1) (r n) = if roomDown P.param.C (P.y (r n)) (A (n + 1) (r n)) = 0 then dn (r n) else 0 := by
      rw [hφ]; simp only
      have : 0 < roomUp P.param.C (P.y (r n)) (A (n + 1) (r n)) := by linarith [q3.1]
      rw [if_neg (ne_of_gt this)]
    rcases clipped with e | e
    · have z : φ n (p n) = 0 := by
        rw [fp, if_neg]
        have : 0 < roomDown P.param.C (P.y (p n)) (A n (p n)) := by linarith
        exact ne_of_gt this
      rw [if_pos e] at fp'
      have : φ n (r n) ≤ up (r n) := by rw [fr]; split_ifs <;> omega
      omega
    · have z : φ n (r n) = 0 := by
        rw [fr, if_neg]
        have : 0 < roomUp P.param.C (P.y (r n)) (A n (r n)) := by linarith
        exact ne_of_gt this
      rw [if_pos e] at fr'
      have : φ n (p n) ≤ dn (p n) := by rw [fp]; split_ifs <;> omega
      omega
  have hgrow : ∀ m, m ≤ ∑ k ∈ Finset.range P.size, φ (n0 + m) k := by
    intro m
    induction m with
    | zero => omega
    | succ m ih =>
      have := hstep (n0 + m) (by omega)
      have e : n0 + (m + 1) = n0 + m + 1 := by ring
      rw [e]; omega
  have hbound : ∀ n, ∑ k ∈ Finset.range P.size, φ n k ≤ ∑ k ∈ Finset.range P.size, (up k + dn k) := by
    intro n
    apply Finset.sum_le_sum
    intro k _
    rw [hφ]; simp only
    split_ifs <;> omega
  have h1 := hgrow (∑ k ∈ Finset.range P.size, (up k + dn k) + 1)
  have h2 := hbound (n0 + (∑ k ∈ Finset.range P.size, (up k + dn k) + 1))
  omega

/-! ## rounds of the solver -/

theorem SmoInv.iterate_step {s : Smo ℝ} (hv : P.Valid) (hr : P.InRange) (hd : P.Consistent) (h : SmoInv P A s) (s' : Smo ℝ)
    (e : s.iterate = .ok (s', false)) : ∃ A' p r t, SmoInv P A' s' ∧ Step P A A' p r t := by
  unfold Smo.iterate at e
  obtain ⟨s1, o, e1, h1, c1, c2⟩ := h.choose hv hr
  rw [e1, res_bind_ok] at e
  cases o with
  | none => cases e
  | some q =>
    obtain ⟨i, j⟩ := q
    have g := c2 i j rfl
    obtain ⟨s2, e2, h2, _⟩ := h1.move hv g.first g.second g.ne
    simp only at e
    rw [e2, res_bind_ok] at e
    have : s2 = s' := by
      have := Except.ok.inj e
      simpa using this
    subst this
    have ha := h1.active
    have hi : i < P.size := lt_of_lt_of_le g.first ha
    have hj : j < P.size := lt_of_lt_of_le g.second ha
    obtain ⟨t, ht⟩ := step_of_choice hv hd h1.feasible (h1.ids.getD_lt hi) (h1.ids.getD_lt hj)
      (fun e => g.ne (h1.ids.getD_inj hi hj e)) g.rise g.fall g.gain
    exact ⟨_, _, _, t, h2, ht⟩

theorem run_succ_false {s s' : Smo ℝ} (n : Nat) (h : Smo.run (n + 1) s = .ok (s', false)) :
    ∃ s1, s.iterate = .ok (s1, false) ∧ Smo.run n s1 = .ok (s', false) := by
  simp only [Smo.run] at h
  cases e : s.iterate with
  | error er => rw [e] at h; cases h
  | ok q =>
    obtain ⟨s1, stop⟩ := q
    rw [e, res_bind_ok] at h
    cases stop with
    | true => cases h
    | false => exact ⟨s1, rfl, h⟩

/-- the last of `n + 1` rounds -/
theorem run_last {s s' : Smo ℝ} (n : Nat) (h : Smo.run (n + 1) s = .ok (s', false)) :
    ∃ s1, Smo.run n s = .ok (s1, false) ∧ s1.iterate = .ok (s', false) := by
  induction n generalizing s with
  | zero =>
    obtain ⟨s1, e1, e2⟩ := run_succ_false 0 h
    have : s1 = s' := by
      have := Except.ok.inj e2
      simpa using this
    subst this
    exact ⟨s, rfl, e1⟩
  | succ n ih =>
    obtain ⟨s1, e1, e2⟩ := run_succ_false (n + 1) h
    obtain ⟨s2, e3, e4⟩ := ih e2
    refine ⟨s2, ?_, e4⟩
    simp only [Smo.run]
    rw [e1, res_bind_ok]
    exact e3

theorem terminates_from {s : Smo ℝ} (hv : P.Valid) (hr : P.InRange) (hd : P.Consistent) (h : SmoInv P A s) :
    ∃ n s', Smo.run n s = .ok (s', true) := by
  by_contra hn
  push Not at hn
  obtain ⟨X, hX⟩ : ∃ X : Type, X = {q : (Nat → ℝ) × Smo ℝ // SmoInv P q.1 q.2 ∧ ∀ n s', Smo.run n q.2 ≠ .ok (s', true)} := ⟨_, rfl⟩
  have next : ∀ q : {q : (Nat → ℝ) × Smo ℝ // SmoInv P q.1 q.2 ∧ ∀ n s', Smo.run n q.2 ≠ .ok (s', true)},
      ∃ (q' : {q : (Nat → ℝ) × Smo ℝ // SmoInv P q.1 q.2 ∧ ∀ n s', Smo.run n q.2 ≠ .ok (s', true)}) (p r : Nat) (t : ℝ),
        Step P q.1.1 q'.1.1 p r t := by
    rintro ⟨⟨B, s⟩, hB, hs⟩
    obtain ⟨s1, stop, A1, e1, h1, c1⟩ := hB.iterate hv hr
    cases stop with
    | true =>
      exfalso
      apply hs 1 s1
      simp only [Smo.run]
      rw [e1, res_bind_ok]; rfl
    | false =>
      obtain ⟨A2, p, r, t, h2, st⟩ := hB.iterate_step hv hr hd s1 e1
      refine ⟨⟨⟨A2, s1⟩, h2, ?_⟩, p, r, t, st⟩
      intro n s' e
      apply hs (n + 1) s'
      simp only [Smo.run]
      rw [e1, res_bind_ok]
      exact e
  choose f p r t hf using next
  obtain ⟨g, hg0, hgs⟩ : ∃ g : Nat → {q : (Nat → ℝ) × Smo ℝ // SmoInv P q.1 q.2 ∧ ∀ n s', Smo.run n q.2 ≠ .ok (s', true)},
      g 0 = ⟨⟨A, s⟩, h, hn⟩ ∧ ∀ n, g (n + 1) = f (g n) :=
    ⟨fun n => Nat.rec ⟨⟨A, s⟩, h, hn⟩ (fun _ q => f q) n, rfl, fun _ => rfl⟩
  refine no_infinite_run hv (fun n => (g n).1.1) (fun n => p (g n)) (fun n => r (g n)) (fun n => t (g n)) ?_ ?_
  · intro n; exact (g n).2.1.feasible
  · intro n
    have := hf (g n)
    rw [← hgs] at this
    exact this

end progress

/-- **C127** (progress): every round of the solver that does not end the loop moves the multipliers (numbered as
the instances, through the active set) to a feasible point with a strictly smaller objective. -/
theorem C127_progress (P : SvmProblem) (hv : P.Valid) (hr : P.InRange) (hd : P.Consistent) (n : Nat) (s' : Smo ℝ)
    (hs : solverState P (n + 1) = .ok (s', false)) :
    ∃ (s : Smo ℝ) (A A' : Nat → ℝ), solverState P n = .ok (s, false) ∧
      s.alpha = s.activeSet.map A ∧ s.activeSet.Perm (List.range P.size) ∧ P.Feasible A ∧
      s'.alpha = s'.activeSet.map A' ∧ s'.activeSet.Perm (List.range P.size) ∧ P.Feasible A' ∧
      P.objective A' < P.objective A := by
  obtain ⟨s0, e0, h0, _⟩ := start_ok hv
  unfold solverState at hs ⊢
  rw [e0, res_bind_ok] at hs ⊢
  obtain ⟨s, e1, e2⟩ := run_last n hs
  obtain ⟨s1, stop, A, e3, h1, _⟩ := SmoInv.run hv hr n _ s0 h0
  rw [e1] at e3
  obtain ⟨rfl, rfl⟩ : s = s1 ∧ stop = false := by
    have := Except.ok.inj e3
    simp at this
    exact ⟨this.1, this.2⟩
  obtain ⟨A', p, r, t, h2, st⟩ := h1.iterate_step hv hr hd s' e2
  refine ⟨s, A, A', e1, h1.alpha, h1.ids.perm, h1.feasible, h2.alpha, h2.ids.perm, h2.feasible, ?_⟩
  have := st.decrease hv
  have := st.pos
  linarith

/-- **C127**: on a training set in which no vector occurs with two labels, the solver stops. -/
theorem C127_terminates (P : SvmProblem) (hv : P.Valid) (hr : P.InRange) (hd : P.Consistent) :
    ∃ n s, solverState P n = .ok (s, true) := by
  obtain ⟨s0, e0, h0, _⟩ := start_ok hv
  obtain ⟨n, s', e⟩ := terminates_from hv hr hd h0
  refine ⟨n, s', ?_⟩
  unfold solverState
  rw [e0, res_bind_ok, e]

end Verif
