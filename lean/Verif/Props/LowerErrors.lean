import Verif.Props.StatTest

/-! # Property C219: lower errors speak for a classifier -/

namespace Verif
open Dbl StatTest

/-! ## tails of the binomial distribution -/

/-- the sum of the first binomial coefficients -/
noncomputable def chooseSum (n k : Nat) : ℝ := ∑ i ∈ Finset.range (k + 1), (n.choose i : ℝ)

theorem chooseSum_succ (n k : Nat) : chooseSum (n + 1) (k + 1) = chooseSum n (k + 1) + chooseSum n k := by
  unfold chooseSum
  rw [Finset.sum_range_succ', Finset.sum_range_succ' (fun i => (n.choose i : ℝ)) (k + 1)]
  have : ∀ i, ((n + 1).choose (i + 1) : ℝ) = (n.choose i : ℝ) + (n.choose (i + 1) : ℝ) := by
    intro i; rw [Nat.choose_succ_succ]; push_cast; ring
  simp only [this, Finset.sum_add_distrib, Nat.choose_zero_right]
  ring

theorem chooseSum_le (n k : Nat) : chooseSum n k ≤ chooseSum n (k + 1) := by
  unfold chooseSum
  rw [Finset.sum_range_succ (fun i => (n.choose i : ℝ)) (k + 1)]
  have : (0 : ℝ) ≤ (n.choose (k + 1) : ℝ) := by positivity
  linarith

/-- one more win -/
theorem tail_win (n k : Nat) : binomialTail n k ≤ binomialTail (n + 1) (k + 1) := by
  show chooseSum n k / 2 ^ n ≤ chooseSum (n + 1) (k + 1) / 2 ^ (n + 1)
  rw [chooseSum_succ, div_le_div_iff₀ (by positivity) (by positivity), pow_succ]
  have := chooseSum_le n k
  have h2 : (0 : ℝ) < 2 ^ n := by positivity
  nlinarith

/-- one more loss -/
theorem tail_loss (n k : Nat) : binomialTail (n + 1) k ≤ binomialTail n k := by
  show chooseSum (n + 1) k / 2 ^ (n + 1) ≤ chooseSum n k / 2 ^ n
  rw [div_le_div_iff₀ (by positivity) (by positivity), pow_succ]
  have h2 : (0 : ℝ) < 2 ^ n := by positivity
  cases k with
  | zero => simp [chooseSum]
  | succ k =>
    rw [chooseSum_succ]
    have := chooseSum_le n k
    nlinarith

theorem tail_monotone {k l k' l' : Nat} (hk : k ≤ k') (hl : l' ≤ l) : binomialTail (k + l) k ≤ binomialTail (k' + l') k' := by
  obtain ⟨i, rfl⟩ := Nat.exists_eq_add_of_le hk
  obtain ⟨j, rfl⟩ := Nat.exists_eq_add_of_le hl
  have h1 : ∀ j, binomialTail (k + (l' + j)) k ≤ binomialTail (k + l') k := by
    intro j
    induction j with
    | zero => exact le_refl _
    | succ j ih => exact (tail_loss (k + (l' + j)) k).trans ih
  have h2 : ∀ i, binomialTail (k + l') k ≤ binomialTail (k + i + l') (k + i) := by
    intro i
    induction i with
    | zero => exact le_refl _
    | succ i ih =>
      refine ih.trans ?_
      have := tail_win (k + i + l') (k + i)
      rw [show k + (i + 1) + l' = k + i + l' + 1 by omega]
      exact this
  exact (h1 j).trans (h2 i)

/-! ## the sign test -/

theorem sign_ok {a b : ExpPerf ℝ} {r : TestResult ℝ} (h : StatTest.sign a b = .ok r) :
    a.numberOfExperiments = b.numberOfExperiments ∧ r = ⟨binomialTail (wins a b + wins b a) (wins a b), false⟩ := by
  have he : a.numberOfExperiments = b.numberOfExperiments := by
    by_contra hne
    unfold StatTest.sign at h
    rw [if_pos hne] at h; cases h
  refine ⟨he, ?_⟩
  by_cases h0 : wins a b + wins b a = 0
  · rw [C91_no_difference he h0] at h; cases h
  · by_cases hs : wins a b + wins b a ≤ 12 ∨ wins a b = 0
    · rw [C91_partial he (by omega) hs] at h
      cases h; rfl
    · push Not at hs
      rw [C91_overflow he (by omega) (by omega)] at h; cases h

/-- `e'` has in every experiment an error rate at most that of `e` -/
def LowerErrors (e' e : ExpPerf ℝ) : Prop := List.Forall₂ (fun x' x => x' ≤ x) e'.errs e.errs

theorem wins_monotone : ∀ {as as' bs bs' : List ℝ}, List.Forall₂ (fun x' x => x' ≤ x) as' as →
    List.Forall₂ (fun y y' => y ≤ y') bs bs' →
    (as.zip bs).countP (fun p => decide (p.1 < p.2)) ≤ (as'.zip bs').countP (fun p => decide (p.1 < p.2)) := by
  intro as as' bs bs' ha
  induction ha generalizing bs bs' with
  | nil => intro _; simp
  | cons h0 _ ih =>
    intro hb
    cases hb with
    | nil => simp
    | cons k0 hb =>
      rename_i x' x _ _ _ y y' _ _
      simp only [List.zip_cons_cons, List.countP_cons, decide_eq_true_eq]
      have := ih hb
      by_cases c : x < y
      · rw [if_pos c, if_pos (by linarith)]; omega
      · rw [if_neg c]; omega

/-- **C219.** The sign test: if the errors of the first classifier are lower, in some experiments or in all, and those of the
second are higher, then the value found for the hypothesis "the first is not worse" is higher. -/
theorem C219_sign {a a' b b' : ExpPerf ℝ} (ha : LowerErrors a' a) (hb : LowerErrors b b') {r r' : TestResult ℝ}
    (h : StatTest.sign a b = .ok r) (h' : StatTest.sign a' b' = .ok r') : r.pValue ≤ r'.pValue := by
  obtain ⟨_, rfl⟩ := sign_ok h
  obtain ⟨_, rfl⟩ := sign_ok h'
  exact tail_monotone (wins_monotone ha hb) (wins_monotone hb ha)

/-! ## the paired t test -/

theorem mean_shift {vs : List ℝ} (hne : vs ≠ []) (c : ℝ) : mean (vs.map (fun v => v - c)) = mean vs - c := by
  unfold mean
  rw [sum_map_sub_const, List.length_map]
  have : (vs.length : ℝ) ≠ 0 := by simpa using hne
  field_simp

theorem sampleSD_shift {vs : List ℝ} (hne : vs ≠ []) (c : ℝ) : sampleSD (vs.map (fun v => v - c)) = sampleSD vs := by
  unfold sampleSD sampleVar
  rw [mean_shift hne, List.map_map, List.length_map]
  congr 3
  apply List.map_congr_left
  intro v _
  simp only [Function.comp_apply]; ring

/-- **C219.** The paired t test: if the errors of the first classifier are lower by the same amount in all experiments, so is
the statistic. -/
theorem C219_paired_t_uniform {a a' b : ExpPerf ℝ} {c : ℝ} (hc : 0 ≤ c) (ha : a'.errs = a.errs.map (fun v => v - c)) {s s' : ℝ}
    (h : pairedt a b = .ok s) (h' : pairedt a' b = .ok s') : s' ≤ s := by
  have hlen : a'.numberOfExperiments = a.numberOfExperiments := by
    have := congrArg List.length ha
    simpa [ExpPerf.errs, ExpPerf.numberOfExperiments] using this
  have he : a.numberOfExperiments = b.numberOfExperiments := by
    by_contra hne
    unfold pairedt at h
    rw [if_pos hne] at h; cases h
  have hd : errDiffs a' b = (errDiffs a b).map (fun v => v - c) := by
    unfold errDiffs
    rw [ha, List.zipWith_map_left, List.map_zipWith]
    congr 1
    funext x y; ring
  rw [C89_paired_t he] at h
  rw [C89_paired_t (hlen.trans he), hd] at h'
  have hne : errDiffs a b ≠ [] := by
    intro h0
    rw [h0] at h
    simp [sampleSD, sampleVar] at h
  rw [sampleSD_shift hne, mean_shift hne, List.length_map] at h'
  by_cases h0 : sampleSD (errDiffs a b) = 0
  · rw [if_pos h0] at h; cases h
  · rw [if_neg h0] at h h'
    cases h; cases h'
    have h1 : 0 ≤ sampleSD (errDiffs a b) := Real.sqrt_nonneg _
    apply div_le_div_of_nonneg_right _ h1
    exact mul_le_mul_of_nonneg_left (by linarith) (Real.sqrt_nonneg _)

/-- the paired t statistic of two experiments against errors of one -/
lemma pairedt_two : ∀ x y : ℝ, x ≠ y → pairedt ⟨[.plain x, .plain y], false, false⟩ ⟨[.plain 1, .plain 1], false, false⟩ =
    .ok ((x + y - 2) / |x - y|) := by
  intro x y hxy
  have hd : errDiffs ⟨[.plain x, .plain y], false, false⟩ ⟨[.plain 1, .plain 1], false, false⟩ = [x - 1, y - 1] := rfl
  have hsd : sampleSD [x - 1, y - 1] = |x - y| / Real.sqrt 2 := by
    unfold sampleSD sampleVar mean
    have : (([x - 1, y - 1] : List ℝ).map (fun v => (v - ([x - 1, y - 1] : List ℝ).sum / (([x - 1, y - 1] : List ℝ).length : ℝ)) ^ 2)).sum /
        ((([x - 1, y - 1] : List ℝ).length : ℝ) - 1) = (x - y) ^ 2 / 2 := by
      simp; ring
    rw [this, Real.sqrt_div (sq_nonneg _), Real.sqrt_sq_eq_abs]
  have hpos : 0 < |x - y| := abs_pos.2 (sub_ne_zero.2 hxy)
  have h2 : (0 : ℝ) < Real.sqrt 2 := by positivity
  rw [C89_paired_t (by rfl), hd, hsd, if_neg (by positivity)]
  congr 1
  unfold mean
  simp only [List.length_cons, List.length_nil, List.sum_cons, List.sum_nil]
  have hs : Real.sqrt 2 * Real.sqrt 2 = 2 := Real.mul_self_sqrt (by norm_num)
  push_cast
  norm_num
  field_simp
  rw [show Real.sqrt 2 ^ 2 = 2 from Real.sq_sqrt (by norm_num)]
  ring

/-- **C219 (refuted for the paired t test)** The errors of the first classifier are lower, but the statistic, negative if it is
better than the second, comes closer to zero: 9/10, 8/10 and then 9/10, 0 against 1, 1. -/
theorem C219_refuted : ∃ (a a' b : ExpPerf ℝ) (s s' : ℝ), LowerErrors a' a ∧ pairedt a b = .ok s ∧ pairedt a' b = .ok s' ∧
    s < s' ∧ s' < 0 := by
  refine ⟨⟨[.plain (9 / 10), .plain (8 / 10)], false, false⟩, ⟨[.plain (9 / 10), .plain 0], false, false⟩,
    ⟨[.plain 1, .plain 1], false, false⟩, _, _, ?_, pairedt_two _ _ (by norm_num), pairedt_two _ _ (by norm_num), ?_, ?_⟩
  · unfold LowerErrors ExpPerf.errs
    simp [Perf.getErrorRate]
    norm_num
  · norm_num [abs_of_pos]
  · norm_num [abs_of_pos]

/-! ## the 5x2 tests -/

/-- the errors of the first classifier in both folds of repetition `i` are lower by `c i` -/
def LowerByRepetition (a' a : ExpPerf ℝ) (c : Nat → ℝ) : Prop :=
  a'.numberOfExperiments = a.numberOfExperiments ∧
    ∀ i < 5, 0 ≤ c i ∧ a'.errs.getD (2 * i) 0 = a.errs.getD (2 * i) 0 - c i ∧ a'.errs.getD (2 * i + 1) 0 = a.errs.getD (2 * i + 1) 0 - c i

theorem errDiffs_getD {a b : ExpPerf ℝ} (ha : a.numberOfExperiments = 10) (hb : b.numberOfExperiments = 10) (i : Nat) (hi : i < 10) :
    (errDiffs a b).getD i 0 = a.errs.getD i 0 - b.errs.getD i 0 := by
  have la : a.errs.length = 10 := by simpa [ExpPerf.errs, ExpPerf.numberOfExperiments] using ha
  have lb : b.errs.length = 10 := by simpa [ExpPerf.errs, ExpPerf.numberOfExperiments] using hb
  unfold errDiffs
  rw [List.getD_eq_getElem?_getD, List.getD_eq_getElem?_getD, List.getD_eq_getElem?_getD, List.getElem?_zipWith,
    List.getElem?_eq_getElem (by omega : i < a.errs.length), List.getElem?_eq_getElem (by omega : i < b.errs.length)]
  rfl

theorem lower_repetition {a a' b : ExpPerf ℝ} {c : Nat → ℝ} (hl : LowerByRepetition a' a c) (ha : a.numberOfExperiments = 10)
    (hb : b.numberOfExperiments = 10) (i : Nat) (hi : i < 5) :
    repetition (errDiffs a' b) i = (repetition (errDiffs a b) i).map (fun v => v - c i) := by
  have ha' : a'.numberOfExperiments = 10 := hl.1.trans ha
  unfold repetition
  rw [errDiffs_getD ha' hb _ (by omega), errDiffs_getD ha' hb _ (by omega), errDiffs_getD ha hb _ (by omega), errDiffs_getD ha hb _ (by omega),
    (hl.2 i hi).2.1, (hl.2 i hi).2.2]
  simp only [List.map_cons, List.map_nil]
  congr 1
  · ring
  · congr 1; ring

theorem sampleVar_shift {vs : List ℝ} (hne : vs ≠ []) (c : ℝ) : sampleVar (vs.map (fun v => v - c)) = sampleVar vs := by
  unfold sampleVar
  rw [mean_shift hne, List.map_map, List.length_map]
  congr 2
  apply List.map_congr_left
  intro v _
  simp only [Function.comp_apply]; ring

theorem lower_sums {a a' b : ExpPerf ℝ} {c : Nat → ℝ} (hl : LowerByRepetition a' a c) (ha : a.numberOfExperiments = 10)
    (hb : b.numberOfExperiments = 10) : sumOfFiveVariances (errDiffs a' b) = sumOfFiveVariances (errDiffs a b) ∧
      sumOfFiveMeans (errDiffs a' b) ≤ sumOfFiveMeans (errDiffs a b) := by
  have hne : ∀ i, repetition (errDiffs a b) i ≠ [] := fun i => by simp [repetition]
  constructor
  · unfold sumOfFiveVariances
    refine congrArg List.sum (List.map_congr_left (fun i hi => ?_))
    rw [lower_repetition hl ha hb i (List.mem_range.1 hi), sampleVar_shift (hne i)]
  · unfold sumOfFiveMeans
    refine List.sum_le_sum (fun i hi => ?_)
    have hi' := List.mem_range.1 hi
    rw [lower_repetition hl ha hb i hi', mean_shift (hne i)]
    linarith [(hl.2 i hi').1]

theorem ten_of_5x2 {a b : ExpPerf ℝ} {x : Unit} (h : check5x2 a b = .ok x) : a.numberOfExperiments = 10 ∧ b.numberOfExperiments = 10 := by
  unfold check5x2 at h
  by_cases h1 : a.numberOfExperiments = b.numberOfExperiments
  · by_cases h2 : a.numberOfExperiments = 10
    · exact ⟨h2, h1 ▸ h2⟩
    · rw [if_neg (by simpa using h1), if_pos h2] at h; cases h
  · rw [if_pos h1] at h; cases h

/-- **C219.** The two 5x2 t tests: if in each of the five repetitions the errors of the first classifier are lower by the same amount in both folds (by
different amounts in different repetitions, or not at all in some), the statistics are lower, and are found in the same cases. -/
theorem C219_5x2_t {a a' b : ExpPerf ℝ} {c : Nat → ℝ} (hl : LowerByRepetition a' a c) :
    (∀ s, paired5x2t a b = .ok s → ∃ s', paired5x2t a' b = .ok s' ∧ s' ≤ s) ∧
    (∀ s, combined5x2t a b = .ok s → ∃ s', combined5x2t a' b = .ok s' ∧ s' ≤ s) := by
  have ten : ∀ s, (paired5x2t a b = .ok s ∨ combined5x2t a b = .ok s) → a.numberOfExperiments = 10 ∧ b.numberOfExperiments = 10 := by
    intro s h
    rcases h with h | h
    · unfold paired5x2t at h
      rw [bind_ok_iff] at h
      obtain ⟨x, hx, _⟩ := h
      exact ten_of_5x2 hx
    · unfold combined5x2t at h
      rw [bind_ok_iff] at h
      obtain ⟨x, hx, _⟩ := h
      exact ten_of_5x2 hx
  constructor
  · intro s h
    obtain ⟨ha, hb⟩ := ten s (.inl h)
    obtain ⟨e1, _⟩ := lower_sums hl ha hb
    have h0 := hl.2 0 (by omega)
    rw [C89_paired_5x2_t ha hb] at h
    rw [C89_paired_5x2_t (hl.1.trans ha) hb, e1]
    by_cases hz : sumOfFiveVariances (errDiffs a b) = 0
    · rw [if_pos hz] at h; cases h
    · rw [if_neg hz] at h
      rw [if_neg hz]
      cases h
      refine ⟨_, rfl, div_le_div_of_nonneg_right ?_ (Real.sqrt_nonneg _)⟩
      rw [errDiffs_getD (hl.1.trans ha) hb 0 (by omega), errDiffs_getD ha hb 0 (by omega)]
      have := h0.2.1
      simp only [Nat.mul_zero] at this
      rw [this]
      linarith [h0.1]
  · intro s h
    obtain ⟨ha, hb⟩ := ten s (.inr h)
    obtain ⟨e1, e2⟩ := lower_sums hl ha hb
    rw [C89_combined_t ha hb] at h
    rw [C89_combined_t (hl.1.trans ha) hb, e1]
    by_cases hz : sumOfFiveVariances (errDiffs a b) = 0
    · rw [if_pos hz] at h; cases h
    · rw [if_neg hz] at h
      rw [if_neg hz]
      cases h
      refine ⟨_, rfl, div_le_div_of_nonneg_right ?_ (Real.sqrt_nonneg _)⟩
      exact mul_le_mul_of_nonneg_left (by linarith) (Real.sqrt_nonneg _)

/-- ten experiments whose first two errors are lowered by 1/10 and whose fifth and sixth by 1/5 -/
example : ∃ a a' b : ExpPerf ℝ, LowerByRepetition a' a (fun i => if i = 0 then 1 / 10 else if i = 2 then 1 / 5 else 0) ∧ a' ≠ a ∧
    ∃ s, paired5x2t a b = .ok s := by
  let er : List ℝ → ExpPerf ℝ := fun l => ⟨l.map Perf.plain, false, false⟩
  refine ⟨er [1/2, 1/4, 1/2, 1/2, 1/2, 1/2, 1/2, 1/2, 1/2, 1/2], er [1/2 - 1/10, 1/4 - 1/10, 1/2, 1/2, 1/2 - 1/5, 1/2 - 1/5, 1/2, 1/2, 1/2, 1/2],
    er [0, 0, 0, 0, 0, 0, 0, 0, 0, 0], ⟨rfl, ?_⟩, ?_, ?_⟩
  · intro i hi
    have : i = 0 ∨ i = 1 ∨ i = 2 ∨ i = 3 ∨ i = 4 := by omega
    rcases this with rfl | rfl | rfl | rfl | rfl <;> simp [er, ExpPerf.errs, Perf.getErrorRate]
  · intro h
    simp [er] at h
  · rw [C89_paired_5x2_t rfl rfl, if_neg]
    · exact ⟨_, rfl⟩
    · have e : errDiffs (er [1/2, 1/4, 1/2, 1/2, 1/2, 1/2, 1/2, 1/2, 1/2, 1/2]) (er [0, 0, 0, 0, 0, 0, 0, 0, 0, 0]) =
          [1/2, 1/4, 1/2, 1/2, 1/2, 1/2, 1/2, 1/2, 1/2, 1/2] := by
        simp [errDiffs, er, ExpPerf.errs, Perf.getErrorRate]
      rw [e]
      unfold sumOfFiveVariances
      simp [List.range_succ, repetition, sampleVar, mean]
      norm_num

/-! ## cases -/

/-- three experiments: one win, one loss and a tie become two wins and a tie -/
example : ∃ r r', StatTest.sign ⟨[.plain ((1 : ℝ) / 4), .plain (3 / 4), .plain (1 / 2)], false, false⟩
      ⟨[.plain (1 / 2), .plain (1 / 2), .plain (1 / 2)], false, false⟩ = .ok r ∧
    StatTest.sign ⟨[.plain ((1 : ℝ) / 4), .plain (1 / 4), .plain (1 / 2)], false, false⟩
      ⟨[.plain (1 / 2), .plain (1 / 2), .plain (1 / 2)], false, false⟩ = .ok r' ∧ r.pValue ≤ r'.pValue := by
  have w1 : wins ⟨[.plain (1 / 4), .plain (3 / 4), .plain (1 / 2)], false, false⟩
      ⟨[.plain (1 / 2), .plain (1 / 2), .plain (1 / 2)], false, false⟩ = 1 := by
    simp [wins, ExpPerf.errs, Perf.getErrorRate]; norm_num
  have w2 : wins ⟨[.plain (1 / 2), .plain (1 / 2), .plain (1 / 2)], false, false⟩
      ⟨[.plain (1 / 4), .plain (3 / 4), .plain (1 / 2)], false, false⟩ = 1 := by
    simp [wins, ExpPerf.errs, Perf.getErrorRate]; norm_num
  have w3 : wins ⟨[.plain (1 / 4), .plain (1 / 4), .plain (1 / 2)], false, false⟩
      ⟨[.plain (1 / 2), .plain (1 / 2), .plain (1 / 2)], false, false⟩ = 2 := by
    simp [wins, ExpPerf.errs, Perf.getErrorRate]; norm_num
  have w4 : wins ⟨[.plain (1 / 2), .plain (1 / 2), .plain (1 / 2)], false, false⟩
      ⟨[.plain (1 / 4), .plain (1 / 4), .plain (1 / 2)], false, false⟩ = 0 := by
    simp [wins, ExpPerf.errs, Perf.getErrorRate]; norm_num
  have h1 := C91_partial (a := ⟨[.plain (1 / 4), .plain (3 / 4), .plain (1 / 2)], false, false⟩)
    (b := ⟨[.plain (1 / 2), .plain (1 / 2), .plain (1 / 2)], false, false⟩) rfl (by omega) (by omega)
  have h2 := C91_partial (a := ⟨[.plain (1 / 4), .plain (1 / 4), .plain (1 / 2)], false, false⟩)
    (b := ⟨[.plain (1 / 2), .plain (1 / 2), .plain (1 / 2)], false, false⟩) rfl (by omega) (by omega)
  refine ⟨_, _, h1, h2, C219_sign ?_ ?_ h1 h2⟩
  · unfold LowerErrors ExpPerf.errs
    simp [Perf.getErrorRate]
    norm_num
  · unfold LowerErrors ExpPerf.errs
    simp [Perf.getErrorRate]

/-- errors of 0.9 and 0.8 lowered to 0.7 and 0.6 -/
example : ∃ v v', pairedt ⟨[.plain ((9 : ℝ) / 10), .plain (8 / 10)], false, false⟩ ⟨[.plain 1, .plain 1], false, false⟩ = .ok v ∧
    pairedt ⟨[.plain ((7 : ℝ) / 10), .plain (6 / 10)], false, false⟩ ⟨[.plain 1, .plain 1], false, false⟩ = .ok v' ∧ v' ≤ v := by
  have h := pairedt_two (9 / 10) (8 / 10) (by norm_num)
  have h' := pairedt_two (7 / 10) (6 / 10) (by norm_num)
  refine ⟨_, _, h, h', C219_paired_t_uniform (c := 2 / 10) (by norm_num) ?_ h h'⟩
  simp [ExpPerf.errs, Perf.getErrorRate]
  norm_num

end Verif
