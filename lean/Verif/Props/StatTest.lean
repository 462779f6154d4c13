import Verif.Model.StatTest
import Verif.Model.DblXR
import Verif.Spec.StatTest
import Verif.Lemmas.Basic
import Mathlib.Data.Nat.Factorial.Basic
import Mathlib.Tactic.FieldSimp
import Mathlib.Tactic.IntervalCases
import Mathlib.Algebra.BigOperators.Field

/-! # Properties C88-C93: statistical tests -/

set_option linter.unusedSectionVars false

namespace Verif
open Dbl

namespace StatTest

theorem getErrorRate_eq {F : Type} [Dbl F] (e : ExpPerf F) (i : Nat) (p : Perf F) (h : e.results[i]? = some p) :
    e.getErrorRate i = .ok p.getErrorRate := by
  unfold ExpPerf.getErrorRate atR; rw [h]; rfl

theorem differences_real {a b : ExpPerf ℝ} (h : a.numberOfExperiments = b.numberOfExperiments) :
    differences a b = .ok (errDiffs a b) := by
  unfold differences
  have hab : a.results.length = b.results.length := h
  rw [mapM_ok (g := fun i => (errDiffs a b).getD i 0)]
  · congr 1
    apply List.ext_getElem
    · simp [errDiffs, ExpPerf.errs, ExpPerf.numberOfExperiments, hab]
    · intro i h1 h2
      simp [List.getD_eq_getElem?_getD, List.getElem?_eq_getElem h2]
  · intro i hi
    rw [List.mem_range] at hi
    have h1 : i < a.results.length := hi
    have h2 : i < b.results.length := hab ▸ h1
    rw [getErrorRate_eq a i _ (List.getElem?_eq_getElem h1), getErrorRate_eq b i _ (List.getElem?_eq_getElem h2)]
    simp only [res_bind_ok, res_pure, sub_real]
    have h3 : i < (errDiffs a b).length := by simp [errDiffs, ExpPerf.errs]; omega
    rw [List.getD_eq_getElem?_getD, List.getElem?_eq_getElem h3]
    simp [errDiffs, ExpPerf.errs]

theorem errDiffs_length {a b : ExpPerf ℝ} (h : a.numberOfExperiments = b.numberOfExperiments) :
    (errDiffs a b).length = a.numberOfExperiments := by
  unfold ExpPerf.numberOfExperiments at *
  simp [errDiffs, ExpPerf.errs, h]

theorem pairMean_real (d : List ℝ) (i : Nat) (h : 2 * i + 1 < d.length) :
    pairMean d i = .ok (mean (repetition d i)) := by
  unfold pairMean idxR
  rw [List.getElem?_eq_getElem (by omega : 2 * i < d.length), List.getElem?_eq_getElem h]
  simp only [res_bind_ok, res_pure, add_real, div_real, ofInt_real]
  simp [mean, repetition, List.getD_eq_getElem?_getD, List.getElem?_eq_getElem h,
    List.getElem?_eq_getElem (by omega : 2 * i < d.length)]

theorem sampleVar_pair (x y : ℝ) : sampleVar [x, y] = (x - y) ^ 2 / 2 := by
  simp only [sampleVar, mean, List.map_cons, List.map_nil, List.sum_cons, List.sum_nil,
    List.length_cons, List.length_nil]
  push_cast
  norm_num
  ring

theorem pairVariance_real (d : List ℝ) (i : Nat) (h : 2 * i + 1 < d.length) :
    pairVariance d i = .ok (sampleVar (repetition d i)) := by
  unfold pairVariance
  rw [pairMean_real d i h]
  unfold idxR
  rw [List.getElem?_eq_getElem (by omega : 2 * i < d.length), List.getElem?_eq_getElem h]
  simp only [res_bind_ok, res_pure, add_real, sub_real, mul_real]
  simp only [repetition, List.getD_eq_getElem?_getD, List.getElem?_eq_getElem h,
    List.getElem?_eq_getElem (by omega : 2 * i < d.length), Option.getD_some]
  rw [sampleVar_pair]
  simp only [mean, List.sum_cons, List.sum_nil, List.length_cons, List.length_nil]
  push_cast
  norm_num
  ring

theorem sumVariances_real (d : List ℝ) (h : d.length = 10) : sumVariances d = .ok (sumOfFiveVariances d) := by
  unfold sumVariances
  rw [h, foldlM_ok (g := fun s i => s + sampleVar (repetition d i))]
  · simp [sumOfFiveVariances, List.range_succ]; ring
  · intro i hi s
    rw [List.mem_range] at hi
    rw [pairVariance_real d i (by omega)]; rfl

theorem sumMeans_real (d : List ℝ) (h : d.length = 10) : sumMeans d = .ok (sumOfFiveMeans d) := by
  unfold sumMeans
  rw [h, foldlM_ok (g := fun s i => s + mean (repetition d i))]
  · simp [sumOfFiveMeans, List.range_succ]; ring
  · intro i hi s
    rw [List.mem_range] at hi
    rw [pairMean_real d i (by omega)]; rfl

theorem foldl_sq_real (f : ℝ → ℝ) (l : List ℝ) (s : ℝ) :
    l.foldl (fun s x => s + f x) s = s + (l.map f).sum := by
  induction l generalizing s with
  | nil => simp
  | cons a l ih => simp [ih]; ring

theorem sumOfFiveVariances_nonneg (d : List ℝ) : 0 ≤ sumOfFiveVariances d := by
  unfold sumOfFiveVariances
  apply List.sum_nonneg
  intro x hx
  obtain ⟨i, _, rfl⟩ := List.mem_map.1 hx
  rw [repetition, sampleVar_pair]; positivity

/-- the variances vanish exactly when the two halves of each repetition differ alike -/
theorem sumOfFiveVariances_eq_zero (d : List ℝ) :
    sumOfFiveVariances d = 0 ↔ ∀ i < 5, d.getD (2 * i) 0 = d.getD (2 * i + 1) 0 := by
  constructor
  · intro h
    have key : ∀ x ∈ (List.range 5).map (fun i => sampleVar (repetition d i)), x = 0 := by
      intro x hx
      refine List.all_zero_of_le_zero_le_of_sum_eq_zero ?_ h hx
      clear hx x
      intro x hx
      obtain ⟨i, _, rfl⟩ := List.mem_map.1 hx
      rw [repetition, sampleVar_pair]; positivity
    intro i hi
    have := key _ (List.mem_map.2 ⟨i, List.mem_range.2 hi, rfl⟩)
    rw [repetition, sampleVar_pair] at this
    have h2 : (d.getD (2 * i) 0 - d.getD (2 * i + 1) 0) ^ 2 = 0 := by linarith
    have := pow_eq_zero_iff (two_ne_zero) |>.1 h2
    linarith
  · intro h
    unfold sumOfFiveVariances
    apply List.sum_eq_zero
    intro x hx
    obtain ⟨i, hi, rfl⟩ := List.mem_map.1 hx
    rw [repetition, sampleVar_pair, h i (List.mem_range.1 hi)]; simp

theorem check5x2_ok {a b : ExpPerf ℝ} (ha : a.numberOfExperiments = 10) (hb : b.numberOfExperiments = 10) :
    check5x2 a b = .ok () := by simp [check5x2, ha, hb]

end StatTest

open StatTest

/-! ## C89, C90: the statistics -/

/-- **C90, C89.** For two experiments of 10 results the combined 5x2 F statistic is the sum of the
squared differences over twice the sum of the five variances, unless these vanish, in which case
the test is not applicable. -/
theorem C90_combined_F {a b : ExpPerf ℝ} (ha : a.numberOfExperiments = 10) (hb : b.numberOfExperiments = 10) :
    combined5x2f a b = if sumOfFiveVariances (errDiffs a b) = 0 then .error (.throw "StatisticalTestNotApplicable")
      else .ok (((errDiffs a b).map (fun x => x ^ 2)).sum / (2 * sumOfFiveVariances (errDiffs a b))) := by
  have hd : (errDiffs a b).length = 10 := by rw [errDiffs_length (ha.trans hb.symm), ha]
  unfold combined5x2f
  rw [check5x2_ok ha hb, differences_real (ha.trans hb.symm)]
  simp only [res_bind_ok, sumVariances_real _ hd, add_real, mul_real, zero_real, ofInt_real, eq_real,
    div_real, decide_eq_true_eq]
  rw [foldl_sq_real (fun x => x * x), zero_add]
  by_cases h : sumOfFiveVariances (errDiffs a b) = 0
  · simp [h]
  · rw [if_neg h, if_neg (by push_cast; simpa using h)]
    simp only [res_pure, pow_two]
    congr 2
    push_cast; ring

/-- **C90.** The combined 5x2 F statistic is never negative. -/
theorem C90_nonneg {a b : ExpPerf ℝ} {f : ℝ} (h : combined5x2f a b = .ok f) : 0 ≤ f := by
  by_cases hc : a.numberOfExperiments = 10 ∧ b.numberOfExperiments = 10
  · rw [C90_combined_F hc.1 hc.2] at h
    split at h
    · cases h
    · cases h
      apply div_nonneg
      · apply List.sum_nonneg
        intro x hx
        obtain ⟨y, _, rfl⟩ := List.mem_map.1 hx
        positivity
      · have := sumOfFiveVariances_nonneg (errDiffs a b); linarith
  · exfalso
    have : check5x2 a b = .error (.throw "StatisticalTestNotApplicable") := by
      unfold check5x2
      by_cases h1 : a.numberOfExperiments = b.numberOfExperiments
      · have : a.numberOfExperiments ≠ 10 := fun h2 => hc ⟨h2, h1 ▸ h2⟩
        simp [h1, h1 ▸ this]
      · simp [h1]
    unfold combined5x2f at h
    rw [this] at h
    cases h

/-- **C89.** The combined 5x2 t statistic, and when it is refused. -/
theorem C89_combined_t {a b : ExpPerf ℝ} (ha : a.numberOfExperiments = 10) (hb : b.numberOfExperiments = 10) :
    combined5x2t a b = if sumOfFiveVariances (errDiffs a b) = 0 then .error (.throw "StatisticalTestNotApplicable")
      else .ok (Real.sqrt 10 * (sumOfFiveMeans (errDiffs a b) / 5) /
        Real.sqrt (sumOfFiveVariances (errDiffs a b) / 5)) := by
  have hd : (errDiffs a b).length = 10 := by rw [errDiffs_length (ha.trans hb.symm), ha]
  unfold combined5x2t
  rw [check5x2_ok ha hb, differences_real (ha.trans hb.symm)]
  simp only [res_bind_ok, sumVariances_real _ hd, sumMeans_real _ hd, mul_real, ofInt_real, eq_real,
    div_real, sqrt_real, decide_eq_true_eq]
  have hnn := sumOfFiveVariances_nonneg (errDiffs a b)
  by_cases h : sumOfFiveVariances (errDiffs a b) = 0
  · simp [h]
  · rw [if_neg h, if_neg]
    · simp only [res_pure]; congr 1; push_cast; ring
    · push_cast
      rw [Real.sqrt_eq_zero (by positivity)]
      intro h0
      exact h (by linarith)

/-- **C89.** The 5x2 t statistic, and when it is refused. -/
theorem C89_paired_5x2_t {a b : ExpPerf ℝ} (ha : a.numberOfExperiments = 10) (hb : b.numberOfExperiments = 10) :
    paired5x2t a b = if sumOfFiveVariances (errDiffs a b) = 0 then .error (.throw "StatisticalTestNotApplicable")
      else .ok ((errDiffs a b).getD 0 0 / Real.sqrt (sumOfFiveVariances (errDiffs a b) / 5)) := by
  have hd : (errDiffs a b).length = 10 := by rw [errDiffs_length (ha.trans hb.symm), ha]
  unfold paired5x2t
  rw [check5x2_ok ha hb, differences_real (ha.trans hb.symm)]
  have h0 : idxR (errDiffs a b) 0 = .ok ((errDiffs a b).getD 0 0) := by
    unfold idxR
    rw [List.getD_eq_getElem?_getD, List.getElem?_eq_getElem (by omega : 0 < (errDiffs a b).length)]
    rfl
  simp only [res_bind_ok, sumVariances_real _ hd, ofInt_real, eq_real, h0,
    div_real, sqrt_real, decide_eq_true_eq]
  have hnn := sumOfFiveVariances_nonneg (errDiffs a b)
  by_cases h : sumOfFiveVariances (errDiffs a b) = 0
  · simp [h]
  · rw [if_neg h, if_neg]
    · simp only [res_pure]; congr 1
    · push_cast
      rw [Real.sqrt_eq_zero (by positivity)]
      intro h0
      exact h (by linarith)

/-- **C89.** The paired t statistic, and when it is refused (at least two experiments). -/
theorem C89_paired_t {a b : ExpPerf ℝ} (h : a.numberOfExperiments = b.numberOfExperiments) :
    pairedt a b = if sampleSD (errDiffs a b) = 0 then .error (.throw "StatisticalTestNotApplicable")
      else .ok (Real.sqrt (errDiffs a b).length * mean (errDiffs a b) / sampleSD (errDiffs a b)) := by
  unfold pairedt
  rw [if_neg (by simpa using h), differences_real h]
  have hl := errDiffs_length h
  simp only [res_bind_ok, add_real, sub_real, mul_real, div_real, sqrt_real, ofInt_real, eq_real, zero_real,
    decide_eq_true_eq]
  rw [foldl_add_real, zero_add]
  have hm : (errDiffs a b).sum / ((a.numberOfExperiments : Int) : ℝ) = mean (errDiffs a b) := by
    rw [mean, hl]; push_cast; rfl
  rw [hm, foldl_sq_real (fun x => (x - mean (errDiffs a b)) * (x - mean (errDiffs a b))), zero_add]
  have hs : Real.sqrt (((errDiffs a b).map (fun x => (x - mean (errDiffs a b)) * (x - mean (errDiffs a b)))).sum /
      (((a.numberOfExperiments : Int) - 1 : Int) : ℝ)) = sampleSD (errDiffs a b) := by
    rw [sampleSD, sampleVar, hl]
    congr 2
    · congr 1; apply List.map_congr_left; intro x _; ring
    · push_cast; rfl
  rw [hs, hl]
  push_cast
  by_cases h0 : sampleSD (errDiffs a b) = 0
  · simp [h0]
  · simp [h0]

/-- the sample deviation of at least two numbers is 0 exactly when they are all equal -/
theorem sampleSD_eq_zero {vs : List ℝ} (h : 2 ≤ vs.length) :
    sampleSD vs = 0 ↔ ∀ x ∈ vs, ∀ y ∈ vs, x = y := by
  have hl : (0 : ℝ) < (vs.length : ℝ) - 1 := by
    have : (2 : ℝ) ≤ vs.length := by exact_mod_cast h
    linarith
  have hnn : 0 ≤ (vs.map (fun v => (v - mean vs) ^ 2)).sum := by
    apply List.sum_nonneg
    intro x hx
    obtain ⟨y, _, rfl⟩ := List.mem_map.1 hx
    positivity
  rw [sampleSD, Real.sqrt_eq_zero (by unfold sampleVar; positivity), sampleVar,
    div_eq_zero_iff, or_iff_left hl.ne']
  constructor
  · intro h0 x hx y hy
    have key : ∀ {z}, z ∈ vs.map (fun v => (v - mean vs) ^ 2) → z = 0 := fun hz =>
      List.all_zero_of_le_zero_le_of_sum_eq_zero
        (by intro x hx; obtain ⟨y, _, rfl⟩ := List.mem_map.1 hx; positivity) h0 hz
    have h1 := pow_eq_zero_iff (two_ne_zero) |>.1 (key (List.mem_map.2 ⟨x, hx, rfl⟩))
    have h2 := pow_eq_zero_iff (two_ne_zero) |>.1 (key (List.mem_map.2 ⟨y, hy, rfl⟩))
    linarith
  · intro hall
    apply List.sum_eq_zero
    intro z hz
    obtain ⟨x, hx, rfl⟩ := List.mem_map.1 hz
    have : mean vs = x := by
      have hs : vs.sum = vs.length * x := by
        rw [List.sum_eq_card_nsmul vs x (fun y hy => hall y hy x hx)]; simp
      rw [mean, hs]
      field_simp
    rw [this]; simp

/-- **C89.** All tests refuse experiments of different sizes; this needs no arithmetic. -/
theorem C89_sizes_differ {F : Type} [Dbl F] {a b : ExpPerf F} (h : a.numberOfExperiments ≠ b.numberOfExperiments) :
    combined5x2f a b = .error (.throw "StatisticalTestNotApplicable") ∧ combined5x2t a b = .error (.throw "StatisticalTestNotApplicable") ∧
    paired5x2t a b = .error (.throw "StatisticalTestNotApplicable") ∧ pairedt a b = .error (.throw "StatisticalTestNotApplicable") ∧
    StatTest.sign a b = .error (.throw "StatisticalTestNotApplicable") := by
  have hc : check5x2 a b = .error (.throw "StatisticalTestNotApplicable") := by simp [check5x2, h]
  refine ⟨?_, ?_, ?_, ?_, ?_⟩
  · unfold combined5x2f; rw [hc]; rfl
  · unfold combined5x2t; rw [hc]; rfl
  · unfold paired5x2t; rw [hc]; rfl
  · unfold pairedt; rw [if_pos h]
  · unfold StatTest.sign; rw [if_pos h]

/-- **C89.** The 5x2 tests refuse everything but 10 results. -/
theorem C89_not_ten {F : Type} [Dbl F] {a b : ExpPerf F} (h : a.numberOfExperiments ≠ 10) :
    combined5x2f a b = .error (.throw "StatisticalTestNotApplicable") ∧ combined5x2t a b = .error (.throw "StatisticalTestNotApplicable") ∧
    paired5x2t a b = .error (.throw "StatisticalTestNotApplicable") := by
  have hc : check5x2 a b = .error (.throw "StatisticalTestNotApplicable") := by
    unfold check5x2
    split
    · rfl
    · rfl
  refine ⟨?_, ?_, ?_⟩
  · unfold combined5x2f; rw [hc]; rfl
  · unfold combined5x2t; rw [hc]; rfl
  · unfold paired5x2t; rw [hc]; rfl

/-- **C89.** With 10 results each, the 5x2 tests give a result exactly when some repetition's two
differences differ; the paired t test exactly when some two differences differ. -/
theorem C89_applicable {a b : ExpPerf ℝ} (ha : a.numberOfExperiments = 10) (hb : b.numberOfExperiments = 10) :
    let varies := ∃ i < 5, (errDiffs a b).getD (2 * i) 0 ≠ (errDiffs a b).getD (2 * i + 1) 0
    ((∃ s, combined5x2f a b = .ok s) ↔ varies) ∧ ((∃ s, combined5x2t a b = .ok s) ↔ varies) ∧
    ((∃ s, paired5x2t a b = .ok s) ↔ varies) := by
  intro varies
  have hv : varies ↔ ¬ sumOfFiveVariances (errDiffs a b) = 0 := by
    rw [sumOfFiveVariances_eq_zero]; simp [varies]
  rw [C90_combined_F ha hb, C89_combined_t ha hb, C89_paired_5x2_t ha hb, hv]
  by_cases h : sumOfFiveVariances (errDiffs a b) = 0 <;> simp [h]

/-- **C89.** The paired t test on at least two experiments. -/
theorem C89_paired_t_applicable {a b : ExpPerf ℝ} (h : a.numberOfExperiments = b.numberOfExperiments)
    (h2 : 2 ≤ a.numberOfExperiments) :
    (∃ s, pairedt a b = .ok s) ↔ ∃ x ∈ errDiffs a b, ∃ y ∈ errDiffs a b, x ≠ y := by
  have hz := sampleSD_eq_zero (vs := errDiffs a b) (by rw [errDiffs_length h]; exact h2)
  rw [C89_paired_t h]
  by_cases h0 : sampleSD (errDiffs a b) = 0
  · have := hz.1 h0
    simp only [h0, if_true]
    constructor
    · rintro ⟨s, hs⟩; cases hs
    · rintro ⟨x, hx, y, hy, hne⟩; exact absurd (this x hx y hy) hne
  · simp only [h0, if_false]
    refine ⟨fun _ => ?_, fun _ => ⟨_, rfl⟩⟩
    by_contra hcon
    push Not at hcon
    exact h0 (hz.2 hcon)

/-- **C89 (what goes wrong).** With a single experiment the variance is undefined; the paired t
test does not refuse it but returns a NaN. -/
theorem C89_single_experiment_refuted :
    pairedt (F := XR) ⟨[.plain (.fin (1/2))], false, false⟩ ⟨[.plain (.fin (1/4))], false, false⟩ = .ok .nan := by
  decide +kernel

/-! ## C88: swapping the experiments -/

theorem errDiffs_swap (a b : ExpPerf ℝ) : errDiffs b a = (errDiffs a b).map (fun x => -x) := by
  unfold errDiffs
  generalize a.errs = x
  generalize b.errs = y
  induction x generalizing y with
  | nil => simp
  | cons u x ih => cases y with
    | nil => simp
    | cons v y => simp [ih]

theorem getD_map_neg (d : List ℝ) (i : Nat) : (d.map (fun x => -x)).getD i 0 = - d.getD i 0 := by
  by_cases h : i < d.length
  · simp [List.getD_eq_getElem?_getD, List.getElem?_eq_getElem h]
  · simp [List.getD_eq_getElem?_getD, List.getElem?_eq_none (by omega : d.length ≤ i)]

theorem sumOfFiveVariances_neg (d : List ℝ) : sumOfFiveVariances (d.map (fun x => -x)) = sumOfFiveVariances d := by
  unfold sumOfFiveVariances
  congr 1
  apply List.map_congr_left
  intro i _
  rw [repetition, repetition, sampleVar_pair, sampleVar_pair, getD_map_neg, getD_map_neg]
  ring

theorem mean_neg (d : List ℝ) : mean (d.map (fun x => -x)) = - mean d := by
  unfold mean
  have : (d.map (fun x => -x)).sum = - d.sum := by
    induction d with
    | nil => simp
    | cons a d ih => simp [ih]; ring
  rw [this, List.length_map]; ring

theorem sumOfFiveMeans_neg (d : List ℝ) : sumOfFiveMeans (d.map (fun x => -x)) = - sumOfFiveMeans d := by
  unfold sumOfFiveMeans
  have h : ∀ i, mean (repetition (d.map (fun x => -x)) i) = - mean (repetition d i) := by
    intro i
    rw [← mean_neg]; congr 1
    simp only [repetition, getD_map_neg, List.map_cons, List.map_nil]
  simp only [h]
  generalize List.range 5 = l
  induction l with
  | nil => simp
  | cons a l ih => simp [ih]; ring

theorem sampleSD_neg (d : List ℝ) : sampleSD (d.map (fun x => -x)) = sampleSD d := by
  unfold sampleSD sampleVar
  rw [mean_neg, List.map_map, List.length_map]
  congr 3
  apply List.map_congr_left
  intro x _
  simp only [Function.comp_apply]; ring

/-- negating the value of a result -/
def Res.neg (r : Res ℝ) : Res ℝ := r.map (fun x => -x)

/-- **C88.** Swapping the two experiments negates the paired t, 5x2 t and combined 5x2 t
statistics and leaves the combined 5x2 F statistic unchanged; in particular one order is refused
exactly when the other one is. -/
theorem C88_swap (a b : ExpPerf ℝ) :
    pairedt b a = Res.neg (pairedt a b) ∧ paired5x2t b a = Res.neg (paired5x2t a b) ∧
    combined5x2t b a = Res.neg (combined5x2t a b) ∧ combined5x2f b a = combined5x2f a b := by
  by_cases h : a.numberOfExperiments = b.numberOfExperiments
  · have hl : (errDiffs b a).length = (errDiffs a b).length := by rw [errDiffs_swap a b, List.length_map]
    have h1 : pairedt b a = Res.neg (pairedt a b) := by
      rw [C89_paired_t h, C89_paired_t h.symm, hl, errDiffs_swap a b, sampleSD_neg, mean_neg]
      by_cases h0 : sampleSD (errDiffs a b) = 0
      · simp [h0, Res.neg, Except.map]
      · simp only [h0, if_false, Res.neg, Except.map]; congr 1; ring
    by_cases h10 : a.numberOfExperiments = 10
    · have hb : b.numberOfExperiments = 10 := h ▸ h10
      refine ⟨h1, ?_, ?_, ?_⟩
      · rw [C89_paired_5x2_t h10 hb, C89_paired_5x2_t hb h10, errDiffs_swap a b, sumOfFiveVariances_neg, getD_map_neg]
        split
        · rfl
        · simp only [Res.neg, Except.map]; congr 1; ring
      · rw [C89_combined_t h10 hb, C89_combined_t hb h10, errDiffs_swap a b, sumOfFiveVariances_neg, sumOfFiveMeans_neg]
        split
        · rfl
        · simp only [Res.neg, Except.map]; congr 1; ring
      · rw [C90_combined_F h10 hb, C90_combined_F hb h10, errDiffs_swap a b, sumOfFiveVariances_neg, List.map_map]
        congr 4
        apply List.map_congr_left
        intro x _; simp
    · have hb : b.numberOfExperiments ≠ 10 := h ▸ h10
      obtain ⟨e1, e2, e3⟩ := C89_not_ten (b := b) h10
      obtain ⟨f1, f2, f3⟩ := C89_not_ten (b := a) hb
      refine ⟨h1, ?_, ?_, ?_⟩
      · rw [e3, f3]; rfl
      · rw [e2, f2]; rfl
      · rw [e1, f1]
  · obtain ⟨e1, e2, e3, e4, _⟩ := C89_sizes_differ h
    obtain ⟨f1, f2, f3, f4, _⟩ := C89_sizes_differ (Ne.symm h)
    refine ⟨?_, ?_, ?_, ?_⟩
    · rw [e4, f4]; rfl
    · rw [e3, f3]; rfl
    · rw [e2, f2]; rfl
    · rw [e1, f1]

/-! ## C91: the sign test -/

theorem signCounts_real {a b : ExpPerf ℝ} (h : a.numberOfExperiments = b.numberOfExperiments) :
    signCounts a b = .ok (wins a b, wins b a) := by
  unfold signCounts
  have hab : a.results.length = b.results.length := h
  let g : Nat × Nat → Nat → Nat × Nat := fun c i =>
    if a.errs.getD i 0 < b.errs.getD i 0 then (c.1 + 1, c.2)
    else if b.errs.getD i 0 < a.errs.getD i 0 then (c.1, c.2 + 1) else c
  rw [foldlM_ok (g := g)]
  · congr 1
    unfold wins ExpPerf.numberOfExperiments
    have hla : a.results.length = a.errs.length := by simp [ExpPerf.errs]
    have hl : a.errs.length = b.errs.length := by simp [ExpPerf.errs, hab]
    rw [hla]
    simp only [g]
    clear g hla
    generalize a.errs = x at *
    generalize b.errs = y at *
    induction x using List.reverseRecOn generalizing y with
    | nil => simp
    | append_singleton x u ih =>
      obtain rfl | ⟨y', v, rfl⟩ := List.eq_nil_or_concat' y
      · simp at hl
      · have hl' : x.length = y'.length := by simpa using hl
        rw [List.length_append, List.length_singleton, List.range_succ, List.foldl_append]
        have hcongr : (List.range x.length).foldl (fun c i =>
            if (x ++ [u]).getD i 0 < (y' ++ [v]).getD i 0 then (c.1 + 1, c.2)
            else if (y' ++ [v]).getD i 0 < (x ++ [u]).getD i 0 then (c.1, c.2 + 1) else c) ((0, 0) : Nat × Nat) =
            (List.range x.length).foldl (fun c i =>
            if x.getD i 0 < y'.getD i 0 then (c.1 + 1, c.2)
            else if y'.getD i 0 < x.getD i 0 then (c.1, c.2 + 1) else c) (0, 0) := by
          apply List.foldl_ext
          intro c i hi
          rw [List.mem_range] at hi
          have e1 : (x ++ [u]).getD i 0 = x.getD i 0 := by
            rw [List.getD_eq_getElem?_getD, List.getElem?_append_left hi, List.getD_eq_getElem?_getD]
          have e2 : (y' ++ [v]).getD i 0 = y'.getD i 0 := by
            rw [List.getD_eq_getElem?_getD, List.getElem?_append_left (by omega), List.getD_eq_getElem?_getD]
          rw [e1, e2]
        rw [hcongr, ih y' hl']
        rw [List.zip_append hl', List.zip_append hl'.symm, List.countP_append, List.countP_append]
        have e1 : (x ++ [u]).getD x.length 0 = u := by simp [List.getD_eq_getElem?_getD]
        have e2 : (y' ++ [v]).getD x.length 0 = v := by simp [List.getD_eq_getElem?_getD, hl']
        simp only [List.foldl_cons, List.foldl_nil, e1, e2, List.zip_cons_cons, List.zip_nil_right,
          List.countP_cons, List.countP_nil, decide_eq_true_eq]
        by_cases h1 : u < v
        · have : ¬ v < u := by linarith
          simp [h1, this]
        · by_cases h2 : v < u
          · simp [h1, h2]
          · simp [h1, h2]
  · intro i hi s
    rw [List.mem_range] at hi
    have h1 : i < a.results.length := hi
    have h2 : i < b.results.length := hab ▸ h1
    rw [getErrorRate_eq a i _ (List.getElem?_eq_getElem h1), getErrorRate_eq b i _ (List.getElem?_eq_getElem h2)]
    simp only [res_bind_ok, res_pure, lt_real, decide_eq_true_eq, g]
    have e1 : a.errs.getD i 0 = a.results[i].getErrorRate := by
      simp [ExpPerf.errs, List.getD_eq_getElem?_getD, List.getElem?_eq_getElem h1]
    have e2 : b.errs.getD i 0 = b.results[i].getErrorRate := by
      simp [ExpPerf.errs, List.getD_eq_getElem?_getD, List.getElem?_eq_getElem h2]
    rw [e1, e2]

theorem factorial_small {n : Nat} (h : n ≤ 12) : StatTest.factorial n = .ok (n.factorial : Int) := by
  interval_cases n <;> decide +kernel

theorem factorial_large {n : Nat} (h : 13 ≤ n) : StatTest.factorial n = .error (.ub "signed overflow") := by
  unfold StatTest.factorial
  obtain ⟨k, rfl⟩ := Nat.exists_eq_add_of_le h
  rw [show 13 + k - 1 = 12 + k by omega, List.range_add, List.foldlM_append]
  have : (List.range 12).foldlM (fun r (i : Nat) => mulInt r (i + 2)) 1 = .error (.ub "signed overflow") := by
    decide +kernel
  rw [this]; rfl

theorem mulInt_ok {a b : Int} (h1 : 0 ≤ a * b) (h2 : a * b ≤ 2147483647) : mulInt a b = .ok (a * b) := by
  unfold mulInt; rw [if_pos ⟨by omega, h2⟩]

theorem binomial_small {m n : Nat} (hm : m ≤ 12) (hn : n ≤ m) : binomial m n = .ok (m.choose n : Int) := by
  unfold binomial
  by_cases h : n = 0 ∨ m = n
  · rw [if_pos h]
    rcases h with rfl | rfl <;> simp
  · rw [if_neg h, factorial_small hm, factorial_small (by omega : n ≤ 12), factorial_small (by omega : m - n ≤ 12)]
    simp only [res_bind_ok]
    have hdvd : n.factorial * (m - n).factorial ∣ m.factorial := Nat.factorial_mul_factorial_dvd_factorial hn
    have hle : n.factorial * (m - n).factorial ≤ m.factorial := Nat.le_of_dvd (Nat.factorial_pos m) hdvd
    have hm12 : m.factorial ≤ Nat.factorial 12 := Nat.factorial_le hm
    have h12 : Nat.factorial 12 = 479001600 := by decide
    rw [mulInt_ok (by positivity) (by exact_mod_cast (by omega : n.factorial * (m - n).factorial ≤ 2147483647))]
    simp only [res_bind_ok, res_pure]
    congr 1
    rw [Nat.choose_eq_factorial_div_factorial hn]
    norm_cast

theorem binomial_large {m n : Nat} (hm : 13 ≤ m) (h0 : n ≠ 0) (hn : n ≠ m) :
    binomial m n = .error (.ub "signed overflow") := by
  unfold binomial
  rw [if_neg (by push Not; exact ⟨h0, Ne.symm hn⟩), factorial_large hm]; rfl

/-- **C91 (partial).** With at most 12 strict differences, or without a win, the sign test returns
the binomial tail. Missing: more than 12 differences, at least one of them a win, where the code
always overflows (`C91_overflow`). -/
theorem C91_partial {a b : ExpPerf ℝ} (h : a.numberOfExperiments = b.numberOfExperiments)
    (hpos : 0 < wins a b + wins b a) (hsmall : wins a b + wins b a ≤ 12 ∨ wins a b = 0) :
    StatTest.sign a b = .ok ⟨binomialTail (wins a b + wins b a) (wins a b), false⟩ := by
  unfold StatTest.sign
  rw [if_neg (by simpa using h), signCounts_real h]
  simp only [res_bind_ok]
  rw [if_neg (by omega), foldlM_ok (g := fun (p : ℝ) i => p +
    ((wins a b + wins b a).choose i : ℝ) / 2 ^ (wins a b + wins b a))]
  · simp only [res_bind_ok, res_pure]
    congr 2
    unfold binomialTail
    rw [Finset.sum_div, zero_real]
    have : ∀ (f : Nat → ℝ) (n : Nat), (List.range n).foldl (fun p i => p + f i) 0 = ∑ i ∈ Finset.range n, f i := by
      intro f n
      induction n with
      | zero => simp
      | succ n ih => rw [List.range_succ, List.foldl_append, ih, Finset.sum_range_succ]; rfl
    rw [this]
  · intro i hi p
    rw [List.mem_range] at hi
    have hbin : binomial (wins a b + wins b a) i = .ok ((wins a b + wins b a).choose i : Int) := by
      rcases hsmall with hsmall | h0
      · exact binomial_small hsmall (by omega)
      · rw [show i = 0 by omega]; simp [binomial]
    rw [hbin]
    simp only [res_bind_ok, res_pure, add_real, div_real, ofInt_real, pow_real, Int.cast_natCast]
    congr 2

/-- **C91.** The p-value lies in (0, 1]. -/
theorem C91_range {n k : Nat} (h : k ≤ n) : 0 < binomialTail n k ∧ binomialTail n k ≤ 1 := by
  unfold binomialTail
  constructor
  · apply div_pos
    · apply Finset.sum_pos'
      · intro i _; positivity
      · exact ⟨0, by simp, by simp⟩
    · positivity
  · rw [div_le_one (by positivity)]
    have h1 : ∑ i ∈ Finset.range (k + 1), (n.choose i : ℝ) ≤ ∑ i ∈ Finset.range (n + 1), (n.choose i : ℝ) := by
      apply Finset.sum_le_sum_of_subset_of_nonneg
      · intro i hi; simp only [Finset.mem_range] at *; omega
      · intro i _ _; positivity
    refine h1.trans (le_of_eq ?_)
    have := Nat.sum_range_choose n
    exact_mod_cast this

/-- **C91, C89.** Without a strict difference the sign test is refused. -/
theorem C91_no_difference {a b : ExpPerf ℝ} (h : a.numberOfExperiments = b.numberOfExperiments)
    (h0 : wins a b + wins b a = 0) : StatTest.sign a b = .error (.throw "StatisticalTestNotApplicable") := by
  unfold StatTest.sign
  rw [if_neg (by simpa using h), signCounts_real h]
  simp only [res_bind_ok]
  rw [if_pos h0]

/-- **C91 (what goes wrong).** With 13 or more strict differences, at least one of them a win, the
computation of the factorial overflows: the sign test has no defined result, however many
experiments there are beyond that. -/
theorem C91_overflow {a b : ExpPerf ℝ} (h : a.numberOfExperiments = b.numberOfExperiments)
    (hbig : 13 ≤ wins a b + wins b a) (hwin : 1 ≤ wins a b) :
    StatTest.sign a b = .error (.ub "signed overflow") := by
  unfold StatTest.sign
  rw [if_neg (by simpa using h), signCounts_real h]
  simp only [res_bind_ok]
  rw [if_neg (by omega)]
  obtain ⟨k, hk⟩ := Nat.exists_eq_add_of_le hwin
  rw [show wins a b + 1 = 2 + k by omega, List.range_add, List.foldlM_append]
  have : (List.range 2).foldlM (fun (p : ℝ) i => do
      let k ← binomial (wins a b + wins b a) i
      (pure (p +. (Dbl.ofInt k /. Dbl.pow (Dbl.ofInt 2) (wins a b + wins b a : Nat))) : Res ℝ)) Dbl.zero =
      .error (.ub "signed overflow") := by
    simp only [List.range_succ, List.range_zero, List.nil_append, List.foldlM_append, List.foldlM_cons,
      List.foldlM_nil]
    rw [show binomial (wins a b + wins b a) 0 = .ok 1 by simp [binomial],
      binomial_large hbig one_ne_zero (by omega)]
    rfl
  rw [this]; rfl

/-- **C91 (refuted).** The sign test does not return the binomial tail for all inputs. -/
theorem C91_refuted : ¬ ∀ a b : ExpPerf ℝ, a.numberOfExperiments = b.numberOfExperiments →
    0 < wins a b + wins b a →
    StatTest.sign a b = .ok ⟨binomialTail (wins a b + wins b a) (wins a b), false⟩ := by
  intro hall
  let a : ExpPerf ℝ := ⟨List.replicate 13 (.plain 0), false, false⟩
  let b : ExpPerf ℝ := ⟨List.replicate 13 (.plain 1), false, false⟩
  have hw : wins a b = 13 := by
    simp [wins, a, b, ExpPerf.errs, Perf.getErrorRate]
  have h := hall a b (by simp [ExpPerf.numberOfExperiments, a, b]) (by omega)
  rw [C91_overflow (by simp [ExpPerf.numberOfExperiments, a, b]) (by omega) (by omega)] at h
  cases h

/-! ## C92: decisions -/

/-- **C92.** What the decisions are, and that a smaller significance level rejects less. -/
theorem C92_decisions (p α α' : ℝ) (hα : α' ≤ α) :
    (TestResult.mk p false).oneTailed α = .ok (decide (p < α)) ∧
    (TestResult.mk p true).oneTailed α = .error (.throw "StatisticalTestNotApplicable") ∧
    ((TestResult.mk p false).twoTailed α = true ↔ p < α / 2 ∨ 1 - α / 2 < p) ∧
    ((TestResult.mk p true).twoTailed α = true ↔ p < α) ∧
    ((TestResult.mk p false).oneTailed α' = .ok true → (TestResult.mk p false).oneTailed α = .ok true) ∧
    (∀ two, (TestResult.mk p two).twoTailed α' = true → (TestResult.mk p two).twoTailed α = true) := by
  refine ⟨rfl, rfl, ?_, ?_, ?_, ?_⟩
  · simp [TestResult.twoTailed]
  · simp [TestResult.twoTailed]
  · simp only [TestResult.oneTailed, lt_real, Bool.false_eq_true, if_false, Except.ok.injEq, decide_eq_true_eq]
    intro h; linarith
  · intro two
    cases two with
    | true => simp only [TestResult.twoTailed, if_true, lt_real, decide_eq_true_eq]; intro h; linarith
    | false =>
      simp only [TestResult.twoTailed, Bool.false_eq_true, if_false, lt_real, Bool.or_eq_true, decide_eq_true_eq,
        div_real, sub_real, ofInt_real]
      push_cast
      rintro (h | h)
      · left; linarith
      · right; linarith

/-- **C92.** The one-tailed decision is monotone in the significance level for any arithmetic with
ordered comparisons. -/
theorem C92_one_tailed_monotone {F : Type} [Dbl F] [LawfulOrd F] (r : TestResult F) {α α' : F}
    (hα : (α' <=. α) = true) (h : r.oneTailed α' = .ok true) : r.oneTailed α = .ok true := by
  unfold TestResult.oneTailed at *
  split at h
  · cases h
  · rename_i hn
    rw [if_neg hn]
    simp only [Except.ok.injEq] at h ⊢
    rw [LawfulOrd.lt_iff] at h ⊢
    exact ⟨LawfulOrd.le_trans _ _ _ h.1 hα, fun h2 => h.2 (LawfulOrd.le_trans _ _ _ hα h2)⟩

/-! ## C93: comparing two classifiers -/

/-- **C93 (partial).** Unless both one-sided comparisons reject, exchanging the classifiers negates
the outcome. Missing: the combined 5x2 F test, for which the method always throws
(`C93_refuted`). -/
theorem C93_partial {F : Type} [Dbl F] {compare : ExpPerf F → ExpPerf F → Res (TestResult F)}
    {a b : ExpPerf F} {α : F} {ra rb : TestResult F} (ha : compare a b = .ok ra) (hb : compare b a = .ok rb)
    (h1 : ra.onlyTwoTailed = false) (h2 : rb.onlyTwoTailed = false)
    (hboth : ¬ ((ra.pValue <. α) = true ∧ (rb.pValue <. α) = true)) :
    ∃ r, pairedCompare compare a b α = .ok r ∧ pairedCompare compare b a α = .ok (-r) := by
  refine ⟨if (ra.pValue <. α) = true then 1 else if (rb.pValue <. α) = true then -1 else 0, ?_, ?_⟩
  · unfold pairedCompare
    rw [ha, hb]
    simp only [res_bind_ok, TestResult.oneTailed, h1, h2, Bool.false_eq_true, if_false, res_pure]
  · unfold pairedCompare
    rw [ha, hb]
    simp only [res_bind_ok, TestResult.oneTailed, h1, h2, Bool.false_eq_true, if_false, res_pure]
    by_cases c1 : (ra.pValue <. α) = true
    · by_cases c2 : (rb.pValue <. α) = true
      · exact absurd ⟨c1, c2⟩ hboth
      · simp [c1, c2]
    · by_cases c2 : (rb.pValue <. α) = true
      · simp [c1, c2]
      · simp [c1, c2]

/-- **C93.** The t tests are antisymmetric at every significance level up to one half, provided
the library's t distribution is symmetric. -/
theorem C93_t_tests (tDist : ℝ → Int → ℝ) (hsym : ∀ t n, tDist (-t) n = 1 - tDist t n)
    {a b : ExpPerf ℝ} {α : ℝ} (hα : α ≤ 1 / 2) :
    (∀ r, pairedCompare (comparePairedt tDist) a b α = .ok r →
      pairedCompare (comparePairedt tDist) b a α = .ok (-r)) ∧
    (∀ r, pairedCompare (compare5x2t tDist paired5x2t) a b α = .ok r →
      pairedCompare (compare5x2t tDist paired5x2t) b a α = .ok (-r)) ∧
    (∀ r, pairedCompare (compare5x2t tDist combined5x2t) a b α = .ok r →
      pairedCompare (compare5x2t tDist combined5x2t) b a α = .ok (-r)) := by
  have key : ∀ (stat : ExpPerf ℝ → ExpPerf ℝ → Res ℝ) (deg : ExpPerf ℝ → Int)
      (_ : stat b a = Res.neg (stat a b))
      (_ : ∀ s, stat a b = .ok s → deg a = deg b) (r : Int),
      pairedCompare (fun a b => do
        let s ← stat a b
        (pure ⟨tDist s (deg a), false⟩ : Res (TestResult ℝ))) a b α = .ok r →
      pairedCompare (fun a b => do
        let s ← stat a b
        (pure ⟨tDist s (deg a), false⟩ : Res (TestResult ℝ))) b a α = .ok (-r) := by
    intro stat deg hneg hdeg r h
    have hs : ∃ s, stat a b = .ok s := by
      cases hs : stat a b with
      | ok s => exact ⟨s, rfl⟩
      | error e => unfold pairedCompare at h; simp only [hs] at h; cases h
    obtain ⟨s, hs⟩ := hs
    have hs' : stat b a = .ok (-s) := by rw [hneg, hs]; rfl
    obtain ⟨r', e1, e2⟩ := C93_partial (compare := fun a b => do
        let s ← stat a b
        (pure ⟨tDist s (deg a), false⟩ : Res (TestResult ℝ))) (a := a) (b := b) (α := α)
      (ra := ⟨tDist s (deg a), false⟩) (rb := ⟨tDist (-s) (deg b), false⟩)
      (by simp only [hs]; rfl) (by simp only [hs']; rfl) rfl rfl (by
        simp only [lt_real, decide_eq_true_eq, hsym, hdeg s hs]
        rintro ⟨h1, h2⟩; linarith)
    rw [e1] at h
    cases h
    exact e2
  obtain ⟨n1, n2, n3, _⟩ := C88_swap a b
  have hsize : ∀ (stat : ExpPerf ℝ → ExpPerf ℝ → Res ℝ) s,
      (a.numberOfExperiments ≠ b.numberOfExperiments → stat a b = .error (.throw "StatisticalTestNotApplicable")) →
      stat a b = .ok s → a.numberOfExperiments = b.numberOfExperiments := by
    intro stat s h1 h2
    by_contra hne
    rw [h1 hne] at h2; cases h2
  refine ⟨?_, ?_, ?_⟩
  · exact key pairedt (fun a => (a.numberOfExperiments : Int) - 1) n1 (fun s hs => by
      simp only [hsize pairedt s (fun h => (C89_sizes_differ h).2.2.2.1) hs])
  · exact key paired5x2t (fun a => (a.numberOfExperiments / 2 : Nat)) n2 (fun s hs => by
      simp only [hsize paired5x2t s (fun h => (C89_sizes_differ h).2.2.1) hs])
  · exact key combined5x2t (fun a => (a.numberOfExperiments / 2 : Nat)) n3 (fun s hs => by
      simp only [hsize combined5x2t s (fun h => (C89_sizes_differ h).2.1) hs])

/-- the two binomial tails overlap -/
theorem binomialTail_add (m n : Nat) : 1 ≤ binomialTail (m + n) m + binomialTail (m + n) n := by
  unfold binomialTail
  rw [← add_div, le_div_iff₀ (by positivity), one_mul]
  have h1 : ∑ i ∈ Finset.range (n + 1), ((m + n).choose i : ℝ) =
      ∑ i ∈ Finset.range (n + 1), ((m + n).choose (m + i) : ℝ) := by
    rw [← Finset.sum_range_reflect]
    apply Finset.sum_congr rfl
    intro i hi
    rw [Finset.mem_range] at hi
    congr 1
    rw [← Nat.choose_symm (by omega : n + 1 - 1 - i ≤ m + n)]
    congr 1; omega
  have h2 : (∑ i ∈ Finset.range (m + n + 1), ((m + n).choose i : ℝ)) = 2 ^ (m + n) := by
    have := Nat.sum_range_choose (m + n)
    exact_mod_cast this
  rw [h1, ← h2, show m + n + 1 = m + (n + 1) by omega, Finset.sum_range_add]
  have h3 : ∑ i ∈ Finset.range m, ((m + n).choose i : ℝ) ≤ ∑ i ∈ Finset.range (m + 1), ((m + n).choose i : ℝ) := by
    rw [Finset.sum_range_succ]
    have : (0 : ℝ) ≤ (m + n).choose m := by positivity
    linarith
  linarith

/-- **C93.** The sign test is antisymmetric at every significance level up to one half (at most 12
strict differences, see `C91_overflow`). -/
theorem C93_sign_test {a b : ExpPerf ℝ} (h : a.numberOfExperiments = b.numberOfExperiments)
    (hpos : 0 < wins a b + wins b a) (hsmall : wins a b + wins b a ≤ 12) {α : ℝ} (hα : α ≤ 1 / 2) :
    ∃ r, pairedCompare StatTest.sign a b α = .ok r ∧ pairedCompare StatTest.sign b a α = .ok (-r) := by
  refine C93_partial (C91_partial h hpos (.inl hsmall)) (C91_partial h.symm (by omega) (by omega)) rfl rfl ?_
  simp only [lt_real, decide_eq_true_eq]
  rintro ⟨h1, h2⟩
  have := binomialTail_add (wins a b) (wins b a)
  rw [Nat.add_comm (wins b a)] at h2
  linarith

/-- **C93 (refuted for the F test).** The three-argument comparison never works with the combined
5x2 F test: whatever the experiments, it throws. -/
theorem C93_refuted {F : Type} [Dbl F] (fDist : F → Nat → Nat → F) (a b : ExpPerf F) (α : F) :
    ∀ r, pairedCompare (compare5x2f fDist) a b α ≠ .ok r := by
  intro r h
  unfold pairedCompare compare5x2f at h
  simp only [bind_ok_iff, res_pure] at h
  obtain ⟨r1, ⟨s, _, e⟩, r2, _, t1, ht1, _⟩ := h
  cases e
  cases ht1

/-! ## a concrete pair of experiments -/

/-- ten results with errors 0, 1, 0, ..., and ten with error 0 -/
def fiveByTwo : ExpPerf ℝ := ⟨[.plain 0, .plain 1, .plain 0, .plain 0, .plain 0, .plain 0, .plain 0, .plain 0,
  .plain 0, .plain 0], false, false⟩

/-- the other one -/
def fiveByTwo' : ExpPerf ℝ := ⟨List.replicate 10 (.plain 0), false, false⟩

/-- its difference list varies within the first repetition, so all three 5x2 statistics exist -/
example : (∃ s, combined5x2f fiveByTwo fiveByTwo' = .ok s) ∧ (∃ s, combined5x2t fiveByTwo fiveByTwo' = .ok s) ∧
    (∃ s, paired5x2t fiveByTwo fiveByTwo' = .ok s) := by
  obtain ⟨h1, h2, h3⟩ := C89_applicable (a := fiveByTwo) (b := fiveByTwo') rfl rfl
  have hv : ∃ i < 5, (errDiffs fiveByTwo fiveByTwo').getD (2 * i) 0 ≠ (errDiffs fiveByTwo fiveByTwo').getD (2 * i + 1) 0 :=
    ⟨0, by norm_num, by simp [errDiffs, ExpPerf.errs, fiveByTwo, fiveByTwo', Perf.getErrorRate, List.replicate]⟩
  exact ⟨h1.2 hv, h2.2 hv, h3.2 hv⟩

/-- one loss, no win: the sign test gives the tail probability 1/2 -/
example : StatTest.sign fiveByTwo fiveByTwo' = .ok ⟨binomialTail 1 0, false⟩ := by
  have h1 : wins fiveByTwo fiveByTwo' = 0 := by
    simp [wins, ExpPerf.errs, fiveByTwo, fiveByTwo', Perf.getErrorRate, List.replicate]
  have h2 : wins fiveByTwo' fiveByTwo = 1 := by
    simp [wins, ExpPerf.errs, fiveByTwo, fiveByTwo', Perf.getErrorRate, List.replicate]
  have := C91_partial (a := fiveByTwo) (b := fiveByTwo') rfl (by omega) (by omega)
  rw [h1, h2] at this
  exact this

end Verif
