import Verif.Props.StatTest
import Verif.Props.ExpPerf
import Mathlib.Algebra.BigOperators.Fin

/-! # Statistical tests: order of the folds, unit of the error rates

C194: the folds of two experiments can be listed in another order. C195: all error rates can be multiplied by a positive
number (per cent instead of fractions) and shifted. -/

namespace Verif
open Dbl StatTest

/-! ## the words -/

/-- the same pairs of error rates, in any order -/
structure SameFolds {F : Type} [Dbl F] (a b a' b' : ExpPerf F) : Prop where
  len : a.numberOfExperiments = b.numberOfExperiments
  len' : a'.numberOfExperiments = b'.numberOfExperiments
  perm : ((a'.results.map Perf.getErrorRate).zip (b'.results.map Perf.getErrorRate)).Perm
    ((a.results.map Perf.getErrorRate).zip (b.results.map Perf.getErrorRate))

/-- the ten results of `a'` are those of `a`, fold `i` taken from fold `σ i` -/
def Reordered {F : Type} [Dbl F] (σ : Equiv.Perm (Fin 10)) (a a' : ExpPerf F) : Prop :=
  ∃ ha : a.results.length = 10, ∃ ha' : a'.results.length = 10,
    ∀ i : Fin 10, (a'.results[i.val]'(by omega)).getErrorRate = (a.results[(σ i).val]'(by omega)).getErrorRate

/-- the reordering keeps the two folds of a repetition (folds 0 and 1, 2 and 3, …) together -/
def KeepsRepetitions (σ : Equiv.Perm (Fin 10)) : Prop :=
  ∀ i j : Fin 10, i.val / 2 = j.val / 2 → (σ i).val / 2 = (σ j).val / 2

/-! ## C194: any order, for the sign test and the paired t test -/

section
variable {F : Type} [Dbl F]

omit [Dbl F] in
theorem foldlM_same_steps {α β : Type} {f g : β → α → Res β} (l : List α) (b : β) (h : ∀ x ∈ l, ∀ c, f c x = g c x) :
    l.foldlM f b = l.foldlM g b := by
  induction l generalizing b with
  | nil => rfl
  | cons a l ih =>
    rw [List.foldlM_cons, List.foldlM_cons, h a (by simp)]
    congr 1
    funext c
    exact ih c (fun x hx => h x (by simp [hx]))

/-- the two numbers of a pair are the wins of the first and of the second classifier among the pairs -/
theorem signCounts_zip {a b : ExpPerf F} (h : a.numberOfExperiments = b.numberOfExperiments) :
    signCounts a b = .ok
      ((((a.results.map Perf.getErrorRate).zip (b.results.map Perf.getErrorRate))).countP (fun p => p.1 <. p.2),
       (((a.results.map Perf.getErrorRate).zip (b.results.map Perf.getErrorRate))).countP
        (fun p => !(p.1 <. p.2) && (p.2 <. p.1))) := by
  have hab : a.results.length = b.results.length := h
  unfold signCounts ExpPerf.numberOfExperiments ExpPerf.getErrorRate
  generalize a.results = x at *
  generalize b.results = y at *
  induction x using List.reverseRecOn generalizing y with
  | nil => simp
  | append_singleton x u ih =>
    obtain rfl | ⟨y', v, rfl⟩ := List.eq_nil_or_concat' y
    · simp at hab
    · have hl' : x.length = y'.length := by simpa using hab
      rw [List.length_append, List.length_singleton, List.range_succ, List.foldlM_append]
      have hcongr : (List.range x.length).foldlM (fun (c : Nat × Nat) i => do
            let p ← (do let p ← atR (x ++ [u]) i; pure p.getErrorRate)
            let q ← (do let p ← atR (y' ++ [v]) i; pure p.getErrorRate)
            pure (if p <. q then (c.1 + 1, c.2) else if q <. p then (c.1, c.2 + 1) else c)) ((0, 0) : Nat × Nat) =
          (List.range x.length).foldlM (fun (c : Nat × Nat) i => (do
            let p ← (do let p ← atR x i; pure p.getErrorRate)
            let q ← (do let p ← atR y' i; pure p.getErrorRate)
            pure (if p <. q then (c.1 + 1, c.2) else if q <. p then (c.1, c.2 + 1) else c) : Res (Nat × Nat))) (0, 0) := by
        apply foldlM_same_steps
        intro i hi c
        rw [List.mem_range] at hi
        unfold atR
        rw [List.getElem?_append_left hi, List.getElem?_append_left (by omega)]
      rw [hcongr, ih y' hl']
      have e1 : atR (x ++ [u]) x.length = .ok u := by unfold atR; simp
      have e2 : atR (y' ++ [v]) x.length = .ok v := by unfold atR; rw [hl']; simp
      rw [List.map_append, List.map_append, List.zip_append (by simpa using hl'), List.countP_append, List.countP_append]
      simp only [List.foldlM_cons, List.foldlM_nil, e1, e2, res_bind_ok, res_pure, List.map_cons, List.map_nil,
        List.zip_cons_cons, List.zip_nil_right, List.countP_cons, List.countP_nil]
      by_cases h1 : (u.getErrorRate <. v.getErrorRate) = true
      · simp [h1]
      · by_cases h2 : (v.getErrorRate <. u.getErrorRate) = true
        · simp [h1, h2]
        · simp [h1, h2]

/-- **C194**, sign test, any numbers: the result does not depend on the order of the folds -/
theorem C194_sign {a b a' b' : ExpPerf F} (h : SameFolds a b a' b') : StatTest.sign a' b' = StatTest.sign a b := by
  unfold StatTest.sign
  rw [if_neg (by simpa using h.len'), if_neg (by simpa using h.len), signCounts_zip h.len, signCounts_zip h.len',
    h.perm.countP_eq, h.perm.countP_eq]

end

theorem SameFolds.diffs {a b a' b' : ExpPerf ℝ} (h : SameFolds a b a' b') : (errDiffs a' b').Perm (errDiffs a b) := by
  have := h.perm.map (fun p : ℝ × ℝ => p.1 - p.2)
  simpa [errDiffs, ExpPerf.errs, List.zip, List.map_zipWith] using this

theorem SameFolds.count {F : Type} [Dbl F] {a b a' b' : ExpPerf F} (h : SameFolds a b a' b') :
    a'.numberOfExperiments = a.numberOfExperiments := by
  have h0 := h.perm.length_eq
  have h1 := h.len
  have h2 := h.len'
  unfold ExpPerf.numberOfExperiments at *
  simp only [List.length_zip, List.length_map] at h0
  omega

/-- **C194**, paired t test: statistic and result do not depend on the order of the folds -/
theorem C194_paired_t {a b a' b' : ExpPerf ℝ} (h : SameFolds a b a' b') :
    pairedt a' b' = pairedt a b ∧ ∀ tDist, comparePairedt tDist a' b' = comparePairedt tDist a b := by
  have h1 : pairedt a' b' = pairedt a b := by
    rw [C89_paired_t h.len, C89_paired_t h.len', mean_perm h.diffs, sampleSD_perm h.diffs, h.diffs.length_eq]
  refine ⟨h1, fun tDist => ?_⟩
  unfold comparePairedt
  rw [h1, h.count]

/-! ## C194: the 5x2 tests -/

/-- the other fold of the repetition -/
def partner (i : Fin 10) : Fin 10 := if h : i.val % 2 = 0 then ⟨i.val + 1, by omega⟩ else ⟨i.val - 1, by omega⟩

theorem partner_unique : ∀ i j : Fin 10, i ≠ j → i.val / 2 = j.val / 2 → j = partner i := by decide

theorem partner_spec : ∀ i : Fin 10, i ≠ partner i ∧ i.val / 2 = (partner i).val / 2 := by decide

theorem KeepsRepetitions.partner {σ : Equiv.Perm (Fin 10)} (h : KeepsRepetitions σ) (i : Fin 10) :
    σ (partner i) = Verif.partner (σ i) :=
  partner_unique _ _ (fun e => (partner_spec i).1 (σ.injective e)) (h _ _ (partner_spec i).2)

theorem sumOfFiveVariances_fin (d : List ℝ) :
    sumOfFiveVariances d = (∑ i : Fin 10, (d.getD i 0 - d.getD (partner i) 0) ^ 2) / 4 := by
  unfold sumOfFiveVariances repetition
  simp only [sampleVar_pair]
  simp only [Fin.sum_univ_succ, List.range_succ, List.range_zero, List.nil_append, List.map_cons, List.map_nil,
    List.sum_cons, List.sum_nil, List.cons_append, partner]
  simp
  ring

theorem sumOfFiveMeans_fin (d : List ℝ) : sumOfFiveMeans d = (∑ i : Fin 10, d.getD i 0) / 2 := by
  unfold sumOfFiveMeans repetition mean
  simp only [Fin.sum_univ_succ, List.range_succ, List.range_zero, List.nil_append, List.map_cons, List.map_nil,
    List.sum_cons, List.sum_nil, List.cons_append]
  simp
  ring

theorem sum_sq_fin (d : List ℝ) (hd : d.length = 10) : (d.map (fun x => x ^ 2)).sum = ∑ i : Fin 10, d.getD i 0 ^ 2 := by
  match d, hd with
  | [a0, a1, a2, a3, a4, a5, a6, a7, a8, a9], _ =>
    simp [Fin.sum_univ_succ]

theorem Reordered.diffs {σ : Equiv.Perm (Fin 10)} {a b a' b' : ExpPerf ℝ} (ha : Reordered σ a a') (hb : Reordered σ b b')
    (i : Fin 10) : (errDiffs a' b').getD i 0 = (errDiffs a b).getD (σ i) 0 := by
  obtain ⟨a1, a2, a3⟩ := ha
  obtain ⟨b1, b2, b3⟩ := hb
  have hi := i.isLt
  have hs := (σ i).isLt
  have e1 : (errDiffs a' b').getD i 0 = (a'.results[i.val]'(by omega)).getErrorRate - (b'.results[i.val]'(by omega)).getErrorRate := by
    simp [errDiffs, ExpPerf.errs, List.getD_eq_getElem?_getD, a2, b2]
  have e2 : (errDiffs a b).getD (σ i) 0 =
      (a.results[(σ i).val]'(by omega)).getErrorRate - (b.results[(σ i).val]'(by omega)).getErrorRate := by
    simp [errDiffs, ExpPerf.errs, List.getD_eq_getElem?_getD, a1, b1]
  rw [e1, e2, a3, b3]

/-- the sum of the five variances is the same -/
theorem Reordered.variances {σ : Equiv.Perm (Fin 10)} (hσ : KeepsRepetitions σ) {a b a' b' : ExpPerf ℝ}
    (ha : Reordered σ a a') (hb : Reordered σ b b') :
    sumOfFiveVariances (errDiffs a' b') = sumOfFiveVariances (errDiffs a b) := by
  rw [sumOfFiveVariances_fin, sumOfFiveVariances_fin]
  congr 1
  rw [← Equiv.sum_comp σ (fun i => ((errDiffs a b).getD i 0 - (errDiffs a b).getD (partner i) 0) ^ 2)]
  apply Finset.sum_congr rfl
  intro i _
  rw [ha.diffs hb, ha.diffs hb, hσ.partner]

/-- **C194**, combined 5x2 F test and combined 5x2 t test: statistic and result depend neither on the order of the
repetitions nor on the order of the two folds of a repetition -/
theorem C194_combined {σ : Equiv.Perm (Fin 10)} (hσ : KeepsRepetitions σ) {a b a' b' : ExpPerf ℝ}
    (ha : Reordered σ a a') (hb : Reordered σ b b') :
    combined5x2f a' b' = combined5x2f a b ∧ combined5x2t a' b' = combined5x2t a b ∧
    (∀ fDist, compare5x2f fDist a' b' = compare5x2f fDist a b) ∧
    ∀ tDist, compare5x2t tDist combined5x2t a' b' = compare5x2t tDist combined5x2t a b := by
  have hv := ha.variances hσ hb
  have na : a.numberOfExperiments = 10 := ha.1
  have na' : a'.numberOfExperiments = 10 := ha.2.1
  have nb : b.numberOfExperiments = 10 := hb.1
  have nb' : b'.numberOfExperiments = 10 := hb.2.1
  have h1 : combined5x2f a' b' = combined5x2f a b := by
    rw [C90_combined_F na' nb', C90_combined_F na nb, hv, sum_sq_fin _ (by rw [errDiffs_length (na'.trans nb'.symm), na']),
      sum_sq_fin _ (by rw [errDiffs_length (na.trans nb.symm), na])]
    have : (∑ i : Fin 10, (errDiffs a' b').getD i 0 ^ 2) = ∑ i : Fin 10, (errDiffs a b).getD i 0 ^ 2 := by
      rw [← Equiv.sum_comp σ (fun i => (errDiffs a b).getD i 0 ^ 2)]
      exact Finset.sum_congr rfl (fun i _ => by rw [ha.diffs hb])
    rw [this]
  have h2 : combined5x2t a' b' = combined5x2t a b := by
    rw [C89_combined_t na' nb', C89_combined_t na nb, hv, sumOfFiveMeans_fin, sumOfFiveMeans_fin]
    have : (∑ i : Fin 10, (errDiffs a' b').getD i 0) = ∑ i : Fin 10, (errDiffs a b).getD i 0 := by
      rw [← Equiv.sum_comp σ (fun i => (errDiffs a b).getD i 0)]
      exact Finset.sum_congr rfl (fun i _ => by rw [ha.diffs hb])
    rw [this]
  refine ⟨h1, h2, fun fDist => ?_, fun tDist => ?_⟩
  · unfold compare5x2f; rw [h1, na, na']
  · unfold compare5x2t; rw [h2, na, na']

/-- **C194**, 5x2 paired t test, what remains: the first fold must stay where it is; the others may be reordered, the two folds
of a repetition kept together -/
theorem C194_paired_5x2_t_partial {σ : Equiv.Perm (Fin 10)} (hσ : KeepsRepetitions σ) (h0 : σ 0 = 0)
    {a b a' b' : ExpPerf ℝ} (ha : Reordered σ a a') (hb : Reordered σ b b') :
    paired5x2t a' b' = paired5x2t a b ∧ ∀ tDist, compare5x2t tDist paired5x2t a' b' = compare5x2t tDist paired5x2t a b := by
  have hv := ha.variances hσ hb
  have na : a.numberOfExperiments = 10 := ha.1
  have na' : a'.numberOfExperiments = 10 := ha.2.1
  have nb : b.numberOfExperiments = 10 := hb.1
  have nb' : b'.numberOfExperiments = 10 := hb.2.1
  have h1 : paired5x2t a' b' = paired5x2t a b := by
    have e := ha.diffs hb 0
    rw [h0] at e
    rw [C89_paired_5x2_t na' nb', C89_paired_5x2_t na nb, hv, show (0 : Nat) = ((0 : Fin 10) : Nat) from rfl, e]
  refine ⟨h1, fun tDist => ?_⟩
  unfold compare5x2t; rw [h1, na, na']

/-- ten results -/
def tenResults {F : Type} (l : List F) : ExpPerf F := ⟨l.map .plain, false, false⟩

/-- the two folds of the first repetition change places -/
def swapFirst : Equiv.Perm (Fin 10) := Equiv.swap 0 1

theorem swapFirst_keeps : KeepsRepetitions swapFirst := by
  unfold KeepsRepetitions swapFirst; decide

theorem swapFirst_reordered {F : Type} [Dbl F] (x0 x1 x2 x3 x4 x5 x6 x7 x8 x9 : F) :
    Reordered swapFirst (tenResults [x0, x1, x2, x3, x4, x5, x6, x7, x8, x9])
      (tenResults [x1, x0, x2, x3, x4, x5, x6, x7, x8, x9]) := by
  refine ⟨rfl, rfl, fun i => ?_⟩
  fin_cases i <;> rfl

/-- **C194** refuted for the 5x2 paired t test: if the two folds of the first repetition change places, the statistic changes,
because it takes its numerator from the first fold alone -/
theorem C194_paired_5x2_t_refuted :
    ∃ a b a' b' : ExpPerf ℝ, Reordered swapFirst a a' ∧ Reordered swapFirst b b' ∧ KeepsRepetitions swapFirst ∧
      paired5x2t a b = .ok (Real.sqrt 10) ∧ paired5x2t a' b' = .ok 0 := by
  refine ⟨tenResults [1, 0, 0, 0, 0, 0, 0, 0, 0, 0], tenResults [0, 0, 0, 0, 0, 0, 0, 0, 0, 0],
    tenResults [0, 1, 0, 0, 0, 0, 0, 0, 0, 0], tenResults [0, 0, 0, 0, 0, 0, 0, 0, 0, 0],
    swapFirst_reordered .., swapFirst_reordered .., swapFirst_keeps, ?_, ?_⟩
  · have hv : sumOfFiveVariances (errDiffs (tenResults [1, 0, 0, 0, 0, 0, 0, 0, 0, 0]) (tenResults [0, 0, 0, 0, 0, 0, 0, 0, 0, 0])) =
        1 / 2 := by
      simp [sumOfFiveVariances, List.range_succ, repetition, sampleVar_pair, errDiffs, ExpPerf.errs, tenResults, Perf.getErrorRate]
    rw [C89_paired_5x2_t rfl rfl, hv, if_neg (by norm_num)]
    congr 1
    have : (errDiffs (tenResults [1, 0, 0, 0, 0, 0, 0, 0, 0, 0]) (tenResults [0, 0, 0, 0, 0, 0, 0, 0, 0, 0])).getD 0 0 = 1 := by
      simp [errDiffs, ExpPerf.errs, tenResults, Perf.getErrorRate]
    rw [this, one_div, ← Real.sqrt_inv]
    norm_num
  · have hv : sumOfFiveVariances (errDiffs (tenResults [0, 1, 0, 0, 0, 0, 0, 0, 0, 0]) (tenResults [0, 0, 0, 0, 0, 0, 0, 0, 0, 0])) =
        1 / 2 := by
      simp [sumOfFiveVariances, List.range_succ, repetition, sampleVar_pair, errDiffs, ExpPerf.errs, tenResults, Perf.getErrorRate]
    rw [C89_paired_5x2_t rfl rfl, hv, if_neg (by norm_num)]
    simp [errDiffs, ExpPerf.errs, tenResults, Perf.getErrorRate]

/-! ## C195: units -/

/-- the error rates of `a'` are those of `a` times `c` plus `k` -/
def InUnits (c k : ℝ) (a a' : ExpPerf ℝ) : Prop :=
  a'.results.map Perf.getErrorRate = (a.results.map Perf.getErrorRate).map (fun e => c * e + k)

theorem InUnits.count {c k : ℝ} {a a' : ExpPerf ℝ} (h : InUnits c k a a') : a'.numberOfExperiments = a.numberOfExperiments := by
  have := congrArg List.length h
  simpa [ExpPerf.numberOfExperiments] using this

theorem InUnits.diffs {c k : ℝ} {a b a' b' : ExpPerf ℝ} (ha : InUnits c k a a') (hb : InUnits c k b b') :
    errDiffs a' b' = (errDiffs a b).map (fun x => c * x) := by
  unfold errDiffs ExpPerf.errs
  rw [ha, hb, List.zipWith_map, List.map_zipWith]
  congr 1
  funext x y
  ring

theorem sumOfFiveVariances_scale (c : ℝ) (d : List ℝ) :
    sumOfFiveVariances (d.map (fun x => c * x)) = c ^ 2 * sumOfFiveVariances d := by
  have h : ∀ i, (d.map (fun x => c * x)).getD i 0 = c * d.getD i 0 := by
    intro i
    simp only [List.getD_eq_getElem?_getD, List.getElem?_map]
    cases d[i]? <;> simp
  rw [sumOfFiveVariances_fin, sumOfFiveVariances_fin, ← mul_div_assoc, Finset.mul_sum]
  congr 1
  apply Finset.sum_congr rfl
  intro i _
  rw [h, h]; ring

theorem sumOfFiveMeans_scale (c : ℝ) (d : List ℝ) :
    sumOfFiveMeans (d.map (fun x => c * x)) = c * sumOfFiveMeans d := by
  have h : ∀ i, (d.map (fun x => c * x)).getD i 0 = c * d.getD i 0 := by
    intro i
    simp only [List.getD_eq_getElem?_getD, List.getElem?_map]
    cases d[i]? <;> simp
  rw [sumOfFiveMeans_fin, sumOfFiveMeans_fin, ← mul_div_assoc, Finset.mul_sum]
  congr 1
  apply Finset.sum_congr rfl
  intro i _
  rw [h]

theorem mean_scale (c : ℝ) (d : List ℝ) : mean (d.map (fun x => c * x)) = c * mean d := by
  unfold mean
  rw [List.length_map, List.sum_map_mul_left, List.map_id', mul_div_assoc]

theorem sampleVar_scale (c : ℝ) (d : List ℝ) : sampleVar (d.map (fun x => c * x)) = c ^ 2 * sampleVar d := by
  unfold sampleVar
  rw [mean_scale, List.map_map, List.length_map, ← mul_div_assoc, ← List.sum_map_mul_left]
  congr 3
  funext x
  simp only [Function.comp]
  ring

theorem sampleSD_scale {c : ℝ} (hc : 0 < c) (d : List ℝ) : sampleSD (d.map (fun x => c * x)) = c * sampleSD d := by
  unfold sampleSD
  rw [sampleVar_scale, Real.sqrt_mul (by positivity), Real.sqrt_sq hc.le]

/-- **C195.** All five tests give the same statistic, the same refusals and the same results if all error rates of both
experiments are multiplied by the same positive number and shifted by the same number. -/
theorem C195_units {c k : ℝ} (hc : 0 < c) {a b a' b' : ExpPerf ℝ} (ha : InUnits c k a a') (hb : InUnits c k b b') :
    pairedt a' b' = pairedt a b ∧ paired5x2t a' b' = paired5x2t a b ∧ combined5x2t a' b' = combined5x2t a b ∧
    combined5x2f a' b' = combined5x2f a b ∧ StatTest.sign a' b' = StatTest.sign a b := by
  by_cases hn : a.numberOfExperiments = b.numberOfExperiments
  · have hn' : a'.numberOfExperiments = b'.numberOfExperiments := by rw [ha.count, hb.count, hn]
    have hd := ha.diffs hb
    have hp : pairedt a' b' = pairedt a b := by
      rw [C89_paired_t hn, C89_paired_t hn', hd, sampleSD_scale hc, mean_scale, List.length_map]
      by_cases h0 : sampleSD (errDiffs a b) = 0
      · simp [h0]
      · rw [if_neg (by positivity), if_neg h0]
        congr 1
        field_simp
    have hs : StatTest.sign a' b' = StatTest.sign a b := by
      unfold StatTest.sign
      rw [if_neg (by simpa using hn'), if_neg (by simpa using hn), signCounts_zip hn, signCounts_zip hn', ha, hb,
        List.zip_map, List.countP_map, List.countP_map]
      have e : ∀ x y : ℝ, (Prod.map (fun e => c * e + k) (fun e => c * e + k) (x, y)).1 <
          (Prod.map (fun e => c * e + k) (fun e => c * e + k) (x, y)).2 ↔ x < y := by
        intro x y
        simp only [Prod.map]
        constructor
        · intro h; by_contra hxy; nlinarith [mul_le_mul_of_nonneg_left (not_lt.1 hxy) hc.le]
        · intro h; nlinarith [mul_lt_mul_of_pos_left h hc]
      have e' : ∀ x y : ℝ, (Prod.map (fun e => c * e + k) (fun e => c * e + k) (x, y)).2 <
          (Prod.map (fun e => c * e + k) (fun e => c * e + k) (x, y)).1 ↔ y < x := by
        intro x y
        simpa [Prod.map] using e y x
      have k1 : ((fun p : ℝ × ℝ => p.1 <. p.2) ∘ Prod.map (fun e => c * e + k) (fun e => c * e + k)) =
          fun p : ℝ × ℝ => p.1 <. p.2 := by
        funext ⟨x, y⟩
        simp only [Function.comp, lt_real, e]
      have k2 : ((fun p : ℝ × ℝ => !(p.1 <. p.2) && (p.2 <. p.1)) ∘
          Prod.map (fun e => c * e + k) (fun e => c * e + k)) = fun p : ℝ × ℝ => !(p.1 <. p.2) && (p.2 <. p.1) := by
        funext ⟨x, y⟩
        simp only [Function.comp, lt_real, e, e']
      rw [k1, k2]
    by_cases h10 : a.numberOfExperiments = 10
    · have na := h10
      have nb : b.numberOfExperiments = 10 := hn ▸ h10
      have na' : a'.numberOfExperiments = 10 := by rw [ha.count, na]
      have nb' : b'.numberOfExperiments = 10 := by rw [hb.count, nb]
      have hv : sumOfFiveVariances (errDiffs a' b') = c ^ 2 * sumOfFiveVariances (errDiffs a b) := by
        rw [hd, sumOfFiveVariances_scale]
      have hsq : Real.sqrt (c ^ 2 * sumOfFiveVariances (errDiffs a b) / 5) =
          c * Real.sqrt (sumOfFiveVariances (errDiffs a b) / 5) := by
        rw [mul_div_assoc, Real.sqrt_mul (by positivity), Real.sqrt_sq hc.le]
      have hnn := sumOfFiveVariances_nonneg (errDiffs a b)
      refine ⟨hp, ?_, ?_, ?_, hs⟩
      · rw [C89_paired_5x2_t na' nb', C89_paired_5x2_t na nb, hv, hsq, hd]
        by_cases h0 : sumOfFiveVariances (errDiffs a b) = 0
        · simp [h0]
        · have hpos : 0 < sumOfFiveVariances (errDiffs a b) := lt_of_le_of_ne hnn (Ne.symm h0)
          rw [if_neg (by positivity), if_neg h0]
          congr 1
          have : (List.map (fun x => c * x) (errDiffs a b)).getD 0 0 = c * (errDiffs a b).getD 0 0 := by
            simp only [List.getD_eq_getElem?_getD, List.getElem?_map]
            cases (errDiffs a b)[0]? <;> simp
          rw [this]
          field_simp
      · rw [C89_combined_t na' nb', C89_combined_t na nb, hv, hsq, hd, sumOfFiveMeans_scale]
        by_cases h0 : sumOfFiveVariances (errDiffs a b) = 0
        · simp [h0]
        · have hpos : 0 < sumOfFiveVariances (errDiffs a b) := lt_of_le_of_ne hnn (Ne.symm h0)
          rw [if_neg (by positivity), if_neg h0]
          congr 1
          field_simp
      · rw [C90_combined_F na' nb', C90_combined_F na nb, hv, hd]
        by_cases h0 : sumOfFiveVariances (errDiffs a b) = 0
        · simp [h0]
        · rw [if_neg (by positivity), if_neg h0]
          congr 1
          rw [List.map_map]
          have : ((fun x : ℝ => x ^ 2) ∘ fun x => c * x) = fun x => c ^ 2 * x ^ 2 := by
            funext x; simp only [Function.comp]; ring
          rw [this, List.sum_map_mul_left]
          field_simp
    · have h10' : a'.numberOfExperiments ≠ 10 := by rw [ha.count]; exact h10
      obtain ⟨e1, e2, e3⟩ := C89_not_ten (b := b) h10
      obtain ⟨f1, f2, f3⟩ := C89_not_ten (b := b') h10'
      exact ⟨hp, by rw [e3, f3], by rw [e2, f2], by rw [e1, f1], hs⟩
  · have hn' : a'.numberOfExperiments ≠ b'.numberOfExperiments := by rw [ha.count, hb.count]; exact hn
    obtain ⟨e1, e2, e3, e4, e5⟩ := C89_sizes_differ hn
    obtain ⟨f1, f2, f3, f4, f5⟩ := C89_sizes_differ hn'
    exact ⟨by rw [e4, f4], by rw [e3, f3], by rw [e2, f2], by rw [e1, f1], by rw [e5, f5]⟩

/-- **C195** for the decisions: every test with every distribution function of the library gives the same `p`-value -/
theorem C195_results {c k : ℝ} (hc : 0 < c) {a b a' b' : ExpPerf ℝ} (ha : InUnits c k a a') (hb : InUnits c k b b')
    (tDist : ℝ → Int → ℝ) (fDist : ℝ → Nat → Nat → ℝ) :
    comparePairedt tDist a' b' = comparePairedt tDist a b ∧
    compare5x2t tDist paired5x2t a' b' = compare5x2t tDist paired5x2t a b ∧
    compare5x2t tDist combined5x2t a' b' = compare5x2t tDist combined5x2t a b ∧
    compare5x2f fDist a' b' = compare5x2f fDist a b := by
  obtain ⟨h1, h2, h3, h4, _⟩ := C195_units hc ha hb
  refine ⟨?_, ?_, ?_, ?_⟩
  · unfold comparePairedt; rw [h1, ha.count]
  · unfold compare5x2t; rw [h2, ha.count]
  · unfold compare5x2t; rw [h3, ha.count]
  · unfold compare5x2f; rw [h4, ha.count]

/-! ### the hypotheses can be met -/

example : SameFolds (F := XR) ⟨[.plain (.fin 1), .plain (.fin 2), .plain (.fin 3)], false, false⟩
    ⟨[.plain (.fin 5), .plain (.fin 1), .plain (.fin 0)], false, false⟩
    ⟨[.plain (.fin 3), .plain (.fin 1), .plain (.fin 2)], false, false⟩
    ⟨[.plain (.fin 0), .plain (.fin 5), .plain (.fin 1)], false, false⟩ := by
  refine ⟨rfl, rfl, ?_⟩
  decide +kernel

/-- two repetitions change places, and their folds too -/
example : KeepsRepetitions (Equiv.swap 2 5 * Equiv.swap 3 4) := by unfold KeepsRepetitions; decide

/-- fractions and per cent -/
example : InUnits 100 0 (tenResults [1 / 2, 1 / 4]) (tenResults [50, 25]) := by
  simp [InUnits, tenResults, Perf.getErrorRate]; norm_num

end Verif
