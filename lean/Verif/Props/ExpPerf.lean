import Verif.Props.Performance

/-! # Properties C38–C43: performances of experiments, testing a model -/

set_option linter.unusedSectionVars false

namespace Verif
open Dbl

/-- The experiment object after a sequence of `add` calls. -/
def afterAdds {F : Type} [Dbl F] (h : List (Perf F)) : ExpPerf F :=
  h.foldl (fun e p => e.add p) ExpPerf.new

section general
variable {F : Type} [Dbl F]

@[simp] theorem errorRate_plain (e : F) : (Perf.plain e).getErrorRate = e := rfl
@[simp] theorem errorRate_class (a e : F) : (Perf.classification a e).getErrorRate = e := rfl
@[simp] theorem accuracy_class (a e : F) : (Perf.classification a e).getAccuracy = .ok a := rfl

theorem afterAdds_concat (h : List (Perf F)) (p : Perf F) :
    afterAdds (h ++ [p]) = (afterAdds h).add p := by
  simp [afterAdds]

theorem afterAdds_results (h : List (Perf F)) : (afterAdds h).results = h := by
  induction h using List.reverseRec with
  | nil => rfl
  | append_singleton h p ih => rw [afterAdds_concat]; simp [ExpPerf.add, ih]

/-! ## C39 -/

/-- **C39.** Results are kept in order; outside the range the accessors throw. -/
theorem C39_recorded (h : List (Perf F)) :
    (afterAdds h).numberOfExperiments = h.length ∧
    (∀ i (hi : i < h.length), (afterAdds h).getErrorRate i = .ok h[i].getErrorRate) ∧
    (∀ i, h.length ≤ i → (afterAdds h).getErrorRate i = .error (.throw "out_of_range") ∧
      (afterAdds h).getAccuracy i = .error (.throw "out_of_range")) := by
  have hr := afterAdds_results h
  refine ⟨by simp [ExpPerf.numberOfExperiments, hr], ?_, ?_⟩
  · intro i hi
    simp [ExpPerf.getErrorRate, hr, atR, hi]
  · intro i hi
    simp [ExpPerf.getErrorRate, ExpPerf.getAccuracy, hr, atR, hi]

/-- **C39.** `getAccuracy(i)` is the accuracy of a classification result and an exception for
any other. -/
theorem C39_accuracy (h : List (Perf F)) (i : Nat) :
    (∀ a e, h[i]? = some (.classification a e) → (afterAdds h).getAccuracy i = .ok a) ∧
    (∀ a e c, h[i]? = some (.detailed a e c) → (afterAdds h).getAccuracy i = .ok a) ∧
    (∀ e, h[i]? = some (.plain e) → (afterAdds h).getAccuracy i =
      .error (.throw "ClassificationAlgorithmExpectedException")) := by
  have hr := afterAdds_results h
  refine ⟨?_, ?_, ?_⟩
  · intro a e hi; simp [ExpPerf.getAccuracy, hr, atR, hi, Perf.isClassification, Perf.getAccuracy]
  · intro a e c hi; simp [ExpPerf.getAccuracy, hr, atR, hi, Perf.isClassification, Perf.getAccuracy]
  · intro e hi; simp [ExpPerf.getAccuracy, hr, atR, hi, Perf.isClassification]

example : (afterAdds [(.plain (.fin 1) : Perf XR), Perf.ofAccuracy (.fin (1/2))]).getAccuracy 1 =
    .ok (.fin (1/2)) := by decide +kernel

/-! ## C41 -/

theorem afterAdds_flags (h : List (Perf F)) (p : Perf F) (hp : h.getLast? = some p) :
    (afterAdds h).classification = p.isClassification ∧
    (afterAdds h).containsDetails = p.containsDetails := by
  have hne : h ≠ [] := by rintro rfl; simp at hp
  obtain ⟨h', q, rfl⟩ : ∃ h' q, h = h' ++ [q] := ⟨h.dropLast, h.getLast hne,
    (List.dropLast_append_getLast hne).symm⟩
  rw [List.getLast?_append] at hp
  simp at hp
  subst hp
  rw [afterAdds_concat]
  exact ⟨rfl, rfl⟩

/-- **C41 refuted.** With a plain result before a classification result the summaries
reinterpret memory. -/
theorem C41_refuted : ∃ h : List (Perf XR),
    (∃ p ∈ h, p.isClassification = false) ∧
    (afterAdds h).meanClassificationPerformance = .error (.ub "cast to ClassificationPerformance") :=
  ⟨[.plain (.fin 1), Perf.ofAccuracy (.fin 1)], ⟨.plain (.fin 1), by simp, rfl⟩, by decide +kernel⟩

/-- **C41 refuted.** The same for detailed summaries. -/
theorem C41_detailed_refuted : ∃ h : List (Perf XR),
    (∃ p ∈ h, p.containsDetails = false) ∧
    (afterAdds h).meanDetailedPerformance =
      .error (.ub "cast to DetailedClassificationPerformance") :=
  ⟨[Perf.ofAccuracy (.fin 1), .detailed (.fin 1) (.fin 0) ⟨[], []⟩], ⟨Perf.ofAccuracy (.fin 1), by simp, rfl⟩,
    by decide +kernel⟩

/-- **C41 refuted.** An experiment read from a file holds plain results only, yet claims to be
a classification experiment: its mean accuracy is undefined behaviour (its detailed summary is the null pointer, as
it should be). -/
theorem C41_file_refuted (stod : String → Res F) (content : List Char) (e : ExpPerf F)
    (h : ExpPerf.ofFile stod content = .ok e) :
    (∀ p ∈ e.results, p.isClassification = false) ∧ e.results ≠ [] ∧
    e.meanClassificationPerformance = .error (.ub "cast to ClassificationPerformance") ∧
    e.meanDetailedPerformance = .ok none := by
  unfold ExpPerf.ofFile at h
  have key : ∀ (ls : List String) (r0 r : List (Perf F)), (∀ p ∈ r0, ∃ v, p = .plain v) →
      ls.foldlM (fun (rs : List (Perf F)) l => do
        let v ← stod l
        (pure (rs ++ [Perf.plain v]) : Res (List (Perf F)))) r0 = .ok r →
      (∀ p ∈ r, ∃ v, p = .plain v) ∧ r.length = r0.length + ls.length := by
    intro ls
    induction ls with
    | nil => intro r0 r h0 h; cases h; exact ⟨h0, by simp⟩
    | cons l ls ih =>
      intro r0 r h0 h
      rw [List.foldlM_cons] at h
      cases h1 : stod l with
      | error e => rw [h1] at h; cases h
      | ok v =>
        rw [h1] at h
        obtain ⟨a, b⟩ := ih (r0 ++ [Perf.plain v]) r (by
          intro p hp
          rw [List.mem_append, List.mem_singleton] at hp
          rcases hp with hp | rfl
          · exact h0 p hp
          · exact ⟨v, rfl⟩) h
        refine ⟨a, ?_⟩
        simp at b ⊢; omega
  cases h1 : ((splitLines content []).1 ++ [(splitLines content []).2]).foldlM
      (fun (rs : List (Perf F)) l => do
        let v ← stod l
        (pure (rs ++ [Perf.plain v]) : Res (List (Perf F)))) [] with
  | error e => simp only at h; rw [h1] at h; cases h
  | ok r =>
    simp only at h
    rw [h1] at h
    cases h
    obtain ⟨a, b⟩ := key _ [] r (by simp) h1
    have hne : r ≠ [] := by intro e; subst e; simp at b
    refine ⟨?_, hne, ?_, by simp [ExpPerf.meanDetailedPerformance]⟩
    · intro p hp; obtain ⟨v, rfl⟩ := a p hp; rfl
    · unfold ExpPerf.meanClassificationPerformance
      simp only [hne, false_or, Bool.true_eq_false, if_false]
      unfold ExpPerf.sumAccuracy
      cases r with
      | nil => exact absurd rfl hne
      | cons p r =>
        obtain ⟨v, rfl⟩ := a p (by simp)
        rfl

theorem sumAccuracy_ok {h : List (Perf F)} (hall : ∀ p ∈ h, p.isClassification = true) (s : F) :
    ∃ t : F, h.foldlM (fun (s : F) p => do
      let a ← p.getAccuracy
      (pure (s +. a) : Res F)) s = .ok t := by
  induction h generalizing s with
  | nil => exact ⟨s, rfl⟩
  | cons p h ih =>
    have hp := hall p (by simp)
    cases p with
    | plain e => simp [Perf.isClassification] at hp
    | classification a e => exact ih (fun q hq => hall q (by simp [hq])) _
    | detailed a e c => exact ih (fun q hq => hall q (by simp [hq])) _

/-- **C41 (partial).** The summaries look at the last result only: they return null when it is
not of the required kind, and are defined when all results are of that kind. -/
theorem C41_partial (h : List (Perf F)) :
    (∀ p, h.getLast? = some p → p.isClassification = false →
      (afterAdds h).meanClassificationPerformance = .ok none ∧
      (afterAdds h).standardDeviationClassificationPerformance = .ok none) ∧
    (∀ p, h.getLast? = some p → p.containsDetails = false →
      (afterAdds h).meanDetailedPerformance = .ok none) ∧
    (h ≠ [] → (∀ p ∈ h, p.isClassification = true) →
      ∃ q, (afterAdds h).meanClassificationPerformance = .ok (some q)) ∧
    (h ≠ [] → (∀ p ∈ h, p.containsDetails = true) →
      ∃ q, (afterAdds h).meanDetailedPerformance = .ok (some q)) ∧
    (h = [] → (afterAdds h).meanClassificationPerformance = .ok none ∧
      (afterAdds h).meanDetailedPerformance = .ok none ∧
      (afterAdds h).standardDeviationClassificationPerformance = .ok none) := by
  have hr := afterAdds_results h
  refine ⟨?_, ?_, ?_, ?_, ?_⟩
  · intro p hp hc
    have := (afterAdds_flags h p hp).1
    simp [ExpPerf.meanClassificationPerformance, ExpPerf.standardDeviationClassificationPerformance,
      this, hc]
  · intro p hp hc
    have := (afterAdds_flags h p hp).2
    simp [ExpPerf.meanDetailedPerformance, this, hc]
  · intro hne hall
    have hl := afterAdds_flags h (h.getLast hne) (List.getLast?_eq_some_getLast hne)
    have hc := hall _ (List.getLast_mem hne)
    obtain ⟨t, ht⟩ := sumAccuracy_ok hall (Dbl.zero : F)
    refine ⟨Perf.ofAccuracy (t /. Dbl.ofNat h.length), ?_⟩
    unfold ExpPerf.meanClassificationPerformance ExpPerf.sumAccuracy
    rw [hr, hl.1, hc]
    simp only [hne, Bool.true_eq_false, or_self, if_false]
    rw [ht]; rfl
  · intro hne hall
    have hl := afterAdds_flags h (h.getLast hne) (List.getLast?_eq_some_getLast hne)
    have hc := hall _ (List.getLast_mem hne)
    unfold ExpPerf.meanDetailedPerformance
    rw [hr, hl.2, hc]
    simp only [hne, Bool.true_eq_false, or_self, if_false]
    cases h with
    | nil => exact absurd rfl hne
    | cons p h =>
      have hp := hall p (by simp)
      cases p with
      | plain e => simp [Perf.containsDetails] at hp
      | classification a e => simp [Perf.containsDetails] at hp
      | detailed a e c =>
        have : ∀ (h : List (Perf F)) (c : ConfMat), (∀ p ∈ h, p.containsDetails = true) →
            ∃ d, h.foldlM (fun (c : ConfMat) p => do
              let d ← p.getConfusionMatrix
              (pure (c.addConfusionMatrix d) : Res ConfMat)) c = .ok d := by
          intro h
          induction h with
          | nil => intro c _; exact ⟨c, rfl⟩
          | cons q h ih =>
            intro c hall
            have hq := hall q (by simp)
            cases q with
            | plain e => simp [Perf.containsDetails] at hq
            | classification a e => simp [Perf.containsDetails] at hq
            | detailed a e c' => exact ih _ (fun q hq => hall q (by simp [hq]))
        obtain ⟨d, hd⟩ := this h c (fun q hq => hall q (by simp [hq]))
        refine ⟨Perf.ofConfusion d, ?_⟩
        simp only [atR_cons_zero, res_bind_ok, Perf.getConfusionMatrix, List.drop_succ_cons, List.drop_zero] at hd ⊢
        rw [hd]; rfl
  · rintro rfl
    exact ⟨rfl, rfl, rfl⟩

/-! ## C42 -/

/-- mean accuracy as seen through the API -/
def MeanAccuracy (e : ExpPerf F) (a : F) : Prop :=
  ∃ p, e.meanClassificationPerformance = .ok (some p) ∧ p.getAccuracy = .ok a

theorem isBetter_eq {e f : ExpPerf F} {a b : F} (ha : MeanAccuracy e a) (hb : MeanAccuracy f b) :
    e.isBetter f = .ok (b <. a) := by
  obtain ⟨p, hp, hpa⟩ := ha
  obtain ⟨q, hq, hqb⟩ := hb
  simp [ExpPerf.isBetter, hp, hq, hpa, hqb]

/-- Every non-empty experiment of classification results has a mean accuracy. -/
theorem meanAccuracy_exists (h : List (Perf F)) (hne : h ≠ [])
    (hall : ∀ p ∈ h, p.isClassification = true) : ∃ a, MeanAccuracy (afterAdds h) a := by
  have hl := afterAdds_flags h (h.getLast hne) (List.getLast?_eq_some_getLast hne)
  have hc := hall _ (List.getLast_mem hne)
  obtain ⟨t, ht⟩ := sumAccuracy_ok hall (Dbl.zero : F)
  refine ⟨t /. Dbl.ofNat h.length, Perf.ofAccuracy (t /. Dbl.ofNat h.length), ?_, rfl⟩
  unfold ExpPerf.meanClassificationPerformance ExpPerf.sumAccuracy
  rw [afterAdds_results, hl.1, hc]
  simp only [hne, Bool.true_eq_false, or_self, if_false]
  rw [ht]; rfl

/-- **C42.** `isBetter` is a strict order on experiments (in any arithmetic with IEEE order
laws), and without NaN two experiments are equally good exactly when their mean accuracies
are equal. -/
theorem C42_strict_order [LawfulOrd F] (e f g : ExpPerf F) (a b c : F) (ha : MeanAccuracy e a)
    (hb : MeanAccuracy f b) (hc : MeanAccuracy g c) :
    e.isBetter e = .ok false ∧
    (e.isBetter f = .ok true → f.isBetter e = .ok false) ∧
    (e.isBetter f = .ok true → f.isBetter g = .ok true → e.isBetter g = .ok true) ∧
    (Dbl.Ord a → Dbl.Ord b →
      ((e.isBetter f = .ok false ∧ f.isBetter e = .ok false) ↔ (a ==. b) = true)) := by
  rw [isBetter_eq ha ha, isBetter_eq ha hb, isBetter_eq hb ha, isBetter_eq hb hc, isBetter_eq ha hc]
  simp only [Except.ok.injEq]
  have hlt := LawfulOrd.lt_iff (F := F)
  refine ⟨?_, ?_, ?_, ?_⟩
  · rw [← Bool.not_eq_true]; intro h; rw [hlt] at h; exact h.2 h.1
  · intro h; rw [← Bool.not_eq_true]; intro h'; rw [hlt] at h h'; exact h.2 h'.1
  · intro h h'
    rw [hlt] at h h' ⊢
    refine ⟨LawfulOrd.le_trans _ _ _ h'.1 h.1, ?_⟩
    intro h''
    exact h.2 (LawfulOrd.le_trans _ _ _ h'' h'.1)
  · intro oa ob
    rw [LawfulOrd.eq_iff, ← Bool.not_eq_true, ← Bool.not_eq_true, hlt, hlt]
    constructor
    · rintro ⟨h1, h2⟩
      rcases LawfulOrd.total a b oa ob with h | h
      · refine ⟨h, ?_⟩
        by_contra hn; exact h2 ⟨h, hn⟩
      · refine ⟨?_, h⟩
        by_contra hn; exact h1 ⟨h, hn⟩
    · rintro ⟨h1, h2⟩
      exact ⟨fun h => h.2 h1, fun h => h.2 h2⟩

example : MeanAccuracy (afterAdds [(Perf.ofAccuracy (.fin 1) : Perf XR), Perf.ofAccuracy (.fin 0)])
    (.fin (1 / 2)) := ⟨Perf.ofAccuracy (.fin (1/2)), by decide +kernel, rfl⟩

end general

/-! ## C38 -/

/-- **C38.** Error rate and accuracy of a performance built from an accuracy, of one built from
a confusion matrix, and of the mean classification performance add up to 1. -/
theorem C38_complementary :
    (∀ a : ℝ, (Perf.ofAccuracy a).getErrorRate + a = 1 ∧ (Perf.ofAccuracy a).getAccuracy = .ok a) ∧
    (∀ c : ConfMat, (Perf.ofConfusion c : Perf ℝ).getErrorRate + c.getAccuracy = 1 ∧
      (Perf.ofConfusion c : Perf ℝ).getAccuracy = .ok c.getAccuracy) ∧
    (∀ (e : ExpPerf ℝ) (p : Perf ℝ), e.meanClassificationPerformance = .ok (some p) →
      ∃ a, p.getAccuracy = .ok a ∧ p.getErrorRate + a = 1) ∧
    (∀ (e : ExpPerf ℝ) (p : Perf ℝ), e.meanDetailedPerformance = .ok (some p) →
      ∃ a, p.getAccuracy = .ok a ∧ p.getErrorRate + a = 1) := by
  refine ⟨?_, ?_, ?_, ?_⟩
  · intro a; simp [Perf.ofAccuracy, Perf.getErrorRate, Perf.getAccuracy]
  · intro c; simp [Perf.ofConfusion, Perf.getErrorRate, Perf.getAccuracy]
  · intro e p h
    unfold ExpPerf.meanClassificationPerformance at h
    split at h
    · cases h
    · cases hs : e.sumAccuracy with
      | error x => rw [hs] at h; cases h
      | ok s =>
        rw [hs] at h; cases h
        exact ⟨_, rfl, by simp [Perf.ofAccuracy, Perf.getErrorRate]⟩
  · intro e p h
    unfold ExpPerf.meanDetailedPerformance at h
    split at h
    · cases h
    · cases h1 : atR e.results 0 with
      | error x => rw [h1] at h; cases h
      | ok r0 =>
        rw [h1] at h
        simp only [res_bind_ok] at h
        cases h2 : r0.getConfusionMatrix with
        | error x => rw [h2] at h; cases h
        | ok c0 =>
          rw [h2] at h
          simp only [res_bind_ok] at h
          cases h3 : (e.results.drop 1).foldlM (fun (c : ConfMat) p => do
              let d ← p.getConfusionMatrix
              (pure (c.addConfusionMatrix d) : Res ConfMat)) c0 with
          | error x => rw [h3] at h; cases h
          | ok d =>
            rw [h3] at h; cases h
            exact ⟨_, rfl, by simp [Perf.ofConfusion, Perf.getErrorRate]⟩

/-! ## C40 -/

theorem errorSum_real (h : List (Perf ℝ)) (s : ℝ) :
    h.foldl (fun (s : ℝ) p => s +. p.getErrorRate) s = s + (h.map Perf.getErrorRate).sum := by
  induction h generalizing s with
  | nil => simp
  | cons p h ih => rw [List.foldl_cons, ih]; simp; ring

/-- **C40.** Mean and sample standard deviation of the error rates. -/
theorem C40_mean_and_deviation (h : List (Perf ℝ)) :
    (afterAdds h).meanPerformance = .plain (mean (h.map Perf.getErrorRate)) ∧
    (2 ≤ h.length → (afterAdds h).standardDeviationPerformance =
      .plain (sampleSD (h.map Perf.getErrorRate))) := by
  have hr := afterAdds_results h
  have hmean : (afterAdds h).meanPerformance = .plain (mean (h.map Perf.getErrorRate)) := by
    unfold ExpPerf.meanPerformance
    rw [hr, errorSum_real]
    simp [mean]
  refine ⟨hmean, ?_⟩
  intro hn
  unfold ExpPerf.standardDeviationPerformance ExpPerf.sizeMinusOne
  rw [hmean, hr, if_neg (by omega)]
  simp only [errorRate_plain]
  congr 1
  have key : ∀ (l : List (Perf ℝ)) (s m : ℝ),
      l.foldl (fun (s : ℝ) p => s +. Dbl.pow (p.getErrorRate -. m) 2) s =
        s + (l.map (fun p => (p.getErrorRate - m) ^ 2)).sum := by
    intro l
    induction l with
    | nil => intro s m; simp
    | cons p l ih => intro s m; rw [List.foldl_cons, ih]; simp [zpow_ofNat]; ring
  rw [key]
  simp only [sampleSD, sampleVar, sqrt_real, div_real, zero_real, zero_add, List.map_map,
    List.length_map]
  rw [ofNat_real, Nat.cast_sub (by omega), Nat.cast_one]
  rfl

theorem mean_perm {a b : List ℝ} (h : a.Perm b) : mean a = mean b := by
  unfold mean; rw [h.sum_eq, h.length_eq]

theorem sampleSD_perm {a b : List ℝ} (h : a.Perm b) : sampleSD a = sampleSD b := by
  unfold sampleSD sampleVar
  rw [mean_perm h, h.length_eq, (h.map _).sum_eq]

/-- **C40.** Neither depends on the order in which results were added. -/
theorem C40_order_independent (h h' : List (Perf ℝ)) (hp : h.Perm h') :
    (afterAdds h).meanPerformance = (afterAdds h').meanPerformance ∧
    (2 ≤ h.length → (afterAdds h).standardDeviationPerformance =
      (afterAdds h').standardDeviationPerformance) := by
  obtain ⟨a1, a2⟩ := C40_mean_and_deviation h
  obtain ⟨b1, b2⟩ := C40_mean_and_deviation h'
  refine ⟨by rw [a1, b1, mean_perm (hp.map _)], ?_⟩
  intro hn
  rw [a2 hn, b2 (by rw [← hp.length_eq]; exact hn), sampleSD_perm (hp.map _)]

/-- **C40.** The classification versions: mean accuracy, and deviations of accuracy and error
rate around their own means (the error mean being 1 minus the mean accuracy). -/
theorem C40_classification (h : List (Perf ℝ)) (hne : h ≠ []) (acc : Perf ℝ → ℝ)
    (hall : ∀ p ∈ h, p.getAccuracy = .ok (acc p) ∧ p.getErrorRate = 1 - acc p) :
    (afterAdds h).meanClassificationPerformance =
      .ok (some (.classification (mean (h.map acc)) (1 - mean (h.map acc)))) ∧
    (2 ≤ h.length → (afterAdds h).standardDeviationClassificationPerformance =
      .ok (some (.classification (sampleSD (h.map acc)) (sampleSD (h.map acc))))) := by
  have hr := afterAdds_results h
  have hcls : ∀ p ∈ h, p.isClassification = true := by
    intro p hp
    have := (hall p hp).1
    cases p with
    | plain e => simp [Perf.getAccuracy] at this
    | classification a e => rfl
    | detailed a e c => rfl
  have hl := afterAdds_flags h (h.getLast hne) (List.getLast?_eq_some_getLast hne)
  have hflag : (afterAdds h).classification = true := by
    rw [hl.1]; exact hcls _ (List.getLast_mem hne)
  have hsum : (afterAdds h).sumAccuracy = .ok (h.map acc).sum := by
    unfold ExpPerf.sumAccuracy
    rw [hr, foldlM_ok (g := fun s p => s +. acc p)]
    · have : ∀ (l : List (Perf ℝ)) (s : ℝ), l.foldl (fun s p => s +. acc p) s = s + (l.map acc).sum := by
        intro l
        induction l with
        | nil => simp
        | cons p l ih => intro s; rw [List.foldl_cons, ih]; simp; ring
      rw [this]; simp
    · intro p hp s; rw [(hall p hp).1]; rfl
  have hmean : (afterAdds h).meanClassificationPerformance =
      .ok (some (.classification (mean (h.map acc)) (1 - mean (h.map acc)))) := by
    unfold ExpPerf.meanClassificationPerformance
    rw [hr, hflag, hsum]
    simp [hne, Perf.ofAccuracy, mean]
  refine ⟨hmean, ?_⟩
  intro hn
  unfold ExpPerf.standardDeviationClassificationPerformance
  rw [hmean, hr, hflag]
  simp only [hne, Bool.true_eq_false, or_self, if_false, res_bind_ok, accuracy_class, errorRate_class]
  rw [foldlM_ok (g := fun (s : ℝ × ℝ) p => (s.1 + (acc p - mean (h.map acc)) ^ 2,
    s.2 + (acc p - mean (h.map acc)) ^ 2))]
  · have : ∀ (l : List (Perf ℝ)) (s t m : ℝ), l.foldl (fun (s : ℝ × ℝ) p =>
        (s.1 + (acc p - m) ^ 2, s.2 + (acc p - m) ^ 2)) (s, t) =
        (s + ((l.map acc).map (fun v => (v - m) ^ 2)).sum, t + ((l.map acc).map (fun v => (v - m) ^ 2)).sum) := by
      intro l
      induction l with
      | nil => simp
      | cons p l ih => intro s t m; rw [List.foldl_cons, ih]; simp; constructor <;> ring
    rw [this]
    simp only [res_bind_ok, res_pure, zero_real, zero_add, sqrt_real, div_real]
    have e : (Dbl.ofNat (h.length - 1) : ℝ) = ((h.map acc).length : ℝ) - 1 := by
      rw [ofNat_real, List.length_map, Nat.cast_sub (by omega), Nat.cast_one]
    rw [e]
    rfl
  · intro p hp s
    rw [(hall p hp).1, (hall p hp).2]
    simp only [res_bind_ok, res_pure, add_real, sub_real, Except.ok.injEq, Prod.mk.injEq, pow_real]
    constructor
    · rw [zpow_ofNat]
    · rw [zpow_ofNat]; ring_nf

/-- **C40.** Too few results: with none at all the mean is not a number and the deviation is zero;
with a single one the deviation is not a number. -/
theorem C40_too_few (p : Perf XR) (q : ℚ) (hp : p.getErrorRate = .fin q) :
    (afterAdds ([] : List (Perf XR))).meanPerformance = .plain .nan ∧
    (afterAdds ([] : List (Perf XR))).standardDeviationPerformance = .plain (.fin 0) ∧
    (afterAdds [p]).standardDeviationPerformance = .plain .nan := by
  refine ⟨rfl, ?_, ?_⟩
  · simp only [afterAdds, List.foldl_nil, ExpPerf.standardDeviationPerformance, ExpPerf.sizeMinusOne,
      ExpPerf.new, List.length_nil, if_true]
    congr 1
    show XR.sqrt (XR.div (.fin ((0 : Int) : ℚ)) (.fin (((2 ^ 64 - 1 : Nat) : Int) : ℚ))) = _
    rw [XR.div, if_neg (by norm_num)]
    have e : List.find? (fun x => x * x == 1) (List.range 2) = some 1 := by decide
    norm_num [XR.sqrt, e]
  · have hr : (afterAdds [p]).results = [p] := afterAdds_results [p]
    unfold ExpPerf.standardDeviationPerformance ExpPerf.sizeMinusOne ExpPerf.meanPerformance
    rw [hr]
    simp only [List.foldl_cons, List.foldl_nil, hp, List.length_cons, List.length_nil, errorRate_plain]
    congr 1
    show XR.sqrt (XR.div (XR.add (.fin ((0 : Int) : ℚ)) (XR.pow (XR.add (.fin q) (XR.neg (XR.div
      (XR.add (.fin ((0 : Int) : ℚ)) (.fin q)) (.fin (((0 + 1 : Nat) : Int) : ℚ))))) 2)) (.fin (((0 + 1 - 1 : Nat) : Int) : ℚ))) = _
    simp [XR.add, XR.div, XR.neg, XR.pow, XR.infSign, XR.sqrt]

example : (Perf.ofAccuracy (F := XR) (.fin (3/4))).getErrorRate = .fin (1/4) := by
  simp [Perf.ofAccuracy, Perf.getErrorRate, Dbl.ofInt, Dbl.sub, XR.add, XR.neg]; norm_num

/-! ## C43 -/

/-- **C43.** Testing a classifier: the reported accuracy is the fraction of test instances
whose predicted label is the actual one, and the classification pairs are recorded in the
matrix. -/
theorem C43_test (predict : Inst ℝ → Res String) (p : Inst ℝ → String) (t : IList ℝ)
    (hp : ∀ x ∈ t, predict x = .ok (p x)) :
    modelTest predict t = .ok (.detailed
      ((t.countP (fun x => x.label == p x) : ℝ) / t.length)
      (1 - (t.countP (fun x => x.label == p x) : ℝ) / t.length)
      (afterHistory t.getUnionOfPossibleClassLabels (t.map (fun x => (x.label, p x))))) := by
  unfold modelTest
  rw [foldlM_ok (g := fun (c : ConfMat) x => c.classify x.label (p x))]
  · simp only [res_bind_ok, res_pure]
    have e : t.foldl (fun (c : ConfMat) x => c.classify x.label (p x))
        (ConfMat.new t.getUnionOfPossibleClassLabels) =
        afterHistory t.getUnionOfPossibleClassLabels (t.map (fun x => (x.label, p x))) := by
      unfold afterHistory; rw [List.foldl_map]
    rw [e]
    unfold Perf.ofConfusion
    rw [C35_accuracy]
    simp only [nCorrect, List.countP_map, List.length_map, sub_real, ofInt_real, Int.cast_one]
    rfl
  · intro x hx s; rw [hp x hx]; rfl

/-- **C43.** `ValidatedModel::testClassifier` reports the same accuracy. -/
theorem C43_testClassifier (predict : Inst ℝ → Res String) (p : Inst ℝ → String) (t : IList ℝ)
    (hp : ∀ x ∈ t, predict x = .ok (p x)) :
    testClassifier predict t = .ok (.classification
      ((t.countP (fun x => x.label == p x) : ℝ) / t.length)
      (1 - (t.countP (fun x => x.label == p x) : ℝ) / t.length)) := by
  unfold testClassifier
  rw [foldlM_ok (g := fun (n : Nat) x => if x.label = p x then n + 1 else n)]
  · have : ∀ (l : IList ℝ) (n : Nat), l.foldl (fun (n : Nat) x => if x.label = p x then n + 1 else n) n =
        n + l.countP (fun x => x.label == p x) := by
      intro l
      induction l with
      | nil => simp
      | cons x l ih =>
        intro n
        rw [List.foldl_cons, ih, List.countP_cons]
        by_cases h : x.label = p x <;> simp [h]; omega
    rw [this]
    simp [Perf.ofAccuracy]
  · intro x hx s; rw [hp x hx]; rfl

/-- **C43.** An exception or undefined prediction on any test instance is not swallowed. -/
theorem C43_errors_propagate {F : Type} [Dbl F] (predict : Inst F → Res String) (t : IList F)
    (x : Inst F) (hx : x ∈ t) (e : Err) (he : predict x = .error e) :
    ∃ e', modelTest predict t = .error e' := by
  unfold modelTest
  have : ∀ (l : IList F) (c : ConfMat), x ∈ l → ∃ e', l.foldlM (fun (c : ConfMat) x => do
      let p ← predict x
      (pure (c.classify x.label p) : Res ConfMat)) c = .error e' := by
    intro l
    induction l with
    | nil => intro c h; simp at h
    | cons y l ih =>
      intro c h
      rw [List.foldlM_cons]
      cases hy : predict y with
      | error e2 => exact ⟨e2, rfl⟩
      | ok p =>
        rcases List.mem_cons.1 h with rfl | h
        · rw [he] at hy; cases hy
        · exact ih _ h
  obtain ⟨e', h'⟩ := this t _ hx
  exact ⟨e', by rw [h']; rfl⟩

/-- **C43.** A single run reports how often the classifier trained on the training set is right on
the test set; if training fails, so does the run. -/
theorem C43_single_run (train : IList ℝ → Res (Inst ℝ → Res String)) (trainSet testSet : IList ℝ) :
    (∀ (predict : Inst ℝ → Res String) (p : Inst ℝ → String), train trainSet = .ok predict →
      (∀ x ∈ testSet, predict x = .ok (p x)) →
      ∃ r c, singleRun train trainSet testSet = .ok (.detailed r (1 - r) c) ∧
        r = (testSet.countP (fun x => x.label == p x) : ℝ) / testSet.length ∧
        c = afterHistory testSet.getUnionOfPossibleClassLabels (testSet.map (fun x => (x.label, p x)))) ∧
    (∀ e, train trainSet = .error e → singleRun train trainSet testSet = .error e) := by
  refine ⟨fun predict p h hp => ⟨_, _, ?_, rfl, rfl⟩, fun e h => ?_⟩
  · unfold singleRun; rw [h]; exact C43_test predict p testSet hp
  · unfold singleRun; rw [h]; rfl

/-- a classifier that remembers the first training label -/
example : ∃ predict : Inst ℝ → Res String,
    (fun l : IList ℝ => do let x ← l.get 0; pure (fun _ => pure x.label)) [⟨"a", [], none⟩] = (.ok predict : Res _) ∧
    ∀ x ∈ ([⟨"a", [], none⟩, ⟨"b", [], none⟩] : IList ℝ), predict x = .ok "a" := ⟨_, rfl, fun _ _ => rfl⟩

example : (modelTest (fun x => .ok x.label) ([⟨"a", [], none⟩, ⟨"b", [], none⟩] : IList XR)) =
    .ok (.detailed (.fin 1) (.fin 0) ⟨[("a", [("a", 1)]), ("b", [("b", 1)])], ["a", "b"]⟩) := by
  decide +kernel

end Verif
