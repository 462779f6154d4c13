import Verif.Spec.Selection
import Verif.Spec.CrossValidation
import Verif.Props.FeatureSelection
import Verif.Props.CrossValidation
import Mathlib.Tactic.IntervalCases

/-! # Property C165: feature selection by experiments -/

namespace Verif
open Dbl Exper FeatSel

section
variable {M F : Type} [Dbl F]

/-- an experiment whose results do not depend on what the object learned before -/
def Stateless (exec : M → IList F → Res (M × ExpPerf F)) : Prop :=
  ∀ m m' data r, exec m data = .ok r → ∃ r', exec m' data = .ok r' ∧ r'.2 = r.2

omit [Dbl F] in
theorem trainAndTest_forgets {L : Learner M F} (hL : Forgets L) (s t r : M × ExpPerf F) (a b : IList F) (hst : s.2 = t.2)
    (h : trainAndTest L s a b = .ok r) : trainAndTest L t a b = .ok r := by
  unfold trainAndTest at h ⊢
  rw [hL t.1 s.1, ← hst]
  exact h

theorem foldlM_rel {α σ : Type} (R : σ → σ → Prop) (f : σ → α → Res σ) (l : List α)
    (hf : ∀ x ∈ l, ∀ s t s', R s t → f s x = .ok s' → ∃ t', f t x = .ok t' ∧ R s' t') (s t s' : σ)
    (h : l.foldlM f s = .ok s') (hR : R s t) : ∃ t', l.foldlM f t = .ok t' ∧ R s' t' := by
  induction l generalizing s t with
  | nil => cases h; exact ⟨t, rfl, hR⟩
  | cons x l ih =>
    rw [List.foldlM_cons, bind_ok_iff] at h
    obtain ⟨s1, h1, h⟩ := h
    obtain ⟨t1, h2, hR1⟩ := hf x (by simp) s t s1 hR h1
    obtain ⟨t2, h3, hR2⟩ := ih (fun x hx => hf x (by simp [hx])) s1 t1 h hR1
    exact ⟨t2, by rw [List.foldlM_cons, h2]; exact h3, hR2⟩

omit [Dbl F] in
theorem runFolds_stateless {L : Learner M F} (hL : Forgets L) (K : Nat) (cv : CrossVal F) (s t r : M × ExpPerf F)
    (h : runFolds L K cv s = .ok r) (hst : s.2 = t.2) : ∃ r', runFolds L K cv t = .ok r' ∧ r.2 = r'.2 :=
  foldlM_rel (fun s t : M × ExpPerf F => s.2 = t.2) _ _
    (by intro x _ s t s' hR h; exact ⟨s', trainAndTest_forgets hL s t s' _ _ hR h, rfl⟩) s t r h hst

omit [Dbl F] in
theorem runFoldsSeparate_stateless {L : Learner M F} (hL : Forgets L) (K : Nat) (cv : CrossVal F) (te : IList F)
    (s t r : M × ExpPerf F) (h : runFoldsSeparate L K cv te s = .ok r) (hst : s.2 = t.2) :
    ∃ r', runFoldsSeparate L K cv te t = .ok r' ∧ r.2 = r'.2 :=
  foldlM_rel (fun s t : M × ExpPerf F => s.2 = t.2) _ _
    (by intro x _ s t s' hR h; exact ⟨s', trainAndTest_forgets hL s t s' _ _ hR h, rfl⟩) s t r h hst

/-- with a classifier that forgets, the results of each kind of experiment do not depend on what it learned before -/
theorem execute_stateless {L : Learner M F} (hL : Forgets L) (rng : Rng) (seed : Int) (run : MultipleRun) :
    Stateless (run.execute L rng seed) := by
  intro m m' data r h
  cases run with
  | kFold K =>
    obtain ⟨r', h1, h2⟩ := runFolds_stateless hL K _ _ (m', ExpPerf.new) r h rfl
    exact ⟨r', h1, h2.symm⟩
  | stratifiedKFold K =>
    simp only [MultipleRun.execute, stratifiedKFoldRun, bind_ok_iff] at h ⊢
    obtain ⟨p, hp, h⟩ := h
    obtain ⟨r', h1, h2⟩ := runFolds_stateless hL K _ _ (m', ExpPerf.new) r h rfl
    exact ⟨r', ⟨p, hp, h1⟩, h2.symm⟩
  | kFoldSeparateTest K =>
    simp only [MultipleRun.execute, kFoldRunSeparateTest, bind_ok_iff] at h ⊢
    obtain ⟨p, hp, a, ha, b, hb, h⟩ := h
    obtain ⟨r', h1, h2⟩ := runFoldsSeparate_stateless hL K _ _ _ (m', ExpPerf.new) r h rfl
    exact ⟨r', ⟨p, hp, a, ha, b, hb, h1⟩, h2.symm⟩
  | stratifiedKFoldSeparateTest K =>
    simp only [MultipleRun.execute, stratifiedKFoldRunSeparateTest, bind_ok_iff] at h ⊢
    obtain ⟨p, hp, a, ha, b, hb, c, hc, h⟩ := h
    obtain ⟨r', h1, h2⟩ := runFoldsSeparate_stateless hL K _ _ _ (m', ExpPerf.new) r h rfl
    exact ⟨r', ⟨p, hp, a, ha, b, hb, c, hc, h1⟩, h2.symm⟩
  | mxKFold R K =>
    obtain ⟨r', h1, h2⟩ := foldlM_rel (fun s t : M × ExpPerf F => s.2 = t.2) _ _
      (fun x _ s t s' hR h => runFolds_stateless hL K _ s t s' h hR) _ (m', ExpPerf.new) r h rfl
    exact ⟨r', h1, h2.symm⟩
  | stratifiedMxKFold R K =>
    obtain ⟨r', h1, h2⟩ := foldlM_rel (fun s t : M × ExpPerf F => s.2 = t.2) _ _
      (fun x _ s t s' hR h => by
        simp only [bind_ok_iff] at h ⊢
        obtain ⟨p, hp, h⟩ := h
        obtain ⟨r', h1, h2⟩ := runFolds_stateless hL K _ s t s' h hR
        exact ⟨r', ⟨p, hp, h1⟩, h2⟩) _ (m', ExpPerf.new) r h rfl
    exact ⟨r', h1, h2.symm⟩
  | mxKFoldSeparateTest R K =>
    simp only [MultipleRun.execute, mxKFoldRunSeparateTest] at h ⊢
    rw [bind_ok_iff] at h
    obtain ⟨p, hp, h⟩ := h
    obtain ⟨r', h1, h2⟩ := foldlM_rel (fun s t : M × ExpPerf F => s.2 = t.2) _ _
      (fun x _ s t s' hR h => by
        simp only [bind_ok_iff] at h ⊢
        obtain ⟨a, ha, b, hb, h⟩ := h
        obtain ⟨r', h1, h2⟩ := runFoldsSeparate_stateless hL K _ _ s t s' h hR
        exact ⟨r', ⟨a, ha, b, hb, h1⟩, h2⟩) _ (m', ExpPerf.new) r h rfl
    exact ⟨r', by rw [bind_ok_iff]; exact ⟨p, hp, h1⟩, h2.symm⟩
  | stratifiedMxKFoldSeparateTest R K =>
    simp only [MultipleRun.execute, stratifiedMxKFoldRunSeparateTest] at h ⊢
    rw [bind_ok_iff] at h
    obtain ⟨p, hp, h⟩ := h
    obtain ⟨r', h1, h2⟩ := foldlM_rel (fun s t : M × ExpPerf F => s.2 = t.2) _ _
      (fun x _ s t s' hR h => by
        simp only [bind_ok_iff] at h ⊢
        obtain ⟨a, ha, b, hb, c, hc, h⟩ := h
        obtain ⟨r', h1, h2⟩ := runFoldsSeparate_stateless hL K _ _ s t s' h hR
        exact ⟨r', ⟨a, ha, b, hb, c, hc, h1⟩, h2⟩) _ (m', ExpPerf.new) r h rfl
    exact ⟨r', by rw [bind_ok_iff]; exact ⟨p, hp, h1⟩, h2.symm⟩
  | bootstrap B =>
    obtain ⟨r', h1, h2⟩ := foldlM_rel (fun s t : M × ExpPerf F => s.2 = t.2) _ _
      (by intro x _ s t s' hR h; exact ⟨s', trainAndTest_forgets hL s t s' _ _ hR h, rfl⟩) _ (m', ExpPerf.new) r h rfl
    exact ⟨r', h1, h2.symm⟩

theorem selectedRun_accuracy {exec : M → IList F → Res (M × ExpPerf F)} (hx : Stateless exec) {ds : DataSet F} {new m : M}
    {s : List Nat} {a : F} (h : SubsetAccuracy exec new ds s a) :
    ∃ m' e, selectedRun exec ds m s = .ok (m', e) ∧ HasAccuracy e a := by
  obtain ⟨d, e, m', h1, h2, h3⟩ := h
  obtain ⟨⟨m'', e'⟩, h4, h5⟩ := hx new m d.instances _ h2
  refine ⟨m'', e', ?_, ?_⟩
  · unfold selectedRun
    rw [h1]; exact h4
  · simp only at h5; rw [h5]; exact h3

theorem oneStep_iff (op : Op) (n : Nat) (s t : List Nat) : t ∈ op.candidates s n ↔ OneStep op n s t := by
  obtain ⟨h1, h2, h3⟩ := C80_candidates s t n
  cases op with
  | fwd => exact h1
  | bwd => exact h2
  | flt => exact h3

end

section
variable {M F : Type} [Dbl F] [LawfulOrd F]

/-- **C165** (part) With a classifier whose training forgets, in every kind of experiment and whatever
the object learned before: when the experiment gives a new classifier (`new`) the mean accuracy `acc s` on each
non-empty selection `s` of the features, the search ends with a selection none of whose
non-empty neighbours in the direction of the search is more accurate. -/
theorem C165_selection_partial (op : Op) (run : MultipleRun) (L : Learner M F) (hL : Forgets L) (rng : Rng) (seed : Int)
    (ds : DataSet F) (new m : M) (initial : List Nat) (hinit : IsFeatureList ds.definition.types.length initial)
    (acc : List Nat → F) (hord : ∀ s, Dbl.Ord (acc s))
    (hacc : ∀ s, s ≠ [] → IsFeatureList ds.definition.types.length s →
      SubsetAccuracy (run.execute L rng seed) new ds s (acc s)) :
    ∃ fuel best, selectFeatures op initial (run.execute L rng seed) ds m fuel = some (.ok best) ∧
      IsFeatureList ds.definition.types.length best ∧
      (initial ≠ [] → (acc initial <=. acc best) = true) ∧
      ∀ t, OneStep op ds.definition.types.length best t → t ≠ [] → (acc t <=. acc best) = true := by
  have hx := execute_stateless hL rng seed run
  have hstate : ∀ (h : List (List Nat)) (m : M), (∀ c ∈ h, c ≠ [] ∧ IsFeatureList ds.definition.types.length c) →
      ∃ m', h.foldlM (fun m c => (selectedRun (run.execute L rng seed) ds m c).map Prod.fst) m = .ok m' := by
    intro h
    induction h with
    | nil => intro m _; exact ⟨m, rfl⟩
    | cons c h ih =>
      intro m hh
      obtain ⟨m', e, h1, _⟩ := selectedRun_accuracy (m := m) hx (hacc c (hh c (by simp)).1 (hh c (by simp)).2)
      obtain ⟨m'', h2⟩ := ih m' (fun c hc => hh c (by simp [hc]))
      refine ⟨m'', ?_⟩
      rw [List.foldlM_cons, h1]
      exact h2
  obtain ⟨fuel, st, h1, h2, h0, _, h4⟩ := C82_local_optimum op hinit (acc := acc) hord
    (run := selectionRunner (run.execute L rng seed) ds m) (by
      intro h s hh hs hv
      obtain ⟨m', h5⟩ := hstate h m hh
      obtain ⟨m'', e, h6, h7⟩ := selectedRun_accuracy (m := m') hx (hacc s hs hv)
      refine ⟨e, ?_, h7⟩
      unfold selectionRunner
      rw [h5]
      simp only [res_bind_ok, h6]
      rfl)
  obtain ⟨_, _, h5, h6⟩ := C83_no_repetition hinit h1
  refine ⟨fuel, st.best, ?_, ?_, ?_, ?_⟩
  · unfold selectFeatures
    rw [h1]; rfl
  · rcases h2 with h2 | h2
    · rw [h2]; exact hinit
    · exact h5 _ h2
  · exact h0
  · intro t ht hne
    exact h4 t ((oneStep_iff _ _ _ _).2 ht) hne

end

/-- inverse of a matrix with one or two rows -/
def inv12 (S : Mat XR) : Mat XR :=
  if S.rows = 1 then inv1 S
  else
    let d := S.e 0 0 *. S.e 1 1 -. S.e 0 1 *. S.e 1 0
    ⟨2, 2, fun i j => if i = j then S.e (1 - i) (1 - j) /. d else Dbl.neg (S.e i j) /. d⟩

/-- two classes; the second feature tells them apart, the first only partly and in the other direction -/
def twoFeatures : DataSet XR :=
  ⟨[⟨"a", [.continuous (.fin 0), .continuous (.fin 10)], none⟩, ⟨"a", [.continuous (.fin 2), .continuous (.fin 11)], none⟩,
    ⟨"b", [.continuous (.fin 3), .continuous (.fin 1)], none⟩, ⟨"b", [.continuous (.fin 6), .continuous (.fin 0)], none⟩,
    ⟨"a", [.continuous (.fin 0), .continuous (.fin 10)], none⟩, ⟨"a", [.continuous (.fin 5), .continuous (.fin 12)], none⟩,
    ⟨"b", [.continuous (.fin 3), .continuous (.fin 1)], none⟩, ⟨"b", [.continuous (.fin 4), .continuous (.fin 0)], none⟩],
   ⟨[.continuous, .continuous], []⟩⟩

/-- mean accuracy of the experiment with a classifier object on some features -/
def measured {M : Type} (exec : M → IList XR → Res (M × ExpPerf XR)) (m : M) (s : List Nat) : Res (Option XR) := do
  let r ← selectedRun exec twoFeatures m s
  let p ← r.2.meanClassificationPerformance
  match p with
  | some p => p.getAccuracy.map some
  | none => pure none

/-- **C165 fails for LDA**: the object keeps what it learned from the first feature, so forward selection stops
with the first feature, with which a new classifier gets 5/8, although it gets everything right with both. -/
theorem C165_refuted :
    selectFeatures .fwd [] ((MultipleRun.kFold 2).execute (ldaLearner inv12) plainRng 0) twoFeatures Lda.new 5 =
      some (.ok [0]) ∧
    measured ((MultipleRun.kFold 2).execute (ldaLearner inv12) plainRng 0) Lda.new [0] = .ok (some (.fin (5 / 8))) ∧
    measured ((MultipleRun.kFold 2).execute (ldaLearner inv12) plainRng 0) Lda.new [0, 1] = .ok (some (.fin 1)) := by
  refine ⟨?_, ?_, ?_⟩ <;> decide +kernel

theorem measured_spec {M : Type} {exec : M → IList XR → Res (M × ExpPerf XR)} {m : M} {s : List Nat} {a : XR}
    (h : measured exec m s = .ok (some a)) : SubsetAccuracy exec m twoFeatures s a := by
  unfold measured selectedRun at h
  simp only [bind_ok_iff] at h
  obtain ⟨⟨m', e⟩, ⟨d, h1, h2⟩, p, h3, h4⟩ := h
  cases p with
  | none => cases h4
  | some p =>
    refine ⟨d, e, m', h1, h2, p, h3, ?_⟩
    cases h5 : p.getAccuracy with
    | error e => simp only [h5] at h4; cases h4
    | ok b => simp only [h5] at h4; cases h4; rfl

/-- the selections of two features -/
theorem two_features {s : List Nat} (h : IsFeatureList 2 s) (hne : s ≠ []) :
    s = [0] ∨ s = [1] ∨ s = [0, 1] ∨ s = [1, 0] := by
  obtain ⟨hnd, hlt⟩ := h
  match s, hne, hnd, hlt with
  | [a], _, _, hlt =>
    have := hlt a (by simp)
    interval_cases a <;> simp
  | [a, b], _, hnd, hlt =>
    have ha := hlt a (by simp)
    have hb := hlt b (by simp)
    interval_cases a <;> interval_cases b <;> simp_all
  | a :: b :: c :: r, _, hnd, hlt =>
    have ha := hlt a (by simp)
    have hb := hlt b (by simp)
    have hc := hlt c (by simp)
    simp only [List.nodup_cons, List.mem_cons, not_or] at hnd
    omega

/-- nearest neighbours on the same data -/
example : ∃ fuel best, selectFeatures .flt [] ((MultipleRun.kFold 2).execute (knnLearner 1 euclidean) plainRng 0) twoFeatures
      ⟨swapA, 3, euclidean⟩ fuel = some (.ok best) ∧ IsFeatureList 2 best ∧
      (([] : List Nat) ≠ [] → ((if ([] : List Nat) = [0] then XR.fin (5 / 8) else .fin 1) <=. (if best = [0] then .fin (5 / 8) else .fin 1)) = true) ∧
      ∀ t, OneStep .flt 2 best t → t ≠ [] →
        ((if t = [0] then XR.fin (5 / 8) else .fin 1) <=. (if best = [0] then .fin (5 / 8) else .fin 1)) = true :=
  C165_selection_partial .flt (.kFold 2) (knnLearner 1 euclidean) (C162_forgetful_partial.2.1 1 euclidean) plainRng 0
    twoFeatures ⟨[], 1, euclidean⟩ ⟨swapA, 3, euclidean⟩ [] ⟨List.nodup_nil, by simp⟩
    (fun s => if s = [0] then .fin (5 / 8) else .fin 1) (fun s => by unfold Dbl.Ord; split <;> decide +kernel) (by
      intro s hne hs
      apply measured_spec
      rcases two_features hs hne with rfl | rfl | rfl | rfl <;> decide +kernel)

/-- what it returns, with the forward search -/
example : selectFeatures .fwd [] ((MultipleRun.kFold 2).execute (knnLearner 1 euclidean) plainRng 0) twoFeatures
    ⟨[], 1, euclidean⟩ 5 = some (.ok [1]) := by decide +kernel

end Verif
