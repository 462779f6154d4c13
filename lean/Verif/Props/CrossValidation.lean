import Verif.Model.Learners
import Verif.Spec.CrossValidation
import Verif.Props.Experiment
import Verif.Props.Retrain
import Verif.Props.TreePrune
import Verif.Props.NetTrain

/-! # Property C162: cross-validation results are those of new classifiers -/

set_option linter.unusedSectionVars false

namespace Verif
open Dbl Exper

variable {M F : Type} [Dbl F]

theorem session_fresh {L : Learner M F} (hL : Forgets L) (new : M) {m m' : M} {fs : List (IList F × IList F)}
    {rs : List (Perf F)} (h : Session L m fs rs m') : FreshResults L new fs rs := by
  induction h with
  | nil => exact .nil
  | cons ht hte _ ih => exact .cons ⟨_, (hL _ _ _).trans ht, hte⟩ ih

/-- **C162** (part) The results of a K-fold run, plain or stratified, with a classifier that forgets
are those of new classifiers, whatever the object learned before the experiment. -/
theorem C162_kfold_partial (L : Learner M F) (hL : Forgets L) (new : M) {rng : Rng} (hr : Rng.Valid rng) {K : Nat} (hK : 0 < K)
    (seed : Int) (m m' : M) (data : IList F) (e : ExpPerf F)
    (h : kFoldRun L rng K seed m data = .ok (m', e) ∨ stratifiedKFoldRun L rng K seed m data = .ok (m', e)) :
    ∃ folds, IsCrossValidation K data folds ∧ FreshResults L new folds e.results := by
  rcases h with h | h
  · obtain ⟨folds, h1, h2, _⟩ := C84_kfold L hr hK seed m m' data e h
    exact ⟨folds, h1, session_fresh hL new h2⟩
  · obtain ⟨folds, h1, h2, _⟩ := C84_stratified L hr hK seed m m' data e h
    exact ⟨folds, h1, session_fresh hL new h2⟩

/-- the results of new classifiers are determined by the pairs of sets -/
theorem FreshResults.unique {L : Learner M F} {new : M} {fs : List (IList F × IList F)} {rs rs' : List (Perf F)}
    (h : FreshResults L new fs rs) (h' : FreshResults L new fs rs') : rs = rs' := by
  induction h generalizing rs' with
  | nil => cases h'; rfl
  | cons h1 _ ih =>
    cases h' with
    | cons h2 hs =>
      obtain ⟨m1, ht1, hr1⟩ := h1
      obtain ⟨m2, ht2, hr2⟩ := h2
      rw [ht1] at ht2
      cases ht2
      rw [hr1] at hr2
      cases hr2
      rw [ih hs]

theorem FreshResults.append {L : Learner M F} {new : M} {fs gs : List (IList F × IList F)} {rs : List (Perf F)}
    (h : FreshResults L new (fs ++ gs) rs) : ∃ r1 r2, rs = r1 ++ r2 ∧ FreshResults L new fs r1 ∧ FreshResults L new gs r2 := by
  induction fs generalizing rs with
  | nil => exact ⟨[], rs, rfl, .nil, h⟩
  | cons f fs ih =>
    cases h with
    | cons h1 h2 =>
      obtain ⟨r1, r2, e, k1, k2⟩ := ih h2
      exact ⟨_ :: r1, r2, by rw [e]; rfl, .cons h1 k1, k2⟩

/-- **C162** (part) Repeating a cross validation with a classifier that forgets gives the results of new
classifiers, and the same ones in each repetition. -/
theorem C162_repeated_partial (L : Learner M F) (hL : Forgets L) (new : M) {rng : Rng} (hr : Rng.Valid rng) {R K : Nat}
    (hR : 0 < R) (hK : 0 < K) (seed : Int) (m m' : M) (data : IList F) (e : ExpPerf F)
    (h : mxKFoldRun L rng R K seed m data = .ok (m', e) ∨ stratifiedMxKFoldRun L rng R K seed m data = .ok (m', e)) :
    ∃ folds rs, IsCrossValidation K data folds ∧ FreshResults L new folds rs ∧ e.results = (List.replicate R rs).flatten := by
  obtain ⟨folds, h1, h2, _⟩ := C86_partial L hr hK seed m m' data e h
  have h3 := session_fresh hL new h2
  have key : ∀ (R : Nat) (es : List (Perf F)), FreshResults L new (List.replicate (R + 1) folds).flatten es →
      ∃ rs, FreshResults L new folds rs ∧ es = (List.replicate (R + 1) rs).flatten := by
    intro R
    induction R with
    | zero =>
      intro es hes
      exact ⟨es, by simpa using hes, by simp⟩
    | succ R ih =>
      intro es hes
      rw [List.replicate_succ, List.flatten_cons] at hes
      obtain ⟨r1, r2, he, k1, k2⟩ := hes.append
      obtain ⟨rs, k3, k4⟩ := ih r2 k2
      have := k1.unique k3
      subst this
      exact ⟨r1, k1, by rw [he, k4, List.replicate_succ (n := R + 1), List.flatten_cons]⟩
  obtain ⟨R, rfl⟩ : ∃ k, R = k + 1 := ⟨R - 1, by omega⟩
  obtain ⟨rs, h4, h5⟩ := key R e.results h3
  exact ⟨folds, rs, h1, h4, h5⟩

/-- **C162** (part) Bootstrap runs with a classifier that forgets. -/
theorem C162_bootstrap_partial (L : Learner M F) (hL : Forgets L) (new : M) (rng : Rng) (B : Nat) (seed : Int) (m m' : M)
    (data : IList F) (e : ExpPerf F) (h : bootstrapRun L rng B seed m data = .ok (m', e)) :
    FreshResults L new ((List.range B).map (fun (i : Nat) => (data.bootstrap (rng.draws ((i : Int) + seed) data.length), data)))
      e.results :=
  session_fresh hL new (C87_bootstrap L rng B seed m m' data e h).1

/-- **C162** (part) These classifiers forget. -/
theorem C162_forgetful_partial :
    Forgets (dummyLearner (F := F)) ∧
    (∀ k dist, Forgets (knnLearner (F := F) k dist)) ∧
    (∀ dist, Forgets (kMeansLearner (F := F) dist)) ∧
    (∀ pruning, Forgets (treeLearner (F := F) pruning)) ∧
    Forgets (stumpLearner (F := F)) ∧
    (∀ param, Forgets (perceptronLearner (F := F) param)) ∧
    (∀ param H act, Forgets (mlpLearner (F := F) param H act)) :=
  ⟨fun _ _ _ => rfl, fun _ _ _ _ _ => rfl, fun _ _ _ _ => rfl, fun _ _ _ _ => rfl, fun _ _ _ => rfl,
   fun _ _ _ _ => rfl, fun _ _ _ _ _ _ => rfl⟩

/-! ## ensembles -/

/-- the trees grown are put after the earlier ones -/
theorem ensembleTrain_append (param : Node.SubsetParam) (draws : Nat → List Nat) (old : List (Node F)) (l : IList F)
    (size : Int) :
    ensembleTrain param draws old l size = (ensembleTrain param draws [] l size).map (old ++ ·) := by
  unfold ensembleTrain
  have key : ∀ (g : Nat → Res (Node F)) (is : List Nat) (a : List (Node F)),
      is.foldlM (fun (forest : List (Node F)) i => g i >>= fun t => pure (forest ++ [t])) (old ++ a) =
      (is.foldlM (fun (forest : List (Node F)) i => g i >>= fun t => pure (forest ++ [t])) a).map (old ++ ·) := by
    intro g is
    induction is with
    | nil => intro a; rfl
    | cons i is ih =>
      intro a
      rw [List.foldlM_cons, List.foldlM_cons]
      cases h : g i with
      | error e => rfl
      | ok t =>
        simp only [res_bind_ok, res_pure]
        rw [List.append_assoc]
        exact ih _
  have := key (fun i => Node.grow param false ((l.bootstrap (draws i)).length + 1) (l.bootstrap (draws i)) Cond.root)
    (List.range size.toNat) []
  rw [List.append_nil] at this
  exact this

/-- **C162** What an ensemble does in an experiment: result `i` is measured with the trees of all
training sets up to the `i`-th, so from the second fold on with trees grown from instances of the
test set. -/
theorem C162_ensemble (param : Node.SubsetParam) (draws : Nat → Nat → List Nat) (size : Int) (forest m' : List (Node F))
    (fs : List (IList F × IList F)) (rs : List (Perf F))
    (h : Session (ensembleLearner param draws size) forest fs rs m') :
    ∃ trees : List (List (Node F)),
      List.Forall₂ (fun f t => ensembleTrain param (draws f.1.length) [] f.1 size = .ok t) fs trees ∧
      m' = forest ++ trees.flatten ∧ rs.length = fs.length ∧
      ∀ (i : Nat) (f : IList F × IList F) (r : Perf F), fs[i]? = some f → rs[i]? = some r →
        modelTest (ensemblePredict (forest ++ (trees.take (i + 1)).flatten)) f.2 = .ok r := by
  induction h with
  | nil m => exact ⟨[], .nil, by simp, rfl, fun i f r h => by simp at h⟩
  | @cons m m1 m2 tr te p rest ps ht hte _ ih =>
    obtain ⟨trees, h1, h2, h3, h4⟩ := ih
    have ht' : ensembleTrain param (draws tr.length) m tr size = .ok m1 := ht
    rw [ensembleTrain_append] at ht'
    cases hn : ensembleTrain param (draws tr.length) [] tr size with
    | error e => rw [hn] at ht'; cases ht'
    | ok t =>
      rw [hn] at ht'
      have hm1 : m1 = m ++ t := by cases ht'; rfl
      refine ⟨t :: trees, .cons hn h1, by rw [h2, hm1]; simp, by simp [h3], ?_⟩
      intro i f r hf hr
      cases i with
      | zero =>
        simp only [List.getElem?_cons_zero, Option.some.injEq] at hf hr
        subst hf; subst hr
        have hte' : modelTest (ensemblePredict m1) te = .ok p := hte
        rw [hm1] at hte'
        simpa using hte'
      | succ i =>
        simp only [List.getElem?_cons_succ] at hf hr
        have := h4 i f r hf hr
        rw [hm1] at this
        simpa [List.append_assoc] using this

/-! ## discriminant analysis and naive Bayes -/

theorem session_keeps {L : Learner M F} {P : M → Prop} (hP : ∀ m l m', L.train m l = .ok m' → P m → P m')
    {m m' : M} {fs : List (IList F × IList F)} {rs : List (Perf F)} (h : Session L m fs rs m') (hm : P m) : P m' := by
  induction h with
  | nil => exact hm
  | cons ht _ _ ih => exact ih (hP _ _ _ ht hm)

/-- the models of a session, one after each training -/
theorem session_prefix {L : Learner M F} {m m' : M} {fs : List (IList F × IList F)} {rs : List (Perf F)}
    (h : Session L m fs rs m') : ∀ (i : Nat) (f : IList F × IList F) (r : Perf F), fs[i]? = some f → rs[i]? = some r →
      ∃ mi, Session L m (fs.take (i + 1)) (rs.take (i + 1)) mi ∧ L.test mi f.2 = .ok r := by
  induction h with
  | nil m => intro i f r h; simp at h
  | @cons m m1 m2 tr te p rest ps ht hte hs ih =>
    intro i f r hf hr
    cases i with
    | zero =>
      simp only [List.getElem?_cons_zero, Option.some.injEq] at hf hr
      subst hf; subst hr
      exact ⟨m1, by simpa using Session.cons ht hte (.nil m1), hte⟩
    | succ i =>
      simp only [List.getElem?_cons_succ] at hf hr
      obtain ⟨mi, h1, h2⟩ := ih i f r hf hr
      exact ⟨mi, by simpa using Session.cons ht hte h1, h2⟩

/-- in a cross validation the first training set consists of the test sets of the other folds -/
theorem first_training_set {α : Type} {K : Nat} {data : List α} {f : List α × List α} {rest : List (List α × List α)}
    (h : IsCrossValidation K data (f :: rest)) : f.1.Perm (rest.map Prod.snd).flatten := by
  have h1 := h.complementary f (by simp)
  have h2 := h.tested_once
  simp only [List.map_cons, List.flatten_cons] at h2
  have h3 : (f.2 ++ f.1).Perm (f.2 ++ (rest.map Prod.snd).flatten) := (List.perm_append_comm.trans h1).trans h2.symm
  exact (List.perm_append_left_iff f.2).1 h3

/-- what holds of the first model trained and is kept by training holds in every test of the run -/
theorem run_keeps {L : Learner M F} {P : M → M → Prop} (hP0 : ∀ m, P m m)
    (hP : ∀ m0 m l m', L.train m l = .ok m' → P m0 m → P m0 m')
    {rng : Rng} (hr : Rng.Valid rng) {K : Nat} (hK : 0 < K) (seed : Int) (m m' : M) (data : IList F) (e : ExpPerf F)
    (h : kFoldRun L rng K seed m data = .ok (m', e) ∨ stratifiedKFoldRun L rng K seed m data = .ok (m', e)) :
    ∃ (f : IList F × IList F) (rest : List (IList F × IList F)) (first : M),
      IsCrossValidation K data (f :: rest) ∧ f.1.Perm (rest.map Prod.snd).flatten ∧ L.train m f.1 = .ok first ∧
      ∀ (i : Nat) (g : IList F × IList F) (r : Perf F), (f :: rest)[i]? = some g → e.results[i]? = some r →
        ∃ mi, P first mi ∧ L.test mi g.2 = .ok r := by
  have hh : ∃ folds, IsCrossValidation K data folds ∧ Session L m folds e.results m' := by
    rcases h with h | h
    · obtain ⟨folds, h1, h2, _⟩ := C84_kfold L hr hK seed m m' data e h
      exact ⟨folds, h1, h2⟩
    · obtain ⟨folds, h1, h2, _⟩ := C84_stratified L hr hK seed m m' data e h
      exact ⟨folds, h1, h2⟩
  obtain ⟨folds, hcv, hs⟩ := hh
  cases folds with
  | nil => have := hcv.number; simp at this; omega
  | cons f rest =>
    generalize hrs : e.results = rs at hs
    cases hs with
    | @cons _ m1 _ tr te p _ ps ht hte hs =>
      refine ⟨(tr, te), rest, m1, hcv, first_training_set hcv, ht, ?_⟩
      intro i g r hg hgr
      cases i with
      | zero =>
        simp only [List.getElem?_cons_zero, Option.some.injEq] at hg hgr
        subst hg; subst hgr
        exact ⟨m1, hP0 m1, hte⟩
      | succ i =>
        simp only [List.getElem?_cons_succ] at hg hgr
        obtain ⟨mi, h1, h2⟩ := session_prefix hs i g r hg hgr
        exact ⟨mi, session_keeps (P := P m1) (fun m l m' ht hp => hP m1 m l m' ht hp) h1 (hP0 m1), h2⟩

/-- **C162** What LDA does in a K-fold run: every fold is tested with the weights learned from the
first training set, which consists of the test instances of the other folds. -/
theorem C162_lda (inverse : Mat F → Mat F) {rng : Rng} (hr : Rng.Valid rng) {K : Nat} (hK : 0 < K) (seed : Int)
    (m' : Lda F) (data : IList F) (e : ExpPerf F)
    (h : kFoldRun (ldaLearner inverse) rng K seed Lda.new data = .ok (m', e) ∨
      stratifiedKFoldRun (ldaLearner inverse) rng K seed Lda.new data = .ok (m', e)) :
    ∃ (f : IList F × IList F) (rest : List (IList F × IList F)) (first : Lda F),
      IsCrossValidation K data (f :: rest) ∧ f.1.Perm (rest.map Prod.snd).flatten ∧
      Lda.train inverse Lda.new f.1 = .ok first ∧
      ∀ (i : Nat) (g : IList F × IList F) (r : Perf F), (f :: rest)[i]? = some g → e.results[i]? = some r →
        ∃ mi : Lda F, modelTest mi.predict g.2 = .ok r ∧
          ∀ c w w0, OMap.find? first.w c = some w → OMap.find? first.w0 c = some w0 →
            OMap.find? mi.w c = some w ∧ OMap.find? mi.w0 c = some w0 := by
  obtain ⟨f, rest, first, h1, h2, h3, h4⟩ := run_keeps (L := ldaLearner inverse)
    (P := fun first mi : Lda F => ∀ c w w0, OMap.find? first.w c = some w → OMap.find? first.w0 c = some w0 →
      OMap.find? mi.w c = some w ∧ OMap.find? mi.w0 c = some w0)
    (fun m c w w0 a b => ⟨a, b⟩)
    (fun m0 m l m1 ht hp c w w0 a b =>
      C55_lda_weights_never_change inverse m m1 l c w w0 (hp c w w0 a b).1 (hp c w w0 a b).2 ht)
    hr hK seed Lda.new m' data e h
  exact ⟨f, rest, first, h1, h2, h3, fun i g r a b => by
    obtain ⟨mi, p, q⟩ := h4 i g r a b
    exact ⟨mi, q, p⟩⟩

/-- **C162** The same for QDA. -/
theorem C162_qda (inverse : Mat F → Mat F) (det : Mat F → F) {rng : Rng} (hr : Rng.Valid rng) {K : Nat} (hK : 0 < K)
    (seed : Int) (m' : Qda F) (data : IList F) (e : ExpPerf F)
    (h : kFoldRun (qdaLearner inverse det) rng K seed Qda.new data = .ok (m', e) ∨
      stratifiedKFoldRun (qdaLearner inverse det) rng K seed Qda.new data = .ok (m', e)) :
    ∃ (f : IList F × IList F) (rest : List (IList F × IList F)) (first : Qda F),
      IsCrossValidation K data (f :: rest) ∧ f.1.Perm (rest.map Prod.snd).flatten ∧
      Qda.train inverse det Qda.new f.1 = .ok first ∧
      ∀ (i : Nat) (g : IList F × IList F) (r : Perf F), (f :: rest)[i]? = some g → e.results[i]? = some r →
        ∃ mi : Qda F, modelTest mi.predict g.2 = .ok r ∧
          ∀ c w w0 W, OMap.find? first.w c = some w → OMap.find? first.w0 c = some w0 → OMap.find? first.W c = some W →
            OMap.find? mi.w c = some w ∧ OMap.find? mi.w0 c = some w0 ∧ OMap.find? mi.W c = some W := by
  obtain ⟨f, rest, first, h1, h2, h3, h4⟩ := run_keeps (L := qdaLearner inverse det)
    (P := fun first mi : Qda F => ∀ c w w0 W, OMap.find? first.w c = some w → OMap.find? first.w0 c = some w0 →
      OMap.find? first.W c = some W →
      OMap.find? mi.w c = some w ∧ OMap.find? mi.w0 c = some w0 ∧ OMap.find? mi.W c = some W)
    (fun m c w w0 W a b d => ⟨a, b, d⟩)
    (fun m0 m l m1 ht hp c w w0 W a b d =>
      C55_qda_weights_never_change inverse det m m1 l c w w0 W (hp c w w0 W a b d).1 (hp c w w0 W a b d).2.1
        (hp c w w0 W a b d).2.2 ht)
    hr hK seed Qda.new m' data e h
  exact ⟨f, rest, first, h1, h2, h3, fun i g r a b => by
    obtain ⟨mi, p, q⟩ := h4 i g r a b
    exact ⟨mi, q, p⟩⟩

/-- **C162** The same for the statistics of naive Bayes. -/
theorem C162_naive_bayes {rng : Rng} (hr : Rng.Valid rng) {K : Nat} (hK : 0 < K)
    (seed : Int) (m' : NaiveBayes F) (data : IList F) (e : ExpPerf F)
    (h : kFoldRun naiveBayesLearner rng K seed NaiveBayes.new data = .ok (m', e) ∨
      stratifiedKFoldRun naiveBayesLearner rng K seed NaiveBayes.new data = .ok (m', e)) :
    ∃ (f : IList F × IList F) (rest : List (IList F × IList F)) (first : NaiveBayes F),
      IsCrossValidation K data (f :: rest) ∧ f.1.Perm (rest.map Prod.snd).flatten ∧
      NaiveBayes.train NaiveBayes.new f.1 = .ok first ∧
      ∀ (i : Nat) (g : IList F × IList F) (r : Perf F), (f :: rest)[i]? = some g → e.results[i]? = some r →
        ∃ mi : NaiveBayes F, modelTest mi.predict g.2 = .ok r ∧
          ∀ c, (∀ μ, OMap.find? first.classMeans c = some μ → OMap.find? mi.classMeans c = some μ) ∧
            (∀ s, OMap.find? first.classDeviations c = some s → OMap.find? mi.classDeviations c = some s) ∧
            (∀ d, OMap.find? first.classAttributeDistributions c = some d →
              OMap.find? mi.classAttributeDistributions c = some d) := by
  obtain ⟨f, rest, first, h1, h2, h3, h4⟩ := run_keeps (L := naiveBayesLearner (F := F))
    (P := fun first mi : NaiveBayes F => ∀ c,
      (∀ μ, OMap.find? first.classMeans c = some μ → OMap.find? mi.classMeans c = some μ) ∧
      (∀ s, OMap.find? first.classDeviations c = some s → OMap.find? mi.classDeviations c = some s) ∧
      (∀ d, OMap.find? first.classAttributeDistributions c = some d →
        OMap.find? mi.classAttributeDistributions c = some d))
    (fun m c => ⟨fun _ h => h, fun _ h => h, fun _ h => h⟩)
    (fun m0 m l m1 ht hp c => by
      obtain ⟨a, b, d⟩ := C55_nb_statistics_never_change m m1 l c ht
      exact ⟨fun μ h => a μ ((hp c).1 μ h), fun s h => b s ((hp c).2.1 s h), fun q h => d q ((hp c).2.2 q h)⟩)
    hr hK seed NaiveBayes.new m' data e h
  exact ⟨f, rest, first, h1, h2, h3, fun i g r a b => by
    obtain ⟨mi, p, q⟩ := h4 i g r a b
    exact ⟨mi, q, p⟩⟩

/-- **C162** A session in which a new deep network is trained on two lists of the same shape
does not get to its end: the second training throws. -/
theorem C162_deep (param : Nat → NetParam ℝ) (hidden : List Nat) (act : Activation) (d : Nat) (hhid : hidden ≠ [])
    (hrand : ∀ n r c, ((param n).random r c).rows = r ∧ ((param n).random r c).cols = c)
    (hσ : ∀ n, IsPermutation (param n).splitOrder n) (hep : ∀ n, 0 < (param n).epochs) (h0 : ∀ n, 0 ∈ (param n).shuffleOrder)
    (f g : IList ℝ × IList ℝ) (rest : List (IList ℝ × IList ℝ)) (hf : f.1 ≠ [])
    (hnumf : ∀ x ∈ f.1, NumericInst d x) (hnumg : ∀ x ∈ g.1, NumericInst d x)
    (hclasses : f.1.getDistinctClassLabels.length = g.1.getDistinctClassLabels.length) (c : String)
    (hc : ⌈(param g.1.length).ratio * (g.1.map Inst.label).count c⌉₊ < (g.1.map Inst.label).count c) :
    ¬ ∃ rs m', Session (deepLearner param hidden act) ⟨[], 0, []⟩ (f :: g :: rest) rs m' := by
  rintro ⟨rs, m', h⟩
  cases h with
  | cons ht _ h =>
    cases h with
    | cons ht' _ _ =>
      have := C55_deep_again (param _) (param _) hidden act _ _ _ d hhid hf hnumf (hσ _) (hrand _) hclasses hnumg (hσ _)
        (hrand _) (hep _) (h0 _) c hc ht
      rw [show (deepLearner param hidden act).train _ _ = deepTrain _ hidden act _ _ from rfl, this] at ht'
      cases ht'

/-- a session with a deep network on the same four points twice -/
example : ¬ ∃ rs m', Session (deepLearner (fun n => { fourParam with splitOrder := List.range n }) [4, 3] .relu) ⟨[], 0, []⟩
    [(fourPoints, fourPoints), (fourPoints, fourPoints)] rs m' := by
  refine C162_deep (fun n => { fourParam with splitOrder := List.range n }) [4, 3] .relu 1 (by simp) (fun _ _ _ => ⟨rfl, rfl⟩) (fun n => List.Perm.refl _) (fun n => by simp [fourParam])
    (fun n => by simp [fourParam]) (fourPoints, fourPoints) (fourPoints, fourPoints) [] (by simp [fourPoints]) fourPoints_numeric
    fourPoints_numeric rfl "a" ?_
  have hc : (fourPoints.map Inst.label).count "a" = 2 := by
    simp only [fourPoints, List.map_cons, List.map_nil]
    decide
  rw [hc]
  have : ⌈fourParam.ratio * ((2 : Nat) : ℝ)⌉₊ ≤ 1 := by
    rw [Nat.ceil_le]
    norm_num [fourParam]
  show ⌈fourParam.ratio * ((2 : Nat) : ℝ)⌉₊ < 2
  omega

/-! ## the property fails -/

/-- no shuffling -/
def plainRng : Rng := ⟨fun _ _ n => List.range n, fun _ n => List.range n, fun _ n => List.range n⟩

theorem plainRng_valid : Rng.Valid plainRng :=
  ⟨fun _ _ n => List.Perm.refl _, fun _ n => List.Perm.refl _, fun _ n => ⟨by simp [plainRng], fun i h => by simpa [plainRng] using h⟩⟩

/-- accuracies of the results of a run -/
def accuracies {M : Type} (r : Res (M × ExpPerf XR)) : Res (List XR) := do
  let r ← r
  r.2.results.mapM Perf.getAccuracy

/-- the accuracy on `te` of a classifier that starts as `new` and is trained on `tr` only -/
def freshAccuracy {M : Type} (L : Learner M XR) (new : M) (tr te : IList XR) : Res XR := do
  let m ← L.train new tr
  let p ← L.test m te
  p.getAccuracy

/-- one tree per training set, grown from the instances as they are -/
def oneTree : Learner (List (Node XR)) XR := ensembleLearner none (fun n _ => List.range n) 1

/-- **C162 fails for LDA, QDA, naive Bayes and ensembles.** Two halves with the classes swapped: a
new classifier trained on one half gets every instance of the other half wrong, but the second fold of
the run gets all of them right (the ensemble, half of them). -/
theorem C162_refuted :
    accuracies (kFoldRun (ldaLearner inv1) plainRng 2 0 Lda.new (swapA ++ swapB)) = .ok [.fin 0, .fin 1] ∧
    freshAccuracy (ldaLearner inv1) Lda.new swapA swapB = .ok (.fin 0) ∧
    accuracies (kFoldRun (qdaLearner inv1 (fun S => S.e 0 0)) plainRng 2 0 Qda.new (swapA ++ swapB)) = .ok [.fin 0, .fin 1] ∧
    freshAccuracy (qdaLearner inv1 (fun S => S.e 0 0)) Qda.new swapA swapB = .ok (.fin 0) ∧
    accuracies (kFoldRun naiveBayesLearner plainRng 2 0 NaiveBayes.new (swapDiscA ++ swapDiscB)) = .ok [.fin 0, .fin 1] ∧
    freshAccuracy naiveBayesLearner NaiveBayes.new swapDiscA swapDiscB = .ok (.fin 0) ∧
    accuracies (kFoldRun oneTree plainRng 2 0 [] (swapA ++ swapB)) = .ok [.fin 0, .fin (1 / 2)] ∧
    freshAccuracy oneTree [] swapA swapB = .ok (.fin 0) := by
  refine ⟨?_, ?_, ?_, ?_, ?_, ?_, ?_, ?_⟩ <;> decide +kernel

/-- the other classifiers get in the run what new ones get -/
example : accuracies (kFoldRun (knnLearner 1 euclidean) plainRng 2 0 ⟨[], 1, euclidean⟩ (swapA ++ swapB)) =
      .ok [.fin 0, .fin 0] ∧
    accuracies (stratifiedKFoldRun (treeLearner (fun _ => none)) plainRng 2 0 none (swapA ++ swapA)) = .ok [.fin 1, .fin 1] ∧
    accuracies (kFoldRun dummyLearner plainRng 2 0 none (swapA ++ swapB)) = .ok [.fin (1 / 2), .fin (1 / 2)] := by
  refine ⟨?_, ?_, ?_⟩ <;> decide +kernel

end Verif
