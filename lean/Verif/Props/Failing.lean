import Verif.Model.Failing
import Verif.Props.Filter
import Verif.Props.PruneLocal
import Verif.Props.Discriminant

/-! # C206: a call that throws leaves the object as it was

`trainSt`, `treeTrainSt`, `ensembleTrainSt` and `convertAllSt` give the object after the call and
the outcome. The property `Unchanged` asks that the object is the old one whenever the outcome is
an exception. -/

namespace Verif
open Dbl

set_option linter.unusedSectionVars false

variable {F : Type} [Dbl F]

/-- the call reports an exception only with the object it started from -/
def Unchanged {S : Type} (old : S) (call : S × Res Unit) : Prop :=
  ∀ s, call.2 = .error (.throw s) → call.1 = old

/-- the outcome of a call, with the object it leaves if it returns -/
def outcome {S : Type} (call : S × Res Unit) : Res S := call.2.map (fun _ => call.1)

/-! ## the calls give the same results as in the other models -/

theorem outcome_loopSt {S α : Type} (step : S → α → Res S) (as : List α) (s : S) :
    outcome (loopSt step s as) = as.foldlM step s := by
  induction as generalizing s with
  | nil => rfl
  | cons a as ih =>
    rw [List.foldlM_cons]
    unfold loopSt
    cases h : step s a with
    | error e => rfl
    | ok s' => exact ih s'

theorem outcome_contClassSt (m : NaiveBayes F) (p : String × IList F) :
    outcome (NaiveBayes.contClassSt m p) = NaiveBayes.contClass m p := by
  unfold NaiveBayes.contClassSt NaiveBayes.contClass
  cases h1 : p.2.average with
  | error e => rfl
  | ok a =>
    simp only [res_bind_ok]
    cases h2 : NaiveBayes.meanVector a with
    | error e => rfl
    | ok av =>
      simp only [res_bind_ok]
      cases h3 : p.2.standardDeviation with
      | error e => rfl
      | ok s =>
        simp only [res_bind_ok]
        cases h4 : NaiveBayes.meanVector s with
        | error e => rfl
        | ok sv => rfl

theorem outcome_contLoopSt (ps : List (String × IList F)) (m : NaiveBayes F) :
    outcome (NaiveBayes.contLoopSt m ps) = ps.foldlM NaiveBayes.contClass m := by
  induction ps generalizing m with
  | nil => rfl
  | cons p ps ih =>
    rw [List.foldlM_cons, ← outcome_contClassSt]
    unfold NaiveBayes.contLoopSt
    rcases h : NaiveBayes.contClassSt m p with ⟨m', _ | _⟩
    · rfl
    · exact ih m'

theorem outcome_naiveBayes (old : NaiveBayes F) (l : IList F) :
    outcome (NaiveBayes.trainSt old l) = NaiveBayes.train old l := by
  unfold NaiveBayes.trainSt NaiveBayes.train
  cases h1 : Parts.byClass l with
  | error e => rfl
  | ok parts =>
    simp only [res_bind_ok]
    cases h2 : atR parts 0 with
    | error e => rfl
    | ok p0 =>
      simp only [res_bind_ok]
      cases h3 : atR p0 0 with
      | error e => rfl
      | ok x0 =>
        simp only [res_bind_ok]
        cases h4 : x0.getAttribute 0 with
        | error e => rfl
        | ok a0 =>
          simp only [res_bind_ok, res_pure]
          by_cases hd : a0.isDiscrete = true
          · rw [if_pos hd, if_pos hd]; exact outcome_loopSt _ _ _
          · rw [if_neg hd, if_neg hd]; exact outcome_contLoopSt _ _

theorem outcome_lda (inverse : Mat F → Mat F) (old : Lda F) (l : IList F) :
    outcome (Lda.trainSt inverse old l) = Lda.train inverse old l := by
  unfold Lda.trainSt Lda.train
  cases h1 : atR l 0 with
  | error e => rfl
  | ok x0 =>
    simp only [res_bind_ok]
    by_cases hd : discreteCheck x0 = false
    · rw [if_pos hd, if_pos hd]; rfl
    · rw [if_neg hd, if_neg hd]
      cases h2 : Parts.byClass l with
      | error e => rfl
      | ok parts =>
        simp only [res_bind_ok]
        cases h3 : Lda.pooledCovariance x0.continuousAttributeSize.toNat parts l.length with
        | error e => rfl
        | ok cov => exact outcome_loopSt _ _ _

theorem outcome_qda (inverse : Mat F → Mat F) (det : Mat F → F) (old : Qda F) (l : IList F) :
    outcome (Qda.trainSt inverse det old l) = Qda.train inverse det old l := by
  unfold Qda.trainSt Qda.train
  cases h1 : atR l 0 with
  | error e => rfl
  | ok x0 =>
    simp only [res_bind_ok]
    by_cases hd : discreteCheck x0 = false
    · rw [if_pos hd, if_pos hd]; rfl
    · rw [if_neg hd, if_neg hd]
      cases h2 : Parts.byClass l with
      | error e => rfl
      | ok parts => exact outcome_loopSt _ _ _

theorem addMeans (parts : List (IList F)) (m : KMeans F) :
    parts.foldlM KMeans.addMean m =
      (parts.mapM (fun p : IList F => p.average)).map
        (fun means => { m with classMeans := m.classMeans ++ means }) := by
  induction parts generalizing m with
  | nil =>
    simp only [List.foldlM_nil, List.mapM_nil]
    show Except.ok m = Except.ok _
    simp
  | cons p parts ih =>
    rw [List.foldlM_cons, List.mapM_cons]
    unfold KMeans.addMean
    cases h : p.average with
    | error e => rfl
    | ok a =>
      simp only [res_bind_ok, res_pure]
      show parts.foldlM KMeans.addMean _ = _
      rw [ih]
      cases h2 : parts.mapM (fun p : IList F => p.average) with
      | error e => rfl
      | ok means =>
        show Except.ok _ = Except.ok _
        simp

theorem outcome_kmeans (old : KMeans F) (l : IList F) (dist : Inst F → Inst F → Res F) :
    outcome (KMeans.trainSt old l dist) = KMeans.train old l dist := by
  unfold KMeans.trainSt KMeans.train
  cases h1 : Parts.byClass l with
  | error e => rfl
  | ok parts =>
    simp only [res_bind_ok]
    have h := outcome_loopSt KMeans.addMean parts
      { old with prior := l.classDistribution, classMeans := [] }
    rw [addMeans] at h
    rcases hl : loopSt KMeans.addMean
      { old with prior := l.classDistribution, classMeans := [] } parts with ⟨m', _ | _⟩
    · rw [hl] at h
      cases h2 : parts.mapM (fun p : IList F => p.average) with
      | error e' =>
        rw [h2] at h
        cases h; rfl
      | ok means => rw [h2] at h; cases h
    · rw [hl] at h
      cases h2 : parts.mapM (fun p : IList F => p.average) with
      | error e' => rw [h2] at h; cases h
      | ok means =>
        rw [h2] at h
        cases h; rfl

mutual
theorem outcome_pruneNodeSt (acc : Node F → Res F) (ctx : Node F → Node F) (n : Node F) :
    outcome (pruneNodeSt acc ctx n) = pruneNode acc ctx n := by
  match n with
  | .mk c leaf s d ch =>
    unfold pruneNodeSt pruneNode
    by_cases hl : leaf = true
    · rw [if_pos hl, if_pos hl]; rfl
    · rw [if_neg hl, if_neg hl]
      cases h1 : acc (ctx (.mk c leaf s d ch)) with
      | error e => rfl
      | ok before =>
        simp only [res_bind_ok]
        cases h2 : acc (ctx ((Node.mk c leaf s d ch).setLeaf true)) with
        | error e => rfl
        | ok after =>
          simp only [res_bind_ok]
          by_cases hlt : (after <. before) = true
          · rw [if_pos hlt, if_pos hlt]
            have h := outcome_pruneChildrenSt acc
              (fun ch => ctx ((Node.mk c leaf s d ch).setLeaf false)) [] ch
            rw [← h]
            rcases pruneChildrenSt acc
              (fun ch => ctx ((Node.mk c leaf s d ch).setLeaf false)) [] ch with ⟨r, _ | _⟩
            · rfl
            · rfl
          · rw [if_neg hlt, if_neg hlt]; rfl
termination_by structural n
theorem outcome_pruneChildrenSt (acc : Node F → Res F) (ctx : List (Node F) → Node F)
    (done ns : List (Node F)) :
    outcome (pruneChildrenSt acc ctx done ns) = pruneChildren acc ctx done ns := by
  match ns with
  | [] => rfl
  | n :: ns =>
    unfold pruneChildrenSt pruneChildren
    rw [← outcome_pruneNodeSt acc (fun m => ctx (done ++ m :: ns)) n]
    rcases pruneNodeSt acc (fun m => ctx (done ++ m :: ns)) n with ⟨r, _ | _⟩
    · rfl
    · exact outcome_pruneChildrenSt acc ctx _ ns
termination_by structural ns
end

theorem outcome_tree (old : Node F) (l : IList F) (pruning : Option (F × List Nat)) :
    outcome (treeTrainSt old l pruning) = treeTrain l pruning := by
  unfold treeTrainSt treeTrain
  cases pruning with
  | none =>
    simp only []
    cases Node.grow none false (l.length + 1) l Cond.root <;> rfl
  | some q =>
    rcases q with ⟨ratio, arr⟩
    simp only []
    cases h1 : Parts.byRatioStratified l ratio arr with
    | error e => rfl
    | ok parts =>
      simp only [res_bind_ok]
      cases h2 : atR parts 1 with
      | error e => rfl
      | ok p1 =>
        simp only [res_bind_ok]
        cases h3 : Node.grow none false (p1.length + 1) p1 Cond.root with
        | error e => rfl
        | ok root =>
          simp only [res_bind_ok, res_pure]
          cases h4 : atR parts 0 with
          | error e => rfl
          | ok p0 => exact outcome_pruneNodeSt _ _ _

theorem outcome_stump (old : Node F) (l : IList F) :
    outcome (stumpTrainSt old l) = stumpTrain l := by
  unfold stumpTrainSt stumpTrain
  cases Node.grow none true (l.length + 1) l Cond.root <;> rfl

theorem outcome_filter (enc : DD → Attr F → List (Attr F)) (ts : DD → List AttrType) (h : Heap F)
    (ds : RefSet) : outcome (laryFilterSt enc ts h ds) = (laryFilter enc ts h ds).map Prod.fst := by
  unfold laryFilterSt laryFilter
  cases h1 : deref h ds.refs with
  | error e => rfl
  | ok l =>
    simp only [res_bind_ok]
    cases h2 : l.allAttributesDistribution with
    | error e => rfl
    | ok dists =>
      simp only [res_bind_ok]
      unfold convert
      rw [show convertAll (laryConvert enc dists) h ds.refs =
        outcome (convertAllSt (laryConvert enc dists) h ds.refs) from (outcome_loopSt _ _ _).symm]
      rcases convertAllSt (laryConvert enc dists) h ds.refs with ⟨h', _ | _⟩
      · rfl
      · show _ = Except.map Prod.fst (laryConvertDefinition ts dists ds >>= fun ds' => _)
        cases laryConvertDefinition ts dists ds <;> rfl

/-- **C206.** A call that returns leaves the object that the other models compute, and a call that
throws throws the same exception. -/
theorem C206_same_results :
    (∀ (old : KMeans F) l dist, outcome (KMeans.trainSt old l dist) = KMeans.train old l dist) ∧
    (∀ (old : NaiveBayes F) l, outcome (NaiveBayes.trainSt old l) = NaiveBayes.train old l) ∧
    (∀ inverse (old : Lda F) l, outcome (Lda.trainSt inverse old l) = Lda.train inverse old l) ∧
    (∀ inverse det (old : Qda F) l,
      outcome (Qda.trainSt inverse det old l) = Qda.train inverse det old l) ∧
    (∀ (old : Node F) l pruning, outcome (treeTrainSt old l pruning) = treeTrain l pruning) ∧
    (∀ (old : Node F) l, outcome (stumpTrainSt old l) = stumpTrain l) ∧
    (∀ param draws (old : List (Node F)) l size,
      outcome (ensembleTrainSt param draws old l size) = ensembleTrain param draws old l size) ∧
    (∀ enc ts (h : Heap F) ds,
      outcome (laryFilterSt enc ts h ds) = (laryFilter enc ts h ds).map Prod.fst) :=
  ⟨outcome_kmeans, outcome_naiveBayes, outcome_lda, outcome_qda, outcome_tree, outcome_stump,
    fun _ _ _ _ _ => outcome_loopSt _ _ _, outcome_filter⟩

/-! ## where it holds -/

/-- **C206.** Decision trees without pruning and decision stumps: training that throws leaves the
tree of the object as it was. -/
theorem C206_trees_partial (old : Node F) (l : IList F) :
    Unchanged old (treeTrainSt old l none) ∧ Unchanged old (stumpTrainSt old l) := by
  constructor
  · intro s h
    unfold treeTrainSt at h ⊢
    simp only [] at h ⊢
    cases hg : Node.grow none false (l.length + 1) l Cond.root with
    | error e => rfl
    | ok root => rw [hg] at h; cases h
  · intro s h
    unfold stumpTrainSt at h ⊢
    cases hg : Node.grow none true (l.length + 1) l Cond.root with
    | error e => rfl
    | ok root => rw [hg] at h; cases h

/-- **C206.** LDA and QDA refuse an empty list and a list whose first instance has an attribute
that is not numeric, and then nothing has changed. -/
theorem C206_refused_partial (inverse : Mat F → Mat F) (det : Mat F → F) (l : IList F)
    (h : l = [] ∨ ∃ x xs, l = x :: xs ∧ discreteCheck x = false) :
    (∀ old : Lda F, (Lda.trainSt inverse old l).1 = old ∧
      ∃ s, (Lda.trainSt inverse old l).2 = .error (.throw s)) ∧
    (∀ old : Qda F, (Qda.trainSt inverse det old l).1 = old ∧
      ∃ s, (Qda.trainSt inverse det old l).2 = .error (.throw s)) := by
  rcases h with rfl | ⟨x, xs, rfl, hx⟩
  · exact ⟨fun old => ⟨rfl, _, rfl⟩, fun old => ⟨rfl, _, rfl⟩⟩
  · constructor
    · intro old
      have e : Lda.trainSt inverse old (x :: xs) =
          (old, .error (.throw "DiscreteFeaturesNotAllowed")) := by
        unfold Lda.trainSt
        rw [show atR (x :: xs) 0 = .ok x from rfl]
        simp only []
        rw [if_pos hx]
      rw [e]; exact ⟨rfl, _, rfl⟩
    · intro old
      have e : Qda.trainSt inverse det old (x :: xs) =
          (old, .error (.throw "DiscreteFeaturesNotAllowed")) := by
        unfold Qda.trainSt
        rw [show atR (x :: xs) 0 = .ok x from rfl]
        simp only []
        rw [if_pos hx]
      rw [e]; exact ⟨rfl, _, rfl⟩

/-- LDA: once the pooled covariance has been computed the weights cannot fail -/
theorem pooled_averages (n total : Nat) (parts : Parts F) (cov : Mat F)
    (h : Lda.pooledCovariance n parts total = .ok cov) (p : IList F) (hp : p ∈ parts) :
    ∃ avg, p.continuousAttributeAverage = .ok avg := by
  unfold Lda.pooledCovariance at h
  obtain ⟨c, h1, -⟩ := bind_ok_iff.1 h
  clear h
  generalize (Mat.zeros n n : Mat F) = z at h1
  induction parts generalizing z with
  | nil => cases hp
  | cons q parts ih =>
    rw [List.foldlM_cons] at h1
    obtain ⟨z', h2, h3⟩ := bind_ok_iff.1 h1
    rcases List.mem_cons.1 hp with rfl | hp
    · obtain ⟨cc, h4, -⟩ := bind_ok_iff.1 h2
      unfold Lda.classCovariance at h4
      obtain ⟨avg, h5, -⟩ := bind_ok_iff.1 h4
      exact ⟨avg, h5⟩
    · exact ih hp z' h3

theorem loopSt_never_fails {S α : Type} (step : S → α → Res S) (as : List α)
    (h : ∀ a ∈ as, ∀ s, ∃ s', step s a = .ok s') (s : S) : (loopSt step s as).2 = .ok () := by
  induction as generalizing s with
  | nil => rfl
  | cons a as ih =>
    obtain ⟨s', h'⟩ := h a (List.mem_cons_self ..) s
    unfold loopSt
    rw [h']
    exact ih (fun b hb => h b (List.mem_cons_of_mem _ hb)) s'

/-- **C206.** LDA training that throws leaves the weights of the object as they were. (Its class
frequencies may have been replaced: see `C206_lda_refuted`.) -/
theorem C206_lda_partial (inverse : Mat F → Mat F) (old : Lda F) (l : IList F) (s : String)
    (h : (Lda.trainSt inverse old l).2 = .error (.throw s)) :
    (Lda.trainSt inverse old l).1 = old ∨
    (Lda.trainSt inverse old l).1 = { old with prior := l.classDistribution } := by
  unfold Lda.trainSt at h ⊢
  cases h1 : atR l 0 with
  | error e => exact Or.inl rfl
  | ok x0 =>
    rw [h1] at h
    simp only [] at h ⊢
    by_cases hd : discreteCheck x0 = false
    · rw [if_pos hd]; exact Or.inl rfl
    · rw [if_neg hd] at h ⊢
      cases h2 : Parts.byClass l with
      | error e => exact Or.inr rfl
      | ok parts =>
        rw [h2] at h
        simp only [res_bind_ok] at h ⊢
        cases h3 : Lda.pooledCovariance x0.continuousAttributeSize.toNat parts l.length with
        | error e => exact Or.inr rfl
        | ok cov =>
          rw [h3] at h
          simp only [res_bind_ok, res_pure] at h
          exfalso
          rw [loopSt_never_fails] at h
          · cases h
          · intro p hp m
            obtain ⟨avg, ha⟩ := pooled_averages _ _ _ _ h3 p.2 (List.of_mem_zip hp).2
            unfold Lda.classWeights
            rw [ha, res_bind_ok]
            cases Mat.mulRight (inverse cov) avg with
            | none => exact ⟨_, rfl⟩
            | some wi =>
              simp only []
              cases dotChecked wi avg <;> exact ⟨_, rfl⟩

/-- a loop that fails has done the steps before the failing one -/
theorem loopSt_error {S α : Type} (step : S → α → Res S) (as : List α) (s : S) (e : Err)
    (h : (loopSt step s as).2 = .error e) :
    ∃ done a rest, as = done ++ a :: rest ∧ done.foldlM step s = .ok (loopSt step s as).1 ∧
      step (loopSt step s as).1 a = .error e := by
  induction as generalizing s with
  | nil => cases h
  | cons a as ih =>
    unfold loopSt at h ⊢
    cases hs : step s a with
    | error e' =>
      rw [hs] at h
      simp only [] at h ⊢
      cases h
      exact ⟨[], a, as, rfl, rfl, hs⟩
    | ok s' =>
      rw [hs] at h
      simp only [] at h ⊢
      obtain ⟨done, b, rest, rfl, h1, h2⟩ := ih s' h
      refine ⟨a :: done, b, rest, rfl, ?_, h2⟩
      rw [List.foldlM_cons, hs, res_bind_ok, h1]

/-- **C206.** Bagging and random forests: a `train` that throws leaves the old trees, followed by
the trees that were grown before the exception, which are those a smaller ensemble would have
got. -/
theorem C206_forest_progress (param : Node.SubsetParam) (draws : Nat → List Nat)
    (old : List (Node F)) (l : IList F) (size : Int) (s : String)
    (h : (ensembleTrainSt param draws old l size).2 = .error (.throw s)) :
    ∃ k : Nat, (k : Int) < size ∧
      ensembleTrain param draws old l k = .ok (ensembleTrainSt param draws old l size).1 := by
  obtain ⟨done, a, rest, h1, h2, -⟩ := loopSt_error _ _ _ _ h
  have hlen : size.toNat = done.length + (rest.length + 1) := by
    have := congrArg List.length h1
    simpa using this
  have hdone : done = List.range done.length := by
    have := congrArg (List.take done.length) h1
    rw [List.take_left, List.take_range, Nat.min_eq_left (by omega)] at this
    exact this.symm
  refine ⟨done.length, by omega, ?_⟩
  unfold ensembleTrain
  rw [Int.toNat_natCast, ← hdone]
  exact h2

/-- **C206.** Filters: a conversion that throws leaves the instances before the failing one
converted. -/
theorem C206_filter_progress (f : Inst F → Res (Inst F)) (h : Heap F) (refs : List Nat)
    (s : String) (he : (convertAllSt f h refs).2 = .error (.throw s)) :
    ∃ done r rest, refs = done ++ r :: rest ∧
      convertAll f h done = .ok (convertAllSt f h refs).1 ∧
      ∃ x, (convertAllSt f h refs).1[r]? = some x ∧ f x = .error (.throw s) := by
  obtain ⟨done, a, rest, h1, h2, h3⟩ := loopSt_error _ _ _ _ he
  refine ⟨done, a, rest, h1, h2, ?_⟩
  show ∃ x, (loopSt (convertAt f) h refs).1[a]? = some x ∧ _
  generalize (loopSt (convertAt f) h refs).1 = g at h3 ⊢
  unfold convertAt idxR at h3
  cases hx : g[a]? with
  | none => rw [hx] at h3; cases h3
  | some x =>
    rw [hx] at h3
    refine ⟨x, rfl, ?_⟩
    simp only [res_bind_ok] at h3
    cases hf : f x with
    | error e => rw [hf] at h3; cases h3; rfl
    | ok y => rw [hf] at h3; cases h3

/-! ## where it fails -/

/-- instances of the failing training lists: the second one has no attribute -/
def raggedNumbers : IList XR :=
  [⟨"b", [.continuous (.fin 1)], none⟩, ⟨"b", [], none⟩]

/-- **C206 fails of the code for naive Bayes**: whatever has been learned, `train` on an empty list
throws `out_of_range` and afterwards the object answers every instance with the empty label. -/
theorem C206_naive_bayes_refuted (old : NaiveBayes F) (x : Inst F) (hx : x.isComposite = false) :
    (NaiveBayes.trainSt old []).2 = .error (.throw "out_of_range") ∧
    (NaiveBayes.trainSt old []).1.predict x = .ok "" := by
  refine ⟨rfl, ?_⟩
  unfold NaiveBayes.predict gaussPredict gaussInit
  rw [hx]
  rfl

/-- **C206 fails of the code for the nearest mean classifier**: whatever has been learned, training
on a list in which an instance lacks an attribute throws, and afterwards every instance is given
the class of the failed training list. -/
theorem C206_nearest_mean_refuted (old : KMeans XR) (dist : Inst XR → Inst XR → Res XR)
    (x : Inst XR) (hx : x.isComposite = false) :
    (KMeans.trainSt old raggedNumbers dist).2 = .error (.throw "out_of_range") ∧
    (KMeans.trainSt old raggedNumbers dist).1.predict x = .ok "b" := by
  have e : KMeans.trainSt old raggedNumbers dist =
      ({ old with prior := raggedNumbers.classDistribution, classMeans := [] },
        .error (.throw "out_of_range")) := by
    unfold KMeans.trainSt
    rw [show Parts.byClass raggedNumbers = .ok [raggedNumbers] by decide +kernel]
    simp only []
    unfold loopSt KMeans.addMean
    rw [show raggedNumbers.average = .error (.throw "out_of_range") by decide +kernel]
    rfl
  rw [e]
  refine ⟨rfl, ?_⟩
  unfold KMeans.predict gaussPredict gaussInit
  rw [hx]
  simp only [Bool.false_eq_true, if_false, res_pure, res_bind_ok]
  rw [show DD.getItems raggedNumbers.classDistribution = ["b"] by decide +kernel,
    show DD.getMaxItem raggedNumbers.classDistribution = "b" by decide +kernel]
  rw [List.foldlM_cons]
  unfold gaussStep KMeans.metric
  rw [if_pos (by decide +kernel)]
  simp only [List.find?_nil, res_pure, res_bind_ok]
  rw [ite_self]
  rfl

/-- **C206 fails of the code for LDA**: training on a list with an instance that lacks an attribute
throws after the class frequencies have been replaced. An object that knew nothing about the
class `b` of that list now dereferences `end()` on every numeric instance. -/
theorem C206_lda_refuted (inverse : Mat XR → Mat XR) (old : Lda XR)
    (hold : OMap.find? old.w "b" = none) (x : Inst XR) (hx : x.isComposite = false)
    (v : List XR) (hv : x.toVector = .ok v) :
    (Lda.trainSt inverse old raggedNumbers).2 = .error (.throw "out_of_range") ∧
    (Lda.trainSt inverse old raggedNumbers).1.predict x = .error (.ub "dereference of end()") := by
  have e : Lda.trainSt inverse old raggedNumbers =
      ({ old with prior := raggedNumbers.classDistribution }, .error (.throw "out_of_range")) := by
    unfold Lda.trainSt
    rw [show atR raggedNumbers 0 = .ok ⟨"b", [.continuous (.fin 1)], none⟩ from rfl]
    simp only []
    rw [if_neg (by decide +kernel), show Parts.byClass raggedNumbers = .ok [raggedNumbers] by
      decide +kernel]
    simp only [res_bind_ok]
    unfold Lda.pooledCovariance
    rw [List.foldlM_cons]
    unfold Lda.classCovariance
    rw [show raggedNumbers.continuousAttributeAverage = .error (.throw "out_of_range") by
      decide +kernel]
    rfl
  rw [e]
  refine ⟨rfl, ?_⟩
  unfold Lda.predict gaussPredict gaussInit
  rw [hx]
  simp only [Bool.false_eq_true, if_false, res_pure, res_bind_ok]
  rw [show DD.getItems raggedNumbers.classDistribution = ["b"] by decide +kernel,
    List.foldlM_cons]
  unfold gaussStep
  rw [if_pos (by decide +kernel)]
  unfold Lda.metric
  rw [hv, res_bind_ok]
  unfold findR
  rw [hold]
  rfl

/-- the training list of the pruned tree: its first instance, which lacks the attribute, is in the
part used for pruning -/
def raggedNames : IList XR :=
  [⟨"a", [], none⟩, ⟨"b", [.discrete "w"], none⟩, ⟨"a", [.discrete "u"], none⟩,
   ⟨"b", [.discrete "w"], none⟩]

/-- once the new tree has been grown the old one does not matter -/
theorem treeTrainSt_grown (old old' : Node F) (l : IList F) (ratio : F) (arr : List Nat)
    (h : (do let parts ← Parts.byRatioStratified l ratio arr
             let p1 ← atR parts 1
             let root ← Node.grow none false (p1.length + 1) p1 Cond.root
             pure (parts, root) : Res (Parts F × Node F)).map (fun _ => ()) = .ok ()) :
    treeTrainSt old l (some (ratio, arr)) = treeTrainSt old' l (some (ratio, arr)) := by
  unfold treeTrainSt
  simp only []
  generalize (do let parts ← Parts.byRatioStratified l ratio arr
                 let p1 ← atR parts 1
                 let root ← Node.grow none false (p1.length + 1) p1 Cond.root
                 pure (parts, root) : Res (Parts F × Node F)) = g at h ⊢
  cases g with
  | error e => cases h
  | ok q => rfl

/-- **C206 fails of the code for pruned trees**: whatever tree the object had, training throws while
the new tree is tested on the pruning set, and the object is left with the new, unpruned tree. -/
theorem C206_pruned_tree_refuted (old : Node XR) :
    (treeTrainSt old raggedNames (some (.fin (1/2), [0, 1, 2, 3]))).2 =
      .error (.throw "out_of_range") ∧
    treePredict (treeTrainSt old raggedNames (some (.fin (1/2), [0, 1, 2, 3]))).1
      ⟨"", [.discrete "u"], none⟩ = .ok "a" ∧
    treePredict (treeTrainSt old raggedNames (some (.fin (1/2), [0, 1, 2, 3]))).1
      ⟨"", [.discrete "w"], none⟩ = .ok "b" := by
  rw [treeTrainSt_grown old (.mk Cond.root true "" DD.empty []) _ _ _ (by decide +kernel)]
  refine ⟨?_, ?_, ?_⟩ <;> decide +kernel

/-- **C206 fails of the code for bagging and random forests**: the tree grown before the exception
stays in the forest. -/
theorem C206_forest_refuted (old : List (Node XR)) :
    ∃ t, ensembleTrainSt none (fun i => if i = 0 then [2, 2] else [1, 0]) old raggedNames 2 =
      (old ++ [t], .error (.throw "out_of_range")) := by
  have h0 : (Node.grow none false 3 (IList.bootstrap raggedNames [2, 2]) Cond.root).map
      (fun _ => ()) = .ok () := by decide +kernel
  have h1 : (Node.grow none false 3 (IList.bootstrap raggedNames [1, 0]) Cond.root).map
      (fun _ => ()) = .error (.throw "out_of_range") := by decide +kernel
  cases g0 : Node.grow none false 3 (IList.bootstrap raggedNames [2, 2]) Cond.root with
  | error e => rw [g0] at h0; cases h0
  | ok t =>
    cases g1 : Node.grow none false 3 (IList.bootstrap raggedNames [1, 0]) Cond.root with
    | ok t' => rw [g1] at h1; cases h1
    | error e =>
      rw [g1] at h1
      cases h1
      refine ⟨t, ?_⟩
      unfold ensembleTrainSt
      rw [show List.range (2 : Int).toNat = [0, 1] from rfl]
      have a0 : addTree none (fun i => if i = 0 then [2, 2] else [1, 0]) raggedNames old 0 =
          .ok (old ++ [t]) := by
        unfold addTree
        dsimp only
        rw [if_pos rfl, show (IList.bootstrap raggedNames [2, 2]).length + 1 = 3 by decide +kernel,
          g0]
        rfl
      have a1 : addTree none (fun i => if i = 0 then [2, 2] else [1, 0]) raggedNames (old ++ [t]) 1 =
          .error (.throw "out_of_range") := by
        unfold addTree
        dsimp only
        rw [if_neg (by decide),
          show (IList.bootstrap raggedNames [1, 0]).length + 1 = 3 by decide +kernel, g1]
        rfl
      simp only [loopSt, a0, a1]

/-- **C206 fails of the code for the filters**: with an instance listed twice the conversion throws,
and the instance before it has been converted, although its data set was not. -/
theorem C206_filter_refuted :
    (laryFilterSt (encContinuous (fun _ => "")) (fun d => List.replicate d.size .continuous)
      exFilterHeap ⟨[1, 0, 0], ⟨[.discrete, .continuous], []⟩⟩).2 =
        .error (.throw "out_of_range") ∧
    (laryFilterSt (encContinuous (fun _ => "")) (fun d => List.replicate d.size .continuous)
      exFilterHeap ⟨[1, 0, 0], ⟨[.discrete, .continuous], []⟩⟩).1[1]? =
        some ⟨"b", [.continuous (.fin 2), .continuous (.fin 1), .continuous (.fin 0)], none⟩ := by
  refine ⟨?_, ?_⟩ <;> decide +kernel

/-! ## Concrete cases -/

/-- a naive Bayes model that answers `a`, and the empty label after a failed call -/
example : ∃ m : NaiveBayes XR,
    NaiveBayes.train NaiveBayes.new [⟨"a", [.discrete "u"], none⟩] = .ok m ∧
    m.predict ⟨"", [.discrete "u"], none⟩ = .ok "a" ∧
    (NaiveBayes.trainSt m []).1.predict ⟨"", [.discrete "u"], none⟩ = .ok "" :=
  ⟨_, rfl, by decide +kernel, by decide +kernel⟩

/-- training a tree on a ragged list throws, and the old tree is still there -/
example : (treeTrainSt (.mk Cond.root true "z" DD.empty [])
      (IList.bootstrap raggedNames [1, 0]) none).2 = .error (.throw "out_of_range") ∧
    treePredict (treeTrainSt (.mk Cond.root true "z" DD.empty [])
      (IList.bootstrap raggedNames [1, 0]) none).1 ⟨"", [.discrete "u"], none⟩ = .ok "z" := by
  refine ⟨?_, ?_⟩ <;> decide +kernel

/-- lists refused by LDA and QDA -/
example : discreteCheck (⟨"b", [.discrete "w"], none⟩ : Inst XR) = false := by decide +kernel

end Verif
