import Verif.Lemmas.Rename

/-! # Renaming the classes: dummy, nearest neighbours, Gaussian family -/

set_option linter.unusedSectionVars false

namespace Verif
open Dbl
variable {F : Type} [Dbl F] {f : String → String}

/-! ## statistics of lists ignore the labels -/

theorem rn_attributeAverage (l : IList F) (i : Nat) :
    IList.attributeAverage (l.map (Inst.rn f)) i = l.attributeAverage i := by
  unfold IList.attributeAverage
  rw [atR_mapU, bind_map_res]
  simp only [List.foldlM_map, List.length_map, Inst.rn_getAttribute, Inst.rn_contAt, Inst.rn_discAt]

theorem rn_contStdDev (l : IList F) (i : Nat) : IList.contStdDev (l.map (Inst.rn f)) i = l.contStdDev i := by
  unfold IList.contStdDev
  simp only [List.foldlM_map, List.length_map, Inst.rn_contAt]

theorem rn_attributeStandardDeviation (l : IList F) (i : Nat) :
    IList.attributeStandardDeviation (l.map (Inst.rn f)) i = l.attributeStandardDeviation i := by
  unfold IList.attributeStandardDeviation
  rw [atR_mapU, bind_map_res]
  simp only [rn_contStdDev, Inst.rn_getAttribute]

theorem rn_average (l : IList F) :
    IList.average (l.map (Inst.rn f)) = l.average.map (fun p => (f p.1, p.2)) := by
  unfold IList.average
  rw [atR_mapU, bind_map_res]
  simp only [rn_attributeAverage, Inst.rn_attributeSize, Inst.rn_label, map_bind_res, map_pure_res]

theorem rn_standardDeviation (l : IList F) :
    IList.standardDeviation (l.map (Inst.rn f)) = l.standardDeviation.map (fun p => (f p.1, p.2)) := by
  unfold IList.standardDeviation
  rw [atR_mapU, bind_map_res]
  simp only [rn_attributeStandardDeviation, Inst.rn_attributeSize, Inst.rn_label, map_bind_res, map_pure_res]

theorem rn_indexedFrequencies (l : IList F) (i : Nat) (m : Int) :
    IList.indexedFrequencies (l.map (Inst.rn f)) i m = l.indexedFrequencies i m := by
  unfold IList.indexedFrequencies
  simp only [List.foldlM_map, List.length_map, Inst.rn_indexAt]

theorem rn_continuousAttributeAverage (l : IList F) :
    IList.continuousAttributeAverage (l.map (Inst.rn f)) = l.continuousAttributeAverage := by
  have h : ∀ i, IList.continuousAttributeAverageAt (l.map (Inst.rn f)) i = l.continuousAttributeAverageAt i := by
    intro i
    unfold IList.continuousAttributeAverageAt
    rw [atR_mapU, bind_map_res]
    simp only [List.foldlM_map, List.length_map, Inst.rn_getAttribute, Inst.rn_contAt, rn_indexedFrequencies]
  unfold IList.continuousAttributeAverage
  rw [atR_mapU, bind_map_res]
  simp only [h, Inst.rn_attributeSize]

theorem rn_covariance (l : IList F) (a : List F) :
    IList.covariance (l.map (Inst.rn f)) a = l.covariance a := by
  unfold IList.covariance
  rw [atR_mapU, bind_map_res]
  simp only [List.foldlM_map, List.length_map, Inst.rn_continuousAttributeSize, Inst.rn_continuousAttributes]
  rfl

theorem rn_attributeDistribution (l : IList F) (i : Nat) :
    IList.attributeDistribution (l.map (Inst.rn f)) i = l.attributeDistribution i := by
  unfold IList.attributeDistribution
  rw [atR_mapU, bind_map_res]
  simp only [List.foldlM_map, Inst.rn_getAttribute, Inst.rn_discAt]

theorem rn_allAttributesDistribution (l : IList F) :
    IList.allAttributesDistribution (l.map (Inst.rn f)) = l.allAttributesDistribution := by
  unfold IList.allAttributesDistribution
  rw [atR_mapU, bind_map_res]
  simp only [rn_attributeDistribution, Inst.rn_attributeSize]

section
variable (hf : OrderRenaming f)
include hf

theorem rn_dummyPredict (d : DD) (x : Inst F) : dummyPredict (d.rn f) (x.rn f) = f (dummyPredict d x) := by
  unfold dummyPredict
  rw [Inst.rn_isComposite, Inst.rn_possibleLabels, DD.getMaxItemOf_rn hf, DD.getMaxItem_rn hf]
  split_ifs <;> rfl

/-! ## k nearest neighbours -/

/-- a renamed k-NN model -/
def Knn.rn (f : String → String) (m : Knn F) : Knn F := { m with data := m.data.map (Inst.rn f) }

theorem rn_nearestNeighbors (m : Knn F) (hd : ∀ x y, m.dist (Inst.rn f x) (Inst.rn f y) = m.dist x y) (x : Inst F) :
    (m.rn f).nearestNeighbors (x.rn f) = (m.nearestNeighbors x).map (List.map (Inst.rn f)) := by
  unfold Knn.nearestNeighbors
  rw [show (m.rn f).data = m.data.map (Inst.rn f) from rfl, map_bind_res]
  rw [show ([] : List (Inst F × F)) = ([] : List (Inst F × F)).map (fun p => (p.1.rn f, p.2)) from rfl]
  rw [foldlM_equiv (Inst.rn f) (List.map (fun p : Inst F × F => (p.1.rn f, p.2)))
    (fun (r : List (Inst F × F)) y =>
      if Knn.eligible x y then do
        let d ← m.dist y x
        pure (r ++ [(y, d)])
      else pure r), bind_map_res]
  · refine bind_congr_res (fun k _ => ?_)
    simp only [map_pure_res]
    rw [stableSort_map (fun p : Inst F × F => (p.1.rn f, p.2)) (fun p q => p.2 <. q.2) (fun p q => p.2 <. q.2)
      k (fun _ _ _ _ => rfl), ← List.map_take, List.map_map, List.map_map]
    rfl
  · intro y _ s
    have he : Knn.eligible (x.rn f) (y.rn f) = Knn.eligible x y := by
      unfold Knn.eligible
      rw [Inst.rn_isComposite, Inst.rn_possibleLabels, Inst.rn_label]
      congr 1
      exact decide_eq_decide.2 (mem_map_iff hf _ _)
    rw [he, show (m.rn f).dist = m.dist from rfl, hd, map_ite_res, map_bind_res]
    simp only [map_pure_res, List.map_append]
    rfl

theorem rn_knnPredict (m : Knn F) (hd : ∀ x y, m.dist (Inst.rn f x) (Inst.rn f y) = m.dist x y) (x : Inst F) :
    (m.rn f).predict (x.rn f) = (m.predict x).map f := by
  unfold Knn.predict
  rw [rn_nearestNeighbors hf m hd, bind_map_res, map_bind_res]
  refine bind_congr_res (fun k _ => ?_)
  simp only [Inst.rn_isComposite, List.length_map, Inst.rn_possibleLabels, atR_mapU, rn_getClassLabels,
    getMaximum_rn hf, map_ite_res]
  rfl

theorem rn_knnProbability (m : Knn F) (hd : ∀ x y, m.dist (Inst.rn f x) (Inst.rn f y) = m.dist x y) (x : Inst F) :
    (m.rn f).predictProbability (x.rn f) = (m.predictProbability x).map (OMap.rn f) := by
  unfold Knn.predictProbability
  rw [rn_nearestNeighbors hf m hd, bind_map_res, map_bind_res]
  refine bind_congr_res (fun k _ => ?_)
  rw [rn_classDist hf, DD.getProbabilityDistribution_rn hf]
  rfl

/-! ## discriminants -/

theorem rn_gaussPredict (prior : DD) (m m' : Inst F → String → Res F)
    (h : ∀ x c, m' (Inst.rn f x) (f c) = m x c) (x : Inst F) :
    gaussPredict (prior.rn f) m' (x.rn f) = (gaussPredict prior m x).map f := by
  unfold gaussPredict
  have hi : gaussInit (prior.rn f) (x.rn f) = (gaussInit prior x).map f := by
    unfold gaussInit
    rw [Inst.rn_isComposite, Inst.rn_possibleLabels, atR_mapU, DD.getMaxItem_rn hf, map_ite_res]; rfl
  rw [hi, bind_map_res, map_bind_res]
  refine bind_congr_res (fun i _ => ?_)
  have hl : (if (x.rn f).isComposite = true then (x.rn f).possibleLabels else (prior.rn f).getItems) =
      (if x.isComposite = true then x.possibleLabels else prior.getItems).map f := by
    rw [Inst.rn_isComposite, Inst.rn_possibleLabels, DD.getItems_rn]
    split_ifs <;> rfl
  simp only
  rw [hl, map_bind_res]
  rw [foldlM_equiv f (fun p : String × F => (f p.1, p.2)) (gaussStep prior (m x)) (gaussStep (prior.rn f) (m' (x.rn f)))
    _ (i, Dbl.neg (Dbl.maxVal : F)), bind_map_res]
  · rfl
  · intro c _ s
    unfold gaussStep
    rw [DD.containsItem_rn hf, h, map_ite_res, map_bind_res]
    simp only [map_pure_res, apply_ite (fun p : String × F => (f p.1, p.2))]

theorem findR_rn {V : Type} (m : OMap V) (k : String) : findR (OMap.rn f m) (f k) = findR m k := by
  unfold findR; rw [OMap.find?_rn hf]

/-! ### nearest mean -/

/-- a renamed nearest-mean model -/
def KMeans.rn (f : String → String) (m : KMeans F) : KMeans F :=
  { m with prior := m.prior.rn f, classMeans := m.classMeans.map (fun p => (f p.1, p.2)) }

theorem rn_kMeansMetric (m : KMeans F) (hd : ∀ x y, m.dist (Inst.rn f x) (Inst.rn f y) = m.dist x y) (x : Inst F) (c : String) :
    (m.rn f).metric (x.rn f) (f c) = m.metric x c := by
  unfold KMeans.metric
  rw [show (m.rn f).classMeans = m.classMeans.map (fun p => (f p.1, p.2)) from rfl, List.find?_map]
  have : ((fun p : MeanInst F => p.1 == f c) ∘ fun p : MeanInst F => (f p.1, p.2)) = fun p : MeanInst F => p.1 == c := by
    funext p
    simp only [Function.comp]
    by_cases h : p.1 = c
    · simp [h]
    · rw [beq_false_of_ne h, beq_false_of_ne (fun e => h (hf.inj e))]
  rw [this]
  cases m.classMeans.find? (fun p => p.1 == c) with
  | none => rfl
  | some p =>
    simp only [Option.map_some]
    refine bind_congr_res (fun as _ => ?_)
    rw [show (m.rn f).dist = m.dist from rfl, ← hd x ⟨p.1, as, none⟩]
    rfl

theorem rn_kMeansTrain (old : KMeans F) (l : IList F) (dist : Inst F → Inst F → Res F) :
    KMeans.train (old.rn f) (l.map (Inst.rn f)) dist = (KMeans.train old l dist).map (KMeans.rn f) := by
  unfold KMeans.train
  simp only
  rw [rn_byClass hf, bind_map_res, map_bind_res]
  refine bind_congr_res (fun ps _ => ?_)
  unfold Parts.rn
  rw [mapM_equiv (List.map (Inst.rn f)) (fun p : MeanInst F => (f p.1, p.2)) (fun p => IList.average p) _ ps
    (fun p _ => rn_average p), bind_map_res, map_bind_res]
  simp only [map_pure_res, rn_classDist hf, KMeans.rn, List.nil_append]

/-! ### naive Bayes -/

/-- a renamed naive Bayes model -/
def NaiveBayes.rn (f : String → String) (m : NaiveBayes F) : NaiveBayes F :=
  ⟨m.prior.rn f, OMap.rn f m.classMeans, OMap.rn f m.classDeviations, OMap.rn f m.classAttributeDistributions⟩

theorem rn_naiveBayesMetric (m : NaiveBayes F) (x : Inst F) (c : String) :
    (m.rn f).metric (x.rn f) (f c) = m.metric x c := by
  have h1 : (m.rn f).classAttributeDistributions.isEmpty = m.classAttributeDistributions.isEmpty := by
    unfold NaiveBayes.rn OMap.rn; simp
  have h2 : ∀ o : OMap (List F), NaiveBayes.lookupFor (OMap.rn f o) (f c) (x.rn f) = NaiveBayes.lookupFor o c x := by
    intro o; unfold NaiveBayes.lookupFor; rw [findR_rn hf]; rfl
  have hp : ((m.rn f).prior.getProbability (f c) : F) = m.prior.getProbability c := DD.getProbability_rn hf _ _
  unfold NaiveBayes.metric NaiveBayes.logLikelihoodContinuous NaiveBayes.logLikelihoodDiscrete
  rw [h1, hp, show (m.rn f).classMeans = OMap.rn f m.classMeans from rfl,
    show (m.rn f).classDeviations = OMap.rn f m.classDeviations from rfl,
    show (m.rn f).classAttributeDistributions = OMap.rn f m.classAttributeDistributions from rfl, h2, h2, findR_rn hf]
  rfl

theorem rn_meanVector (p : MeanInst F) : NaiveBayes.meanVector (f p.1, p.2) = NaiveBayes.meanVector p := rfl

/-- a renamed class with its instances -/
abbrev rnPart (f : String → String) (p : String × IList F) : String × IList F := (f p.1, p.2.map (Inst.rn f))

theorem rn_zip (l : IList F) (ps : Parts F) :
    (IList.getDistinctClassLabels (l.map (Inst.rn f))).zip (ps.rn f) =
      (l.getDistinctClassLabels.zip ps).map (rnPart f) := by
  rw [rn_distinct hf]
  unfold Parts.rn
  rw [List.zip_map]
  rfl

theorem rn_contClass (m : NaiveBayes F) (p : String × IList F) :
    NaiveBayes.contClass (m.rn f) (rnPart f p) = (NaiveBayes.contClass m p).map (NaiveBayes.rn f) := by
  unfold NaiveBayes.contClass
  simp only [rn_average, rn_standardDeviation, bind_map_res, map_bind_res, rn_meanVector hf, map_pure_res]
  simp only [NaiveBayes.rn, OMap.emplace_rn hf]

theorem rn_discClass (m : NaiveBayes F) (p : String × IList F) :
    NaiveBayes.discClass (m.rn f) (rnPart f p) = (NaiveBayes.discClass m p).map (NaiveBayes.rn f) := by
  unfold NaiveBayes.discClass
  simp only [rn_allAttributesDistribution, map_bind_res, map_pure_res]
  simp only [NaiveBayes.rn, OMap.emplace_rn hf]

theorem rn_naiveBayesTrain (old : NaiveBayes F) (l : IList F) :
    NaiveBayes.train (old.rn f) (l.map (Inst.rn f)) = (NaiveBayes.train old l).map (NaiveBayes.rn f) := by
  unfold NaiveBayes.train
  rw [rn_byClass hf, bind_map_res, map_bind_res]
  refine bind_congr_res (fun ps _ => ?_)
  simp only [rn_zip hf, rn_classDist hf]
  unfold Parts.rn
  rw [atR_mapU, bind_map_res, map_bind_res]
  refine bind_congr_res (fun p0 _ => ?_)
  rw [atR_mapU, bind_map_res, map_bind_res]
  refine bind_congr_res (fun x0 _ => ?_)
  rw [map_bind_res, Inst.rn_getAttribute]
  refine bind_congr_res (fun a0 _ => ?_)
  rw [map_ite_res]
  rw [show ({ old.rn f with prior := l.classDistribution.rn f } : NaiveBayes F) =
    NaiveBayes.rn f { old with prior := l.classDistribution } from rfl]
  rw [foldlM_equiv (rnPart f) (NaiveBayes.rn f) NaiveBayes.discClass _ _ _ (fun p _ s => rn_discClass hf s p),
    foldlM_equiv (rnPart f) (NaiveBayes.rn f) NaiveBayes.contClass _ _ _ (fun p _ s => rn_contClass hf s p)]

/-! ### LDA and QDA -/

/-- a renamed LDA model -/
def Lda.rn (f : String → String) (m : Lda F) : Lda F := ⟨m.prior.rn f, OMap.rn f m.w0, OMap.rn f m.w⟩

theorem rn_ldaMetric (m : Lda F) (x : Inst F) (c : String) : (m.rn f).metric (x.rn f) (f c) = m.metric x c := by
  unfold Lda.metric
  rw [show (m.rn f).w = OMap.rn f m.w from rfl, show (m.rn f).w0 = OMap.rn f m.w0 from rfl, findR_rn hf, findR_rn hf]
  rfl

theorem rn_ldaClassWeights (A : Mat F) (m : Lda F) (p : String × IList F) :
    Lda.classWeights A (m.rn f) (rnPart f p) = (Lda.classWeights A m p).map (Lda.rn f) := by
  unfold Lda.classWeights
  simp only [rn_continuousAttributeAverage, map_bind_res]
  refine bind_congr_res (fun avg _ => ?_)
  cases A.mulRight avg with
  | none => rfl
  | some wi =>
    cases h : dotChecked wi avg with
    | none => simp only [h, map_pure_res, Lda.rn, OMap.emplace_rn hf]
    | some d => simp only [h, map_pure_res, Lda.rn, OMap.emplace_rn hf, DD.getProbability_rn hf]

theorem rn_pooledCovariance (n : Nat) (ps : Parts F) (t : Nat) :
    Lda.pooledCovariance n (ps.rn f) t = Lda.pooledCovariance n ps t := by
  have h : ∀ p : IList F, Lda.classCovariance (p.map (Inst.rn f)) = Lda.classCovariance p := by
    intro p
    unfold Lda.classCovariance
    simp only [rn_continuousAttributeAverage, rn_covariance, List.length_map]
  unfold Lda.pooledCovariance Parts.rn
  simp only [List.foldlM_map, h, List.length_map]

theorem rn_ldaTrain (inverse : Mat F → Mat F) (old : Lda F) (l : IList F) :
    Lda.train inverse (old.rn f) (l.map (Inst.rn f)) = (Lda.train inverse old l).map (Lda.rn f) := by
  unfold Lda.train
  rw [atR_mapU, bind_map_res, map_bind_res]
  refine bind_congr_res (fun x0 _ => ?_)
  rw [show discreteCheck (x0.rn f) = discreteCheck x0 from rfl, map_ite_res, map_error_res]
  congr 1
  rw [rn_byClass hf, bind_map_res, map_bind_res]
  refine bind_congr_res (fun ps _ => ?_)
  simp only [rn_pooledCovariance hf, map_bind_res, List.length_map, rn_zip hf, rn_classDist hf]
  refine bind_congr_res (fun cov _ => ?_)
  exact foldlM_equiv (rnPart f) (Lda.rn f) (Lda.classWeights (F := F) _) (Lda.classWeights _) _
    ⟨l.classDistribution, old.w0, old.w⟩ (fun p _ s => rn_ldaClassWeights hf _ s p)

/-- a renamed QDA model -/
def Qda.rn (f : String → String) (m : Qda F) : Qda F :=
  ⟨m.prior.rn f, OMap.rn f m.w0, OMap.rn f m.w, OMap.rn f m.W⟩

theorem rn_qdaMetric (m : Qda F) (x : Inst F) (c : String) : (m.rn f).metric (x.rn f) (f c) = m.metric x c := by
  unfold Qda.metric
  rw [show (m.rn f).w = OMap.rn f m.w from rfl, show (m.rn f).w0 = OMap.rn f m.w0 from rfl,
    show (m.rn f).W = OMap.rn f m.W from rfl, findR_rn hf, findR_rn hf, findR_rn hf]
  rfl

theorem rn_qdaClassWeights (inverse : Mat F → Mat F) (det : Mat F → F) (m : Qda F) (p : String × IList F) :
    Qda.classWeights inverse det (m.rn f) (rnPart f p) = (Qda.classWeights inverse det m p).map (Qda.rn f) := by
  unfold Qda.classWeights
  simp only [rn_continuousAttributeAverage, map_bind_res, rn_covariance]
  refine bind_congr_res (fun avg _ => ?_)
  refine bind_congr_res (fun c _ => ?_)
  cases (inverse ⟨c.1, c.1, c.2⟩).mulLeft avg with
  | none => simp only [map_pure_res, Qda.rn, OMap.emplace_rn hf]
  | some wi =>
    cases h : dotChecked wi avg with
    | none => simp only [h, map_pure_res, Qda.rn, OMap.emplace_rn hf]
    | some d => simp only [h, map_pure_res, Qda.rn, OMap.emplace_rn hf, DD.getProbability_rn hf]

theorem rn_qdaTrain (inverse : Mat F → Mat F) (det : Mat F → F) (old : Qda F) (l : IList F) :
    Qda.train inverse det (old.rn f) (l.map (Inst.rn f)) = (Qda.train inverse det old l).map (Qda.rn f) := by
  unfold Qda.train
  rw [atR_mapU, bind_map_res, map_bind_res]
  refine bind_congr_res (fun x0 _ => ?_)
  rw [show discreteCheck (x0.rn f) = discreteCheck x0 from rfl, map_ite_res, map_error_res]
  congr 1
  rw [rn_byClass hf, bind_map_res, map_bind_res]
  refine bind_congr_res (fun ps _ => ?_)
  simp only [rn_zip hf, rn_classDist hf]
  exact foldlM_equiv (rnPart f) (Qda.rn f) (Qda.classWeights inverse det) (Qda.classWeights inverse det) _
    ⟨l.classDistribution, old.w0, old.w, old.W⟩ (fun p _ s => rn_qdaClassWeights hf _ _ s p)

end
end Verif
