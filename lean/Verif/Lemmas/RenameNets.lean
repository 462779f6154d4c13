import Verif.Lemmas.RenameTrees

/-! # Renaming the classes: networks, soft decision trees, support vector machine -/

set_option linter.unusedSectionVars false

namespace Verif
open Dbl
variable {F : Type} [Dbl F] {f : String → String}

section
variable (hf : OrderRenaming f)
include hf

/-! ## networks -/

theorem rn_netPredict (labels : List String) (out : List F → Res (List F)) (x : Inst F) :
    netPredict (labels.map f) out (x.rn f) = (netPredict labels out x).map f := by
  unfold netPredict
  rw [show inputVector (x.rn f) = inputVector x from rfl, map_bind_res]
  refine bind_congr_res (fun v _ => ?_)
  rw [map_bind_res]
  refine bind_congr_res (fun y _ => ?_)
  rw [Inst.rn_isComposite, Inst.rn_possibleLabels, map_ite_res, map_bind_res]
  simp only [atR_mapU]
  congr 1
  unfold predictWithComposite
  rw [atR_mapU, bind_map_res, map_bind_res]
  refine bind_congr_res (fun a _ => ?_)
  rw [List.zipIdx_map, map_bind_res]
  rw [show (f a, Dbl.neg (Dbl.maxVal : F)) = (fun p : String × F => (f p.1, p.2)) (a, Dbl.neg Dbl.maxVal) from rfl,
    foldlM_equiv (Prod.map f id) (fun p : String × F => (f p.1, p.2)) (compositeStep x.possibleLabels y) _ _ _ ?_, bind_map_res]
  · rfl
  · intro p _ s
    unfold compositeStep
    simp only [Prod.map, id, mem_map_iff hf, map_ite_res, map_bind_res, map_pure_res,
      apply_ite (fun p : String × F => (f p.1, p.2))]

theorem rn_netProbability (labels : List String) (out : List F → Res (List F)) (x : Inst F) :
    netProbability (labels.map f) out (x.rn f) = (netProbability labels out x).map (OMap.rn f) := by
  unfold netProbability
  rw [show inputVector (x.rn f) = inputVector x from rfl, map_bind_res]
  refine bind_congr_res (fun v _ => ?_)
  rw [map_bind_res]
  refine bind_congr_res (fun y _ => ?_)
  rw [List.zipIdx_map]
  refine foldlM_equiv (Prod.map f id) (OMap.rn f) (probabilityStep y) (probabilityStep y) _ [] (fun p _ m => ?_)
  unfold probabilityStep
  simp only [Prod.map, id, map_bind_res, map_pure_res, OMap.insert_rn hf]

theorem rn_calculateRMinusY (labels : List String) (x : Inst F) (v : List F) (W : Mat F) :
    calculateRMinusY (labels.map f) (x.rn f) v W = calculateRMinusY labels x v W := by
  unfold calculateRMinusY
  rw [List.length_map, Inst.rn_label, idxOf_rn hf]

theorem rn_netInitialize (l : IList F) :
    netInitialize (l.map (Inst.rn f)) = (netInitialize l).map (fun p => (p.1.map f, p.2)) := by
  unfold netInitialize
  rw [rn_get, bind_map_res, map_bind_res]
  refine bind_congr_res (fun x0 _ => ?_)
  rw [show discreteCheck (x0.rn f) = discreteCheck x0 from rfl, map_ite_res, rn_distinct hf]
  rfl

/-- a renamed state of the epochs -/
def Epochs.rn {W : Type} (f : String → String) (s : Epochs W F) : Epochs W F := { s with data := s.data.map (Inst.rn f) }

theorem rn_epochLoop {W : Type} (step step' : F → W → Inst F → Res W) (perf perf' : W → Res F) (better : F → F → Bool)
    (hs : ∀ e w x, step' e w (Inst.rn f x) = step e w x) (hp : ∀ w, perf' w = perf w) (dec : F) (σ : List Nat) (n : Nat)
    (s : Epochs W F) :
    epochLoop step' perf' better dec σ n (s.rn f) = (epochLoop step perf better dec σ n s).map (Epochs.rn f) := by
  unfold epochLoop
  refine foldlM_equiv' (Epochs.rn f) _ _ _ s (fun _ _ s => ?_)
  unfold epochStep
  simp only [Epochs.rn, rn_shuffle, List.foldlM_map, hs, hp, map_bind_res, map_pure_res]
  rfl

theorem rn_validationAccuracy {W : Type} (labels : List String) (out : W → List F → Res (List F)) (l : IList F) (w : W) :
    validationAccuracy (labels.map f) out (l.map (Inst.rn f)) w = validationAccuracy labels out l w := by
  unfold validationAccuracy
  rw [rn_testClassifier hf (netPredict labels (out w)) _ (rn_netPredict hf labels (out w))]

/-- a renamed network -/
def Net.rn {W : Type} (f : String → String) (m : Net W) : Net W := { m with labels := m.labels.map f }

/-- the part common to all networks -/
theorem rn_netTrain {W : Type} (param : NetParam F) (init : List String → Nat → Res W)
    (hi : ∀ ls d, init (ls.map f) d = init ls d)
    (step : List String → F → W → Inst F → Res W) (out : W → List F → Res (List F))
    (hs : ∀ ls e w x, step (ls.map f) e w (Inst.rn f x) = step ls e w x) (l : IList F) :
    (do let ini ← netInitialize (l.map (Inst.rn f))
        let parts ← Parts.byRatioStratified (l.map (Inst.rn f)) param.ratio param.splitOrder
        let data ← atR parts 1
        let validationSet ← atR parts 0
        let w ← init ini.1 ini.2
        let s ← epochLoop (step ini.1) (validationAccuracy ini.1 out validationSet) moreAccurate
          param.etaDecrease param.shuffleOrder param.epochs ⟨w, w, Dbl.zero, param.learningRate, data⟩
        pure (⟨ini.1, ini.2, s.best⟩ : Net W)) =
    (do let ini ← netInitialize l
        let parts ← Parts.byRatioStratified l param.ratio param.splitOrder
        let data ← atR parts 1
        let validationSet ← atR parts 0
        let w ← init ini.1 ini.2
        let s ← epochLoop (step ini.1) (validationAccuracy ini.1 out validationSet) moreAccurate
          param.etaDecrease param.shuffleOrder param.epochs ⟨w, w, Dbl.zero, param.learningRate, data⟩
        pure (⟨ini.1, ini.2, s.best⟩ : Net W) : Res (Net W)).map (Net.rn f) := by
  rw [rn_netInitialize hf, bind_map_res, map_bind_res]
  refine bind_congr_res (fun ini _ => ?_)
  rw [rn_byRatioStratified hf, bind_map_res, map_bind_res]
  refine bind_congr_res (fun ps _ => ?_)
  unfold Parts.rn
  simp only [atR_mapU, bind_map_res, map_bind_res, hi]
  refine bind_congr_res (fun data _ => bind_congr_res (fun val _ => bind_congr_res (fun w _ => ?_)))
  have := rn_epochLoop hf (step ini.1) (step (ini.1.map f)) (validationAccuracy ini.1 out val)
    (validationAccuracy (ini.1.map f) out (val.map (Inst.rn f))) moreAccurate (hs ini.1)
    (rn_validationAccuracy hf ini.1 out val) param.etaDecrease param.shuffleOrder param.epochs
    ⟨w, w, Dbl.zero, param.learningRate, data⟩
  rw [Epochs.rn] at this
  rw [this, bind_map_res]
  rfl

theorem rn_percTrain (param : NetParam F) (old old' : Net (Mat F)) (l : IList F) :
    percTrain param old' (l.map (Inst.rn f)) = (percTrain param old l).map (Net.rn f) :=
  rn_netTrain hf param (fun ls d => pure (param.random ls.length (d + 1))) (fun ls d => by rw [List.length_map]) percStep
    percOutput (fun ls e w x => by
      unfold percStep percUpdate
      simp only [rn_calculateRMinusY hf]
      rfl) l

theorem rn_mlpTrain (param : NetParam F) (H : Nat) (act : Activation) (old old' : Net (Two F)) (l : IList F) :
    mlpTrain param H act old' (l.map (Inst.rn f)) = (mlpTrain param H act old l).map (Net.rn f) :=
  rn_netTrain hf param (fun ls d => pure (⟨param.random H (d + 1), param.random ls.length (H + 1)⟩ : Two F))
    (fun ls d => by rw [List.length_map]) (fun ls => mlpStep ls act) (mlpOutput act) (fun ls e w x => by
      unfold mlpStep mlpDeltas
      simp only [rn_calculateRMinusY hf]
      rfl) l

theorem rn_deepTrain (param : NetParam F) (hidden : List Nat) (act : Activation) (old : Net (List (Mat F))) (l : IList F) :
    deepTrain param hidden act (old.rn f) (l.map (Inst.rn f)) = (deepTrain param hidden act old l).map (Net.rn f) :=
  rn_netTrain hf param (fun ls d => deepAllocate param.random ls d hidden old.weights)
    (fun ls d => by unfold deepAllocate; rw [List.length_map])
    (fun ls => deepStep ls act hidden.length) (deepOutput act) (fun ls e w x => by
      unfold deepStep deepDeltas
      simp only [rn_calculateRMinusY hf]
      rfl) l

/-! ## soft decision trees -/

theorem rn_calcOutput (x : Inst F) : ∀ n : SoftNode F, calcOutput (x.rn f) n = calcOutput x n
  | .leaf d => by rw [calcOutput, calcOutput]
  | .split d l r => by
    rw [calcOutput, calcOutput, rn_calcOutput x l, rn_calcOutput x r]
    rfl

theorem rn_classIndex (labels : List String) (c : String) : classIndex (labels.map f) (f c) = classIndex labels c := by
  unfold classIndex
  simp only [mem_map_iff hf, idxOf_rn hf]

theorem rn_softErrors (labels : List String) (l : IList F) (n : SoftNode F) :
    softErrors (labels.map f) (l.map (Inst.rn f)) n = softErrors labels l n := by
  unfold softErrors
  rw [List.foldlM_map]
  congr 1
  funext s x
  unfold softErrorStep
  rw [Inst.rn_label, rn_classIndex hf, rn_calcOutput hf]

theorem rn_softPresent (labels : List String) (alpha eta : F) (path : List Bool) (s : SoftNode F × SoftPrev F) (x : Inst F) :
    softPresent (labels.map f) alpha eta path s (x.rn f) = softPresent labels alpha eta path s x := by
  unfold softPresent
  rw [Inst.rn_label, rn_classIndex hf, rn_calcOutput hf]
  refine bind_congr_res (fun o _ => bind_congr_res (fun r _ => bind_congr_res (fun n _ => ?_)))
  have : ∀ m out, softUpdate (labels.map f) alpha m r out (x.rn f) s.2 n.1 = softUpdate labels alpha m r out x s.2 n.1 := by
    intro m out
    cases n.1 with
    | leaf d => rfl
    | split d l rt =>
      simp only [softUpdate, List.length_map]
      rfl
  simp only [this]

/-- a renamed state of the descent -/
def SoftDescent.rn (f : String → String) (s : SoftDescent F) : SoftDescent F := { s with data := s.data.map (Inst.rn f) }

theorem rn_softDescend (labels : List String) (param : SoftParam F) (path : List Bool) (eta : F) (root : SoftNode F)
    (l : IList F) : softDescend (labels.map f) param path eta root (l.map (Inst.rn f)) =
      (softDescend labels param path eta root l).map (fun p => (p.1, p.2.map (Inst.rn f))) := by
  unfold softDescend
  rw [rn_get, bind_map_res, map_bind_res]
  refine bind_congr_res (fun x0 _ => ?_)
  simp only [List.length_map, Inst.rn_attrs, map_bind_res]
  rw [show ∀ (pr : SoftPrev F), (⟨root, pr, eta, l.map (Inst.rn f)⟩ : SoftDescent F) =
    SoftDescent.rn f ⟨root, pr, eta, l⟩ from fun _ => rfl]
  rw [foldlM_equiv' (SoftDescent.rn f)
    (fun (s : SoftDescent F) _ => softEpoch labels param path s), bind_map_res]
  · rfl
  · intro _ _ s
    unfold softEpoch
    rw [show (s.rn f).data = s.data.map (Inst.rn f) from rfl]
    simp only [List.length_map, rn_shuffle, List.foldlM_map, rn_softPresent hf, map_bind_res, map_pure_res]
    rfl

/-- a renamed attempt -/
def SoftTry.rn (f : String → String) (s : SoftTry F) : SoftTry F := { s with data := s.data.map (Inst.rn f) }

/-- a renamed state -/
def SoftState.rn (f : String → String) (s : SoftState F) : SoftState F := { s with data := s.data.map (Inst.rn f) }

theorem rn_softTry (labels : List String) (param : SoftParam F) (cv : IList F) (path : List Bool) (start : SoftCopy F)
    (s : SoftTry F) (i : Nat) :
    softTry (labels.map f) param (cv.map (Inst.rn f)) path start (s.rn f) i =
      (softTry labels param cv path start s i).map (SoftTry.rn f) := by
  unfold softTry
  rw [show (s.rn f).data = s.data.map (Inst.rn f) from rfl, show (s.rn f).root = s.root from rfl, rn_softDescend hf,
    bind_map_res, map_bind_res]
  simp only [rn_softErrors hf, map_bind_res, map_pure_res]
  rfl

theorem rn_softSplit (labels : List String) (param : SoftParam F) (cv : IList F) (path : List Bool) (s : SoftState F) :
    softSplit (labels.map f) param (cv.map (Inst.rn f)) path (s.rn f) =
      (softSplit labels param cv path s).map (fun p => (p.1, p.2.rn f)) := by
  unfold softSplit
  rw [show (s.rn f).data = s.data.map (Inst.rn f) from rfl, show (s.rn f).root = s.root from rfl,
    show (s.rn f).pos = s.pos from rfl]
  simp only [rn_softErrors hf, map_bind_res, rn_get, bind_map_res, rn_distinct hf, List.length_map, Inst.rn_attrs]
  refine bind_congr_res (fun b _ => bind_congr_res (fun n _ => bind_congr_res (fun x0 _ => bind_congr_res (fun st _ => ?_))))
  rw [show ∀ r b c, (⟨r, s.data.map (Inst.rn f), b, c⟩ : SoftTry F) = SoftTry.rn f ⟨r, s.data, b, c⟩ from fun _ _ _ => rfl,
    foldlM_equiv' (SoftTry.rn f) (softTry labels param cv path st) _ _ _
      (fun i _ s => rn_softTry hf labels param cv path st s i), bind_map_res]
  refine bind_congr_res (fun t _ => ?_)
  rw [show (t.rn f).root = t.root from rfl]
  refine bind_congr_res (fun m _ => ?_)
  simp only [map_ite_res, map_bind_res, map_pure_res]
  rfl

theorem rn_softGrow (labels : List String) (param : SoftParam F) (cv : IList F) : ∀ (n : Nat) (path : List Bool)
    (s : SoftState F), softGrow (labels.map f) param (cv.map (Inst.rn f)) n path (s.rn f) =
      (softGrow labels param cv n path s).map (SoftState.rn f) := by
  intro n
  induction n with
  | zero => intro path s; rfl
  | succ n ih =>
    intro path s
    unfold softGrow
    rw [rn_softSplit hf, bind_map_res, map_bind_res]
    simp only [map_ite_res, ih, bind_map_res, map_bind_res, map_pure_res]

/-- a renamed soft decision tree -/
def SoftTree.rn (f : String → String) (t : SoftTree F) : SoftTree F := { t with labels := t.labels.map f }

theorem rn_softTrain (param : SoftParam F) (fuel : Nat) (l : IList F) :
    softTrain param fuel (l.map (Inst.rn f)) = (softTrain param fuel l).map (SoftTree.rn f) := by
  unfold softTrain
  simp only [rn_distinct hf, List.length_map, rn_get, bind_map_res, map_bind_res, rn_byRatioStratified hf, Inst.rn_attrs]
  refine bind_congr_res (fun x0 _ => bind_congr_res (fun ps _ => ?_))
  unfold Parts.rn
  simp only [atR_mapU, bind_map_res]
  refine bind_congr_res (fun cv _ => bind_congr_res (fun data _ => ?_))
  rw [show ∀ r p, (⟨r, data.map (Inst.rn f), p⟩ : SoftState F) = SoftState.rn f ⟨r, data, p⟩ from fun _ _ => rfl,
    rn_softGrow hf, bind_map_res]
  rfl

theorem rn_softPredict (t : SoftTree F) (x : Inst F) : softPredict (t.rn f) (x.rn f) = (softPredict t x).map f := by
  unfold softPredict
  rw [rn_calcOutput hf, map_bind_res]
  refine bind_congr_res (fun o _ => ?_)
  rw [map_bind_res]
  refine bind_congr_res (fun i _ => ?_)
  rw [map_pure_res, show (t.rn f).labels = t.labels.map f from rfl]
  congr 1
  simp only [List.getD_eq_getElem?_getD, List.getElem?_map]
  cases t.labels[i]? with
  | none => exact hf.empty.symm
  | some c => rfl

/-! ## support vector machine -/

/-- a renamed support vector machine -/
def Svm.rn (f : String → String) (m : Svm F) : Svm F := { m with dist := m.dist.rn f }

theorem rn_svmClassCount (d : DD) : Svm.classCount (d.rn f) = Svm.classCount d := by
  funext i
  unfold Svm.classCount
  rw [DD.getItems_rn, idxR_mapU, bind_map_res]
  simp only [DD.getCount_rn hf]

theorem rn_sortByClass (l : IList F) : IList.sortByClass (l.map (Inst.rn f)) = (l.sortByClass).map (Inst.rn f) := by
  unfold IList.sortByClass
  refine stableSort_map (Inst.rn f) _ _ l (fun x _ y _ => ?_)
  simp only [Inst.rn_label, hf.mono.lt_iff_lt]

theorem rn_svmTrain (solve : List (NodeL F) → List F → List F → Res (F × List F)) (old : Svm F) (l : IList F) (p : SvmParam F) :
    Svm.train solve (old.rn f) (l.map (Inst.rn f)) p =
      (Svm.train solve old l p).map (fun r => (r.1.rn f, r.2.map (Inst.rn f))) := by
  have h : Svm.trainSorted solve (old.rn f) (l.sortByClass.map (Inst.rn f)) p =
      (Svm.trainSorted solve old l.sortByClass p).map (Svm.rn f) := by
    unfold Svm.trainSorted
    have hm : (l.sortByClass.map (Inst.rn f)).mapM Inst.toNodeList = l.sortByClass.mapM Inst.toNodeList := by
      have := mapM_equiv (Inst.rn f) id Inst.toNodeList Inst.toNodeList l.sortByClass (fun x _ => by
        rw [show Inst.toNodeList (x.rn f) = x.toNodeList from rfl]; exact (map_id_res _).symm)
      rw [this]
      have : ((List.map id : List (NodeL F) → List (NodeL F))) = id := by funext l; simp
      rw [this]; exact map_id_res _
    rw [hm]
    unfold Svm.groupClasses
    have h2 : ∀ x s, Svm.trainPair solve (DD.rn f l.sortByClass.classDistribution) x s =
        Svm.trainPair solve l.sortByClass.classDistribution x s := by
      intro x s; funext a b; unfold Svm.trainPair; rw [rn_svmClassCount hf]
    have h3 : ∀ s n, Svm.countMarked (DD.rn f l.sortByClass.classDistribution) s n =
        Svm.countMarked l.sortByClass.classDistribution s n := by
      intro s n; funext a; unfold Svm.countMarked; rw [rn_svmClassCount hf]
    have h4 : ∀ s n (a : Svm.PairAcc F), Svm.fillPair (DD.rn f l.sortByClass.classDistribution) s n a =
        Svm.fillPair l.sortByClass.classDistribution s n a := by
      intro s n a; funext q r; unfold Svm.fillPair; rw [rn_svmClassCount hf]
    simp only [rn_classDist hf, DD.size_rn, rn_svmClassCount hf, h2, h3, h4, map_bind_res, map_pure_res]
    rfl
  unfold Svm.train
  rw [rn_get, bind_map_res, map_bind_res]
  refine bind_congr_res (fun x0 _ => ?_)
  rw [show discreteCheck (x0.rn f) = discreteCheck x0 from rfl, map_ite_res, map_error_res, rn_sortByClass hf, h,
    bind_map_res, map_bind_res]
  rfl

theorem rn_svmPredict (m : Svm F) (x : Inst F) : (m.rn f).predict (x.rn f) = (m.predict x).map f := by
  unfold Svm.predict Svm.vote
  rw [show (x.rn f).toNodeList = x.toNodeList from rfl, map_bind_res]
  refine bind_congr_res (fun ns _ => ?_)
  rw [show (m.rn f).predictValues ns = m.predictValues ns from rfl, show (m.rn f).classes = m.classes from rfl,
    show (m.rn f).dist = m.dist.rn f from rfl, DD.getItems_rn]
  simp only [idxR_mapU, map_bind_res, bind_map_res, bind_assoc, pure_bind, map_pure_res]

end
end Verif
