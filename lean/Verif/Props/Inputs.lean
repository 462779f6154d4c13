import Verif.Spec.SameInputs
import Verif.Lemmas.RenameNets
import Verif.Props.ForestSubset

/-! # What networks and support vector machines read of an instance

Lemmas for C197 and C198: only class, possible classes and the vector of numbers. -/

set_option linter.unusedSectionVars false

namespace Verif
open Dbl

variable {F : Type} [Dbl F]

section
variable {g : Inst F → Inst F} (hg : ∀ x, SameInputs x (g x))
include hg

theorem in_labels (l : IList F) : (l.map g).map Inst.label = l.map Inst.label := by
  rw [List.map_map]
  exact List.map_congr_left (fun x _ => (hg x).label)

theorem in_classDist (l : IList F) : IList.classDistribution (l.map g) = IList.classDistribution l := by
  unfold IList.classDistribution
  rw [List.foldl_map]
  simp only [(hg _).label]

theorem in_distinct (l : IList F) : IList.getDistinctClassLabels (l.map g) = IList.getDistinctClassLabels l := by
  unfold IList.getDistinctClassLabels
  rw [List.foldl_map]
  simp only [(hg _).label]

theorem in_vector (x : Inst F) : inputVector (g x) = inputVector x := by
  unfold inputVector; rw [(hg x).inputs]

theorem in_composite (x : Inst F) : (g x).isComposite = x.isComposite := by
  unfold Inst.isComposite; rw [(hg x).possible]

theorem in_possible (x : Inst F) : (g x).possibleLabels = x.possibleLabels := by
  unfold Inst.possibleLabels; rw [(hg x).possible, (hg x).label]

theorem in_addTo (ps : Parts F) (i : Nat) (x : Inst F) :
    Parts.addTo (ps.map (List.map g)) i (g x) = (Parts.addTo ps i x).map (List.map (List.map g)) := by
  unfold Parts.addTo
  rw [keeps_atR]
  cases atR ps i with
  | error e => rfl
  | ok p =>
    simp only [Except.map, res_bind_ok, pure, Except.pure, List.map_set]
    unfold IList.add
    rw [List.map_append, List.map_cons, List.map_nil]

theorem in_byRatioStratified (l : IList F) (r : F) (arr : List Nat) :
    Parts.byRatioStratified (l.map g) r arr = (Parts.byRatioStratified l r arr).map (List.map (List.map g)) := by
  unfold Parts.byRatioStratified
  simp only [in_classDist hg, List.length_map]
  rw [map_bind_res]
  rw [show (([], [[], []]) : Counter × Parts F) = (fun s : Counter × Parts F => (s.1, s.2.map (List.map g))) ([], [[], []]) from rfl]
  rw [foldlM_equiv' (fun s : Counter × Parts F => (s.1, s.2.map (List.map g))) (fun (st : Counter × Parts F) i => do
    let r' ← atR arr i
    let x ← l.get r'
    let ps ←
      if Dbl.ofNat (Counter.count st.1 x.label) <.
          (Dbl.ofNat l.length *. r *. (l.classDistribution.getProbability x.label : F))
      then Parts.addTo st.2 0 x
      else Parts.addTo st.2 1 x
    pure (Counter.put st.1 x.label, ps)), bind_map_res]
  · rfl
  · intro i _ s
    simp only [map_bind_res]
    refine bind_congr_res (fun a _ => ?_)
    unfold IList.get
    simp only [keeps_atR, bind_map_res]
    refine bind_congr_res (fun x _ => ?_)
    simp only [(hg x).label, in_addTo hg]
    split <;> cases Parts.addTo s.2 _ x <;> rfl

theorem in_netPredict (labels : List String) (out : List F → Res (List F)) (x : Inst F) :
    netPredict labels out (g x) = netPredict labels out x := by
  unfold netPredict
  rw [in_vector hg, in_composite hg, in_possible hg]

theorem in_netProbability (labels : List String) (out : List F → Res (List F)) (x : Inst F) :
    netProbability labels out (g x) = netProbability labels out x := by
  unfold netProbability
  rw [in_vector hg]

theorem in_rMinusY (labels : List String) (x : Inst F) (v : List F) (W : Mat F) :
    calculateRMinusY labels (g x) v W = calculateRMinusY labels x v W := by
  unfold calculateRMinusY
  rw [(hg x).label]

theorem in_netInitialize (l : IList F) : netInitialize (l.map g) = netInitialize l := by
  unfold netInitialize IList.get
  rw [keeps_atR, bind_map_res]
  refine bind_congr_res (fun x0 _ => ?_)
  rw [(hg x0).accepted, (hg x0).size, in_distinct hg]

theorem in_testClassifier (predict : Inst F → Res String) (hp : ∀ x, predict (g x) = predict x) (l : IList F) :
    testClassifier predict (l.map g) = testClassifier predict l := by
  unfold testClassifier
  rw [List.foldlM_map, List.length_map]
  simp only [hp, (hg _).label]

/-- a state of the epochs with other instances -/
def Epochs.over {W : Type} (g : Inst F → Inst F) (s : Epochs W F) : Epochs W F := { s with data := s.data.map g }

theorem in_epochLoop {W : Type} (step : F → W → Inst F → Res W) (perf perf' : W → Res F) (better : F → F → Bool)
    (hs : ∀ e w x, step e w (g x) = step e w x) (hp : ∀ w, perf' w = perf w) (dec : F) (σ : List Nat) (n : Nat)
    (s : Epochs W F) :
    epochLoop step perf' better dec σ n (s.over g) = (epochLoop step perf better dec σ n s).map (Epochs.over g) := by
  unfold epochLoop
  refine foldlM_equiv' (Epochs.over g) _ _ _ s (fun _ _ s => ?_)
  unfold epochStep
  have hsh : IList.shuffle (s.data.map g) σ = (IList.shuffle s.data σ).map g := by
    unfold IList.shuffle
    rw [List.map_filterMap]
    congr 1
    funext i
    rw [List.getElem?_map]
  simp only [Epochs.over, hsh, List.foldlM_map, hs, hp, map_bind_res, map_pure_res]
  rfl

theorem in_validationAccuracy {W : Type} (labels : List String) (out : W → List F → Res (List F)) (l : IList F) (w : W) :
    validationAccuracy labels out (l.map g) w = validationAccuracy labels out l w := by
  unfold validationAccuracy
  rw [in_testClassifier hg _ (in_netPredict hg labels (out w))]

/-- the part common to the classifying networks -/
theorem in_netTrain {W : Type} (param : NetParam F) (init : List String → Nat → Res W)
    (step : List String → F → W → Inst F → Res W) (out : W → List F → Res (List F))
    (hs : ∀ ls e w x, step ls e w (g x) = step ls e w x) (l : IList F) :
    (do let ini ← netInitialize (l.map g)
        let parts ← Parts.byRatioStratified (l.map g) param.ratio param.splitOrder
        let data ← atR parts 1
        let validationSet ← atR parts 0
        let w ← init ini.1 ini.2
        let s ← epochLoop (step ini.1) (validationAccuracy ini.1 out validationSet) moreAccurate
          param.etaDecrease param.shuffleOrder param.epochs ⟨w, w, Dbl.zero, param.learningRate, data⟩
        pure (⟨ini.1, ini.2, s.best⟩ : Net W)) =
    (do let ini ← netInitialize l
        let parts ← Parts.byRatioStratified l param.ratio param.splitOrder
        let data ← atR parts 1
        let validationSet ← atR parts 0
        let w ← init ini.1 ini.2
        let s ← epochLoop (step ini.1) (validationAccuracy ini.1 out validationSet) moreAccurate
          param.etaDecrease param.shuffleOrder param.epochs ⟨w, w, Dbl.zero, param.learningRate, data⟩
        pure (⟨ini.1, ini.2, s.best⟩ : Net W) : Res (Net W)) := by
  rw [in_netInitialize hg]
  refine bind_congr_res (fun ini _ => ?_)
  rw [in_byRatioStratified hg, bind_map_res]
  refine bind_congr_res (fun ps _ => ?_)
  simp only [keeps_atR, bind_map_res]
  refine bind_congr_res (fun data _ => bind_congr_res (fun val _ => bind_congr_res (fun w _ => ?_)))
  have := in_epochLoop hg (step ini.1) (validationAccuracy ini.1 out val)
    (validationAccuracy ini.1 out (val.map g)) moreAccurate (hs ini.1)
    (in_validationAccuracy hg ini.1 out val) param.etaDecrease param.shuffleOrder param.epochs
    ⟨w, w, Dbl.zero, param.learningRate, data⟩
  rw [Epochs.over] at this
  rw [this, bind_map_res]
  rfl

theorem in_percTrain (param : NetParam F) (old : Net (Mat F)) (l : IList F) :
    percTrain param old (l.map g) = percTrain param old l :=
  in_netTrain hg param (fun ls d => pure (param.random ls.length (d + 1))) percStep
    percOutput (fun ls e w x => by
      unfold percStep percUpdate
      simp only [in_rMinusY hg, in_vector hg]) l

theorem in_mlpTrain (param : NetParam F) (H : Nat) (act : Activation) (old : Net (Two F)) (l : IList F) :
    mlpTrain param H act old (l.map g) = mlpTrain param H act old l :=
  in_netTrain hg param (fun ls d => pure (⟨param.random H (d + 1), param.random ls.length (H + 1)⟩ : Two F))
    (fun ls => mlpStep ls act) (mlpOutput act) (fun ls e w x => by
      unfold mlpStep mlpDeltas
      simp only [in_rMinusY hg, in_vector hg]) l

theorem in_deepTrain (param : NetParam F) (hidden : List Nat) (act : Activation) (old : Net (List (Mat F))) (l : IList F) :
    deepTrain param hidden act old (l.map g) = deepTrain param hidden act old l :=
  in_netTrain hg param (fun ls d => deepAllocate param.random ls d hidden old.weights)
    (fun ls => deepStep ls act hidden.length) (deepOutput act) (fun ls e w x => by
      unfold deepStep deepDeltas
      simp only [in_rMinusY hg, in_vector hg]) l

theorem in_autoStep (eta : F) (w : Two F) (x : Inst F) : autoStep eta w (g x) = autoStep eta w x := by
  unfold autoStep
  rw [in_vector hg, (hg x).inputs]

theorem in_autoPredictInput (w : Two F) (x : Inst F) : autoPredictInput w (g x) = autoPredictInput w x := by
  unfold autoPredictInput
  rw [in_vector hg]

theorem in_autoError (l : IList F) (w : Two F) : autoError (l.map g) w = autoError l w := by
  unfold autoError
  rw [List.foldlM_map, List.length_map]
  congr 2
  funext e x
  unfold autoErrorStep
  rw [in_autoPredictInput hg, (hg x).inputs]

theorem in_autoTrain (param : NetParam F) (H : Nat) (old : Net (Two F)) (l : IList F) :
    autoTrain param H old (l.map g) = autoTrain param H old l := by
  unfold autoTrain IList.get
  rw [in_netInitialize hg]
  refine bind_congr_res (fun ini _ => ?_)
  rw [in_byRatioStratified hg, bind_map_res]
  refine bind_congr_res (fun ps _ => ?_)
  simp only [keeps_atR, bind_map_res, (hg _).size]
  refine bind_congr_res (fun data _ => bind_congr_res (fun val _ => bind_congr_res (fun x0 _ => ?_)))
  have := in_epochLoop hg autoStep (autoError val) (autoError (val.map g)) lessError (in_autoStep hg)
    (in_autoError hg val) (Dbl.lit (19/20)) param.shuffleOrder param.epochs
    ⟨⟨param.random H (ini.2 + 1), param.random x0.continuousAttributeSize.toNat (H + 1)⟩,
      ⟨param.random H (ini.2 + 1), param.random x0.continuousAttributeSize.toNat (H + 1)⟩, Dbl.maxVal, param.learningRate, data⟩
  rw [Epochs.over] at this
  rw [this, bind_map_res]
  rfl

theorem in_nodeList (x : Inst F) : (g x).toNodeList = x.toNodeList := by
  have : (g x).continuousAttributes = x.continuousAttributes := (hg x).inputs
  unfold Inst.toNodeList
  rw [this]

theorem in_sortByClass (l : IList F) : IList.sortByClass (l.map g) = (IList.sortByClass l).map g := by
  unfold IList.sortByClass
  refine stableSort_map g _ _ l (fun x _ y _ => ?_)
  simp only [(hg _).label]

theorem in_svmTrain (solve : List (NodeL F) → List F → List F → Res (F × List F)) (old : Svm F) (l : IList F) (p : SvmParam F) :
    Svm.train solve old (l.map g) p = (Svm.train solve old l p).map (fun r => (r.1, r.2.map g)) := by
  have hm : (l.sortByClass.map g).mapM Inst.toNodeList = l.sortByClass.mapM Inst.toNodeList := by
    rw [List.mapM_map]
    congr 1
    funext x
    exact in_nodeList hg x
  unfold Svm.train IList.get
  rw [keeps_atR, bind_map_res, map_bind_res]
  refine bind_congr_res (fun x0 _ => ?_)
  rw [(hg x0).accepted, map_ite_res, map_error_res, in_sortByClass hg, map_bind_res]
  have : Svm.trainSorted solve old (l.sortByClass.map g) p = Svm.trainSorted solve old l.sortByClass p := by
    unfold Svm.trainSorted
    rw [hm, in_classDist hg]
  rw [this]
  rfl

theorem in_svmPredict (m : Svm F) (x : Inst F) : m.predict (g x) = m.predict x := by
  unfold Svm.predict
  rw [in_nodeList hg]

end
end Verif
