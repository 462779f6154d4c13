import Verif.Model.NeuralNetwork
import Verif.Model.SoftTree

/-! # Trained networks and soft trees as objects that are asked again and again

`predict` and `predictProbability` write the members `x` and `y` of a network and the members
`weight` and `outputs` of the nodes of a soft decision tree. -/

namespace Verif
open Dbl

variable {F : Type} [Dbl F]

/-- the members `x` and `y`: NeuralNetworkModel.h:16 -/
structure NetMem (F : Type) where
  x : List F
  y : List F
deriving DecidableEq

/-- a new object: NeuralNetworkModel.h:16 -/
def NetMem.new : NetMem F := ⟨[], []⟩

/-- `createInputVector(instance); calculateOutput();` — NeuralNetworkModel.cpp:57-60 and
LinearPerceptronModel.cpp:16-21, MultiLayerPerceptronModel.cpp:27-32, DeepNetworkModel.cpp:48-62:
`MatrixColumnMismatch` is caught and leaves `y` as it is. The first component says whether an
exception leaves the function. -/
def NetMem.compute (output : List F → Res (List F)) (s : NetMem F) (x : Inst F) : Res Unit × NetMem F :=
  match inputVector x with
  | .error e => (.error e, s)
  | .ok v =>
    match output v with
    | .ok y => (.ok (), ⟨v, y⟩)
    | .error (.throw e) => if e = "MatrixColumnMismatch" then (.ok (), ⟨v, s.y⟩) else (.error (.throw e), ⟨v, s.y⟩)
    | .error (.ub e) => (.error (.ub e), ⟨v, s.y⟩)

/-- the class read off the member `y`: NeuralNetworkModel.cpp:157-161 -/
def netAnswer (labels : List String) (y : List F) (x : Inst F) : Res String :=
  if x.isComposite then predictWithComposite labels y x.possibleLabels
  else do
    let i ← maxIndex y
    atR labels i

/-- `predict(instance)` on the object: NeuralNetworkModel.cpp:154-162 -/
def NetMem.predict (labels : List String) (output : List F → Res (List F)) (s : NetMem F) (x : Inst F) :
    Res String × NetMem F :=
  let r := s.compute output x
  (r.1 >>= fun _ => netAnswer labels r.2.y x, r.2)

/-- `predictProbability(instance)` on the object: NeuralNetworkModel.cpp:189-197 -/
def NetMem.probability (labels : List String) (output : List F → Res (List F)) (s : NetMem F) (x : Inst F) :
    Res (OMap F) × NetMem F :=
  let r := s.compute output x
  (r.1 >>= fun _ => labels.zipIdx.foldlM (probabilityStep r.2.y) [], r.2)

/-- `SoftDecisionTree::predict(instance)` on the object (SoftDecisionTree.cpp:24-40), for calls that
return: the answer and the tree as the call leaves it -/
def softPredictState (t : SoftTree F) (x : Inst F) : Res (String × SoftTree F) := do
  let o ← calcOutput x t.root
  let i ← maxIndex o.1
  pure (t.labels.getD i "", { t with root := o.2 })

/-! ## training, with the members `x` and `y` in view

The validation of an epoch calls `predict` on the object that is being trained. (The work on the
training instances writes the member `x` as well; it is overwritten before it is read again.) -/

/-- loop body ValidatedModel.cpp:15-19; the state is `correctCount` and the members -/
def testMemStep (labels : List String) (output : List F → Res (List F)) (st : Nat × NetMem F) (x : Inst F) :
    Res (Nat × NetMem F) := do
  let r := st.2.predict labels output x
  let p ← r.1
  pure (if x.label = p then st.1 + 1 else st.1, r.2)

/-- `testClassifier(validationSet)->getAccuracy()` on the object: ValidatedModel.cpp:13-22,
LinearPerceptronModel.cpp:66-67 -/
def validationMem {W : Type} (labels : List String) (output : W → List F → Res (List F)) (validationSet : IList F)
    (m : NetMem F) (w : W) : Res (F × NetMem F) := do
  let r ← validationSet.foldlM (testMemStep labels (output w)) (0, m)
  pure ((Dbl.ofNat r.1 : F) /. Dbl.ofNat validationSet.length, r.2)

/-- one epoch on the object: LinearPerceptronModel.cpp:53-71, MultiLayerPerceptronModel.cpp:68-111,
DeepNetworkModel.cpp:100-160 -/
def epochStepMem {W : Type} (step : F → W → Inst F → Res W) (perf : NetMem F → W → Res (F × NetMem F))
    (decrease : F) (σ : List Nat) (s : Epochs W F × NetMem F) : Res (Epochs W F × NetMem F) := do
  let data := s.1.data.shuffle σ
  let w ← data.foldlM (step s.1.eta) s.1.cur
  let p ← perf s.2 w
  pure (⟨w, if moreAccurate p.1 s.1.bestPerf then w else s.1.best, if moreAccurate p.1 s.1.bestPerf then p.1 else s.1.bestPerf,
    s.1.eta *. decrease, data⟩, p.2)

/-- the work of `train` after `initialize`, common to the three networks; `ini` is the result of `initialize`,
`weights` the matrices allocated for it -/
def trainMem {W : Type} (param : NetParam F) (ini : List String × Nat) (weights : Res W)
    (step : F → W → Inst F → Res W) (output : W → List F → Res (List F)) (m : NetMem F) (trainSet : IList F) :
    Res (Net W × NetMem F) := do
  let parts ← Parts.byRatioStratified trainSet param.ratio param.splitOrder
  let data ← atR parts 1
  let validationSet ← atR parts 0
  let w ← weights
  let s ← (List.range param.epochs).foldlM (fun s _ => epochStepMem step (validationMem ini.1 output validationSet)
    param.etaDecrease param.shuffleOrder s) (⟨w, w, Dbl.zero, param.learningRate, data⟩, m)
  pure (⟨ini.1, ini.2, s.1.best⟩, s.2)

/-- `LinearPerceptronModel::train`: LinearPerceptronModel.cpp:39-74 -/
def percTrainMem (param : NetParam F) (m : NetMem F) (trainSet : IList F) : Res (Net (Mat F) × NetMem F) := do
  let ini ← netInitialize trainSet
  trainMem param ini (pure (param.random ini.1.length (ini.2 + 1))) (percStep ini.1) percOutput m trainSet

/-- `MultiLayerPerceptronModel::train`: MultiLayerPerceptronModel.cpp:50-115 -/
def mlpTrainMem (param : NetParam F) (H : Nat) (act : Activation) (m : NetMem F) (trainSet : IList F) :
    Res (Net (Two F) × NetMem F) := do
  let ini ← netInitialize trainSet
  trainMem param ini (pure ⟨param.random H (ini.2 + 1), param.random ini.1.length (H + 1)⟩) (mlpStep ini.1 act) (mlpOutput act)
    m trainSet

/-- `DeepNetworkModel::train`: DeepNetworkModel.cpp:79-166 -/
def deepTrainMem (param : NetParam F) (hiddenNodes : List Nat) (act : Activation) (old : Net (List (Mat F))) (m : NetMem F)
    (trainSet : IList F) : Res (Net (List (Mat F)) × NetMem F) := do
  let ini ← netInitialize trainSet
  trainMem param ini (deepAllocate param.random ini.1 ini.2 hiddenNodes old.weights) (deepStep ini.1 act hiddenNodes.length)
    (deepOutput act) m trainSet

end Verif
