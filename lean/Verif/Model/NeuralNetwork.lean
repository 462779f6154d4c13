import Verif.Model.Performance
import Verif.Model.Partition
import Verif.Model.Matrix

/-! # Neural networks (`src/Model/NeuralNetwork`)

The library exceptions for mismatched sizes are `Err.throw` with the name of the exception
class, and each `try` block catches the classes listed in its C++ text (`catching`). -/

namespace Verif
open Dbl

variable {F : Type} [Dbl F]

/-! ## contract of the library classes `Vector` and `Matrix`, continued -/

/-- `enum class ActivationFunction`: src/Parameter/ActivationFunction.h -/
inductive Activation where
  | sigmoid
  | tanh
  | relu
deriving DecidableEq, Repr

/-- Math, `Vector::sigmoid`: `1 / (1 + exp(-v))` -/
def sigmoidF (a : F) : F := Dbl.one /. (Dbl.one +. Dbl.exp (Dbl.neg a))

/-- Math, `Vector::relu`: negative components become 0 -/
def reluF (a : F) : F := if a <. Dbl.zero then Dbl.zero else a

/-- Math, `Vector::reluDerivative`: positive components become 1, the others 0 -/
def reluDerivF (a : F) : F := if Dbl.zero <. a then Dbl.one else Dbl.zero

/-- Math, `Matrix::multiplyWithVectorFromRight` -/
def Mat.mulRightR (m : Mat F) (v : List F) : Res (List F) :=
  match m.mulRight v with
  | some r => .ok r
  | none => .error (.throw "MatrixColumnMismatch")

/-- Math, `Matrix::multiplyWithVectorFromLeft` -/
def Mat.mulLeftR (m : Mat F) (v : List F) : Res (List F) :=
  match m.mulLeft v with
  | some r => .ok r
  | none => .error (.throw "MatrixRowMismatch")

/-- Math, `Vector::difference` -/
def diffR (v w : List F) : Res (List F) :=
  match subChecked v w with
  | some r => .ok r
  | none => .error (.throw "VectorSizeMismatch")

/-- Math, `Vector::elementProduct` -/
def elemR (v w : List F) : Res (List F) :=
  if v.length = w.length then .ok (List.zipWith (fun a b => a *. b) v w)
  else .error (.throw "VectorSizeMismatch")

/-- Math, `Matrix(Vector v, Vector w)`: the outer product -/
def Mat.outer (v w : List F) : Mat F :=
  ⟨v.length, w.length, fun i j => (v.getD i Dbl.zero) *. (w.getD j Dbl.zero)⟩

/-- Math, `Matrix::add` -/
def Mat.addR (m n : Mat F) : Res (Mat F) :=
  if m.rows = n.rows ∧ m.cols = n.cols then .ok ⟨m.rows, m.cols, fun i j => m.e i j +. n.e i j⟩
  else .error (.throw "MatrixDimensionMismatch")

/-- Math, `Vector(size, index, x)`: zeros except for `x` at `index`; the write outside of the
vector is undefined -/
def unitVec (size index : Nat) (x : F) : Res (List F) :=
  if index < size then .ok ((List.replicate size (Dbl.zero : F)).set index x)
  else .error (.ub "operator[]")

/-- Math, `Vector::maxIndex` -/
def maxIndex : List F → Res Nat
  | [] => .error (.ub "operator[]")
  | a :: l => .ok ((l.zipIdx 1).foldl (fun (b : Nat × F) p => if b.2 <. p.1 then (p.2, p.1) else b) (0, a)).1

/-- `try { r } catch (A&) {} catch (B&) {} ...`: the exceptions of the classes `caught` leave
`fallback` -/
def catching {α : Type} (caught : List String) (fallback : α) (r : Res α) : Res α :=
  match r with
  | .ok a => .ok a
  | .error (.throw e) => if e ∈ caught then .ok fallback else .error (.throw e)
  | .error (.ub e) => .error (.ub e)

/-! ## NeuralNetworkModel -/

/-- `initialize`: NeuralNetworkModel.cpp:23-30; returns `classLabels` and `d` (`K` is the number
of labels) -/
def netInitialize (trainSet : IList F) : Res (List String × Nat) := do
  let x0 ← trainSet.get 0
  if discreteCheck x0 = false then .error (.throw "DiscreteFeaturesNotAllowed")
  else pure (trainSet.getDistinctClassLabels, x0.continuousAttributeSize.toNat)

/-- `normalizeOutput`: NeuralNetworkModel.cpp:39-47 -/
def normalizeOutput (o : List F) : List F :=
  let sum := o.foldl (fun (s : F) a => s +. Dbl.exp a) Dbl.zero
  o.map (fun a => Dbl.exp a /. sum)

/-- `createInputVector`: NeuralNetworkModel.cpp:55-58 -/
def inputVector (x : Inst F) : Res (List F) := do
  let v ← x.toVector
  pure (Dbl.one :: v)

/-- the `switch` of `calculateHidden`: NeuralNetworkModel.cpp:70-80 -/
def activate : Activation → List F → List F
  | .sigmoid, z => z.map sigmoidF
  | .tanh, z => z.map Dbl.tanh
  | .relu, z => z.map reluF

/-- `calculateHidden`: NeuralNetworkModel.cpp:68-82 -/
def calculateHidden (input : List F) (W : Mat F) (act : Activation) : Res (List F) := do
  let z ← W.mulRightR input
  pure (activate act z)

/-- `calculateOneMinusHidden`: NeuralNetworkModel.cpp:92-95 -/
def oneMinusHidden (hidden : List F) : Res (List F) :=
  diffR (List.replicate hidden.length Dbl.one) hidden

/-- `Vector::biased` -/
def biased (v : List F) : List F := Dbl.one :: v

/-- `calculateForwardSingleHiddenLayer`: NeuralNetworkModel.cpp:105-109 -/
def forwardSingleHidden (v : List F) (W V : Mat F) (act : Activation) : Res (List F) := do
  let hidden ← calculateHidden v W act
  V.mulRightR (biased hidden)

/-- `calculateRMinusY`: NeuralNetworkModel.cpp:121-126 -/
def calculateRMinusY (labels : List String) (x : Inst F) (input : List F) (W : Mat F) :
    Res (List F) := do
  let r ← unitVec labels.length (labels.idxOf x.label) Dbl.one
  let o ← W.mulRightR input
  diffR r (normalizeOutput o)

/-- loop body NeuralNetworkModel.cpp:139-142 (`Vector::getValue` is an unchecked access, made
only for a possible label) -/
def compositeStep (possible : List String) (y : List F) (b : String × F) (p : String × Nat) :
    Res (String × F) :=
  if p.1 ∈ possible then do
    let yi ← idxR y p.2
    pure (if b.2 <. yi then (p.1, yi) else b)
  else pure b

/-- `predictWithCompositeInstance`: NeuralNetworkModel.cpp:135-145 -/
def predictWithComposite (labels : List String) (y : List F) (possible : List String) : Res String := do
  let first ← atR possible 0
  let b ← labels.zipIdx.foldlM (compositeStep possible y) (first, Dbl.neg (Dbl.maxVal : F))
  pure b.1

/-- `predict`: NeuralNetworkModel.cpp:154-162; `output` is the virtual `calculateOutput`.
Simplification: when the instance does not fit the weights, `calculateOutput` catches the
exception and the output of the previous call is used; here that is an error. The call with the members of
the object in view is in NetState; C186 says that training agrees whenever it succeeds here. -/
def netPredict (labels : List String) (output : List F → Res (List F)) (x : Inst F) : Res String := do
  let v ← inputVector x
  let y ← output v
  if x.isComposite then predictWithComposite labels y x.possibleLabels
  else do
    let i ← maxIndex y
    atR labels i

/-- loop body NeuralNetworkModel.cpp:193-195 -/
def probabilityStep (y : List F) (m : OMap F) (p : String × Nat) : Res (OMap F) := do
  let yi ← idxR y p.2
  pure (OMap.insert m p.1 yi)

/-- `predictProbability`: NeuralNetworkModel.cpp:189-197 -/
def netProbability (labels : List String) (output : List F → Res (List F)) (x : Inst F) :
    Res (OMap F) := do
  let v ← inputVector x
  let y ← output v
  labels.zipIdx.foldlM (probabilityStep y) []

/-! ## the epochs -/

/-- what the training loops keep: current weights, best weights with their performance, the
learning rate and the current order of the training instances -/
structure Epochs (W F : Type) where
  cur : W
  best : W
  bestPerf : F
  eta : F
  data : IList F

/-- One epoch: LinearPerceptronModel.cpp:53-71, MultiLayerPerceptronModel.cpp:68-111,
DeepNetworkModel.cpp:100-160, AutoEncoderModel.cpp:101-132. `step` is the work on one instance,
`perf` the validation result, `σ` the reordering done by `shuffle(seed)`. -/
def epochStep {W : Type} (step : F → W → Inst F → Res W) (perf : W → Res F) (better : F → F → Bool)
    (decrease : F) (σ : List Nat) (s : Epochs W F) : Res (Epochs W F) := do
  let data := s.data.shuffle σ
  let w ← data.foldlM (step s.eta) s.cur
  let p ← perf w
  pure ⟨w, if better p s.bestPerf then w else s.best, if better p s.bestPerf then p else s.bestPerf, s.eta *. decrease, data⟩

/-- all the epochs -/
def epochLoop {W : Type} (step : F → W → Inst F → Res W) (perf : W → Res F) (better : F → F → Bool)
    (decrease : F) (σ : List Nat) (epochs : Nat) (s : Epochs W F) : Res (Epochs W F) :=
  (List.range epochs).foldlM (fun s _ => epochStep step perf better decrease σ s) s

/-- `LinearPerceptronParameter` and the random sources: ratio and the index array of the
stratified partition, order of `shuffle(seed)`, random matrices -/
structure NetParam (F : Type) where
  ratio : F
  splitOrder : List Nat
  shuffleOrder : List Nat
  random : Nat → Nat → Mat F
  epochs : Nat
  learningRate : F
  etaDecrease : F

/-- a trained network: labels, number of inputs, weights -/
structure Net (W : Type) where
  labels : List String
  d : Nat
  weights : W

/-! ## LinearPerceptronModel -/

/-- `calculateOutput`: LinearPerceptronModel.cpp:16-21 -/
def percOutput (W : Mat F) (v : List F) : Res (List F) := W.mulRightR v

/-- the `try` block LinearPerceptronModel.cpp:57-60 -/
def percUpdate (labels : List String) (x : Inst F) (v : List F) (eta : F) (W : Mat F) : Res (Mat F) := do
  let rMinusY ← calculateRMinusY labels x v W
  W.addR ((Mat.outer rMinusY v).scale eta)

/-- loop body LinearPerceptronModel.cpp:55-64 -/
def percStep (labels : List String) (eta : F) (W : Mat F) (x : Inst F) : Res (Mat F) := do
  let v ← inputVector x
  catching ["MatrixColumnMismatch", "MatrixDimensionMismatch", "VectorSizeMismatch"] W
    (percUpdate labels x v eta W)

/-- `testClassifier(validationSet)->getAccuracy()`: LinearPerceptronModel.cpp:66-67 -/
def validationAccuracy {W : Type} (labels : List String) (output : W → List F → Res (List F))
    (validationSet : IList F) (w : W) : Res F := do
  let p ← testClassifier (netPredict labels (output w)) validationSet
  p.getAccuracy

/-- `current > best` -/
def moreAccurate (p b : F) : Bool := b <. p

/-- `LinearPerceptronModel::train`: LinearPerceptronModel.cpp:39-74; the previous state of the
object does not enter -/
def percTrain (param : NetParam F) (_old : Net (Mat F)) (trainSet : IList F) : Res (Net (Mat F)) := do
  let ini ← netInitialize trainSet
  let parts ← Parts.byRatioStratified trainSet param.ratio param.splitOrder
  let data ← atR parts 1
  let validationSet ← atR parts 0
  let W := param.random ini.1.length (ini.2 + 1)
  let s ← epochLoop (percStep ini.1) (validationAccuracy ini.1 percOutput validationSet) moreAccurate
    param.etaDecrease param.shuffleOrder param.epochs ⟨W, W, Dbl.zero, param.learningRate, data⟩
  pure ⟨ini.1, ini.2, s.best⟩

/-! ## MultiLayerPerceptronModel -/

/-- the pair of weight matrices `W` (inputs to hidden) and `V` (hidden to outputs) -/
structure Two (F : Type) where
  W : Mat F
  V : Mat F

/-- `calculateOutput`: MultiLayerPerceptronModel.cpp:27-32 -/
def mlpOutput (act : Activation) (w : Two F) (v : List F) : Res (List F) := forwardSingleHidden v w.W w.V act

/-- the `switch` MultiLayerPerceptronModel.cpp:78-92 -/
def mlpDerivative (act : Activation) (hidden : List F) : Res (List F) :=
  match act with
  | .sigmoid => do
    let om ← oneMinusHidden hidden
    elemR om hidden
  | .tanh => do
    let one : List F := List.replicate hidden.length Dbl.one
    let hidden' := hidden.map Dbl.tanh
    let sq ← elemR hidden' hidden'
    diffR one sq
  | .relu => pure (hidden.map reluDerivF)

/-- Math, `Vector::remove(0)` -/
def removeFirst (v : List F) : Res (List F) :=
  match v with
  | [] => .error (.ub "erase of end()")
  | _ :: l => .ok l

/-- the `try` block up to the two weight changes, MultiLayerPerceptronModel.cpp:72-94; returns
`deltaW` and `deltaV` -/
def mlpDeltas (labels : List String) (act : Activation) (x : Inst F) (v : List F) (w : Two F) :
    Res (Mat F × Mat F) := do
  let hidden ← calculateHidden v w.W act
  let rMinusY ← calculateRMinusY labels x (biased hidden) w.V
  let t ← w.V.mulLeftR rMinusY
  let tmph ← removeFirst t
  let deriv ← mlpDerivative act hidden
  let tmpHidden ← elemR tmph deriv
  pure (Mat.outer tmpHidden v, Mat.outer rMinusY (biased hidden))

/-- MultiLayerPerceptronModel.cpp:97-98 and AutoEncoderModel.cpp:118-119; an exception leaves the
`V` that is already changed -/
def addW (caught : List String) (w : Two F) (eta : F) (dW : Mat F) : Res (Two F) :=
  catching caught w (do
    let W' ← w.W.addR (dW.scale eta)
    pure { w with W := W' })

/-- MultiLayerPerceptronModel.cpp:95-98 and AutoEncoderModel.cpp:116-119 -/
def applyTwo (caught : List String) (w : Two F) (eta : F) (d : Mat F × Mat F) : Res (Two F) := do
  let V' ← w.V.addR (d.2.scale eta)
  addW caught { w with V := V' } eta d.1

/-- the four exceptions caught by MultiLayerPerceptronModel.cpp:99-103 and
AutoEncoderModel.cpp:120-124 -/
def fourMismatches : List String :=
  ["MatrixColumnMismatch", "MatrixRowMismatch", "MatrixDimensionMismatch", "VectorSizeMismatch"]

/-- loop body MultiLayerPerceptronModel.cpp:70-103 -/
def mlpStep (labels : List String) (act : Activation) (eta : F) (w : Two F) (x : Inst F) : Res (Two F) := do
  let v ← inputVector x
  catching fourMismatches w (do
    let d ← mlpDeltas labels act x v w
    applyTwo fourMismatches w eta d)

/-- `MultiLayerPerceptronModel::train`: MultiLayerPerceptronModel.cpp:50-115. Both matrices are
drawn from copies of the same engine (`allocateWeights` passes it by value). -/
def mlpTrain (param : NetParam F) (H : Nat) (act : Activation) (_old : Net (Two F)) (trainSet : IList F) :
    Res (Net (Two F)) := do
  let ini ← netInitialize trainSet
  let parts ← Parts.byRatioStratified trainSet param.ratio param.splitOrder
  let data ← atR parts 1
  let validationSet ← atR parts 0
  let w : Two F := ⟨param.random H (ini.2 + 1), param.random ini.1.length (H + 1)⟩
  let s ← epochLoop (mlpStep ini.1 act) (validationAccuracy ini.1 (mlpOutput act) validationSet) moreAccurate
    param.etaDecrease param.shuffleOrder param.epochs ⟨w, w, Dbl.zero, param.learningRate, data⟩
  pure ⟨ini.1, ini.2, s.best⟩

/-! ## DeepNetworkModel -/

/-- `allocateWeights`: DeepNetworkModel.cpp:21-28; the new matrices are appended to `weights` -/
def deepAllocate (random : Nat → Nat → Mat F) (labels : List String) (d : Nat) (hiddenNodes : List Nat)
    (old : List (Mat F)) : Res (List (Mat F)) := do
  let h0 ← atR hiddenNodes 0
  let mid ← (List.range (hiddenNodes.length - 1)).mapM (fun (i : Nat) => do
    let a ← atR hiddenNodes (i + 1)
    let b ← atR hiddenNodes i
    pure (random a (b + 1)))
  let last ← atR hiddenNodes (hiddenNodes.length - 1)
  pure (old ++ [random h0 (d + 1)] ++ mid ++ [random labels.length (last + 1)])

/-- loop body DeepNetworkModel.cpp:52-57 -/
def deepOutputStep (act : Activation) (ws : List (Mat F)) (v : List F) (hiddenBiased : List F) (i : Nat) :
    Res (List F) := do
  let w ← atR ws i
  let hidden ← calculateHidden (if i = 0 then v else hiddenBiased) w act
  pure (biased hidden)

/-- `calculateOutput`: DeepNetworkModel.cpp:48-62 -/
def deepOutput (act : Activation) (ws : List (Mat F)) (v : List F) : Res (List F) := do
  let hiddenBiased ← (List.range (ws.length - 1)).foldlM (deepOutputStep act ws v) []
  let w ← atR ws (ws.length - 1)
  w.mulRightR hiddenBiased

/-- the input of layer `k`: DeepNetworkModel.cpp:108-112, 140-144 -/
def layerInput (v : List F) (hiddenBiased : List (List F)) (k : Nat) : Res (List F) :=
  if k = 0 then pure v else atR hiddenBiased (k - 1)

/-- loop body DeepNetworkModel.cpp:108-113 -/
def deepForwardStep (act : Activation) (ws : List (Mat F)) (v : List F)
    (s : List (List F) × List (List F)) (k : Nat) : Res (List (List F) × List (List F)) := do
  let input ← layerInput v s.2 k
  let w ← atR ws k
  let h ← calculateHidden input w act
  pure (s.1 ++ [h], s.2 ++ [biased h])

/-- the `switch` DeepNetworkModel.cpp:124-138; `layers` is `hidden.size()`, the number of hidden
layers. (The vector `hidden.at(k)` is changed in place for TANH and RELU; it is not read again.) -/
def deepDerivative (act : Activation) (layers : Nat) (h : List F) : Res (List F) :=
  match act with
  | .sigmoid => do
    let om ← oneMinusHidden h
    elemR om h
  | .tanh => do
    let one : List F := List.replicate layers Dbl.one
    let h' := h.map Dbl.tanh
    let sq ← elemR h' h'
    diffR one sq
  | .relu => pure (h.map reluDerivF)

/-- loop body DeepNetworkModel.cpp:118-144; the state is `tmpHidden` and `deltaWeights` -/
def deepBackStep (act : Activation) (ws : List (Mat F)) (v rMinusY : List F) (hidden hiddenBiased : List (List F))
    (s : List F × List (Mat F)) (k : Nat) : Res (List F × List (Mat F)) := do
  let w ← atR ws (k + 1)
  let t ← w.mulLeftR (if k + 2 = ws.length then rMinusY else s.1)
  let tmph ← removeFirst t
  let h ← atR hidden k
  let deriv ← deepDerivative act hidden.length h
  let tmpHidden ← elemR tmph deriv
  let input ← layerInput v hiddenBiased k
  pure (tmpHidden, Mat.outer tmpHidden input :: s.2)

/-- the `try` block up to the weight changes: DeepNetworkModel.cpp:104-145; returns
`deltaWeights`. `L` is `hiddenLayerSize`. -/
def deepDeltas (labels : List String) (act : Activation) (L : Nat) (x : Inst F) (v : List F) (ws : List (Mat F)) :
    Res (List (Mat F)) := do
  let f ← (List.range L).foldlM (deepForwardStep act ws v) ([], [])
  let top ← if L = 0 then .error (.throw "out_of_range") else atR f.2 (L - 1)
  let wl ← atR ws (ws.length - 1)
  let rMinusY ← calculateRMinusY labels x top wl
  let b ← (List.range (ws.length - 1)).reverse.foldlM (deepBackStep act ws v rMinusY f.1 f.2)
    ([], [Mat.outer rMinusY top])
  pure b.2

/-- the loop DeepNetworkModel.cpp:146-149; a size mismatch ends it and is caught, leaving the
matrices that are already changed -/
def deepApply (eta : F) : List (Mat F) → List (Mat F) → Res (List (Mat F))
  | [], _ => .ok []
  | _ :: _, [] => .error (.throw "out_of_range")
  | w :: ws, dw :: ds =>
    match w.addR (dw.scale eta) with
    | .ok w' => (deepApply eta ws ds).map (fun r => w' :: r)
    | .error _ => .ok (w :: ws)

/-- loop body DeepNetworkModel.cpp:102-153 -/
def deepStep (labels : List String) (act : Activation) (L : Nat) (eta : F) (ws : List (Mat F)) (x : Inst F) :
    Res (List (Mat F)) := do
  let v ← inputVector x
  catching ["MatrixColumnMismatch", "VectorSizeMismatch", "MatrixDimensionMismatch"] ws (do
    let ds ← deepDeltas labels act L x v ws
    deepApply eta ws ds)

/-- `DeepNetworkModel::train`: DeepNetworkModel.cpp:79-166; only `weights` of the old state enters -/
def deepTrain (param : NetParam F) (hiddenNodes : List Nat) (act : Activation) (old : Net (List (Mat F)))
    (trainSet : IList F) : Res (Net (List (Mat F))) := do
  let ini ← netInitialize trainSet
  let parts ← Parts.byRatioStratified trainSet param.ratio param.splitOrder
  let data ← atR parts 1
  let validationSet ← atR parts 0
  let ws ← deepAllocate param.random ini.1 ini.2 hiddenNodes old.weights
  let s ← epochLoop (deepStep ini.1 act hiddenNodes.length)
    (validationAccuracy ini.1 (deepOutput act) validationSet) moreAccurate
    param.etaDecrease param.shuffleOrder param.epochs ⟨ws, ws, Dbl.zero, param.learningRate, data⟩
  pure ⟨ini.1, ini.2, s.best⟩

/-! ## AutoEncoderModel -/

/-- the `try` block up to the weight changes: AutoEncoderModel.cpp:106-115 -/
def autoDeltas (r v : List F) (w : Two F) : Res (Mat F × Mat F) := do
  let hidden ← calculateHidden v w.W .sigmoid
  let y ← w.V.mulRightR (biased hidden)
  let rMinusY ← diffR r y
  let om ← oneMinusHidden hidden
  let t ← w.V.mulLeftR rMinusY
  let tmph ← removeFirst t
  let ht ← elemR hidden tmph
  let tmpHidden ← elemR om ht
  pure (Mat.outer tmpHidden v, Mat.outer rMinusY (biased hidden))

/-- loop body AutoEncoderModel.cpp:103-124 -/
def autoStep (eta : F) (w : Two F) (x : Inst F) : Res (Two F) := do
  let v ← inputVector x
  let r ← x.toVector
  catching fourMismatches w (do
    let d ← autoDeltas r v w
    applyTwo fourMismatches w eta d)

/-- `predictInput`: AutoEncoderModel.cpp:51-58; a caught mismatch reaches the end of the function
without a `return` -/
def autoPredictInput (w : Two F) (x : Inst F) : Res (List F) := do
  let v ← inputVector x
  match forwardSingleHidden v w.W w.V .sigmoid with
  | .ok y => .ok y
  | .error (.throw "MatrixColumnMismatch") => .error (.ub "missing return")
  | .error e => .error e

/-- loop body AutoEncoderModel.cpp:35-40 -/
def autoErrorStep (w : Two F) (error : F) (x : Inst F) : Res F := do
  let y ← autoPredictInput w x
  let r ← x.toVector
  catching ["VectorSizeMismatch"] error (do
    let e ← diffR r y
    pure (error +. dotV e e))

/-- `testAutoEncoder`: AutoEncoderModel.cpp:31-43 -/
def autoError (data : IList F) (w : Two F) : Res F := do
  let error ← data.foldlM (autoErrorStep w) Dbl.zero
  pure (error /. Dbl.ofNat data.length)

/-- `current < best` -/
def lessError (p b : F) : Bool := p <. b

/-- `AutoEncoderModel::train`: AutoEncoderModel.cpp:81-136. `K` becomes the number of inputs of
the first instance of the training part. Of `param`, the ratio is replaced by 0.2 and the
decrease by 0.95. -/
def autoTrain (param : NetParam F) (H : Nat) (_old : Net (Two F)) (trainSet : IList F) :
    Res (Net (Two F)) := do
  let ini ← netInitialize trainSet
  let parts ← Parts.byRatioStratified trainSet (Dbl.lit (1/5)) param.splitOrder
  let data ← atR parts 1
  let validationSet ← atR parts 0
  let x0 ← data.get 0
  let w : Two F := ⟨param.random H (ini.2 + 1), param.random x0.continuousAttributeSize.toNat (H + 1)⟩
  let s ← epochLoop autoStep (autoError validationSet) lessError (Dbl.lit (19/20)) param.shuffleOrder
    param.epochs ⟨w, w, Dbl.maxVal, param.learningRate, data⟩
  pure ⟨ini.1, ini.2, s.best⟩

end Verif
