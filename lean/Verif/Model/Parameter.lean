import Verif.Model.Learners
import Verif.Model.SoftTree

/-! # Parameter objects (`src/Parameter/*.cpp`) and training with them

`train` of every classifier receives a `Parameter*` and casts it, unchecked, to the class it expects. -/

namespace Verif
open Dbl

variable {F : Type} [Dbl F]

/-- members of `LinearPerceptronParameter` (LinearPerceptronParameter.h) besides the seed -/
structure Linear (F : Type) where
  learningRate : F
  etaDecrease : F
  crossValidationRatio : F
  epoch : Int
deriving DecidableEq, Repr

/-- an object of `Parameter` or of a class derived from it, with the arguments of its constructor; the seed comes first.
Simplification: numbers of hidden nodes are not negative. -/
inductive Param (F : Type) where
  /-- `Parameter(seed)`: Parameter.cpp:12-14 -/
  | base (seed : Int)
  /-- `BaggingParameter`: BaggingParameter.cpp:13-15 -/
  | bagging (seed : Int) (ensembleSize : Int)
  /-- `RandomForestParameter`, derived from `BaggingParameter`: RandomForestParameter.cpp:14-16 -/
  | randomForest (seed : Int) (ensembleSize : Int) (attributeSubsetSize : Int)
  /-- `C45Parameter`: C45Parameter.cpp:14-17 -/
  | c45 (seed : Int) (prune : Bool) (crossValidationRatio : F)
  /-- `KMeansParameter` with a distance: KMeansParameter.cpp:23-25 -/
  | kMeans (seed : Int) (distanceMetric : Inst F → Inst F → Res F)
  /-- `KnnParameter` with a distance, derived from `KMeansParameter`: KnnParameter.cpp:14-16 -/
  | knn (seed : Int) (k : Int) (distanceMetric : Inst F → Inst F → Res F)
  /-- `LinearPerceptronParameter`: LinearPerceptronParameter.cpp:16-22 -/
  | linear (seed : Int) (l : Linear F)
  /-- `MultiLayerPerceptronParameter`, derived from the previous: MultiLayerPerceptronParameter.cpp:18-23 -/
  | multi (seed : Int) (l : Linear F) (hiddenNodes : Nat) (act : Activation)
  /-- `DeepNetworkParameter`, derived from `LinearPerceptronParameter`: DeepNetworkParameter.cpp:18-23 -/
  | deep (seed : Int) (l : Linear F) (hiddenLayers : List Nat) (act : Activation)
  /-- `SoftDecisionTreeParameter`, derived from `LinearPerceptronParameter`: SoftDecisionTreeParameter.cpp:7-9 -/
  | soft (seed : Int) (l : Linear F) (alpha : F)
  /-- `SvmParameter`: SvmParameter.cpp:18-24; `shrinking` is `true` (SvmParameter.h:17) -/
  | svm (seed : Int) (kernelType : KernelType) (degree : Int) (gamma coefficient0 C : F)

namespace Param

/-- `KMeansParameter(seed)`: KMeansParameter.cpp:13-15 -/
def kMeansDefault (seed : Int) : Param F := .kMeans seed euclidean

/-- `KnnParameter(seed, k)`: KnnParameter.cpp:24-26 -/
def knnDefault (seed : Int) (k : Int) : Param F := .knn seed k euclidean

/-- `getSeed()`: Parameter.cpp:21-23 -/
def getSeed : Param F → Int
  | .base s | .bagging s _ | .randomForest s _ _ | .c45 s _ _ | .kMeans s _ | .knn s _ _ | .linear s _
  | .multi s _ _ _ | .deep s _ _ _ | .soft s _ _ | .svm s _ _ _ _ _ => s

/-- using the object as one of a class it does not belong to is undefined -/
def badCast {α : Type} : Res α := .error (.ub "object of another class")

/-- `((BaggingParameter*) p)->getEnsembleSize()`: BaggingParameter.cpp:22-24 -/
def getEnsembleSize : Param F → Res Int
  | .bagging _ n | .randomForest _ n _ => .ok n
  | _ => badCast

/-- `((RandomForestParameter*) p)->getAttributeSubsetSize()`: RandomForestParameter.cpp:23-25 -/
def getAttributeSubsetSize : Param F → Res Int
  | .randomForest _ _ n => .ok n
  | _ => badCast

/-- `((C45Parameter*) p)->isPrune()`: C45Parameter.cpp:24-26 -/
def isPrune : Param F → Res Bool
  | .c45 _ b _ => .ok b
  | _ => badCast

/-- `((C45Parameter*) p)->getCrossValidationRatio()`: C45Parameter.cpp:33-35 -/
def pruneRatio : Param F → Res F
  | .c45 _ _ r => .ok r
  | _ => badCast

/-- `((KMeansParameter*) p)->getDistanceMetric()`: KMeansParameter.cpp:32-34 -/
def getDistanceMetric : Param F → Res (Inst F → Inst F → Res F)
  | .kMeans _ d | .knn _ _ d => .ok d
  | _ => badCast

/-- `((KnnParameter*) p)->getK()`: KnnParameter.cpp:33-35 -/
def getK : Param F → Res Int
  | .knn _ k _ => .ok k
  | _ => badCast

/-- the accessors of `LinearPerceptronParameter`: LinearPerceptronParameter.cpp:29-31, 38-40, 47-49, 56-58 -/
def asLinear : Param F → Res (Linear F)
  | .linear _ l | .multi _ l _ _ | .deep _ l _ _ | .soft _ l _ => .ok l
  | _ => badCast

/-- the accessors of `MultiLayerPerceptronParameter`: MultiLayerPerceptronParameter.cpp:30-32, 39-41 -/
def asMulti : Param F → Res (Nat × Activation)
  | .multi _ _ h a => .ok (h, a)
  | _ => badCast

/-- the accessors of `DeepNetworkParameter`: DeepNetworkParameter.cpp:30-32, 41-43, 50-52 -/
def asDeep : Param F → Res (List Nat × Activation)
  | .deep _ _ h a => .ok (h, a)
  | _ => badCast

/-- `((SoftDecisionTreeParameter*) p)->getAlpha()`: SoftDecisionTreeParameter.cpp:11-13 -/
def getAlpha : Param F → Res F
  | .soft _ _ a => .ok a
  | _ => badCast

/-- the accessors of `SvmParameter`: SvmParameter.cpp:31-33, 40-42, 49-51, 58-60, 67-69, 76-78 -/
def asSvm : Param F → Res (SvmParam F)
  | .svm _ t d g c C => .ok ⟨t, d, g, c, C, true⟩
  | _ => badCast

end Param

/-- what the random engines of the libraries answer, given a seed: `RandomArray::indexArray(n, seed)`, the order in which
`shuffle(seed)` puts `n` elements, `Matrix(rows, columns, -0.01, 0.01, engine)`, the positions `bootstrap(seed)` draws from
`n` instances, and the values `rand()` returns after `srand(seed)` -/
structure Engines (F : Type) where
  indexArray : Int → Nat → List Nat
  shuffle : Int → Nat → List Nat
  matrix : Int → Nat → Nat → Mat F
  bootstrap : Nat → Nat → List Nat
  rand : Int → Nat → F

/-- number of instances in the training part of the stratified partition -/
def partSize (E : Engines F) (seed : Int) (ratio : F) (l : IList F) : Nat :=
  match Parts.byRatioStratified l ratio (E.indexArray seed l.length) with
  | .ok (_ :: data :: _) => data.length
  | _ => 0

/-- the values the networks take from their parameter object: LinearPerceptronModel.cpp:41-53, 71;
MultiLayerPerceptronModel.cpp:52-65, 112; DeepNetworkModel.cpp:81-94, 163 -/
def netParam (E : Engines F) (seed : Int) (p : Linear F) (ratio : F) (l : IList F) : NetParam F :=
  { ratio := ratio
    splitOrder := E.indexArray seed l.length
    shuffleOrder := E.shuffle seed (partSize E seed ratio l)
    random := E.matrix seed
    epochs := p.epoch.toNat
    learningRate := p.learningRate
    etaDecrease := p.etaDecrease }

namespace Param

/-- `KnnModel::train(trainSet, parameters)`: KnnModel.cpp:106-110 -/
def trainKnn (p : Param F) (old : Knn F) (l : IList F) : Res (Knn F) := do
  let k ← p.getK
  let d ← p.getDistanceMetric
  pure (old.train l k d)

/-- `KMeansModel::train(trainSet, parameters)`: KMeansModel.cpp:53-61. The cast comes last, after
anything that may fail in computing the means. -/
def trainKMeans (p : Param F) (old : KMeans F) (l : IList F) : Res (KMeans F) := do
  let m ← old.train l (p.getDistanceMetric.toOption.getD euclidean)
  let _ ← p.getDistanceMetric
  pure m

/-- `DecisionTree::train(trainSet, parameters)`: DecisionTree.cpp:103-112 -/
def trainTree (E : Engines F) (p : Param F) (l : IList F) : Res (Node F) := do
  let b ← p.isPrune
  if b then do
    let r ← p.pruneRatio
    treeTrain l (some (r, E.indexArray p.getSeed l.length))
  else treeTrain l none

/-- `BaggingModel::train(trainSet, parameters)`: BaggingModel.cpp:18-24 -/
def trainBagging (E : Engines F) (p : Param F) (old : List (Node F)) (l : IList F) : Res (List (Node F)) := do
  let size ← p.getEnsembleSize
  ensembleTrain none (fun i => E.bootstrap i l.length) old l size

/-- `RandomForestModel::train(trainSet, parameters)`: RandomForestModel.cpp:15-21 -/
def trainForest (E : Engines F) (p : Param F) (old : List (Node F)) (l : IList F) : Res (List (Node F)) := do
  let subset ← p.getAttributeSubsetSize
  let size ← p.getEnsembleSize
  ensembleTrain (some (subset, E.indexArray p.getSeed)) (fun i => E.bootstrap i l.length) old l size

/-- `LinearPerceptronModel::train(train, params)`: LinearPerceptronModel.cpp:39-74 -/
def trainPerceptron (E : Engines F) (p : Param F) (old : Net (Mat F)) (l : IList F) : Res (Net (Mat F)) := do
  let _ ← netInitialize l
  let q ← p.asLinear
  percTrain (netParam E p.getSeed q q.crossValidationRatio l) old l

/-- `MultiLayerPerceptronModel::train(train, params)`: MultiLayerPerceptronModel.cpp:50-115 -/
def trainMulti (E : Engines F) (p : Param F) (old : Net (Two F)) (l : IList F) : Res (Net (Two F)) := do
  let _ ← netInitialize l
  let h ← p.asMulti
  let q ← p.asLinear
  mlpTrain (netParam E p.getSeed q q.crossValidationRatio l) h.1 h.2 old l

/-- `DeepNetworkModel::train(train, params)`: DeepNetworkModel.cpp:79-166 -/
def trainDeep (E : Engines F) (p : Param F) (old : Net (List (Mat F))) (l : IList F) : Res (Net (List (Mat F))) := do
  let _ ← netInitialize l
  let h ← p.asDeep
  let q ← p.asLinear
  deepTrain (netParam E p.getSeed q q.crossValidationRatio l) h.1 h.2 old l

/-- `AutoEncoderModel::train(train, params)`: AutoEncoderModel.cpp:81-136 -/
def trainAuto (E : Engines F) (p : Param F) (old : Net (Two F)) (l : IList F) : Res (Net (Two F)) := do
  let _ ← netInitialize l
  let h ← p.asMulti
  let q ← p.asLinear
  autoTrain (netParam E p.getSeed q (Dbl.lit (1/5)) l) h.1 old l

/-- `SoftDecisionTree::train(trainSet, parameters)`: SoftDecisionTree.cpp:12-22, with the reads of the parameter in
SoftDecisionNode.cpp:137-149. Simplification: the cast is done first. -/
def trainSoft (E : Engines F) (p : Param F) (fuel : Nat) (l : IList F) : Res (SoftTree F) := do
  let alpha ← p.getAlpha
  let q ← p.asLinear
  softTrain ⟨q.crossValidationRatio, E.indexArray p.getSeed l.length, E.shuffle p.getSeed, q.epoch.toNat, q.etaDecrease, alpha,
    E.rand p.getSeed⟩ fuel l

/-- `SvmModel::train(trainSet, parameters)`: SvmModel.cpp:18-138; `rounds` bounds the loop of the solver -/
def trainSvm (p : Param F) (rounds : Nat) (old : Svm F) (l : IList F) : Res (Svm F × IList F) := do
  let x ← l.get 0
  if discreteCheck x then do
    let q ← p.asSvm
    old.train (Svm.boundedSolver rounds q) l q
  else .error (.throw "DiscreteFeaturesNotAllowed")

end Param

end Verif
