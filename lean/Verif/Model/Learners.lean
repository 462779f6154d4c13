import Verif.Model.Experiment
import Verif.Model.Parametric
import Verif.Model.Knn
import Verif.Model.DecisionTree
import Verif.Model.NeuralNetwork
import Verif.Model.Svm

/-! # The classifiers as objects used in experiments

`Model::train` and `Model::test` (Model.cpp:45-53) of each classifier together with its
`Parameter` object. Random orders depend on the number of training instances. A state `none` is a
new object whose members have not been set. -/

namespace Verif
open Dbl Exper

variable {F : Type} [Dbl F]

/-- using a member that has not been set is undefined -/
def started {α : Type} (m : Option α) : Res α := m.elim (.error (.ub "uninitialised member")) .ok

/-- `DummyModel`: DummyModel.cpp:13-15, 23-30, 64-66 -/
def dummyLearner : Learner (Option DD) F where
  train _ l := .ok (some l.classDistribution)
  test m := modelTest (fun x => (started m).map (fun d => dummyPredict d x))

/-- `KnnModel`: KnnModel.cpp (functions cited in `Knn`) with `k` neighbours and distance `dist` -/
def knnLearner (k : Int) (dist : Inst F → Inst F → Res F) : Learner (Knn F) F where
  train m l := .ok (m.train l k dist)
  test m := modelTest m.predict

/-- `KMeansModel`: KMeansModel.cpp:21-61 -/
def kMeansLearner (dist : Inst F → Inst F → Res F) : Learner (KMeans F) F where
  train m l := m.train l dist
  test m := modelTest m.predict

/-- `DecisionTree`: DecisionTree.cpp:23-29, 103-112; `train` assigns `root` -/
def treeLearner (pruning : Nat → Option (F × List Nat)) : Learner (Option (Node F)) F where
  train _ l := (treeTrain l (pruning l.length)).map some
  test m := modelTest (fun x => started m >>= fun t => treePredict t x)

/-- `DecisionStump`: DecisionStump.cpp:15-17 -/
def stumpLearner : Learner (Option (Node F)) F where
  train _ l := (stumpTrain l).map some
  test m := modelTest (fun x => started m >>= fun t => treePredict t x)

/-- `BaggingModel` and `RandomForestModel`: BaggingModel.cpp:18-24, RandomForestModel.cpp:15-21,
TreeEnsembleModel.cpp:21-27; `draws n i` are the positions drawn from `n` instances with seed `i` -/
def ensembleLearner (param : Node.SubsetParam) (draws : Nat → Nat → List Nat) (size : Int) :
    Learner (List (Node F)) F where
  train m l := ensembleTrain param (draws l.length) m l size
  test m := modelTest (ensemblePredict m)

/-- `LdaModel`: LdaModel.cpp:26-105 -/
def ldaLearner (inverse : Mat F → Mat F) : Learner (Lda F) F where
  train m l := m.train inverse l
  test m := modelTest m.predict

/-- `QdaModel`: QdaModel.cpp (functions cited in `Qda`) -/
def qdaLearner (inverse : Mat F → Mat F) (det : Mat F → F) : Learner (Qda F) F where
  train m l := m.train inverse det l
  test m := modelTest m.predict

/-- `NaiveBayesModel`: NaiveBayesModel.cpp (functions cited in `NaiveBayes`) -/
def naiveBayesLearner : Learner (NaiveBayes F) F where
  train m l := m.train l
  test m := modelTest m.predict

/-- `LinearPerceptronModel`: LinearPerceptronModel.cpp (functions cited in `percTrain`, `percOutput`) -/
def perceptronLearner (param : Nat → NetParam F) : Learner (Net (Mat F)) F where
  train m l := percTrain (param l.length) m l
  test m := modelTest (netPredict m.labels (percOutput m.weights))

/-- `MultiLayerPerceptronModel` with `H` hidden nodes: MultiLayerPerceptronModel.cpp (functions cited in `mlpTrain`,
`mlpOutput`) -/
def mlpLearner (param : Nat → NetParam F) (H : Nat) (act : Activation) : Learner (Net (Two F)) F where
  train m l := mlpTrain (param l.length) H act m l
  test m := modelTest (netPredict m.labels (mlpOutput act m.weights))

/-- `DeepNetworkModel`: DeepNetworkModel.cpp (functions cited in `deepTrain`, `deepOutput`) -/
def deepLearner (param : Nat → NetParam F) (hidden : List Nat) (act : Activation) : Learner (Net (List (Mat F))) F where
  train m l := deepTrain (param l.length) hidden act m l
  test m := modelTest (netPredict m.labels (deepOutput act m.weights))

end Verif
