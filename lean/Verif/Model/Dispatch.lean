import Verif.Model.Learners
import Verif.Model.SoftTree
import Verif.Model.Persist

/-! # The classifiers behind a pointer `Model*`

`predict`, `predictProbability`, `serialize` and `loadModel` are virtual functions of `Model` (Model.h:23-28). A class that does not
override one of them runs the function of its base class. -/

namespace Verif
open Dbl

variable {F : Type} [Dbl F]

/-! ## soft decision trees as decision trees -/

/-- a `SoftDecisionNode` seen as the `DecisionNode` it is derived from (SoftDecisionNode.h:13): no function of `SoftDecisionNode` sets the members
`classLabel`, `leaf`, `classLabelsDistribution` and `condition`, which keep the values of DecisionNode.h:17-20 -/
def SoftNode.base : SoftNode F → Node F
  | .leaf _ => .mk Cond.root false "" DD.empty []
  | .split _ l r => .mk Cond.root false "" DD.empty [l.base, r.base]

/-- `predictProbability` of a `SoftDecisionTree`, inherited: DecisionTree.cpp:92-94 -/
def softProbability (t : SoftTree F) (x : Inst F) : Res (OMap F) := t.root.base.predictProbability x

/-- `serialize` of a `SoftDecisionTree`, inherited: DecisionTree.cpp:75-77 -/
def softText (T : Txt F) (t : SoftTree F) : Res (List Char) := t.root.base.text T

/-- what the member `root` of a `SoftDecisionTree` points to: a node made by `train` (SoftDecisionTree.cpp:15), or
one made by the inherited `loadModel` (DecisionTree.cpp:121), which is not a `SoftDecisionNode` -/
inductive SoftRoot (F : Type) where
  | trained (n : SoftNode F)
  | loaded (n : Node F)

/-- `loadModel` of a `SoftDecisionTree`, inherited: DecisionTree.cpp:118-123 -/
def softLoad (T : Txt F) (L : MathLib F) : Rd (SoftRoot F) := do
  let n ← treeRead T L
  pure (.loaded n)

/-- `SoftDecisionTree::predict` on the object: SoftDecisionTree.cpp:24-40; `root` is cast to `SoftDecisionNode*` without a check -/
def SoftRoot.predict (labels : List String) (r : SoftRoot F) (x : Inst F) : Res String :=
  match r with
  | .trained n => softPredict ⟨labels, n⟩ x
  | .loaded _ => .error (.ub "cast to a class the object does not have")

/-! ## all classifiers -/

/-- a trained classifier; `ensemble` is a `BaggingModel` or a `RandomForestModel`, `tree` a `DecisionTree` or a `DecisionStump`, and
`network` a `LinearPerceptronModel`, `MultiLayerPerceptronModel` or `DeepNetworkModel` with its `calculateOutput` -/
inductive AnyModel (F : Type) where
  | dummy (d : DD)
  | random (labels : List String)
  | knn (m : Knn F)
  | tree (root : Node F)
  | soft (t : SoftTree F)
  | ensemble (forest : List (Node F))
  | network (labels : List String) (output : List F → Res (List F))
  | kMeans (m : KMeans F)
  | naiveBayes (m : NaiveBayes F)
  | lda (m : Lda F)
  | qda (m : Qda F)
  | svm (m : Svm F)

/-- `Model::predictProbability`: Model.h:24 -/
def modelProbability : OMap F := []

/-- `predict(instance)`: Model.h:23 and the overriding functions; `r` is the next value of `random()` (RandomModel.cpp:24-35) -/
def AnyModel.predict (r : Nat) (x : Inst F) : AnyModel F → Res String
  | .dummy d => .ok (dummyPredict d x)
  | .random labels => randomPredict labels r x
  | .knn m => m.predict x
  | .tree t => treePredict t x
  | .soft t => softPredict t x
  | .ensemble f => ensemblePredict f x
  | .network labels output => netPredict labels output x
  | .kMeans m => m.predict x
  | .naiveBayes m => m.predict x
  | .lda m => m.predict x
  | .qda m => m.predict x
  | .svm m => m.predict x

/-- `predictProbability(instance)`: Model.h:24, overridden in DummyModel.h, RandomModel.h, KnnModel.h, DecisionTree.h,
TreeEnsembleModel.h and NeuralNetworkModel.h, and nowhere else -/
def AnyModel.predictProbability (x : Inst F) : AnyModel F → Res (OMap F)
  | .dummy d => .ok (dummyProbability d)
  | .random labels => .ok (randomProbability labels)
  | .knn m => m.predictProbability x
  | .tree t => t.predictProbability x
  | .soft t => softProbability t x
  | .ensemble f => ensembleProbability f x
  | .network labels output => netProbability labels output x
  | .kMeans _ => .ok modelProbability
  | .naiveBayes _ => .ok modelProbability
  | .lda _ => .ok modelProbability
  | .qda _ => .ok modelProbability
  | .svm _ => .ok modelProbability

end Verif
