import Verif.Model.Parametric
import Verif.Model.DecisionTree
import Verif.Model.Filter

/-! # What a call leaves behind when it throws

The other models give the outcome of a call as a `Res`: the new object or the exception. Here a
call gives the object after the call in both cases, so that the statements executed before the
exception can be seen. (For an outcome `ub` the state is that before the undefined operation and
has no meaning.) -/

namespace Verif
open Dbl

variable {F : Type} [Dbl F]

/-- a loop whose body either replaces the state or throws before changing anything -/
def loopSt {S α : Type} (step : S → α → Res S) : S → List α → S × Res Unit
  | s, [] => (s, .ok ())
  | s, a :: as =>
    match step s a with
    | .ok s' => loopSt step s' as
    | .error e => (s, .error e)

/-! ## Parametric classifiers -/

namespace KMeans

/-- loop body KMeansModel.cpp:58: the mean is computed, then appended -/
def addMean (m : KMeans F) (p : IList F) : Res (KMeans F) := do
  let a ← p.average
  pure { m with classMeans := m.classMeans ++ [a] }

/-- `train`: KMeansModel.cpp:53-61, with the object it leaves -/
def trainSt (old : KMeans F) (trainSet : IList F) (dist : Inst F → Inst F → Res F) :
    KMeans F × Res Unit :=
  let m := { old with prior := trainSet.classDistribution, classMeans := [] }
  match Parts.byClass trainSet with
  | .error e => (m, .error e)
  | .ok parts =>
    match loopSt addMean m parts with
    | (m', .ok _) => ({ m' with dist := dist }, .ok ())
    | (m', .error e) => (m', .error e)

end KMeans

namespace NaiveBayes

/-- loop body NaiveBayesModel.cpp:103-107: the means are stored before the deviations are
computed -/
def contClassSt (m : NaiveBayes F) (p : String × IList F) : NaiveBayes F × Res Unit :=
  match (do let a ← p.2.average; meanVector a) with
  | .error e => (m, .error e)
  | .ok av =>
    let m1 := { m with classMeans := m.classMeans.emplace p.1 av }
    match (do let s ← p.2.standardDeviation; meanVector s) with
    | .error e => (m1, .error e)
    | .ok sv => ({ m1 with classDeviations := m.classDeviations.emplace p.1 sv }, .ok ())

/-- `trainContinuousVersion`: NaiveBayesModel.cpp:100-109 -/
def contLoopSt : NaiveBayes F → List (String × IList F) → NaiveBayes F × Res Unit
  | m, [] => (m, .ok ())
  | m, p :: ps =>
    match contClassSt m p with
    | (m', .ok _) => contLoopSt m' ps
    | (m', .error e) => (m', .error e)

/-- `train`: NaiveBayesModel.cpp:128-136, with the object it leaves; the prior is replaced first -/
def trainSt (old : NaiveBayes F) (trainSet : IList F) : NaiveBayes F × Res Unit :=
  let m := { old with prior := trainSet.classDistribution }
  match (do
      let parts ← Parts.byClass trainSet
      let p0 ← atR parts 0
      let x0 ← atR p0 0
      let a0 ← x0.getAttribute 0
      pure (parts, a0)) with
  | .error e => (m, .error e)
  | .ok (parts, a0) =>
    let labelled := trainSet.getDistinctClassLabels.zip parts
    if a0.isDiscrete then loopSt discClass m labelled else contLoopSt m labelled

end NaiveBayes

/-- `train`: LdaModel.cpp:69-105, with the object it leaves; the prior is replaced after the check
of the attributes, before anything is computed -/
def Lda.trainSt (inverse : Mat F → Mat F) (old : Lda F) (trainSet : IList F) : Lda F × Res Unit :=
  match atR trainSet 0 with
  | .error e => (old, .error e)
  | .ok x0 =>
    if discreteCheck x0 = false then (old, .error (.throw "DiscreteFeaturesNotAllowed"))
    else
      let m := { old with prior := trainSet.classDistribution }
      match (do
          let parts ← Parts.byClass trainSet
          let cov ← pooledCovariance x0.continuousAttributeSize.toNat parts trainSet.length
          pure (parts, cov)) with
      | .error e => (m, .error e)
      | .ok (parts, cov) =>
        loopSt (classWeights (inverse cov)) m (trainSet.getDistinctClassLabels.zip parts)

/-- `train`: QdaModel.cpp:54-84, with the object it leaves. (The partition, line 60, is made before
the prior is replaced.) -/
def Qda.trainSt (inverse : Mat F → Mat F) (det : Mat F → F) (old : Qda F) (trainSet : IList F) :
    Qda F × Res Unit :=
  match atR trainSet 0 with
  | .error e => (old, .error e)
  | .ok x0 =>
    if discreteCheck x0 = false then (old, .error (.throw "DiscreteFeaturesNotAllowed"))
    else
      match Parts.byClass trainSet with
      | .error e => (old, .error e)
      | .ok parts =>
        loopSt (classWeights inverse det) { old with prior := trainSet.classDistribution }
          (trainSet.getDistinctClassLabels.zip parts)

/-! ## Trees -/

mutual
/-- `pruneNode`: DecisionTree.cpp:57-69, with the node it leaves: a node is marked as a leaf before
the tree is tested -/
def pruneNodeSt (acc : Node F → Res F) (ctx : Node F → Node F) : Node F → Node F × Res Unit
  | .mk c leaf s d ch =>
    if leaf then (.mk c leaf s d ch, .ok ())
    else
      match acc (ctx (.mk c leaf s d ch)) with
      | .error e => (.mk c leaf s d ch, .error e)
      | .ok before =>
        match acc (ctx ((Node.mk c leaf s d ch).setLeaf true)) with
        | .error e => ((Node.mk c leaf s d ch).setLeaf true, .error e)
        | .ok after =>
          if after <. before then
            let r := pruneChildrenSt acc (fun ch => ctx ((Node.mk c leaf s d ch).setLeaf false)) [] ch
            ((Node.mk c leaf s d r.1).setLeaf false, r.2)
          else ((Node.mk c leaf s d ch).setLeaf true, .ok ())
termination_by structural n => n
/-- the loop DecisionTree.cpp:65-67 -/
def pruneChildrenSt (acc : Node F → Res F) (ctx : List (Node F) → Node F) (done : List (Node F)) :
    List (Node F) → List (Node F) × Res Unit
  | [] => (done, .ok ())
  | n :: ns =>
    match pruneNodeSt acc (fun m => ctx (done ++ m :: ns)) n with
    | (n', .ok _) => pruneChildrenSt acc ctx (done ++ [n']) ns
    | (n', .error e) => (done ++ n' :: ns, .error e)
termination_by structural ns => ns
end

/-- `DecisionTree::train`: DecisionTree.cpp:103-112, with the tree it leaves: `root` is replaced
when the new tree has been grown, before it is pruned -/
def treeTrainSt (old : Node F) (trainSet : IList F) (pruning : Option (F × List Nat)) :
    Node F × Res Unit :=
  match pruning with
  | none =>
    match Node.grow none false (trainSet.length + 1) trainSet Cond.root with
    | .error e => (old, .error e)
    | .ok root => (root, .ok ())
  | some (ratio, arr) =>
    match (do
        let parts ← Parts.byRatioStratified trainSet ratio arr
        let p1 ← atR parts 1
        let root ← Node.grow none false (p1.length + 1) p1 Cond.root
        pure (parts, root)) with
    | .error e => (old, .error e)
    | .ok (parts, root) =>
      match atR parts 0 with
      | .error e => (root, .error e)
      | .ok p0 => pruneNodeSt (treeAccuracy p0) id root

/-- `DecisionStump::train`: DecisionStump.cpp:15-17, with the tree it leaves -/
def stumpTrainSt (old : Node F) (trainSet : IList F) : Node F × Res Unit :=
  match Node.grow none true (trainSet.length + 1) trainSet Cond.root with
  | .error e => (old, .error e)
  | .ok root => (root, .ok ())

/-- loop bodies BaggingModel.cpp:21-22, RandomForestModel.cpp:18-19 -/
def addTree (param : Node.SubsetParam) (draws : Nat → List Nat) (trainSet : IList F)
    (forest : List (Node F)) (i : Nat) : Res (List (Node F)) := do
  let sample := trainSet.bootstrap (draws i)
  let t ← Node.grow param false (sample.length + 1) sample Cond.root
  pure (forest ++ [t])

/-- `train` of bagging and random forests (BaggingModel.cpp:18-24, RandomForestModel.cpp:15-21),
with the forest it leaves -/
def ensembleTrainSt (param : Node.SubsetParam) (draws : Nat → List Nat) (old : List (Node F))
    (trainSet : IList F) (size : Int) : List (Node F) × Res Unit :=
  loopSt (addTree param draws trainSet) old (List.range size.toNat)

/-! ## Filters -/

/-- the loop FeatureFilter.cpp:22-24, with the memory it leaves. Simplification: an instance for
which `convertInstance` throws counts as unchanged (attributes may have been added to it). -/
def convertAllSt (f : Inst F → Res (Inst F)) (h : Heap F) (refs : List Nat) : Heap F × Res Unit :=
  loopSt (convertAt f) h refs

/-- constructing one of the three filters on discrete attributes and calling `convert()`
(LaryFilter.cpp:12-14, FeatureFilter.cpp:20-26), with the memory it leaves -/
def laryFilterSt (enc : DD → Attr F → List (Attr F)) (ts : DD → List AttrType) (h : Heap F)
    (ds : RefSet) : Heap F × Res Unit :=
  match (do let l ← deref h ds.refs; l.allAttributesDistribution) with
  | .error e => (h, .error e)
  | .ok dists =>
    match convertAllSt (laryConvert enc dists) h ds.refs with
    | (h', .error e) => (h', .error e)
    | (h', .ok _) => (h', (laryConvertDefinition ts dists ds).map (fun _ => ()))

end Verif
