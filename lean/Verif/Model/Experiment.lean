import Verif.Model.DataSet
import Verif.Model.Performance

/-! # Experiments (`src/Experiment`)

The classes `KFoldCrossValidation`, `StratifiedKFoldCrossValidation` and `Bootstrap` belong to the
library Sampling-CPP, which is not in /repo. Their contract is written down here (`CrossVal.kfold`,
`CrossVal.stratified`, `IList.bootstrap`); the random orders and draws are parameters (`Rng`)
that depend on the seed (and on which list is shuffled), nothing else. The model object is shared
by all the runs of an experiment, so its state `M` is passed on from run to run. -/

namespace Verif
open Dbl

namespace Exper
variable {M F : Type} [Dbl F]

/-- a `Model*` with its `Parameter*`: the virtual functions `train` and `test` -/
structure Learner (M F : Type) where
  train : M → IList F → Res M
  test : M → IList F → Res (Perf F)

/-- the random sources, functions of the seed: order of the `c`-th list of `n` elements in a cross
validation, order used by `Partition` (both branches), draws of a bootstrap -/
structure Rng where
  foldOrder : Int → Nat → Nat → List Nat
  splitOrder : Int → Nat → List Nat
  draws : Int → Nat → List Nat

/-- `CrossValidation<Instance*>` -/
structure CrossVal (F : Type) where
  trainFold : Nat → IList F
  testFold : Nat → IList F

/-- Sampling-CPP, `getTrainFold(k)`: all elements but those from `k*N/K` to `(k+1)*N/K` -/
def slicesOut (l : IList F) (K k : Nat) : IList F :=
  (l.zipIdx.filter (fun p => decide (p.2 < k * l.length / K) || decide ((k + 1) * l.length / K ≤ p.2))).map Prod.fst

/-- Sampling-CPP, `getTestFold(k)`: the elements from `k*N/K` to `(k+1)*N/K` -/
def slice (l : IList F) (K k : Nat) : IList F :=
  (List.range' (k * l.length / K) ((k + 1) * l.length / K - k * l.length / K)).filterMap (fun i => l[i]?)

/-- Sampling-CPP, `KFoldCrossValidation(instances, K, seed)` -/
def CrossVal.kfold (order : Nat → List Nat) (l : IList F) (K : Nat) : CrossVal F :=
  ⟨slicesOut (l.shuffle (order l.length)) K, slice (l.shuffle (order l.length)) K⟩

/-- the class lists, each shuffled -/
def shuffledLists (order : Nat → Nat → List Nat) (ps : List (IList F)) : List (IList F) :=
  ps.zipIdx.map (fun p => p.1.shuffle (order p.2 p.1.length))

/-- Sampling-CPP, `StratifiedKFoldCrossValidation(lists, numberOfLists, K, seed)`: the folds of the
lists one after the other -/
def CrossVal.stratified (order : Nat → Nat → List Nat) (ps : List (IList F)) (K : Nat) : CrossVal F :=
  ⟨fun k => (shuffledLists order ps).flatMap (fun l => slicesOut l K k),
   fun k => (shuffledLists order ps).flatMap (fun l => slice l K k)⟩

/-- one `train` followed by one `test` whose result is added: KFoldRun.cpp:30-31,
KFoldRunSeparateTest.cpp:31-32, BootstrapRun.cpp:28-29 -/
def trainAndTest (L : Learner M F) (st : M × ExpPerf F) (trainSet testSet : IList F) :
    Res (M × ExpPerf F) := do
  let m ← L.train st.1 trainSet
  let p ← L.test m testSet
  pure (m, st.2.add p)

/-- `KFoldRun::runExperiment`: KFoldRun.cpp:25-33 -/
def runFolds (L : Learner M F) (K : Nat) (cv : CrossVal F) (st : M × ExpPerf F) : Res (M × ExpPerf F) :=
  (List.range K).foldlM (fun st i => trainAndTest L st (cv.trainFold i) (cv.testFold i)) st

/-- `KFoldRunSeparateTest::runExperiment`: KFoldRunSeparateTest.cpp:26-34 -/
def runFoldsSeparate (L : Learner M F) (K : Nat) (cv : CrossVal F) (testSet : IList F)
    (st : M × ExpPerf F) : Res (M × ExpPerf F) :=
  (List.range K).foldlM (fun st i => trainAndTest L st (cv.trainFold i) testSet) st

/-- `KFoldRun::execute`: KFoldRun.cpp:41-46 -/
def kFoldRun (L : Learner M F) (rng : Rng) (K : Nat) (seed : Int) (m : M) (data : IList F) :
    Res (M × ExpPerf F) :=
  runFolds L K (CrossVal.kfold (rng.foldOrder seed 0) data K) (m, ExpPerf.new)

/-- `StratifiedKFoldRun::execute`: StratifiedKFoldRun.cpp:22-28 -/
def stratifiedKFoldRun (L : Learner M F) (rng : Rng) (K : Nat) (seed : Int) (m : M) (data : IList F) :
    Res (M × ExpPerf F) := do
  let partition ← Parts.byClass data
  runFolds L K (CrossVal.stratified (rng.foldOrder seed) partition.getLists K) (m, ExpPerf.new)

/-- `KFoldRunSeparateTest::execute`: KFoldRunSeparateTest.cpp:42-49 -/
def kFoldRunSeparateTest (L : Learner M F) (rng : Rng) (K : Nat) (seed : Int) (m : M) (data : IList F) :
    Res (M × ExpPerf F) := do
  let partition ← Parts.byRatio data (Dbl.lit (1 / 4)) (rng.splitOrder seed data.length)
  let rest ← atR partition.1 1
  let testSet ← atR partition.1 0
  runFoldsSeparate L K (CrossVal.kfold (rng.foldOrder seed 0) rest K) testSet (m, ExpPerf.new)

/-- `StratifiedKFoldRunSeparateTest::execute`: StratifiedKFoldRunSeparateTest.cpp:24-32 -/
def stratifiedKFoldRunSeparateTest (L : Learner M F) (rng : Rng) (K : Nat) (seed : Int) (m : M)
    (data : IList F) : Res (M × ExpPerf F) := do
  let partition ← Parts.byRatioStratified data (Dbl.lit (1 / 4)) (rng.splitOrder seed data.length)
  let rest ← atR partition 1
  let classPartition ← Parts.byClass rest
  let testSet ← atR partition 0
  runFoldsSeparate L K (CrossVal.stratified (rng.foldOrder seed) classPartition.getLists K) testSet
    (m, ExpPerf.new)

/-- `MxKFoldRun::execute`: MxKFoldRun.cpp:24-31; every repetition uses the same seed -/
def mxKFoldRun (L : Learner M F) (rng : Rng) (R K : Nat) (seed : Int) (m : M) (data : IList F) :
    Res (M × ExpPerf F) :=
  (List.range R).foldlM
    (fun st _ => runFolds L K (CrossVal.kfold (rng.foldOrder seed 0) data K) st) (m, ExpPerf.new)

/-- `StratifiedMxKFoldRun::execute`: StratifiedMxKFoldRun.cpp:23-31 -/
def stratifiedMxKFoldRun (L : Learner M F) (rng : Rng) (R K : Nat) (seed : Int) (m : M) (data : IList F) :
    Res (M × ExpPerf F) :=
  (List.range R).foldlM (fun st _ => do
    let partition ← Parts.byClass data
    runFolds L K (CrossVal.stratified (rng.foldOrder seed) partition.getLists K) st) (m, ExpPerf.new)

/-- `MxKFoldRunSeparateTest::execute`: MxKFoldRunSeparateTest.cpp:24-33 -/
def mxKFoldRunSeparateTest (L : Learner M F) (rng : Rng) (R K : Nat) (seed : Int) (m : M)
    (data : IList F) : Res (M × ExpPerf F) := do
  let partition ← Parts.byRatio data (Dbl.lit (1 / 4)) (rng.splitOrder seed data.length)
  (List.range R).foldlM (fun st _ => do
    let rest ← atR partition.1 1
    let testSet ← atR partition.1 0
    runFoldsSeparate L K (CrossVal.kfold (rng.foldOrder seed 0) rest K) testSet st) (m, ExpPerf.new)

/-- `StratifiedMxKFoldRunSeparateTest::execute`: StratifiedMxKFoldRunSeparateTest.cpp:23-33 -/
def stratifiedMxKFoldRunSeparateTest (L : Learner M F) (rng : Rng) (R K : Nat) (seed : Int) (m : M)
    (data : IList F) : Res (M × ExpPerf F) := do
  let partition ← Parts.byRatioStratified data (Dbl.lit (1 / 4)) (rng.splitOrder seed data.length)
  (List.range R).foldlM (fun st _ => do
    let rest ← atR partition 1
    let classPartition ← Parts.byClass rest
    let testSet ← atR partition 0
    runFoldsSeparate L K (CrossVal.stratified (rng.foldOrder seed) classPartition.getLists K) testSet st)
    (m, ExpPerf.new)

/-- `BootstrapRun::execute`: BootstrapRun.cpp:23-32 -/
def bootstrapRun (L : Learner M F) (rng : Rng) (B : Nat) (seed : Int) (m : M) (data : IList F) :
    Res (M × ExpPerf F) :=
  (List.range B).foldlM
    (fun st (i : Nat) => trainAndTest L st (data.bootstrap (rng.draws ((i : Int) + seed) data.length)) data)
    (m, ExpPerf.new)

/-- `SingleRunWithK::execute`: SingleRunWithK.cpp:25-41, with `Model::singleRun`, Model.cpp:64-67 -/
def singleRunWithK (L : Learner M F) (rng : Rng) (K : Nat) (seed : Int) (m : M) (data : IList F) :
    Res (M × Perf F) := do
  let cv := CrossVal.kfold (rng.foldOrder seed 0) data K
  let m ← L.train m (cv.trainFold 0)
  let p ← L.test m (cv.testFold 0)
  pure (m, p)

/-- `StratifiedSingleRunWithK::execute`: StratifiedSingleRunWithK.cpp:23-29 -/
def stratifiedSingleRunWithK (L : Learner M F) (rng : Rng) (K : Nat) (seed : Int) (m : M) (data : IList F) :
    Res (M × Perf F) := do
  let partition ← Parts.byClass data
  let cv := CrossVal.stratified (rng.foldOrder seed) partition.getLists K
  let m ← L.train m (cv.trainFold 0)
  let p ← L.test m (cv.testFold 0)
  pure (m, p)

end Exper
end Verif
