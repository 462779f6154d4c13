import Verif.Model.Experiment
import Verif.Model.FeatureSelection
import Verif.Model.Learners

/-! # Feature selection by experiments

`SubSetSelection::execute(multipleRun, experiment)` measures a subset by running the experiment with the
same `Model` object on the projected data set. -/

namespace Verif
open Dbl

namespace Exper
variable {M F : Type} [Dbl F]

/-- the subclasses of `MultipleRun` with their constructor arguments: MultipleRun.h, KFoldRun.cpp:13-15,
KFoldRunSeparateTest.cpp:14-15, StratifiedKFoldRun.cpp:13-14, StratifiedKFoldRunSeparateTest.cpp:14-15,
MxKFoldRun.cpp:14-16, MxKFoldRunSeparateTest.cpp:15-16, StratifiedMxKFoldRun.cpp:14-15,
StratifiedMxKFoldRunSeparateTest.cpp:14-15, BootstrapRun.cpp:13-15 -/
inductive MultipleRun where
  | kFold (K : Nat) | kFoldSeparateTest (K : Nat) | stratifiedKFold (K : Nat) | stratifiedKFoldSeparateTest (K : Nat)
  | mxKFold (R K : Nat) | mxKFoldSeparateTest (R K : Nat) | stratifiedMxKFold (R K : Nat)
  | stratifiedMxKFoldSeparateTest (R K : Nat) | bootstrap (B : Nat)

/-- the virtual function `MultipleRun::execute`: MultipleRun.h -/
def MultipleRun.execute (L : Learner M F) (rng : Rng) (seed : Int) : MultipleRun → M → IList F → Res (M × ExpPerf F)
  | .kFold K => kFoldRun L rng K seed
  | .kFoldSeparateTest K => kFoldRunSeparateTest L rng K seed
  | .stratifiedKFold K => stratifiedKFoldRun L rng K seed
  | .stratifiedKFoldSeparateTest K => stratifiedKFoldRunSeparateTest L rng K seed
  | .mxKFold R K => mxKFoldRun L rng R K seed
  | .mxKFoldSeparateTest R K => mxKFoldRunSeparateTest L rng R K seed
  | .stratifiedMxKFold R K => stratifiedMxKFoldRun L rng R K seed
  | .stratifiedMxKFoldSeparateTest R K => stratifiedMxKFoldRunSeparateTest L rng R K seed
  | .bootstrap B => bootstrapRun L rng B seed

/-- `multipleRun->execute(experiment.featureSelectedExperiment(s))`: Experiment.cpp:48-51,
SubSetSelection.cpp:63, 78; the model object is passed on -/
def selectedRun (exec : M → IList F → Res (M × ExpPerf F)) (ds : DataSet F) (m : M) (s : List Nat) :
    Res (M × ExpPerf F) := do
  let d ← ds.getSubSetOfFeatures s
  exec m d.instances

/-- the measurement of `s` after the subsets `h` were measured with the model object `m0`:
SubSetSelection.cpp:62-64, 78 -/
def selectionRunner (exec : M → IList F → Res (M × ExpPerf F)) (ds : DataSet F) (m0 : M) : FeatSel.Runner F := fun h s => do
  let m ← h.foldlM (fun m c => (selectedRun exec ds m c).map Prod.fst) m0
  (selectedRun exec ds m s).map Prod.snd

/-- `SubSetSelection::execute(multipleRun, experiment)`: SubSetSelection.cpp:55-90; the number of features is that
of the data definition (line 67) -/
def selectFeatures (op : FeatSel.Op) (initial : List Nat) (exec : M → IList F → Res (M × ExpPerf F)) (ds : DataSet F)
    (m0 : M) (fuel : Nat) : Option (Res (List Nat)) :=
  (FeatSel.execute op initial ds.definition.types.length (selectionRunner exec ds m0) fuel).map (fun r => r.map FeatSel.St.best)

end Exper
end Verif
