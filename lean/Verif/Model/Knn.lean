import Verif.Model.Performance
import Verif.Model.Matrix

/-! # Distance metrics and k-nearest-neighbours (`src/DistanceMetric`, `src/Model/NonParametric`) -/

namespace Verif
open Dbl

variable {F : Type} [Dbl F]

/-- one attribute of `EuclidianDistance::distance`: EuclidianDistance.cpp:21-29. The casts are
guarded by the type tests, so they cannot fail. -/
def euclidStep (result : F) (a b : Attr F) : F :=
  match a, b with
  | .discrete v, .discrete w => if v ≠ w then result +. Dbl.ofInt 1 else result
  | .continuous v, .continuous w => result +. Dbl.pow (v -. w) 2
  | _, _ => result

/-- `EuclidianDistance::distance`: EuclidianDistance.cpp:18-32 (`getAttribute` = `at`) -/
def euclidean (x y : Inst F) : Res F :=
  x.attrs.zipIdx.foldlM (fun result p => do
    let b ← y.getAttribute p.2
    pure (euclidStep result p.1 b)) (Dbl.ofInt 0 : F)

/-- `MahalanobisDistance::distance`: MahalanobisDistance.cpp:28-40; `INT_MAX` when the library
reports a size mismatch -/
def mahalanobis (covInv : Mat F) (x y : Inst F) : Res F := do
  let v1 ← x.toVector
  let v2 ← y.toVector
  pure (((subChecked v1 v2).bind (fun d =>
    (covInv.mulLeft d).bind (fun v3 => dotChecked v3 d))).getD (Dbl.ofInt 2147483647))

/-- state of `KnnModel` (KnnModel.h): training data, `k`, distance -/
structure Knn (F : Type) where
  data : IList F
  k : Int
  dist : Inst F → Inst F → Res F

namespace Knn

/-- the test KnnModel.cpp:61 -/
def eligible (x : Inst F) (y : Inst F) : Bool :=
  !x.isComposite || decide (y.label ∈ x.possibleLabels)

/-- `nearestNeighbors`: KnnModel.cpp:53-70. `fmin(k, size)` with a negative `k` gives no
neighbour. -/
def nearestNeighbors (m : Knn F) (x : Inst F) : Res (IList F) := do
  let instances ← m.data.foldlM (fun (r : List (Inst F × F)) y =>
    if eligible x y then do
      let d ← m.dist y x
      pure (r ++ [(y, d)])
    else pure r) []
  let sorted := stableSort (fun (a b : Inst F × F) => a.2 <. b.2) instances
  pure ((sorted.take m.k.toNat).map Prod.fst)

/-- `predict`: KnnModel.cpp:32-41 -/
def predict (m : Knn F) (x : Inst F) : Res String := do
  let neighbors ← m.nearestNeighbors x
  if x.isComposite && neighbors.length == 0 then atR x.possibleLabels 0
  else pure (getMaximum neighbors.getClassLabels)

/-- `predictProbability`: KnnModel.cpp:94-97 -/
def predictProbability (m : Knn F) (x : Inst F) : Res (OMap F) := do
  let neighbors ← m.nearestNeighbors x
  pure neighbors.classDistribution.getProbabilityDistribution

/-- `train`: KnnModel.cpp:106-110 -/
def train (old : Knn F) (trainSet : IList F) (k : Int) (dist : Inst F → Inst F → Res F) : Knn F :=
  { old with data := trainSet, k := k, dist := dist }

end Knn
end Verif
