import Verif.Model.Instance
import Verif.Model.Deps

/-! # Instance lists (`src/InstanceList/InstanceList.cpp`) -/

namespace Verif
open Dbl

variable {F : Type} [Dbl F]

/-- `Model::getMaximum(classLabels)`: src/Model/Model.cpp:16-22 -/
def getMaximum (labels : List String) : String :=
  Counter.max (labels.foldl (fun m l => Counter.put m l) [])

/-- `InstanceList` (InstanceList.h: `vector<Instance*> list`) -/
abbrev IList (F : Type) := List (Inst F)

namespace IList

/-- `add`: InstanceList.cpp:89-91 -/
def add (l : IList F) (x : Inst F) : IList F := l ++ [x]

/-- `addAll`: InstanceList.cpp:98-100 -/
def addAll (l : IList F) (xs : List (Inst F)) : IList F := l ++ xs

/-- `get(index)`: InstanceList.cpp:117-119 -/
def get (l : IList F) (i : Nat) : Res (Inst F) := atR l i

/-- `sort(attributeIndex)`: InstanceList.cpp:121-152. The comparator reads the values with
`getAttribute(...).at` and a cast; the model reads the whole column once and then sorts
(value, instance) pairs by value (simplification: for lists of 0 or 1 elements the C++ never
calls the comparator, so it cannot fail there). -/
def sortByAttribute (l : IList F) (i : Nat) : Res (IList F) := do
  let keyed ← l.mapM (fun x => do
    let v ← x.contAt i
    pure (v, x))
  pure ((stableSort (fun p q => p.1 <. q.1) keyed).map Prod.snd)

/-- `sort()`: InstanceList.cpp:164-179 -/
def sortByClass (l : IList F) : IList F :=
  stableSort (fun x y => decide (x.label < y.label)) l

/-- `getClassLabels()`: InstanceList.cpp:204-211 -/
def getClassLabels (l : IList F) : List String :=
  l.foldl (fun r x => r ++ [x.label]) []

/-- `getDistinctClassLabels()`: InstanceList.cpp:218-226 -/
def getDistinctClassLabels (l : IList F) : List String :=
  l.foldl (fun r x => if x.label ∈ r then r else r ++ [x.label]) []

/-- `getUnionOfPossibleClassLabels()`: InstanceList.cpp:242-252 -/
def getUnionOfPossibleClassLabels (l : IList F) : List String :=
  l.foldl (fun r x => x.possibleLabels.foldl (fun r p => if p ∈ r then r else r ++ [p]) r) []

/-- `getAttributeValueList(attributeIndex)`: InstanceList.cpp:260-269 -/
def getAttributeValueList (l : IList F) (i : Nat) : Res (List String) :=
  l.foldlM (fun r x => do
    let v ← x.discAt i
    pure (if v ∈ r then r else r ++ [v])) []

/-- `attributeAverage(index)`: InstanceList.cpp:279-298; `none` is the `nullptr` returned for
binary and indexed attributes -/
def attributeAverage (l : IList F) (i : Nat) : Res (Option (Attr F)) := do
  let first ← atR l 0
  let a ← first.getAttribute i
  if a.isDiscrete then do
    let values ← l.foldlM (fun r x => do
      let v ← x.discAt i
      pure (r ++ [v])) []
    pure (some (.discrete (getMaximum values)))
  else if a.isContinuous then do
    let sum ← l.foldlM (fun s x => do
      let v ← x.contAt i
      pure (s +. v)) (Dbl.zero : F)
    pure (some (.continuous (sum /. Dbl.ofNat l.length)))
  else pure none

/-- `average()`: InstanceList.cpp:490-496. A `nullptr` attribute (binary or indexed column)
is kept as `none`; dereferencing it later is undefined behaviour. -/
def average (l : IList F) : Res (String × List (Option (Attr F))) := do
  let first ← atR l 0
  let as ← (List.range first.attributeSize).foldlM (fun r i => do
    let a ← attributeAverage l i
    pure (r ++ [a])) []
  pure (first.label, as)

/-- increment `values[index]` (`operator[]`, undefined when out of range):
InstanceList.cpp:312, 367 -/
def incrAt (values : List F) (index : Int) : Res (List F) :=
  if 0 ≤ index ∧ index.toNat < values.length then
    .ok (values.modify index.toNat (fun v => v +. Dbl.one))
  else .error (.ub "operator[]")

/-- the counting loop InstanceList.cpp:308-316 = 363-371 -/
def indexedFrequencies (l : IList F) (i : Nat) (maxIndex : Int) : Res (List F) :=
  if maxIndex < 0 then .error (.throw "length_error") else do
    let values ← l.foldlM (fun values x => do
      let v ← x.indexAt i
      incrAt values v) (List.replicate maxIndex.toNat (Dbl.zero : F))
    pure (values.map (fun v => v /. Dbl.ofNat l.length))

/-- `continuousAttributeAverage(index)`: InstanceList.cpp:306-329 (falls off the end without
a `return` for plain discrete and binary attributes: undefined) -/
def continuousAttributeAverageAt (l : IList F) (i : Nat) : Res (List F) := do
  let first ← atR l 0
  let a ← first.getAttribute i
  if a.isDiscreteIndexed then do
    let m ← a.getMaxIndex
    indexedFrequencies l i m
  else if a.isContinuous then do
    let sum ← l.foldlM (fun s x => do
      let v ← x.contAt i
      pure (s +. v)) (Dbl.zero : F)
    pure [sum /. Dbl.ofNat l.length]
  else .error (.ub "missing return")

/-- `continuousAttributeAverage()`: InstanceList.cpp:503-510 -/
def continuousAttributeAverage (l : IList F) : Res (List F) := do
  let first ← atR l 0
  (List.range first.attributeSize).foldlM (fun r i => do
    let added ← continuousAttributeAverageAt l i
    pure (r ++ added)) []

/-- the two loops InstanceList.cpp:340-349 = 389-399 -/
def contStdDev (l : IList F) (i : Nat) : Res F := do
  let sum ← l.foldlM (fun s x => do
    let v ← x.contAt i
    pure (s +. v)) (Dbl.zero : F)
  let average := sum /. Dbl.ofNat l.length
  let sum ← l.foldlM (fun s x => do
    let v ← x.contAt i
    pure (s +. Dbl.pow (v -. average) 2)) (Dbl.zero : F)
  pure (Dbl.sqrt (sum /. Dbl.ofNat (l.length - 1)))

/-- `attributeStandardDeviation(index)`: InstanceList.cpp:338-353; `none` = `nullptr` -/
def attributeStandardDeviation (l : IList F) (i : Nat) : Res (Option (Attr F)) := do
  let first ← atR l 0
  let a ← first.getAttribute i
  if a.isContinuous then do
    let s ← contStdDev l i
    pure (some (.continuous s))
  else pure none

/-- `standardDeviation()`: InstanceList.cpp:517-523 -/
def standardDeviation (l : IList F) : Res (String × List (Option (Attr F))) := do
  let first ← atR l 0
  let as ← (List.range first.attributeSize).foldlM (fun r i => do
    let a ← attributeStandardDeviation l i
    pure (r ++ [a])) []
  pure (first.label, as)

/-- `continuousAttributeStandardDeviation(index)`: InstanceList.cpp:361-403 -/
def continuousAttributeStandardDeviationAt (l : IList F) (i : Nat) : Res (List F) := do
  let first ← atR l 0
  let a ← first.getAttribute i
  if a.isDiscreteIndexed then do
    let m ← a.getMaxIndex
    let averages ← indexedFrequencies l i m
    let values ← l.foldlM (fun (values : List F) x => do
      let v ← x.indexAt i
      pure ((values.zip averages).zipIdx.map (fun t =>
        if (t.2 : Int) = v then t.1.1 +. Dbl.pow (Dbl.one -. t.1.2) 2
        else t.1.1 +. Dbl.pow t.1.2 2))) (List.replicate m.toNat (Dbl.zero : F))
    pure (values.map (fun v => Dbl.sqrt (v /. Dbl.ofNat (l.length - 1))))
  else if a.isContinuous then do
    let s ← contStdDev l i
    pure [s]
  else .error (.ub "missing return")

/-- `continuousAttributeStandardDeviation()`: InstanceList.cpp:530-537 -/
def continuousAttributeStandardDeviation (l : IList F) : Res (List F) := do
  let first ← atR l 0
  (List.range first.attributeSize).foldlM (fun r i => do
    let added ← continuousAttributeStandardDeviationAt l i
    pure (r ++ added)) []

/-- `attributeDistribution(index)`: InstanceList.cpp:412-420 -/
def attributeDistribution (l : IList F) (i : Nat) : Res DD := do
  let first ← atR l 0
  let a ← first.getAttribute i
  if a.isDiscrete then
    l.foldlM (fun d x => do
      let v ← x.discAt i
      pure (d.addItem v)) DD.empty
  else pure DD.empty

/-- `attributeClassDistribution(attributeIndex)`: InstanceList.cpp:429-437 -/
def attributeClassDistribution (l : IList F) (i : Nat) : Res (List DD) := do
  let valueList ← getAttributeValueList l i
  l.foldlM (fun ds x => do
    let v ← x.discAt i
    let k := valueList.idxOf v
    let d ← idxR ds k
    pure (ds.set k (d.addItem x.label))) (List.replicate valueList.length DD.empty)

/-- `discreteIndexedAttributeClassDistribution(attributeIndex, attributeValue)`:
InstanceList.cpp:448-456 -/
def discreteIndexedAttributeClassDistribution (l : IList F) (i : Nat) (value : Int) : Res DD :=
  l.foldlM (fun d x => do
    let v ← x.indexAt i
    pure (if v = value then d.addItem x.label else d)) DD.empty

/-- `classDistribution()`: InstanceList.cpp:463-469 -/
def classDistribution (l : IList F) : DD :=
  l.foldl (fun d x => d.addItem x.label) DD.empty

/-- `allAttributesDistribution()`: InstanceList.cpp:476-483 -/
def allAttributesDistribution (l : IList F) : Res (List DD) := do
  let first ← atR l 0
  (List.range first.attributeSize).foldlM (fun r i => do
    let d ← attributeDistribution l i
    pure (r ++ [d])) []

/-- `covariance(average)`: InstanceList.cpp:545-562. The matrix is a function of row and
column; `Matrix::addValue` outside the matrix and `Vector::getValue` outside the vector are
out-of-range accesses. The square root of nothing is taken; the divisor is `size()-1`. -/
def covariance (l : IList F) (average : List F) : Res (Nat × (Nat → Nat → F)) := do
  let first ← atR l 0
  let n := first.continuousAttributeSize
  let m ← l.foldlM (fun (m : Nat → Nat → F) x => do
    let c ← x.continuousAttributes
    let k := x.continuousAttributeSize.toNat
    if k ≤ n.toNat ∧ k ≤ average.length then
      pure (fun i j =>
        if i < k ∧ j < k then
          m i j +. ((c.getD i Dbl.zero -. average.getD i Dbl.zero) *.
            (c.getD j Dbl.zero -. average.getD j Dbl.zero))
        else m i j)
    else .error (.ub "matrix/vector access")) (fun _ _ => Dbl.zero)
  pure (n.toNat, fun i j => m i j /. Dbl.ofNat (l.length - 1))

/-- `shuffle(seed)`: InstanceList.cpp:185-187; `std::shuffle` applies the permutation `σ`
(positions) produced by the random engine. -/
def shuffle (l : IList F) (σ : List Nat) : IList F := σ.filterMap (fun i => l[i]?)

/-- `bootstrap(seed)`: InstanceList.cpp:195-197; the library draws `size()` positions. -/
def bootstrap (l : IList F) (draws : List Nat) : IList F := draws.filterMap (fun i => l[i]?)

/-- `clear()`: InstanceList.cpp:626-628 -/
def clear (_ : IList F) : IList F := []

end IList
end Verif
