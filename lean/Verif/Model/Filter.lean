import Verif.Model.DataSet

/-! # Feature filters (`src/Filter`)

A filter keeps its own copy of the data set, but the copy holds the same `Instance` pointers, so
converting mutates the caller's instances. Instances therefore live on a heap here: an instance
is a position in a list and a data set holds positions. -/

namespace Verif
open Dbl

variable {F : Type} [Dbl F]

/-- the memory: the instance objects, addressed by position -/
abbrev Heap (F : Type) := List (Inst F)

/-- a `DataSet` as a filter sees it: `vector<Instance*>` and the definition (DataSet.h:14-45) -/
structure RefSet where
  refs : List Nat
  definition : DataDef
deriving DecidableEq, Repr

/-- the instances a vector of pointers denotes (FeatureFilter.cpp:21, DataSet.cpp:282-284);
following a pointer that is not on the heap is undefined -/
def deref (h : Heap F) (refs : List Nat) : Res (IList F) := refs.mapM (fun r => idxR h r)

/-- one iteration of FeatureFilter.cpp:22-24: `convertInstance(instance)` changes the object -/
def convertAt (f : Inst F → Res (Inst F)) (h : Heap F) (r : Nat) : Res (Heap F) := do
  let x ← idxR h r
  let y ← f x
  pure (h.set r y)

/-- the loop FeatureFilter.cpp:22-24 (an exception is reported as the outcome of the whole
call, the instances converted before it stay converted in the C++ program) -/
def convertAll (f : Inst F → Res (Inst F)) (h : Heap F) (refs : List Nat) : Res (Heap F) :=
  refs.foldlM (convertAt f) h

/-- `FeatureFilter::convert()`: FeatureFilter.cpp:20-26, for a filter whose virtual functions are
`convertInstance = f` and `convertDataDefinition = d` (which gets the data set of the filter and
returns what it leaves there). -/
def convert (f : Inst F → Res (Inst F)) (d : RefSet → Res RefSet) (h : Heap F) (ds : RefSet) :
    Res (Heap F × RefSet) := do
  let h' ← convertAll f h ds.refs
  let ds' ← d ds
  pure (h', ds')

/-! ## Filters on discrete attributes -/

/-- `attributeDistributions.at(i).empty()` (a `DiscreteDistribution` is a map) -/
def DD.isEmpty (d : DD) : Bool := d.m.isEmpty

/-- the body of the loops DiscreteToContinuous.cpp:26-38, DiscreteToIndexed.cpp:24-29,
LaryToBinary.cpp:25-36: `enc` gives the attributes added for one discrete attribute -/
def laryStep (enc : DD → Attr F → List (Attr F)) (dists : List DD) (x : Inst F) (i : Nat) :
    Res (Inst F) := do
  let d ← atR dists i
  if d.isEmpty then pure x
  else do
    let a ← x.getAttribute i
    pure ((enc d a).foldl Inst.addAttribute x)

/-- one iteration of `LaryFilter::removeDiscreteAttributes(instance, size)`:
LaryFilter.cpp:26-30; the state holds the instance and `k` -/
def removeStep (dists : List DD) (s : Inst F × Nat) (i : Nat) : Res (Inst F × Nat) := do
  let d ← atR dists i
  if d.isEmpty then pure (s.1, s.2 + 1)
  else do
    let x ← s.1.removeAttribute s.2
    pure (x, s.2)

/-- `LaryFilter::removeDiscreteAttributes(instance, size)`: LaryFilter.cpp:23-32 -/
def removeDiscreteAttributes (dists : List DD) (x : Inst F) (size : Nat) : Res (Inst F) := do
  let s ← (List.range size).foldlM (removeStep dists) (x, 0)
  pure s.1

/-- the common shape of the three `convertInstance`: DiscreteToContinuous.cpp:24-40,
DiscreteToIndexed.cpp:22-31, LaryToBinary.cpp:23-38 -/
def laryConvert (enc : DD → Attr F → List (Attr F)) (dists : List DD) (x : Inst F) :
    Res (Inst F) := do
  let size := x.attributeSize
  let y ← (List.range size).foldlM (laryStep enc dists) x
  removeDiscreteAttributes dists y size

/-- DiscreteToContinuous.cpp:28-36 -/
def encContinuous (showD : F → String) (d : DD) (a : Attr F) : List (Attr F) :=
  let index := d.getIndex (a.toStr showD)
  (List.range d.size).map (fun (j : Nat) =>
    if (j : Int) ≠ index then .continuous Dbl.zero else .continuous Dbl.one)

/-- LaryToBinary.cpp:27-34 -/
def encBinary (showD : F → String) (d : DD) (a : Attr F) : List (Attr F) :=
  let index := d.getIndex (a.toStr showD)
  (List.range d.size).map (fun (j : Nat) =>
    if (j : Int) ≠ index then Attr.ofBool false else Attr.ofBool true)

/-- DiscreteToIndexed.cpp:26-27 -/
def encIndexed (showD : F → String) (d : DD) (a : Attr F) : List (Attr F) :=
  let index := d.getIndex (a.toStr showD)
  [.indexed (a.toStr showD) index d.size]

/-- one iteration of `removeDiscreteAttributes(size)`: LaryFilter.cpp:43-47 -/
def removeTypeStep (dists : List DD) (s : DataDef × Nat) (i : Nat) : Res (DataDef × Nat) := do
  let d ← atR dists i
  if d.isEmpty then pure (s.1, s.2 + 1)
  else do
    let x ← s.1.removeAttribute s.2
    pure (x, s.2)

/-- `LaryFilter::removeDiscreteAttributes(size)`: LaryFilter.cpp:39-49. `getDataDefinition()`
(DataSet.cpp:300-302) returns a copy, which is edited and dropped: the data set of the filter is
returned as it was. -/
def removeDiscreteTypes (dists : List DD) (ds : RefSet) (size : Nat) : Res RefSet := do
  let _ ← (List.range size).foldlM (removeTypeStep dists) (ds.definition, 0)
  pure ds

/-- the body of the loops DiscreteToContinuous.cpp:49-55, DiscreteToIndexed.cpp:39-43,
LaryToBinary.cpp:46-52: `ts d` are the types added for a discrete attribute -/
def addTypesStep (ts : DD → List AttrType) (dists : List DD) (dd : DataDef) (i : Nat) :
    Res DataDef := do
  let d ← atR dists i
  if d.isEmpty then pure dd else pure ((ts d).foldl DataDef.addAttribute dd)

/-- `convertDataDefinition()`: DiscreteToContinuous.cpp:46-57, DiscreteToIndexed.cpp:36-45,
LaryToBinary.cpp:43-54: the types are added to a local copy, which is dropped -/
def laryConvertDefinition (ts : DD → List AttrType) (dists : List DD) (ds : RefSet) :
    Res RefSet := do
  let size := ds.definition.attributeCount
  let _ ← (List.range size).foldlM (addTypesStep ts dists) ds.definition
  removeDiscreteTypes dists ds size

/-- constructing the filter (LaryFilter.cpp:12-14, FeatureFilter.cpp:12-14) and calling
`convert()` -/
def laryFilter (enc : DD → Attr F → List (Attr F)) (ts : DD → List AttrType) (h : Heap F)
    (ds : RefSet) : Res (Heap F × RefSet) := do
  let l ← deref h ds.refs
  let dists ← l.allAttributesDistribution
  convert (laryConvert enc dists) (laryConvertDefinition ts dists) h ds

/-- `DiscreteToContinuous(dataSet).convert()`: DiscreteToContinuous.cpp:14-57 -/
def discreteToContinuous (showD : F → String) (h : Heap F) (ds : RefSet) :
    Res (Heap F × RefSet) :=
  laryFilter (encContinuous showD) (fun d => List.replicate d.size .continuous) h ds

/-- `LaryToBinary(dataSet).convert()`: LaryToBinary.cpp:13-54 -/
def laryToBinary (showD : F → String) (h : Heap F) (ds : RefSet) : Res (Heap F × RefSet) :=
  laryFilter (encBinary showD) (fun d => List.replicate d.size .binary) h ds

/-- `DiscreteToIndexed(dataSet).convert()`: DiscreteToIndexed.cpp:13-45 -/
def discreteToIndexed (showD : F → String) (h : Heap F) (ds : RefSet) : Res (Heap F × RefSet) :=
  laryFilter (encIndexed showD) (fun _ => [.discreteIndexed]) h ds

/-! ## Normalize -/

/-- `((ContinuousAttribute*) averageInstance->getAttribute(i))->getValue()`: Normalize.cpp:28-29;
a null attribute (binary or indexed column) cannot be read -/
def optContAt (as : List (Option (Attr F))) (i : Nat) : Res F := do
  let a ← atR as i
  match a with
  | some b => b.contVal
  | none => .error (.ub "null attribute")

/-- the body of the loop Normalize.cpp:26-31; `setValue` replaces the value of the attribute -/
def normalizeStep (m s : List (Option (Attr F))) (x : Inst F) (i : Nat) : Res (Inst F) := do
  let a ← x.getAttribute i
  if a.isContinuous then do
    let xi ← a.contVal
    let mi ← optContAt m i
    let si ← optContAt s i
    pure { x with attrs := x.attrs.set i (.continuous ((xi -. mi) /. si)) }
  else pure x

/-- `Normalize::convertInstance`: Normalize.cpp:24-33 -/
def normalizeInstance (m s : List (Option (Attr F))) (x : Inst F) : Res (Inst F) :=
  (List.range x.attributeSize).foldlM (normalizeStep m s) x

/-- `Normalize(dataSet).convert()`: Normalize.cpp:14-36 -/
def normalize (h : Heap F) (ds : RefSet) : Res (Heap F × RefSet) := do
  let l ← deref h ds.refs
  let m ← l.average
  let s ← l.standardDeviation
  convert (normalizeInstance m.2 s.2) (fun ds => .ok ds) h ds

/-! ## Pca -/

/-- `Vector::dotProduct(v)` of the math library: the sum of products, `VectorSizeMismatch` for
vectors of different sizes -/
def dotProduct (u v : List F) : Res F :=
  if u.length ≠ v.length then .error (.throw "VectorSizeMismatch")
  else .ok ((List.zipWith (fun a b => a *. b) u v).foldl (fun s p => s +. p) Dbl.zero)

/-- adding the attribute of one eigenvector, a size mismatch being swallowed: Pca.cpp:99-102 -/
def pcaStep (attributes : List F) (x : Inst F) (e : List F) : Inst F :=
  match dotProduct attributes e with
  | .ok d => x.addAttribute (.continuous d)
  | .error _ => x

/-- `Pca::convertInstance`: Pca.cpp:95-104; an eigenvector is a list of numbers -/
def pcaInstance (eigenvectors : List (List F)) (x : Inst F) : Res (Inst F) := do
  let attributes ← x.continuousAttributes
  pure (eigenvectors.foldl (pcaStep attributes) x.removeAllAttributes)

/-- `eigenvectors.erase(begin() + numberOfDimensions, end())`: Pca.cpp:66-68 -/
def mostImportantK (es : List (List F)) (k : Nat) : Res (List (List F)) :=
  if k ≤ es.length then .ok (es.take k) else .error (.ub "erase past the end")

/-- `Pca::train()` with a positive or zero `numberOfDimensions`: Pca.cpp:74-86.
`characteristics` is `Matrix::characteristics()` (the eigenvectors, `none` when it throws
`MatrixNotSymmetric`, in which case the list of eigenvectors stays empty). -/
def pcaTrain (characteristics : Nat × (Nat → Nat → F) → Option (List (List F))) (l : IList F)
    (k : Nat) : Res (List (List F)) := do
  let averageVector ← l.continuousAttributeAverage
  let cov ← l.covariance averageVector
  match characteristics cov with
  | some es => mostImportantK es k
  | none => pure []

/-- `Pca(dataSet, numberOfDimensions).convert()`: Pca.cpp:27-30, 95-116. The definition edited by
`convertDataDefinition` is a local copy. (The constructors without a number of dimensions read
an uninitialised iterator, Pca.cpp:51-52, and have no defined behaviour.) -/
def pca (characteristics : Nat × (Nat → Nat → F) → Option (List (List F))) (k : Nat) (h : Heap F)
    (ds : RefSet) : Res (Heap F × RefSet) := do
  let l ← deref h ds.refs
  let es ← pcaTrain characteristics l k
  convert (pcaInstance es) (fun ds => .ok ds) h ds

end Verif
