import Verif.Model.Filter
import Verif.Model.Knn

/-! # Instances and attributes as objects in memory

`Instance` holds a vector of `Attribute*`; data sets and instance lists hold `Instance*`. Feature
projection copies attribute pointers, `ContinuousAttribute::setValue` writes through them and
`~Instance` deletes them. Here attributes and instances are objects with an address. Everything
else in the model treats an instance as a value; when that is justified is property C142.

Simplifications: addresses are never reused. `Attribute` has no virtual destructor, so the
`delete` of Instance.cpp:178 is, read strictly, undefined whenever it is executed; it is modelled
as releasing the object. The `Instance` objects built by `average()` and `standardDeviation()`
have attributes of their own (InstanceList.cpp:286-349) and stay values. -/

namespace Verif
open Dbl

variable {F : Type} [Dbl F]

/-- an `Instance` object (Instance.h:18-20, CompositeInstance.h:13): the attributes are
addresses -/
structure IObj where
  label : String
  attrs : List Nat
  possible : Option (List String)
deriving DecidableEq, Repr

/-- the memory: attribute objects and instance objects by address, `none` for a deleted one -/
structure Mem (F : Type) where
  attrs : List (Option (Attr F))
  insts : List (Option IObj)
deriving DecidableEq, Repr

/-- using an object: undefined after its deletion -/
def live {α : Type} (c : Option α) : Res α :=
  match c with
  | some a => .ok a
  | none => .error (.ub "deleted object")

namespace Mem

/-- memory before anything is created -/
def empty : Mem F := ⟨[], []⟩

/-- following an `Attribute*` -/
def attr (m : Mem F) (p : Nat) : Res (Attr F) := do
  let c ← idxR m.attrs p
  live c

/-- following an `Instance*` -/
def obj (m : Mem F) (i : Nat) : Res IObj := do
  let c ← idxR m.insts i
  live c

/-- what a reader of the instance sees: label, attribute values and possible labels
(Instance.cpp:91-102, 138-146) -/
def look (m : Mem F) (i : Nat) : Res (Inst F) := do
  let o ← m.obj i
  let as ← o.attrs.mapM m.attr
  pure ⟨o.label, as, o.possible⟩

/-- storing a changed `Instance` object -/
def setObj (m : Mem F) (i : Nat) (o : IObj) : Mem F := { m with insts := m.insts.set i (some o) }

/-- `new Instance(classLabel)`, `new CompositeInstance(...)`: Instance.cpp:27-29,
CompositeInstance.cpp:15-36 -/
def newInstance (m : Mem F) (label : String) (possible : Option (List String)) : Mem F :=
  { m with insts := m.insts ++ [some ⟨label, [], possible⟩] }

/-- `instance->addAttribute(new …Attribute(…))`: Instance.cpp:36-47, 54-56; the new object gets a
new address -/
def addAttribute (m : Mem F) (i : Nat) (a : Attr F) : Res (Mem F) := do
  let o ← m.obj i
  let m' : Mem F := { m with attrs := m.attrs ++ [some a] }
  pure (m'.setObj i { o with attrs := o.attrs ++ [m.attrs.length] })

/-- `removeAttribute(index)`: Instance.cpp:74-76; the attribute object is not deleted -/
def removeAttribute (m : Mem F) (i k : Nat) : Res (Mem F) := do
  let o ← m.obj i
  if k < o.attrs.length then pure (m.setObj i { o with attrs := o.attrs.eraseIdx k })
  else .error (.ub "erase past the end")

/-- `removeAllAttributes()`: Instance.cpp:81-83; the attribute objects are not deleted -/
def removeAllAttributes (m : Mem F) (i : Nat) : Res (Mem F) := do
  let o ← m.obj i
  pure (m.setObj i { o with attrs := [] })

/-- `((ContinuousAttribute*) instance->getAttribute(k))->setValue(v)`: Instance.cpp:91-93,
ContinuousAttribute.cpp:30-32; writes the attribute object -/
def setValue (m : Mem F) (i k : Nat) (v : F) : Res (Mem F) := do
  let o ← m.obj i
  let p ← atR o.attrs k
  let a ← m.attr p
  let _ ← a.contVal
  pure { m with attrs := m.attrs.set p (some (.continuous v)) }

/-- one iteration of the loop Instance.cpp:191-193: the address is copied -/
def projectStep (o : IObj) (ps : List Nat) (f : Nat) : Res (List Nat) := do
  let p ← atR o.attrs f
  pure (ps ++ [p])

/-- `getSubSetOfFeatures(featureSubSet)`: Instance.cpp:189-195; the result is a new plain
`Instance` -/
def project (m : Mem F) (i : Nat) (s : List Nat) : Res (Mem F) := do
  let o ← m.obj i
  let ps ← s.foldlM (projectStep o) []
  pure { m with insts := m.insts ++ [some ⟨o.label, ps, none⟩] }

/-- `delete attribute`: Instance.cpp:178; deleting twice is undefined -/
def deleteAttr (m : Mem F) (p : Nat) : Res (Mem F) := do
  let _ ← m.attr p
  pure { m with attrs := m.attrs.set p none }

/-- `delete instance`: `~Instance`, Instance.cpp:176-180 -/
def destroy (m : Mem F) (i : Nat) : Res (Mem F) := do
  let o ← m.obj i
  let m' ← o.attrs.foldlM deleteAttr m
  pure { m' with insts := m'.insts.set i none }

/-! ## Filters -/

/-- the body of the loops DiscreteToContinuous.cpp:26-38, DiscreteToIndexed.cpp:24-29,
LaryToBinary.cpp:25-36 -/
def laryStep (enc : DD → Attr F → List (Attr F)) (dists : List DD) (i : Nat) (m : Mem F)
    (k : Nat) : Res (Mem F) := do
  let d ← atR dists k
  if d.isEmpty then pure m
  else do
    let o ← m.obj i
    let p ← atR o.attrs k
    let a ← m.attr p
    (enc d a).foldlM (fun m b => m.addAttribute i b) m

/-- one iteration of LaryFilter.cpp:26-30; the state holds the memory and `k` -/
def removeStep (dists : List DD) (i : Nat) (s : Mem F × Nat) (j : Nat) : Res (Mem F × Nat) := do
  let d ← atR dists j
  if d.isEmpty then pure (s.1, s.2 + 1)
  else do
    let m ← s.1.removeAttribute i s.2
    pure (m, s.2)

/-- `convertInstance`: DiscreteToContinuous.cpp:24-40, DiscreteToIndexed.cpp:22-31,
LaryToBinary.cpp:23-38; LaryFilter.cpp:23-32 -/
def laryConvert (enc : DD → Attr F → List (Attr F)) (dists : List DD) (m : Mem F) (i : Nat) :
    Res (Mem F) := do
  let o ← m.obj i
  let size := o.attrs.length
  let m' ← (List.range size).foldlM (laryStep enc dists i) m
  let s ← (List.range size).foldlM (removeStep dists i) (m', 0)
  pure s.1

/-- the body of the loop Normalize.cpp:26-31 -/
def normalizeStep (avg sd : List (Option (Attr F))) (i : Nat) (m : Mem F) (k : Nat) :
    Res (Mem F) := do
  let o ← m.obj i
  let p ← atR o.attrs k
  let a ← m.attr p
  if a.isContinuous then do
    let xi ← a.contVal
    let mi ← optContAt avg k
    let si ← optContAt sd k
    pure { m with attrs := m.attrs.set p (some (.continuous ((xi -. mi) /. si))) }
  else pure m

/-- `Normalize::convertInstance`: Normalize.cpp:24-33 -/
def normalizeConvert (avg sd : List (Option (Attr F))) (m : Mem F) (i : Nat) : Res (Mem F) := do
  let o ← m.obj i
  (List.range o.attrs.length).foldlM (normalizeStep avg sd i) m

/-- one iteration of Pca.cpp:98-103 -/
def pcaStep (attributes : List F) (i : Nat) (m : Mem F) (e : List F) : Res (Mem F) :=
  match dotProduct attributes e with
  | .ok d => m.addAttribute i (.continuous d)
  | .error _ => .ok m

/-- `Pca::convertInstance`: Pca.cpp:95-104 -/
def pcaConvert (eigenvectors : List (List F)) (m : Mem F) (i : Nat) : Res (Mem F) := do
  let x ← m.look i
  let attributes ← x.continuousAttributes
  let m' ← m.removeAllAttributes i
  eigenvectors.foldlM (pcaStep attributes i) m'

/-- `FeatureFilter::convert()`: FeatureFilter.cpp:20-26; `convertDataDefinition` edits a copy -/
def convert (f : Mem F → Nat → Res (Mem F)) (d : RefSet → Res RefSet) (m : Mem F)
    (ds : RefSet) : Res (Mem F) := do
  let m' ← ds.refs.foldlM f m
  let _ ← d ds
  pure m'

/-- constructing a filter on discrete attributes (LaryFilter.cpp:12-14) and `convert()` -/
def laryFilter (enc : DD → Attr F → List (Attr F)) (ts : DD → List AttrType) (m : Mem F)
    (ds : RefSet) : Res (Mem F) := do
  let l ← ds.refs.mapM m.look
  let dists ← IList.allAttributesDistribution l
  convert (laryConvert enc dists) (laryConvertDefinition ts dists) m ds

/-- `Normalize(dataSet).convert()`: Normalize.cpp:14-36 -/
def normalize (m : Mem F) (ds : RefSet) : Res (Mem F) := do
  let l ← ds.refs.mapM m.look
  let avg ← IList.average l
  let sd ← IList.standardDeviation l
  convert (normalizeConvert avg.2 sd.2) (fun ds => .ok ds) m ds

/-- `Pca(dataSet, k).convert()`: Pca.cpp:27-30, 95-116 -/
def pca (characteristics : Nat × (Nat → Nat → F) → Option (List (List F))) (k : Nat) (m : Mem F)
    (ds : RefSet) : Res (Mem F) := do
  let l ← ds.refs.mapM m.look
  let es ← pcaTrain characteristics l k
  convert (pcaConvert es) (fun ds => .ok ds) m ds

end Mem

/-! ## Programs -/

/-- what a program can do to instances; instances are named by address, new ones get the next
address -/
inductive Cmd (F : Type) where
  /-- `new Instance(label)` / `new CompositeInstance(...)` -/
  | create (label : String) (possible : Option (List String))
  /-- `addAttribute(value)` -/
  | add (i : Nat) (a : Attr F)
  /-- `removeAttribute(k)` -/
  | remove (i k : Nat)
  /-- `removeAllAttributes()` -/
  | removeAll (i : Nat)
  /-- `((ContinuousAttribute*) getAttribute(k))->setValue(v)` -/
  | set (i k : Nat) (v : F)
  /-- `getSubSetOfFeatures(s)` -/
  | project (i : Nat) (s : List Nat)
  /-- `delete` -/
  | destroy (i : Nat)
  /-- `DiscreteToContinuous(dataSet).convert()` -/
  | toContinuous (ds : RefSet)
  /-- `LaryToBinary(dataSet).convert()` -/
  | toBinary (ds : RefSet)
  /-- `DiscreteToIndexed(dataSet).convert()` -/
  | toIndexed (ds : RefSet)
  /-- `Normalize(dataSet).convert()` -/
  | normalize (ds : RefSet)
  /-- `Pca(dataSet, k).convert()` -/
  | pca (k : Nat) (ds : RefSet)

/-- what the filters take from outside: `std::to_string` of a number and the eigenvectors of a
matrix -/
structure Ext (F : Type) where
  showD : F → String
  characteristics : Nat × (Nat → Nat → F) → Option (List (List F))

/-- one call: Instance.cpp:16-195, FeatureFilter.cpp:20-26 -/
def Mem.step (E : Ext F) (m : Mem F) : Cmd F → Res (Mem F)
  | .create l p => .ok (m.newInstance l p)
  | .add i a => m.addAttribute i a
  | .remove i k => m.removeAttribute i k
  | .removeAll i => m.removeAllAttributes i
  | .set i k v => m.setValue i k v
  | .project i s => m.project i s
  | .destroy i => m.destroy i
  | .toContinuous ds =>
    m.laryFilter (encContinuous E.showD) (fun d => List.replicate d.size .continuous) ds
  | .toBinary ds => m.laryFilter (encBinary E.showD) (fun d => List.replicate d.size .binary) ds
  | .toIndexed ds => m.laryFilter (encIndexed E.showD) (fun _ => [.discreteIndexed]) ds
  | .normalize ds => m.normalize ds
  | .pca k ds => m.pca E.characteristics k ds

/-- `KnnModel::predict` after `train` on a list of instances: `data = trainSet` copies the
pointers (KnnModel.cpp:106-110, InstanceList.h:18-19), so the prediction (KnnModel.cpp:32-41) reads
the instances as they are at the time of the prediction -/
def Mem.knnPredict (m : Mem F) (refs : List Nat) (k : Int) (dist : Inst F → Inst F → Res F)
    (x : Inst F) : Res String := do
  let l ← refs.mapM m.look
  Knn.predict ⟨l, k, dist⟩ x

/-- a program, one call after the other -/
def Mem.run (E : Ext F) (m : Mem F) (cs : List (Cmd F)) : Res (Mem F) := cs.foldlM (Mem.step E) m

end Verif
