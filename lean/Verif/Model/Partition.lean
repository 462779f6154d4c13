import Verif.Model.InstanceList

/-! # Partitions (`src/InstanceList/Partition.cpp`) -/

namespace Verif
open Dbl

variable {F : Type} [Dbl F]

/-- `Partition` (Partition.h): `vector<InstanceList*> multiList` -/
abbrev Parts (F : Type) := List (IList F)

namespace Parts

/-- `get(index)->add(instance)`: Partition.cpp:45-47, InstanceList.cpp:89-91 -/
def addTo (ps : Parts F) (k : Nat) (x : Inst F) : Res (Parts F) := do
  let p ← atR ps k
  pure (ps.set k (p.add x))

/-- `Partition(const InstanceList&)`: Partition.cpp:68-75 -/
def byClass (l : IList F) : Res (Parts F) :=
  let classLabels := l.getDistinctClassLabels
  l.foldlM (fun ps x => ps.addTo (classLabels.idxOf x.label) x)
    (classLabels.map (fun _ => ([] : IList F)))

/-- `Partition(const InstanceList&, int)`: Partition.cpp:127-136 -/
def byDiscrete (l : IList F) (i : Nat) : Res (Parts F) := do
  let valueList ← l.getAttributeValueList i
  l.foldlM (fun ps x => do
    let v ← x.discAt i
    Parts.addTo ps (valueList.idxOf v) x) (valueList.map (fun _ => ([] : IList F)))

/-- `Partition(const InstanceList&, int, int)`: Partition.cpp:146-157 -/
def byIndexed (l : IList F) (i : Nat) (value : Int) : Res (Parts F) :=
  l.foldlM (fun ps x => do
    let v ← x.indexAt i
    if v = value then Parts.addTo ps 0 x else Parts.addTo ps 1 x) [[], []]

/-- `Partition(const InstanceList&, int, double)`: Partition.cpp:167-178 -/
def byThreshold (l : IList F) (i : Nat) (splitValue : F) : Res (Parts F) :=
  l.foldlM (fun ps x => do
    let v ← x.contAt i
    if v <=. splitValue then Parts.addTo ps 0 x else Parts.addTo ps 1 x) [[], []]

/-- the non-stratified branch of `Partition(InstanceList&, double, int, bool)`:
Partition.cpp:89-90, 106-114. `σ` is what the random engine makes of `shuffle(seed)`. Also
returns the caller's list, which has been shuffled. -/
def byRatio (l : IList F) (ratio : F) (σ : List Nat) : Res (Parts F × IList F) := do
  let l' := l.shuffle σ
  let ps ← l'.zipIdx.foldlM (fun ps p =>
    if Dbl.ofNat p.2 <. (Dbl.ofNat l'.length *. ratio) then Parts.addTo ps 0 p.1
    else Parts.addTo ps 1 p.1) [[], []]
  pure (ps, l')

/-- the stratified branch: Partition.cpp:89-104. `randomArray` is the result of
`RandomArray::indexArray(list.size(), seed)`. -/
def byRatioStratified (l : IList F) (ratio : F) (randomArray : List Nat) : Res (Parts F) := do
  let distribution := l.classDistribution
  let st ← (List.range l.length).foldlM (fun (st : Counter × Parts F) i => do
    let r ← atR randomArray i
    let x ← l.get r
    let ps ←
      if Dbl.ofNat (Counter.count st.1 x.label) <.
          (Dbl.ofNat l.length *. ratio *. (distribution.getProbability x.label : F))
      then Parts.addTo st.2 0 x
      else Parts.addTo st.2 1 x
    pure (Counter.put st.1 x.label, ps)) ([], [[], []])
  pure st.2

/-- `getLists()`: Partition.cpp:54-60 -/
def getLists (ps : Parts F) : List (List (Inst F)) := ps

end Parts
end Verif
