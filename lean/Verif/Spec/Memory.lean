import Verif.Model.Memory

/-! # Specification: instances as values

The meaning of the same programs when every instance is a value of its own: a call on one
instance changes that instance, and no other. -/

namespace Verif
open Dbl

variable {F : Type} [Dbl F]

/-- the instances by address, `none` for a deleted one -/
abbrev Vals (F : Type) := List (Option (Inst F))

/-- the instance at an address -/
def valAt (s : Vals F) (i : Nat) : Res (Inst F) := do
  let c ← idxR s i
  live c

/-- change the instance at an address, and nothing else -/
def updAt (f : Inst F → Res (Inst F)) (s : Vals F) (i : Nat) : Res (Vals F) := do
  let x ← valAt s i
  let y ← f x
  pure (s.set i (some y))

/-- change the instances at the given addresses one after the other; the data definition is
checked for errors -/
def convertVals (f : Inst F → Res (Inst F)) (d : RefSet → Res RefSet) (s : Vals F)
    (ds : RefSet) : Res (Vals F) := do
  let s' ← ds.refs.foldlM (updAt f) s
  let _ ← d ds
  pure s'

/-- a filter on discrete attributes: the distributions of the attributes are those before the
conversion -/
def laryVals (enc : DD → Attr F → List (Attr F)) (ts : DD → List AttrType) (s : Vals F)
    (ds : RefSet) : Res (Vals F) := do
  let l ← ds.refs.mapM (valAt s)
  let dists ← IList.allAttributesDistribution l
  convertVals (laryConvert enc dists) (laryConvertDefinition ts dists) s ds

/-- normalisation with the averages and deviations before the conversion -/
def normalizeVals (s : Vals F) (ds : RefSet) : Res (Vals F) := do
  let l ← ds.refs.mapM (valAt s)
  let avg ← IList.average l
  let sd ← IList.standardDeviation l
  convertVals (normalizeInstance avg.2 sd.2) (fun ds => .ok ds) s ds

/-- principal components of the data before the conversion -/
def pcaVals (E : Ext F) (k : Nat) (s : Vals F) (ds : RefSet) : Res (Vals F) := do
  let l ← ds.refs.mapM (valAt s)
  let es ← pcaTrain E.characteristics l k
  convertVals (pcaInstance es) (fun ds => .ok ds) s ds

/-- writing the k-th attribute of a value -/
def Inst.setValue (k : Nat) (v : F) (x : Inst F) : Res (Inst F) := do
  let a ← x.getAttribute k
  let _ ← a.contVal
  pure { x with attrs := x.attrs.set k (.continuous v) }

/-- one call, instances being values -/
def stepVals (E : Ext F) (s : Vals F) : Cmd F → Res (Vals F)
  | .create l p => .ok (s ++ [some ⟨l, [], p⟩])
  | .add i a => updAt (fun x => .ok (x.addAttribute a)) s i
  | .remove i k => updAt (fun x => x.removeAttribute k) s i
  | .removeAll i => updAt (fun x => .ok x.removeAllAttributes) s i
  | .set i k v => updAt (Inst.setValue k v) s i
  | .project i fs => do
    let x ← valAt s i
    let y ← x.getSubSetOfFeatures fs
    pure (s ++ [some y])
  | .destroy i => do
    let _ ← valAt s i
    pure (s.set i none)
  | .toContinuous ds =>
    laryVals (encContinuous E.showD) (fun d => List.replicate d.size .continuous) s ds
  | .toBinary ds => laryVals (encBinary E.showD) (fun d => List.replicate d.size .binary) s ds
  | .toIndexed ds => laryVals (encIndexed E.showD) (fun _ => [.discreteIndexed]) s ds
  | .normalize ds => normalizeVals s ds
  | .pca k ds => pcaVals E k s ds

/-- a program, instances being values -/
def runVals (E : Ext F) (s : Vals F) (cs : List (Cmd F)) : Res (Vals F) := cs.foldlM (stepVals E) s

/-- the memory shows the same instances as the values: reading any address gives the same -/
def Shows (m : Mem F) (s : Vals F) : Prop := ∀ i : Nat, m.look i = valAt s i

/-- two outcomes are the same: both calls return and the memory shows the values, or both fail
with the same error -/
def SameOutcome (r : Res (Mem F)) (q : Res (Vals F)) : Prop :=
  match r, q with
  | .ok m, .ok s => Shows m s
  | .error e, .error e' => e = e'
  | _, _ => False

/-- the call copies attribute pointers: feature projection -/
def Cmd.copies : Cmd F → Bool
  | .project _ _ => true
  | _ => false

/-- the call writes or deletes attribute objects: `setValue`, normalisation, `delete` -/
def Cmd.writes : Cmd F → Bool
  | .set _ _ _ => true
  | .normalize _ => true
  | .destroy _ => true
  | _ => false

/-- the call takes attributes out of instances: `removeAttribute`, `removeAllAttributes`, the
filters that replace attributes -/
def Cmd.removes : Cmd F → Bool
  | .remove _ _ => true
  | .removeAll _ => true
  | .toContinuous _ => true
  | .toBinary _ => true
  | .toIndexed _ => true
  | .pca _ _ => true
  | _ => false

/-- the call changes or deletes the instance with this address -/
def Cmd.touches : Cmd F → Nat → Bool
  | .create _ _, _ => false
  | .add i _, j => i = j
  | .remove i _, j => i = j
  | .removeAll i, j => i = j
  | .set i _ _, j => i = j
  | .project _ _, _ => false
  | .destroy i, j => i = j
  | .toContinuous ds, j => ds.refs.contains j
  | .toBinary ds, j => ds.refs.contains j
  | .toIndexed ds, j => ds.refs.contains j
  | .normalize ds, j => ds.refs.contains j
  | .pca _ ds, j => ds.refs.contains j

end Verif
