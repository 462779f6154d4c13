import Verif.Model.NeuralNetwork
import Verif.Model.Filter

/-! # Soft decision trees (`src/Model/DecisionTree/SoftDecisionNode`, `SoftDecisionTree`)

`rand()` is the sequence `rand 0, rand 1, …` of values of `getRandomValue()`; `pos` counts the
values already drawn. -/

namespace Verif
open Dbl

variable {F : Type} [Dbl F]

/-- members of a node: SoftDecisionNode.h:16-23 (`parent` is replaced by the path from the root) -/
structure SoftData (F : Type) where
  w0s : List F
  w : List F
  outputs : List F
  weight : F
deriving DecidableEq, Repr

/-- a node with no children or with two: the only numbers the code creates -/
inductive SoftNode (F : Type) where
  | leaf (d : SoftData F)
  | split (d : SoftData F) (l r : SoftNode F)
deriving DecidableEq, Repr

namespace SoftNode

/-- the members of the node -/
def data : SoftNode F → SoftData F
  | leaf d => d
  | split d _ _ => d

/-- assignment to the member `weight` -/
def setWeight (v : F) : SoftNode F → SoftNode F
  | leaf d => leaf { d with weight := v }
  | split d l r => split { d with weight := v } l r

end SoftNode

/-- `(getRandomValue() * 0.02) - 0.01`: SoftDecisionNode.cpp:31, 35, 39 -/
def smallRandom (a : F) : F := (a *. Dbl.lit (1/50)) -. Dbl.lit (1/100)

/-- `SoftDecisionNode(parent, trainData)`: SoftDecisionNode.cpp:27-42; `K` is the number of
distinct labels and `d` the number of attributes of the first instance -/
def SoftData.fresh (rand : Nat → F) (pos K d : Nat) : SoftData F where
  w0s := (List.range K).map (fun i => smallRandom (rand (pos + i)))
  outputs := (List.range K).map (fun i => smallRandom (rand (pos + K + i)))
  w := (List.range (d + 1)).map (fun i => smallRandom (rand (pos + 2 * K + i)))
  weight := Dbl.zero

/-- number of random values used by the constructor -/
def freshDraws (K d : Nat) : Nat := 2 * K + (d + 1)

/-- loop body SoftDecisionNode.cpp:61-63 -/
def mixStep (v : F) (left right : List F) (i : Nat) : Res F := do
  let a ← idxR left i
  let b ← idxR right i
  pure ((v *. a) +. ((Dbl.one -. v) *. b))

/-- `calculateOutput`: SoftDecisionNode.cpp:51-65; returns the output and the node with the members
`weight` and `outputs` changed. (The weights of the children are stored after the recursive
calls, which do not read them.) -/
def calcOutput (x : Inst F) : SoftNode F → Res (List F × SoftNode F)
  | .leaf d => pure (d.w0s, .leaf d)
  | .split d l r => do
    let u ← x.toVector
    let s ← dotProduct (biased u) d.w
    let v := sigmoidF s
    let lo ← calcOutput x l
    let ro ← calcOutput x r
    let o ← (List.range d.outputs.length).mapM (mixStep v lo.1 ro.1)
    pure (o, .split { d with outputs := o } (lo.2.setWeight v) (ro.2.setWeight (Dbl.one -. v)))

/-- `classLabelIndexMap.at(label)` -/
def classIndex (labels : List String) (c : String) : Res Nat :=
  if c ∈ labels then pure (labels.idxOf c) else .error (.throw "out_of_range")

/-- loop body SoftDecisionNode.cpp:69-84; the search of the largest output is the same loop as
`Vector::maxIndex` -/
def softErrorStep (labels : List String) (s : Nat × SoftNode F) (x : Inst F) : Res (Nat × SoftNode F) := do
  let c ← classIndex labels x.label
  let o ← calcOutput x s.2
  let i ← maxIndex o.1
  pure (if i ≠ c then s.1 + 1 else s.1, o.2)

/-- `errorOfSoftDecisionTree(root, data, map)`: SoftDecisionNode.cpp:67-86 -/
def softErrors (labels : List String) (data : IList F) (root : SoftNode F) : Res (Nat × SoftNode F) :=
  data.foldlM (softErrorStep labels) (0, root)

/-! ## a node inside the tree -/

/-- the node reached by a path (`false` = first child) and the members `weight` met on the way, the
root excluded, lowest first -/
def SoftNode.at : SoftNode F → List Bool → Res (SoftNode F × List F)
  | n, [] => pure (n, [])
  | .leaf _, _ :: _ => .error (.throw "out_of_range")
  | .split _ l _, false :: p => do
    let r ← l.at p
    pure (r.1, r.2 ++ [l.data.weight])
  | .split _ _ r, true :: p => do
    let q ← r.at p
    pure (q.1, q.2 ++ [r.data.weight])

/-- changes the node reached by a path -/
def SoftNode.put : SoftNode F → List Bool → SoftNode F → SoftNode F
  | _, [], m => m
  | .leaf d, _ :: _, _ => .leaf d
  | .split d l r, false :: p, m => .split d (l.put p m) r
  | .split d l r, true :: p, m => .split d l (r.put p m)

/-- what `copyTo` copies: SoftDecisionNode.cpp:21-25 -/
structure SoftCopy (F : Type) where
  w : List F
  left : List F
  right : List F
deriving DecidableEq, Repr

/-- reading side of `copyTo` -/
def SoftNode.readCopy : SoftNode F → Res (SoftCopy F)
  | .leaf _ => .error (.throw "out_of_range")
  | .split d l r => pure ⟨d.w, l.data.w0s, r.data.w0s⟩

/-- assignment to the member `w0s` -/
def SoftNode.setW0s (v : List F) : SoftNode F → SoftNode F
  | leaf d => leaf { d with w0s := v }
  | split d l r => split { d with w0s := v } l r

/-- writing side of `copyTo` -/
def SoftNode.writeCopy (c : SoftCopy F) : SoftNode F → Res (SoftNode F)
  | .leaf _ => .error (.throw "out_of_range")
  | .split d l r => pure (.split { d with w := c.w } (l.setW0s c.left) (r.setW0s c.right))

/-! ## gradient descent -/

/-- `SoftDecisionTreeParameter`; `shuffleOrder n` is the order in which `shuffle(seed)` puts `n`
elements -/
structure SoftParam (F : Type) where
  ratio : F
  splitOrder : List Nat
  shuffleOrder : Nat → List Nat
  epochs : Nat
  etaDecrease : F
  alpha : F
  rand : Nat → F

/-- local vectors of `gradientDescentSoftDecisionTree`: SoftDecisionNode.cpp:134-136 -/
structure SoftPrev (F : Type) where
  left : List F
  right : List F
  w : List F
deriving DecidableEq, Repr

/-- `kroneckerDelta(r, k) - output[k]`, the `bool` converted to `double` -/
def softDelta (r : Nat) (out : List F) (k : Nat) : Res F := do
  let o ← idxR out k
  pure ((if r = k then Dbl.one else Dbl.zero) -. o)

/-- `multiplier * (kroneckerDelta(r, k) - output[k]) * weight`: SoftDecisionNode.cpp:159, 161 -/
def leafUpdate (m : F) (r : Nat) (out : List F) (weight : F) (k : Nat) : Res F := do
  let e ← softDelta r out k
  pure ((m *. e) *. weight)

/-- `w0s[k] += update + alpha * previous[k]`: SoftDecisionNode.cpp:158, 160, 174 -/
def momentumStep (alpha : F) (old update prev : List F) (k : Nat) : Res F := do
  let a ← idxR old k
  let u ← idxR update k
  let p ← idxR prev k
  pure (a +. (u +. (alpha *. p)))

/-- the first `n` entries updated; the loops write every position once -/
def momentum (alpha : F) (n : Nat) (old update prev : List F) : Res (List F) := do
  let l ← (List.range n).mapM (momentumStep alpha old update prev)
  pure (l ++ old.drop n)

/-- `featureValue`: SoftDecisionNode.cpp:164-168; the attribute is cast without a check -/
def softFeature (x : Inst F) (t : Nat) : Res F :=
  if t = 0 then pure Dbl.one
  else x.contAt (t - 1)

/-- loop body SoftDecisionNode.cpp:170-173 -/
def splitDelta (m f : F) (r : Nat) (out : List F) (l rt : SoftData F) (sum : F) (k : Nat) : Res F := do
  let e ← softDelta r out k
  let a ← idxR l.outputs k
  let b ← idxR rt.outputs k
  pure (sum +. (((((m *. e) *. f) *. (a -. b)) *. l.weight) *. rt.weight))

/-- `sum` of SoftDecisionNode.cpp:169-173 for feature `t` -/
def splitUpdate (m : F) (K : Nat) (r : Nat) (out : List F) (x : Inst F) (l rt : SoftData F) (t : Nat) : Res F := do
  let f ← softFeature x t
  (List.range K).foldlM (splitDelta m f r out l rt) Dbl.zero

/-- the updates SoftDecisionNode.cpp:157-176 of a node and its two children -/
def softUpdate (labels : List String) (alpha m : F) (r : Nat) (out : List F) (x : Inst F) (prev : SoftPrev F) :
    SoftNode F → Res (SoftNode F × SoftPrev F)
  | .leaf _ => .error (.throw "out_of_range")
  | .split d l rt => do
    let ul ← (List.range labels.length).mapM (leafUpdate m r out l.data.weight)
    let ur ← (List.range labels.length).mapM (leafUpdate m r out rt.data.weight)
    let l0 ← momentum alpha labels.length l.data.w0s ul prev.left
    let r0 ← momentum alpha labels.length rt.data.w0s ur prev.right
    let uw ← (List.range (x.attrs.length + 1)).mapM (splitUpdate m labels.length r out x l.data rt.data)
    let w ← momentum alpha (x.attrs.length + 1) d.w uw prev.w
    pure (.split { d with w := w } (l.setW0s l0) (rt.setW0s r0), ⟨ul, ur, uw⟩)

/-- loop body SoftDecisionNode.cpp:140-177 -/
def softPresent (labels : List String) (alpha eta : F) (path : List Bool) (s : SoftNode F × SoftPrev F) (x : Inst F) :
    Res (SoftNode F × SoftPrev F) := do
  let o ← calcOutput x s.1
  let r ← classIndex labels x.label
  let n ← o.2.at path
  let m := n.2.foldl (fun a b => a *. b) eta
  let u ← softUpdate labels alpha m r (normalizeOutput o.1) x s.2 n.1
  pure (o.2.put path u.1, u.2)

/-- tree, order of the training part and number of random values drawn -/
structure SoftState (F : Type) where
  root : SoftNode F
  data : IList F
  pos : Nat

/-- what changes during `gradientDescentSoftDecisionTree` -/
structure SoftDescent (F : Type) where
  root : SoftNode F
  prev : SoftPrev F
  eta : F
  data : IList F

/-- loop body SoftDecisionNode.cpp:138-179 -/
def softEpoch (labels : List String) (param : SoftParam F) (path : List Bool) (s : SoftDescent F) : Res (SoftDescent F) := do
  let data := s.data.shuffle (param.shuffleOrder s.data.length)
  let r ← data.foldlM (softPresent labels param.alpha s.eta path) (s.root, s.prev)
  pure ⟨r.1, r.2, s.eta *. param.etaDecrease, data⟩

/-- `gradientDescentSoftDecisionTree`: SoftDecisionNode.cpp:133-180 -/
def softDescend (labels : List String) (param : SoftParam F) (path : List Bool) (eta : F) (root : SoftNode F)
    (data : IList F) : Res (SoftNode F × IList F) := do
  let x0 ← data.get 0
  let zeros : Nat → List F := fun n => List.replicate n Dbl.zero
  let s ← (List.range param.epochs).foldlM (fun (s : SoftDescent F) _ => softEpoch labels param path s)
    ⟨root, ⟨zeros labels.length, zeros labels.length, zeros (x0.attrs.length + 1)⟩, eta, data⟩
  pure (s.root, s.data)

/-! ## growing -/

/-- what changes in the loop over the learning rates -/
structure SoftTry (F : Type) where
  root : SoftNode F
  data : IList F
  bestErrors : Nat
  best : SoftCopy F

/-- loop body SoftDecisionNode.cpp:112-122; `denominator` is `2^i` -/
def softTry (labels : List String) (param : SoftParam F) (cv : IList F) (path : List Bool) (start : SoftCopy F)
    (s : SoftTry F) (i : Nat) : Res (SoftTry F) := do
  let g ← softDescend labels param path (Dbl.lit 10 /. Dbl.ofNat (2 ^ i)) s.root s.data
  let e ← softErrors labels cv g.1
  let n ← e.2.at path
  let c ← n.1.readCopy
  let back ← n.1.writeCopy start
  pure ⟨e.2.put path back, g.2, if e.1 < s.bestErrors then e.1 else s.bestErrors, if e.1 < s.bestErrors then c else s.best⟩

/-- `children.clear(); w0s = tmp`: SoftDecisionNode.cpp:125-126 -/
def SoftNode.unsplit (w0s : List F) (n : SoftNode F) : SoftNode F := .leaf { n.data with w0s := w0s }

/-- `findBestSoftDecisionTreeSplit`: SoftDecisionNode.cpp:96-131. Eleven learning rates are tried.
The four nodes made by `createNode` only use up random values, apart from the leaf values of
`bestNode`. -/
def softSplit (labels : List String) (param : SoftParam F) (cv : IList F) (path : List Bool) (s : SoftState F) :
    Res (Bool × SoftState F) := do
  let before ← softErrors labels cv s.root
  let n ← before.2.at path
  let x0 ← s.data.get 0
  let K := s.data.getDistinctClassLabels.length
  let d := x0.attrs.length
  let fresh := fun (i : Nat) => SoftData.fresh param.rand (s.pos + i * freshDraws K d) K d
  let node : SoftNode F := .split n.1.data (.leaf (fresh 0)) (.leaf (fresh 1))
  let start ← node.readCopy
  let t ← (List.range 11).foldlM (softTry labels param cv path start)
    ⟨before.2.put path node, s.data, 2147483647, ⟨[], (fresh 2).w0s, (fresh 3).w0s⟩⟩
  let m ← t.root.at path
  let pos := s.pos + 6 * freshDraws K d
  if before.1 ≤ t.bestErrors then
    pure (false, ⟨t.root.put path (m.1.unsplit n.1.data.w0s), t.data, pos⟩)
  else do
    let b ← m.1.writeCopy t.best
    pure (true, ⟨t.root.put path b, t.data, pos⟩)

/-- `createSoftDecisionTree`: SoftDecisionNode.cpp:44-49; `fuel` bounds the depth of the recursion -/
def softGrow (labels : List String) (param : SoftParam F) (cv : IList F) : Nat → List Bool → SoftState F → Res (SoftState F)
  | 0, _, _ => .error (.ub "infinite recursion")
  | fuel + 1, path, s => do
    let r ← softSplit labels param cv path s
    if r.1 then do
      let s1 ← softGrow labels param cv fuel (path ++ [false]) r.2
      softGrow labels param cv fuel (path ++ [true]) s1
    else pure r.2

/-- a trained soft decision tree -/
structure SoftTree (F : Type) where
  labels : List String
  root : SoftNode F

/-- `SoftDecisionTree::train`: SoftDecisionTree.cpp:12-22 -/
def softTrain (param : SoftParam F) (fuel : Nat) (trainSet : IList F) : Res (SoftTree F) := do
  let labels := trainSet.getDistinctClassLabels
  let x0 ← trainSet.get 0
  let root : SoftNode F := .leaf (SoftData.fresh param.rand 0 labels.length x0.attrs.length)
  let parts ← Parts.byRatioStratified trainSet param.ratio param.splitOrder
  let cv ← atR parts 0
  let data ← atR parts 1
  let s ← softGrow labels param cv fuel [] ⟨root, data, freshDraws labels.length x0.attrs.length⟩
  pure ⟨labels, s.root⟩

/-- `SoftDecisionTree::predict`: SoftDecisionTree.cpp:24-40 -/
def softPredict (t : SoftTree F) (x : Inst F) : Res String := do
  let o ← calcOutput x t.root
  let i ← maxIndex o.1
  pure (t.labels.getD i "")

end Verif
