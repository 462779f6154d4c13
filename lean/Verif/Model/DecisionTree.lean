import Verif.Model.Performance

/-! # Decision trees (`src/Model/DecisionTree`) and tree ensembles (`src/Model/Ensemble`)

The recursion of the `DecisionNode` constructor is modelled with fuel; running out of fuel is
the distinct outcome `ub "recursion"` and is proved impossible for a fuel of at least the
number of instances. The shared mutable nodes are modelled by values: `pruneNode` gets the
context of the node in the whole tree. -/

namespace Verif
open Dbl

variable {F : Type} [Dbl F]

/-- `DecisionCondition` (DecisionCondition.h:12-16); `value = none` is the unset pointer of the
root condition -/
structure Cond (F : Type) where
  attr : Int
  cmp : Char
  value : Option (Attr F)
deriving DecidableEq

namespace Cond

/-- `DecisionCondition()`: DecisionCondition.cpp:88, DecisionCondition.h:13 -/
def root : Cond F := ⟨-1, '=', none⟩

/-- `instance->getAttribute(attributeIndex)` -/
def attrOf (c : Cond F) (x : Inst F) : Res (Attr F) :=
  if c.attr < 0 then .error (.throw "out_of_range") else x.getAttribute c.attr.toNat

/-- `satisfy`: DecisionCondition.cpp:52-75 -/
def satisfy (c : Cond F) (x : Inst F) : Res Bool :=
  match c.value with
  | none => .error (.ub "null pointer")
  | some (.indexed _ k _) =>
    if k = -1 then .ok true
    else do
      let a ← c.attrOf x
      let i ← a.getIndex
      pure (decide (i = k))
  | some (.discrete v) => do
      let a ← c.attrOf x
      let w ← a.discVal
      pure (decide (w = v))
  | some (.continuous v) =>
    if c.cmp = '<' then do
      let a ← c.attrOf x
      let w ← a.contVal
      pure (w <=. v)
    else if c.cmp = '>' then do
      let a ← c.attrOf x
      let w ← a.contVal
      pure (v <. w)
    else .ok false
  | some (.binary _) => .ok false

end Cond

/-- `DecisionNode` (DecisionNode.h:13-20) -/
inductive Node (F : Type) where
  | mk (cond : Cond F) (leaf : Bool) (label : String) (dist : DD) (children : List (Node F))

namespace Node

/-- the fields -/
def cond : Node F → Cond F
  | .mk c _ _ _ _ => c
/-- `isLeaf()`: DecisionNode.cpp:271-273 -/
def isLeaf : Node F → Bool
  | .mk _ l _ _ _ => l
/-- field `classLabel` -/
def label : Node F → String
  | .mk _ _ s _ _ => s
/-- field `classLabelsDistribution` -/
def dist : Node F → DD
  | .mk _ _ _ d _ => d
/-- `getChildren()`: DecisionNode.cpp:287-289 -/
def children : Node F → List (Node F)
  | .mk _ _ _ _ ch => ch
/-- `setLeaf`: DecisionNode.cpp:279-281 -/
def setLeaf : Node F → Bool → Node F
  | .mk c _ s d ch, b => .mk c b s d ch

mutual
/-- `predict` of a plain instance: DecisionNode.cpp:243-252 -/
def predictPlain : Node F → Inst F → Res String
  | .mk _ leaf lab _ ch, x => if leaf then .ok lab else predictPlainIn lab ch x
/-- the loop DecisionNode.cpp:246-251 -/
def predictPlainIn (lab : String) : List (Node F) → Inst F → Res String
  | [], _ => .ok lab
  | n :: ns, x => do
    let s ← n.cond.satisfy x
    if s then predictPlain n x else predictPlainIn lab ns x
end

mutual
/-- `predict` of a composite instance: DecisionNode.cpp:223-241 -/
def predictComposite : Node F → Inst F → Res String
  | .mk _ leaf _ d ch, x =>
    if leaf then .ok (d.getMaxItemOf x.possibleLabels)
    else predictCompositeIn (d.getMaxItemOf x.possibleLabels) ch x
/-- the loop DecisionNode.cpp:230-240 -/
def predictCompositeIn (predictedClass : String) : List (Node F) → Inst F → Res String
  | [], _ => .ok predictedClass
  | n :: ns, x => do
    let s ← n.cond.satisfy x
    if s then do
      let childPrediction ← predictComposite n x
      .ok (if childPrediction ≠ "" then childPrediction else predictedClass)
    else predictCompositeIn predictedClass ns x
end

/-- `predict`: DecisionNode.cpp:222-254 -/
def predict (n : Node F) (x : Inst F) : Res String :=
  if x.isComposite then n.predictComposite x else n.predictPlain x

mutual
/-- `predictProbabilityDistribution`: DecisionNode.cpp:335-346 -/
def predictProbability : Node F → Inst F → Res (OMap F)
  | .mk _ leaf _ d ch, x =>
    if leaf then .ok d.getProbabilityDistribution else predictProbabilityIn d ch x
/-- the loop DecisionNode.cpp:339-344 -/
def predictProbabilityIn (d : DD) : List (Node F) → Inst F → Res (OMap F)
  | [], _ => .ok d.getProbabilityDistribution
  | n :: ns, x => do
    let s ← n.cond.satisfy x
    if s then predictProbability n x else predictProbabilityIn d ns x
end

/-! ## growing -/

/-- `entropyForDiscreteAttribute`: DecisionNode.cpp:23-30 -/
def entropyForDiscreteAttribute (data : IList F) (i : Nat) : Res F := do
  let ds ← data.attributeClassDistribution i
  pure (ds.foldl (fun s d =>
    s +. (((Dbl.ofNat d.getSum : F) /. Dbl.ofNat data.length) *. d.entropy)) Dbl.zero)

/-- the best split so far: `bestEntropy`, `bestAttribute` (`none` = -1), `bestSplitValue`.
Simplification: the int index stored in the double `bestSplitValue` and cast back (lines 158,
202) is kept as an int, beside the real split value. -/
structure Best (F : Type) where
  entropy : F
  attr : Option Nat
  k : Int
  v : F

/-- the body DecisionNode.cpp:151-161 -/
def indexedStep (data : IList F) (i : Nat) (st : DD × Best F) (k : Nat) : Res (DD × Best F) := do
  let d ← data.discreteIndexedAttributeClassDistribution i k
  pure (if d.getSum > 0 then
      let cd := st.1.removeDistribution d
      let e := ((cd.entropy *. Dbl.ofNat cd.getSum) +. (d.entropy *. Dbl.ofNat d.getSum)) /.
        Dbl.ofNat data.length
      (cd.addDistribution d, if e <. st.2.entropy then { st.2 with entropy := e, attr := some i, k := k } else st.2)
    else st)

/-- state of the sweep DecisionNode.cpp:173-194; `prev = none` before the first instance -/
structure Sweep (F : Type) where
  prev : Option F
  left : DD
  right : DD
  best : Best F

/-- the comparison DecisionNode.cpp:181-190: value `v` after previous value `p` -/
def sweepSplit (n : Nat) (i : Nat) (s : Sweep F) (p v : F) : Sweep F :=
  if (v ==. p) = false then
    let splitValue := (p +. v) /. Dbl.ofInt 2
    let e := (((Dbl.ofNat s.left.getSum : F) /. Dbl.ofNat n) *. s.left.entropy) +.
      (((Dbl.ofNat s.right.getSum : F) /. Dbl.ofNat n) *. s.right.entropy)
    { s with prev := some v,
             best := if e <. s.best.entropy then { s.best with entropy := e, v := splitValue, attr := some i }
                     else s.best }
  else s

/-- the part DecisionNode.cpp:178-191 -/
def sweepValue (n : Nat) (i : Nat) (s : Sweep F) (v : F) : Sweep F :=
  match s.prev with
  | none => { s with prev := some v }
  | some p => sweepSplit n i s p v

/-- the body DecisionNode.cpp:177-193 -/
def sweepStep (n : Nat) (i : Nat) (s : Sweep F) (x : Inst F) : Res (Sweep F) := do
  let v ← x.contAt i
  let s := sweepValue n i s v
  pure { s with left := s.left.removeItem x.label, right := s.right.addItem x.label }

/-- what the loop DecisionNode.cpp:147-198 carries: the data (sorted in place), the class
distribution and the best split -/
structure Search (F : Type) where
  data : IList F
  classDist : DD
  best : Best F

/-- DecisionNode.cpp:150-162 -/
def searchIndexed (s : Search F) (i : Nat) (maxIndex : Int) : Res (Search F) := do
  let r ← (List.range maxIndex.toNat).foldlM (indexedStep s.data i) (s.classDist, s.best)
  pure { s with classDist := r.1, best := r.2 }

/-- DecisionNode.cpp:165-169 -/
def searchDiscrete (s : Search F) (i : Nat) : Res (Search F) := do
  let e ← entropyForDiscreteAttribute s.data i
  pure { s with best := if e <. s.best.entropy then { s.best with entropy := e, attr := some i } else s.best }

/-- DecisionNode.cpp:172-194 -/
def searchContinuous (s : Search F) (i : Nat) : Res (Search F) := do
  let sorted ← s.data.sortByAttribute i
  let r ← sorted.foldlM (sweepStep sorted.length i) ⟨none, sorted.classDistribution, DD.empty, s.best⟩
  pure { s with data := sorted, best := r.best }

/-- dispatch on the kind of the attribute in the first instance: DecisionNode.cpp:149-197 -/
def searchKind (s : Search F) (i : Nat) (a : Attr F) : Res (Search F) :=
  if a.isDiscreteIndexed then do
    let m ← a.getMaxIndex
    searchIndexed s i m
  else if a.isDiscrete then searchDiscrete s i
  else if a.isContinuous then searchContinuous s i
  else .ok s

/-- the body DecisionNode.cpp:148-197 -/
def searchStep (s : Search F) (i : Nat) : Res (Search F) := do
  let x0 ← atR s.data 0
  let a ← x0.getAttribute i
  searchKind s i a

/-- `RandomForestParameter`, as far as the node uses it: `getAttributeSubsetSize()` and
`RandomArray::indexArray(attributeSize, seed)`; `none` = `nullptr` -/
abbrev SubsetParam := Option (Int × (Nat → List Nat))

/-- the attribute indices tried: DecisionNode.cpp:134-144, 147-148 -/
def triedIndices (param : SubsetParam) (attributeSize : Nat) : Res (List Nat) :=
  match param with
  | some (size, arr) =>
    if size < attributeSize then
      (List.range size.toNat).foldlM (fun r j => do
        let i ← atR (arr attributeSize) j
        pure (r ++ [i])) []
    else .ok (List.range attributeSize)
  | none => .ok (List.range attributeSize)

/-- `createChildrenForDiscreteIndexed`: DecisionNode.cpp:42-49 -/
def childrenIndexed (rec : IList F → Cond F → Res (Node F)) (data : IList F) (i : Nat) (k : Int)
    (maxIndex : Int) : Res (List (Node F)) := do
  let parts ← Parts.byIndexed data i k
  let p0 ← atR parts 0
  let c0 ← rec p0 ⟨i, '=', some (.indexed "" k maxIndex)⟩
  let p1 ← atR parts 1
  let c1 ← rec p1 ⟨i, '=', some (.indexed "" (-1) maxIndex)⟩
  pure [c0, c1]

/-- the body DecisionNode.cpp:66 -/
def childDiscrete (rec : IList F → Cond F → Res (Node F)) (parts : Parts F) (i : Nat)
    (p : String × Nat) : Res (Node F) := do
  let part ← atR parts p.2
  rec part ⟨i, '=', some (.discrete p.1)⟩

/-- `createChildrenForDiscrete`: DecisionNode.cpp:60-68 -/
def childrenDiscrete (rec : IList F → Cond F → Res (Node F)) (data : IList F) (i : Nat) :
    Res (List (Node F)) := do
  let valueList ← data.getAttributeValueList i
  let parts ← Parts.byDiscrete data i
  valueList.zipIdx.mapM (childDiscrete rec parts i)

/-- `createChildrenForContinuous`: DecisionNode.cpp:80-86 -/
def childrenContinuous (rec : IList F → Cond F → Res (Node F)) (data : IList F) (i : Nat) (v : F) :
    Res (List (Node F)) := do
  let parts ← Parts.byThreshold data i v
  let p0 ← atR parts 0
  let c0 ← rec p0 ⟨i, '<', some (.continuous v)⟩
  let p1 ← atR parts 1
  let c1 ← rec p1 ⟨i, '>', some (.continuous v)⟩
  pure [c0, c1]

/-- dispatch DecisionNode.cpp:201-211 -/
def childrenKind (rec : IList F → Cond F → Res (Node F)) (data : IList F) (b : Best F) (i : Nat)
    (a : Attr F) : Res (List (Node F)) :=
  if a.isDiscreteIndexed then do
    let m ← a.getMaxIndex
    childrenIndexed rec data i b.k m
  else if a.isDiscrete then childrenDiscrete rec data i
  else if a.isContinuous then childrenContinuous rec data i b.v
  else .ok []

/-- DecisionNode.cpp:199-212: the new node, with children if a split was found -/
def finish (rec : IList F → Cond F → Res (Node F)) (mkNode : Bool → List (Node F) → Node F)
    (s : Search F) : Res (Node F) :=
  match s.best.attr with
  | none => .ok (mkNode true [])
  | some i => do
    let x0 ← atR s.data 0
    let a ← x0.getAttribute i
    let ch ← childrenKind rec s.data s.best i a
    pure (mkNode false ch)

/-- DecisionNode.cpp:134-212 -/
def splitNode (rec : IList F → Cond F → Res (Node F)) (param : SubsetParam)
    (mkNode : Bool → List (Node F) → Node F) (data : IList F) : Res (Node F) := do
  let x0 ← atR data 0
  let indices ← triedIndices param x0.attributeSize
  let s ← indices.foldlM searchStep
    ⟨data, data.classDistribution, ⟨data.classDistribution.entropy, none, 0, Dbl.zero⟩⟩
  finish rec mkNode s

/-- the constructor `DecisionNode(InstanceList, ...)`: DecisionNode.cpp:111-213 -/
def grow (param : SubsetParam) (isStump : Bool) : Nat → IList F → Cond F → Res (Node F)
  | 0, _, _ => .error (.ub "recursion")
  | fuel + 1, data, cond =>
    let labels := data.getClassLabels
    let mkNode : Bool → List (Node F) → Node F := fun leaf ch =>
      .mk cond leaf (getMaximum labels) (labels.foldl (fun d l => d.addItem l) DD.empty) ch
    if data.getDistinctClassLabels.length = 1 then .ok (mkNode true [])
    else if isStump = true ∧ cond.attr ≠ -1 then .ok (mkNode true [])
    else splitNode (grow param isStump fuel) param mkNode data

end Node

/-! ## the tree -/

/-- `DecisionTree::predict`: DecisionTree.cpp:23-29 -/
def treePredict (root : Node F) (x : Inst F) : Res String := do
  let predictedClass ← root.predict x
  if predictedClass = "" ∧ x.isComposite = true then atR x.possibleLabels 0 else .ok predictedClass

/-- accuracy of a tree on a list: `testClassifier(pruneSet)->getAccuracy()`,
ValidatedModel.cpp:13-22, DecisionTree.cpp:60-63 -/
def treeAccuracy (pruneSet : IList F) (root : Node F) : Res F := do
  let p ← testClassifier (treePredict root) pruneSet
  p.getAccuracy

mutual
/-- `pruneNode`: DecisionTree.cpp:57-69. `acc` is the accuracy of a whole tree on the pruning
set, `ctx` puts the node back into the whole tree. -/
def pruneNode (acc : Node F → Res F) (ctx : Node F → Node F) : Node F → Res (Node F)
  | .mk c leaf s d ch =>
    if leaf then .ok (.mk c leaf s d ch)
    else do
      let before ← acc (ctx (.mk c leaf s d ch))
      let after ← acc (ctx ((Node.mk c leaf s d ch).setLeaf true))
      if after <. before then do
        let ch' ← pruneChildren acc (fun ch => ctx ((Node.mk c leaf s d ch).setLeaf false)) [] ch
        .ok ((Node.mk c leaf s d ch').setLeaf false)
      else .ok ((Node.mk c leaf s d ch).setLeaf true)
termination_by structural n => n
/-- the loop DecisionTree.cpp:65-67 over the remaining children, `done` having been visited -/
def pruneChildren (acc : Node F → Res F) (ctx : List (Node F) → Node F) (done : List (Node F)) :
    List (Node F) → Res (List (Node F))
  | [] => .ok done
  | n :: ns => do
    let n' ← pruneNode acc (fun m => ctx (done ++ m :: ns)) n
    pruneChildren acc ctx (done ++ [n']) ns
termination_by structural ns => ns
end

/-- `prune`: DecisionTree.cpp:45-47 -/
def prune (root : Node F) (pruneSet : IList F) : Res (Node F) :=
  pruneNode (treeAccuracy pruneSet) id root

/-- `DecisionTree::train`: DecisionTree.cpp:103-112. `prune = some (ratio, indexArray)` if the
parameter asks for pruning. The recursion gets as much fuel as there are instances. -/
def treeTrain (trainSet : IList F) (pruning : Option (F × List Nat)) : Res (Node F) :=
  match pruning with
  | none => Node.grow none false (trainSet.length + 1) trainSet Cond.root
  | some (ratio, arr) => do
    let parts ← Parts.byRatioStratified trainSet ratio arr
    let p1 ← atR parts 1
    let root ← Node.grow none false (p1.length + 1) p1 Cond.root
    let p0 ← atR parts 0
    prune root p0

/-- `DecisionStump::train`: DecisionStump.cpp:15-17 -/
def stumpTrain (trainSet : IList F) : Res (Node F) :=
  Node.grow none true (trainSet.length + 1) trainSet Cond.root

/-! ## ensembles -/

/-- `TreeEnsembleModel::predict`, loop 22-25 -/
def ensembleVotes (forest : List (Node F)) (x : Inst F) : Res DD :=
  forest.foldlM (fun d t => do
    let p ← treePredict t x
    pure (d.addItem p)) DD.empty

/-- `TreeEnsembleModel::predict`: TreeEnsembleModel.cpp:21-27 -/
def ensemblePredict (forest : List (Node F)) (x : Inst F) : Res String := do
  let d ← ensembleVotes forest x
  pure d.getMaxItem

/-- `TreeEnsembleModel::predictProbability`: TreeEnsembleModel.cpp:53-59 -/
def ensembleProbability (forest : List (Node F)) (x : Inst F) : Res (OMap F) := do
  let d ← ensembleVotes forest x
  pure d.getProbabilityDistribution

/-- `BaggingModel::train` (BaggingModel.cpp:18-24, `param = none`) and
`RandomForestModel::train` (RandomForestModel.cpp:15-21). `draws i` are the positions drawn by
`bootstrap(i)`. Trees are appended to the existing forest. -/
def ensembleTrain (param : Node.SubsetParam) (draws : Nat → List Nat) (old : List (Node F))
    (trainSet : IList F) (size : Int) : Res (List (Node F)) :=
  (List.range size.toNat).foldlM (fun forest i => do
    let sample := trainSet.bootstrap (draws i)
    let t ← Node.grow param false (sample.length + 1) sample Cond.root
    pure (forest ++ [t])) old

end Verif
