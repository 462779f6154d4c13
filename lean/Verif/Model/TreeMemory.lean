import Verif.Model.DecisionTree
import Verif.Model.Memory

/-! # Decision trees as objects in memory

A `DecisionNode` holds pointers to its children, its condition holds a pointer to an `Attribute`,
a `DecisionTree` holds a pointer to its root and a `TreeEnsembleModel` holds pointers to trees.
Pruning writes the nodes in place and measures the whole tree while doing so. Here nodes and
attribute values are objects with an address. `Model/DecisionTree.lean` treats a tree as a value;
when that is justified is property C157.

Simplifications: addresses are never reused. Recursion through pointers runs with fuel; running
out of it is the distinct outcome `ub "recursion"` and is proved impossible. `delete root` on a
`SoftDecisionNode` through a `DecisionNode*` (no virtual destructor) is not modelled. -/

namespace Verif
open Dbl

variable {F : Type} [Dbl F]

/-- a `DecisionNode` object (DecisionNode.h:14-20); `attr`, `cmp`, `value` are the fields of its
`DecisionCondition` (DecisionCondition.h:12-16), `value` is an address, `none` if not set -/
structure NObj where
  attr : Int
  cmp : Char
  value : Option Nat
  leaf : Bool
  label : String
  dist : DD
  children : List Nat

/-- the memory: `DecisionNode` objects and the `Attribute` objects made for conditions, `none` for
a deleted one -/
structure TMem (F : Type) where
  nodes : List (Option NObj)
  vals : List (Option (Attr F))

namespace TMem

/-- following a `DecisionNode*` -/
def node (m : TMem F) (p : Nat) : Res NObj := do
  let c ← idxR m.nodes p
  live c

/-- following an `Attribute*` -/
def val (m : TMem F) (q : Nat) : Res (Attr F) := do
  let c ← idxR m.vals q
  live c

/-- writing a node object -/
def setNode (m : TMem F) (p : Nat) (o : NObj) : TMem F := { m with nodes := m.nodes.set p (some o) }

/-- the condition of a node, its value read through the pointer -/
def condOf (m : TMem F) (o : NObj) : Res (Cond F) :=
  match o.value with
  | none => .ok ⟨o.attr, o.cmp, none⟩
  | some q => do
    let a ← m.val q
    pure ⟨o.attr, o.cmp, some a⟩

/-- `node->condition.satisfy(instance)`: DecisionNode.cpp:231, 247, 340; DecisionCondition.cpp:52-75 -/
def satisfy (m : TMem F) (q : Nat) (x : Inst F) : Res Bool := do
  let o ← m.node q
  let c ← m.condOf o
  c.satisfy x

/-- the loops DecisionNode.cpp:230-239, 246-250, 339-343: the first child whose condition holds -/
def firstChild {α : Type} (m : TMem F) (x : Inst F) (found : Nat → Res α) (none' : α) : List Nat → Res α
  | [] => .ok none'
  | q :: qs => do
    let s ← m.satisfy q x
    if s then found q else firstChild m x found none' qs

/-- `predict` of a plain instance: DecisionNode.cpp:243-252 -/
def predictPlain (m : TMem F) (x : Inst F) : Nat → Nat → Res String
  | 0, _ => .error (.ub "recursion")
  | fuel + 1, p => do
    let o ← m.node p
    if o.leaf then .ok o.label
    else m.firstChild x (m.predictPlain x fuel) o.label o.children

/-- what DecisionNode.cpp:232-237 make of the child's answer -/
def orElse (child : Res String) (predictedClass : String) : Res String := do
  let childPrediction ← child
  .ok (if childPrediction ≠ "" then childPrediction else predictedClass)

/-- `predict` of a composite instance: DecisionNode.cpp:223-241 -/
def predictComposite (m : TMem F) (x : Inst F) : Nat → Nat → Res String
  | 0, _ => .error (.ub "recursion")
  | fuel + 1, p => do
    let o ← m.node p
    let predictedClass := o.dist.getMaxItemOf x.possibleLabels
    if o.leaf then .ok predictedClass
    else m.firstChild x (fun q => orElse (m.predictComposite x fuel q) predictedClass) predictedClass o.children

/-- `predictProbabilityDistribution`: DecisionNode.cpp:335-346 -/
def predictProbability (m : TMem F) (x : Inst F) : Nat → Nat → Res (OMap F)
  | 0, _ => .error (.ub "recursion")
  | fuel + 1, p => do
    let o ← m.node p
    if o.leaf then .ok o.dist.getProbabilityDistribution
    else m.firstChild x (m.predictProbability x fuel) o.dist.getProbabilityDistribution o.children

/-- enough fuel for a path of different nodes -/
def fuel (m : TMem F) : Nat := m.nodes.length

/-- `DecisionTree::predict`, `root` being the pointer: DecisionTree.cpp:23-29 -/
def treePredict (m : TMem F) (root : Nat) (x : Inst F) : Res String := do
  let predictedClass ← if x.isComposite then m.predictComposite x m.fuel root else m.predictPlain x m.fuel root
  if predictedClass = "" ∧ x.isComposite = true then atR x.possibleLabels 0 else .ok predictedClass

/-- `DecisionTree::predictProbability`: DecisionTree.cpp:92-94 -/
def treeProbability (m : TMem F) (root : Nat) (x : Inst F) : Res (OMap F) := m.predictProbability x m.fuel root

/-! ## making trees -/

/-- `new …Attribute(…)` of a condition: DecisionNode.cpp:46-47, 66, 83-84 -/
def newValue (m : TMem F) (v : Option (Attr F)) : TMem F × Option Nat :=
  match v with
  | none => (m, none)
  | some a => ({ m with vals := m.vals ++ [some a] }, some m.vals.length)

mutual
/-- `new DecisionNode(...)`: the objects made for a tree whose contents are those of the value.
What the contents are is modelled by `Node.grow`; the constructor writes new objects only
(DecisionNode.cpp:42-86, 111-213). The children get their addresses before the node. -/
def newNode (m : TMem F) : Node F → TMem F × Nat
  | .mk c leaf label dist ch =>
    let v := m.newValue c.value
    let r := newNodes v.1 ch
    ({ r.1 with nodes := r.1.nodes ++ [some ⟨c.attr, c.cmp, v.2, leaf, label, dist, r.2⟩] }, r.1.nodes.length)
/-- the children, in order -/
def newNodes (m : TMem F) : List (Node F) → TMem F × List Nat
  | [] => (m, [])
  | n :: ns =>
    let r := newNode m n
    let rs := newNodes r.1 ns
    (rs.1, r.2 :: rs.2)
end

/-! ## pruning -/

/-- accuracy of the tree at `root` on a list: ValidatedModel.cpp:13-22, DecisionTree.cpp:60-63 -/
def treeAccuracy (pruneSet : IList F) (root : Nat) (m : TMem F) : Res F := do
  let p ← testClassifier (m.treePredict root) pruneSet
  p.getAccuracy

/-- `pruneNode`: DecisionTree.cpp:57-69; `acc` measures the whole tree in the current memory -/
def pruneNode (acc : TMem F → Res F) : Nat → TMem F → Nat → Res (TMem F)
  | 0, _, _ => .error (.ub "recursion")
  | fuel + 1, m, p => do
    let o ← m.node p
    if o.leaf then .ok m
    else do
      let before ← acc m
      let m1 := m.setNode p { o with leaf := true }
      let after ← acc m1
      if after <. before then
        o.children.foldlM (pruneNode acc fuel) (m1.setNode p { o with leaf := false })
      else .ok m1

/-- `prune`: DecisionTree.cpp:45-47 -/
def prune (m : TMem F) (root : Nat) (pruneSet : IList F) : Res (TMem F) :=
  pruneNode (treeAccuracy pruneSet root) m.fuel m root

/-! ## the life of a tree -/

/-- `DecisionTree::train`: DecisionTree.cpp:103-112; the pointer to an earlier root is overwritten.
Gives the memory and the new root. -/
def train (m : TMem F) (trainSet : IList F) (pruning : Option (F × List Nat)) : Res (TMem F × Nat) :=
  match pruning with
  | none => do
    let n ← Node.grow none false (trainSet.length + 1) trainSet Cond.root
    pure (m.newNode n)
  | some (ratio, arr) => do
    let parts ← Parts.byRatioStratified trainSet ratio arr
    let p1 ← atR parts 1
    let n ← Node.grow none false (p1.length + 1) p1 Cond.root
    let r := m.newNode n
    let p0 ← atR parts 0
    let m' ← r.1.prune r.2 p0
    pure (m', r.2)

/-- `delete node`: `~DecisionNode`, DecisionNode.cpp:261-265; the value of the condition is not
deleted -/
def destroyNode : Nat → TMem F → Nat → Res (TMem F)
  | 0, _, _ => .error (.ub "recursion")
  | fuel + 1, m, p => do
    let o ← m.node p
    let m' ← o.children.foldlM (destroyNode fuel) m
    pure { m' with nodes := m'.nodes.set p none }

/-- `~DecisionTree`: DecisionTree.cpp:12-14; the pointer of a tree that was never trained or loaded
is not set (DecisionTree.h:12, 15), as in `DecisionTree t;`. (`new DecisionTree()` sets it to null
and deleting that is harmless.) -/
def destroyTree (m : TMem F) : Option Nat → Res (TMem F)
  | none => .error (.ub "uninitialised pointer")
  | some root => destroyNode m.fuel m root

/-- `~TreeEnsembleModel`: TreeEnsembleModel.cpp:8-12 -/
def destroyForest (m : TMem F) (roots : List Nat) : Res (TMem F) :=
  roots.foldlM (fun m root => m.destroyTree (some root)) m

/-- destroying a `SoftDecisionNode` object: `~SoftDecisionNode` (SoftDecisionNode.cpp:182-186)
deletes the children, then the destructor of the base class (DecisionNode.cpp:261-265) runs on the
same list -/
def destroySoft (m : TMem F) (p : Nat) : Res (TMem F) := do
  let o ← m.node p
  let m1 ← o.children.foldlM (destroyNode m.fuel) m
  let m2 ← o.children.foldlM (destroyNode m.fuel) m1
  pure { m2 with nodes := m2.nodes.set p none }

end TMem
end Verif
