import Verif.Model.SoftTree
import Verif.Model.Svm
import Verif.Model.Partition
import Verif.Model.Performance

/-! # What calls share

The generator behind `random()` and `rand()` is one for the whole process, and `train` and `Partition` are given a
reference to the caller's list. -/

namespace Verif
open Dbl

variable {F : Type} [Dbl F]

/-! ## the generator -/

/-- the generator of the C library: `srand(n)` puts it into the state `seed n`, and each call of `random()` or `rand()` gives
a number and moves on. (One generator for both functions, as in glibc.) -/
structure Generator where
  S : Type
  seed : Int → S
  next : S → Nat × S

namespace Generator

/-- the state after `k` numbers -/
def after (g : Generator) : Nat → g.S → g.S
  | 0, s => s
  | k + 1, s => g.after k (g.next s).2

/-- the number drawn after `k` others -/
def draw (g : Generator) (k : Nat) (s : g.S) : Nat := (g.next (g.after k s)).1

end Generator

/-- `SoftDecisionTree::train`, SoftDecisionTree.cpp:12-22, as `softTrain`, with the number of random values drawn -/
def softTrainDraws (param : SoftParam F) (fuel : Nat) (trainSet : IList F) : Res (SoftTree F × Nat) := do
  let labels := trainSet.getDistinctClassLabels
  let x0 ← trainSet.get 0
  let root : SoftNode F := .leaf (SoftData.fresh param.rand 0 labels.length x0.attrs.length)
  let parts ← Parts.byRatioStratified trainSet param.ratio param.splitOrder
  let cv ← atR parts 0
  let data ← atR parts 1
  let s ← softGrow labels param cv fuel [] ⟨root, data, freshDraws labels.length x0.attrs.length⟩
  pure (⟨labels, s.root⟩, s.pos)

/-- `getRandomValue()`: SoftDecisionNode.cpp:17-19; `RAND_MAX` is 2³¹ - 1 -/
def randomValue (g : Generator) (s : g.S) (k : Nat) : F := (Dbl.ofNat (g.draw k s) +. Dbl.zero) /. Dbl.ofNat 2147483647

/-- calls that use the generator: `RandomModel::predict` (RandomModel.cpp:24-35) of a model with these labels, and
`SoftDecisionTree::train` (SoftDecisionTree.cpp:12-22) with the seed `seed`. (The numbers `rand` of `param` are not used: they
come from the generator.) -/
inductive RandomCall (F : Type) where
  | ask (labels : List String) (x : Inst F)
  | grow (seed : Int) (param : SoftParam F) (fuel : Nat) (trainSet : IList F)

/-- what a call returns or leaves in the model -/
inductive RandomAnswer (F : Type) where
  | label (c : String)
  | tree (t : SoftTree F)

/-- one call: RandomModel.cpp:28, 32 (one number is drawn), SoftDecisionTree.cpp:13 (`srand`) -/
def RandomCall.run (g : Generator) (s : g.S) : RandomCall F → Res (RandomAnswer F × g.S)
  | .ask labels x => do
    let c ← randomPredict labels (g.next s).1 x
    pure (.label c, (g.next s).2)
  | .grow seed param fuel trainSet => do
    let r ← softTrainDraws { param with rand := randomValue g (g.seed seed) } fuel trainSet
    pure (.tree r.1, g.after r.2 (g.seed seed))

/-- one call after the other; the first that fails ends the sequence -/
def runCalls (g : Generator) : g.S → List (RandomCall F) → Res (List (RandomAnswer F) × g.S)
  | s, [] => pure ([], s)
  | s, c :: cs => do
    let r ← c.run g s
    let q ← runCalls g r.2 cs
    pure (r.1 :: q.1, q.2)

/-! ## the caller's list -/

/-- what is done with one and the same list. `svm`: `SvmModel::train` (at most `rounds` rounds of the solver); `shuffledSplit` and
`stratifiedSplit`: `Partition(list, ratio, seed, stratified)`; `reads`: a training of another classifier, a test, or
another function that works on copies of the list (`DecisionNode(InstanceList data, …)`, DecisionNode.h:29; the parts of
a stratified partition and of a partition by class) or only reads it -/
inductive ListUse (F : Type) where
  | svm (rounds : Nat) (old : Svm F) (p : SvmParam F)
  | shuffledSplit (ratio : F) (order : List Nat)
  | stratifiedSplit (ratio : F) (order : List Nat)
  | reads (run : IList F → Res Unit)

/-- the list after one use: SvmModel.cpp:33 (`trainSet.sort()`), Partition.cpp:106 (`list.shuffle(seed)`) -/
def ListUse.leaves (l : IList F) : ListUse F → Res (IList F)
  | .svm rounds old p => do
    let r ← Svm.train (Svm.boundedSolver rounds p) old l p
    pure r.2
  | .shuffledSplit ratio order => do
    let r ← Parts.byRatio l ratio order
    pure r.2
  | .stratifiedSplit ratio order => do
    let _ ← Parts.byRatioStratified l ratio order
    pure l
  | .reads run => do
    let _ ← run l
    pure l

/-- the list after several uses -/
def listAfter (l : IList F) (us : List (ListUse F)) : Res (IList F) := us.foldlM ListUse.leaves l

end Verif
