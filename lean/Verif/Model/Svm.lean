import Verif.Model.Solver
import Verif.Model.Performance

/-! # Support vector machine (`src/Model/Svm/SvmModel.cpp`) -/

namespace Verif
open Dbl

variable {F : Type} [Dbl F]

/-- members of `SvmModel`: SvmModel.h:14-20; `param = none` while the pointer `parameter` is
uninitialised -/
structure Svm (F : Type) where
  dist : DD
  rho : List F
  svCounts : List Nat
  supportVectors : List (NodeL F)
  coefs : List (List F)
  param : Option (SvmParam F)
  classes : Nat
  problems : Nat
deriving DecidableEq, Repr

/-- `fabs` -/
def fabsD (a : F) : F := if a <. Dbl.zero then Dbl.neg a else a

/-- the pairs `(i, j)` in the order of the loops SvmModel.cpp:49-50, 115-116, 189-190, 218-219 -/
def classPairs (n : Nat) : List (Nat × Nat) :=
  (List.range n).flatMap (fun i => (List.range' (i + 1) (n - (i + 1))).map (fun j => (i, j)))

/-- loop body SvmModel.cpp:145-147, 107-109, 184-186 -/
def nextStart (count : Nat → Res Nat) (start : List Nat) (i : Nat) : Res (List Nat) := do
  let a ← idxR start (i - 1)
  let c ← count (i - 1)
  pure (start ++ [a + c])

/-- first positions of the classes: SvmModel.cpp:144-147, 106-109, 183-186; `count` gives the
number of entries of a class -/
def startsOf (count : Nat → Res Nat) (n : Nat) : Res (List Nat) :=
  (List.range' 1 (n - 1)).foldlM (nextStart count) [0]

namespace Svm

/-- `classDistribution.getCount(classes[i])`: SvmModel.cpp:53-54, 88, 119-120, 146 -/
def classCount (d : DD) (i : Nat) : Res Nat := do
  let c ← idxR d.getItems i
  pure (d.getCount c)

/-- `groupClasses()`: SvmModel.cpp:140-149 -/
def groupClasses (d : DD) (n : Nat) : Res (List Nat) := startsOf (classCount d) n

/-- loops SvmModel.cpp:57-60, 61-64 (the vectors): `c` entries of `x` from position `s` on -/
def block {α : Type} (x : List α) (s c : Nat) : Res (List α) :=
  (List.range c).mapM (fun k => idxR x (s + k))

/-- label of the solver for a label of the problem: SvmModel.cpp:156-160 -/
def signLabel (y : F) : F := if Dbl.zero <. y then Dbl.ofInt 1 else Dbl.ofInt (-1)

/-- loop body SvmModel.cpp:165 -/
def signAlpha (alpha y : List F) (i : Nat) : Res F := do
  let a ← idxR alpha i
  let b ← idxR y i
  pure (a *. b)

/-- `solveSingle(problem)`: SvmModel.cpp:151-168, for the problem with vectors `x` and labels `y`;
`solve` is the call `Solver(l, minusOnes, y, parameter, problem).solve()` -/
def solveSingle (solve : List (NodeL F) → List F → List F → Res (F × List F)) (x : List (NodeL F)) (y : List F) :
    Res (F × List F) := do
  let s := y.map signLabel
  let r ← solve x s (List.replicate y.length (Dbl.ofInt (-1)))
  let a ← (List.range y.length).mapM (signAlpha r.2 s)
  pure (r.1, a)

/-- loop bodies SvmModel.cpp:67-69 (`off = 0`) and 72-74 (`off = ci`) -/
def markRow (alpha : List F) (s off : Nat) (nonZero : List Bool) (k : Nat) : Res (List Bool) := do
  let b ← idxR nonZero (s + k)
  if b then pure nonZero
  else do
    let a ← idxR alpha (off + k)
    pure (if Dbl.zero <. fabsD a then nonZero.set (s + k) true else nonZero)

/-- `weights` and `nonZero` -/
structure PairAcc (F : Type) where
  weights : List (F × List F)
  nonZero : List Bool
deriving DecidableEq, Repr

/-- loop body SvmModel.cpp:51-76; `weights[p]` is the entry just appended -/
def trainPair (solve : List (NodeL F) → List F → List F → Res (F × List F)) (d : DD) (x : List (NodeL F))
    (start : List Nat) (acc : PairAcc F) (p : Nat × Nat) : Res (PairAcc F) := do
  let si ← idxR start p.1
  let sj ← idxR start p.2
  let ci ← classCount d p.1
  let cj ← classCount d p.2
  let xi ← block x si ci
  let xj ← block x sj cj
  let w ← solveSingle solve (xi ++ xj)
    (List.replicate ci (Dbl.ofInt 1) ++ List.replicate cj (Dbl.ofInt (-1)))
  let nz ← (List.range ci).foldlM (markRow w.2 si 0) acc.nonZero
  let nz ← (List.range cj).foldlM (markRow w.2 sj ci) nz
  pure ⟨acc.weights ++ [w], nz⟩

/-- loop body SvmModel.cpp:87-95: number of marked instances of class `i` -/
def countMarked (d : DD) (start : List Nat) (nonZero : List Bool) (i : Nat) : Res Nat := do
  let c ← classCount d i
  let s ← idxR start i
  let b ← block nonZero s c
  pure (b.count true)

/-- `vector::resize(n)` -/
def resizeTo {α : Type} (n : Nat) (a : α) (l : List α) : List α := l.take n ++ List.replicate (n - l.length) a

/-- loop bodies SvmModel.cpp:123-126 (`row = j - 1`, `off = 0`) and 130-133 (`row = i`, `off = ci`);
the state is `supportVectorCoefficients` and `q` -/
def fillRow (alpha : List F) (nonZero : List Bool) (s off row : Nat) (st : List (List F) × Nat) (k : Nat) :
    Res (List (List F) × Nat) := do
  let b ← idxR nonZero (s + k)
  if b then do
    let r ← idxR st.1 row
    let a ← idxR alpha (off + k)
    let _ ← idxR r st.2
    pure (st.1.set row (r.set st.2 a), st.2 + 1)
  else pure st

/-- loop body SvmModel.cpp:117-135; the state is `supportVectorCoefficients` and `p` -/
def fillPair (d : DD) (start nzStart : List Nat) (acc : PairAcc F) (st : List (List F) × Nat) (p : Nat × Nat) :
    Res (List (List F) × Nat) := do
  let si ← idxR start p.1
  let sj ← idxR start p.2
  let ci ← classCount d p.1
  let cj ← classCount d p.2
  let w ← idxR acc.weights st.2
  let q ← idxR nzStart p.1
  let r ← (List.range ci).foldlM (fillRow w.2 acc.nonZero si 0 (p.2 - 1)) (st.1, q)
  let q ← idxR nzStart p.2
  let r ← (List.range cj).foldlM (fillRow w.2 acc.nonZero sj ci p.1) (r.1, q)
  pure (r.1, st.2 + 1)

/-- SvmModel.cpp:34-137 for the sorted list; `solve` is the solver. (`x[i]`, `rho`, … are read within
the bounds of the vectors just built; the counters `nSV` and `totalSupportVectors` are the
number of marked instances of a class and of all classes.) -/
def trainSorted (solve : List (NodeL F) → List F → List F → Res (F × List F)) (old : Svm F) (sorted : IList F)
    (p : SvmParam F) : Res (Svm F) := do
  let x ← sorted.mapM Inst.toNodeList
  let d := sorted.classDistribution
  let n := d.size
  let start ← groupClasses d n
  let acc ← (classPairs n).foldlM (trainPair solve d x start) ⟨[], List.replicate x.length false⟩
  let counts ← (List.range n).mapM (countMarked d start acc.nonZero)
  let nzStart ← startsOf (idxR counts) n
  let blank := resizeTo (n - 1) [] old.coefs
  let blank := blank.map (resizeTo counts.sum Dbl.zero)
  let coefs ← (classPairs n).foldlM (fillPair d start nzStart acc) (blank, 0)
  pure { dist := d, rho := old.rho ++ acc.weights.map Prod.fst, svCounts := old.svCounts ++ counts,
         supportVectors := old.supportVectors ++ ((x.zip acc.nonZero).filter Prod.snd).map Prod.fst,
         coefs := coefs.1, param := some p, classes := n, problems := n * (n - 1) / 2 }

/-- `train(trainSet, parameters)`: SvmModel.cpp:18-138; also returns the list, which `sort()` has
rearranged -/
def train (solve : List (NodeL F) → List F → List F → Res (F × List F)) (old : Svm F) (l : IList F)
    (p : SvmParam F) : Res (Svm F × IList F) := do
  let x ← l.get 0
  if discreteCheck x then do
    let m ← trainSorted solve old l.sortByClass p
    pure (m, l.sortByClass)
  else .error (.throw "DiscreteFeaturesNotAllowed")

/-- the solver of `solveSingle` (SvmModel.cpp:162-163), stopped after `n` rounds: the answer
`Err.ub "rounds"` says that the loop of `solve()` needs more than `n` rounds, and nothing about the
program -/
def boundedSolver (n : Nat) (p : SvmParam F) (x : List (NodeL F)) (y b : List F) : Res (F × List F) := do
  let r ← Smo.solve n y.length x y b p
  match r with
  | some o => pure o
  | none => .error (.ub "rounds")

/-- loop bodies SvmModel.cpp:198-200, 201-203 -/
def addTerm (coef kernel : List F) (s : Nat) (sum : F) (k : Nat) : Res F := do
  let c ← idxR coef (s + k)
  let v ← idxR kernel (s + k)
  pure (sum +. (c *. v))

/-- loop body SvmModel.cpp:191-206; the state is `result`, whose size is `p` -/
def pairValue (m : Svm F) (start : List Nat) (kernel : List F) (result : List F) (p : Nat × Nat) :
    Res (List F) := do
  let si ← idxR start p.1
  let sj ← idxR start p.2
  let ci ← idxR m.svCounts p.1
  let cj ← idxR m.svCounts p.2
  let c1 ← idxR m.coefs (p.2 - 1)
  let c2 ← idxR m.coefs p.1
  let sum ← (List.range ci).foldlM (addTerm c1 kernel si) Dbl.zero
  let sum ← (List.range cj).foldlM (addTerm c2 kernel sj) sum
  let r ← idxR m.rho result.length
  pure (result ++ [sum -. r])

/-- `*parameter`: SvmModel.cpp:180; undefined while the pointer is uninitialised -/
def getParam (m : Svm F) : Res (SvmParam F) := m.param.elim (.error (.ub "uninitialised pointer")) .ok

/-- `predictValues(x)`: SvmModel.cpp:170-210; reading the parameters through an uninitialised
pointer (only when there is a support vector) is undefined -/
def predictValues (m : Svm F) (x : NodeL F) : Res (List F) := do
  let kernel ← m.supportVectors.mapM (fun v => do
    let p ← m.getParam
    pure (kernelValue p x v))
  let start ← startsOf (idxR m.svCounts) m.classes
  (classPairs m.classes).foldlM (pairValue m start kernel) []

/-- loop body SvmModel.cpp:220-225; the state is `numberOfVotes` and `pos` -/
def votePair (values : List F) (st : List Nat × Nat) (p : Nat × Nat) : Res (List Nat × Nat) := do
  let v ← idxR values st.2
  let w := if Dbl.zero <. v then p.1 else p.2
  let c ← idxR st.1 w
  pure (st.1.set w (c + 1), st.2 + 1)

/-- loop body SvmModel.cpp:231-234; the state is `maxIndex` and `maxVotes` -/
def maxVote (votes : List Nat) (st : Nat × Nat) (i : Nat) : Res (Nat × Nat) := do
  let v ← idxR votes i
  pure (if v > st.2 then (i, v) else st)

/-- SvmModel.cpp:213-237: the votes, and the class with the most votes -/
def vote (d : DD) (n : Nat) (values : List F) : Res (List Nat × String) := do
  let r ← (classPairs n).foldlM (votePair values) (List.replicate n 0, 0)
  let v ← idxR r.1 0
  let best ← (List.range' 1 (n - 1)).foldlM (maxVote r.1) (0, v)
  let c ← idxR d.getItems best.1
  pure (r.1, c)

/-- `predict(instance)`: SvmModel.cpp:212-238 -/
def predict (m : Svm F) (x : Inst F) : Res String := do
  let nodes ← x.toNodeList
  let values ← m.predictValues nodes
  let r ← vote m.dist m.classes values
  pure r.2

end Svm

end Verif
