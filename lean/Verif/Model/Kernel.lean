import Verif.Model.Instance

/-! # Sparse vectors and kernels (`src/Model/Svm/Node`, `NodeList`, `Kernel`, `Problem`, `QMatrix`) -/

namespace Verif
open Dbl

variable {F : Type} [Dbl F]

/-- `Node`: Node.h, Node.cpp:14-17 -/
structure SNode (F : Type) where
  index : Nat
  value : F
deriving DecidableEq, Repr

/-- `NodeList`: the member `nodes` -/
abbrev NodeL (F : Type) := List (SNode F)

/-- loop NodeList.cpp:14-18, the first element having position `i` -/
def nodesFrom (i : Nat) : List F → NodeL F
  | [] => []
  | a :: v => if (a ==. Dbl.zero) = false then ⟨i, a⟩ :: nodesFrom (i + 1) v else nodesFrom (i + 1) v

/-- `NodeList(values)`: NodeList.cpp:13-19 -/
def nodeList (v : List F) : NodeL F := nodesFrom 0 v

/-- loop NodeList.cpp:49-61; the lists are the parts not yet passed by `px` and `py` -/
def dotLoop (sum : F) : NodeL F → NodeL F → F
  | [], _ => sum
  | _ :: _, [] => sum
  | a :: x, b :: y =>
    if a.index = b.index then dotLoop (sum +. (a.value *. b.value)) x y
    else if a.index > b.index then dotLoop sum (a :: x) y
    else dotLoop sum x (b :: y)
termination_by x y => x.length + y.length

/-- `NodeList::dot`: NodeList.cpp:46-63 -/
def nodeDot (x y : NodeL F) : F := dotLoop Dbl.zero x y

/-- `Instance::toNodeList()`: Instance.cpp:202-204 -/
def Inst.toNodeList (x : Inst F) : Res (NodeL F) := do
  let v ← x.continuousAttributes
  pure (nodeList v)

/-- `KernelType`: KernelType.h -/
inductive KernelType where
  | linear
  | polynom
  | rbf
  | sigmoid
deriving DecidableEq, Repr

/-- `SvmParameter`: SvmParameter.h, SvmParameter.cpp:18-24; `shrinking` is `true` and has no setter
(SvmParameter.h:17), it is a parameter of the model -/
structure SvmParam (F : Type) where
  kernelType : KernelType
  degree : Int
  gamma : F
  coefficient0 : F
  C : F
  shrinking : Bool
deriving DecidableEq, Repr

/-- `Kernel`: Kernel.h:15-21 -/
structure Kern (F : Type) where
  x : List (NodeL F)
  xSquare : List F
  kernelType : KernelType
  degree : Int
  gamma : F
  coefficient0 : F
deriving DecidableEq, Repr

/-- `swap(v[i], v[j])` -/
def swapR {α : Type} (v : List α) (i j : Nat) : Res (List α) := do
  let a ← idxR v i
  let b ← idxR v j
  pure ((v.set i b).set j a)

namespace Kern

/-- constructor: Kernel.cpp:17-32 -/
def make (l : Nat) (x : List (NodeL F)) (p : SvmParam F) : Res (Kern F) := do
  let copies ← (List.range l).mapM (idxR x)
  let squares ← if p.kernelType = .rbf then copies.mapM (fun n => pure (nodeDot n n)) else pure []
  pure ⟨copies, squares, p.kernelType, p.degree, p.gamma, p.coefficient0⟩

/-- `swapIndex`: Kernel.cpp:40-51 -/
def swapIndex (k : Kern F) (i j : Nat) : Res (Kern F) := do
  let x ← swapR k.x i j
  let q ← if k.xSquare.isEmpty then pure k.xSquare else swapR k.xSquare i j
  pure { k with x := x, xSquare := q }

/-- the expression of Kernel.cpp:61, 72, 83, 94 for two rows and their cached squares -/
def value (t : KernelType) (degree : Int) (gamma coefficient0 dot sxi sxj : F) : F :=
  match t with
  | .linear => dot
  | .polynom => Dbl.pow ((gamma *. dot) +. coefficient0) degree
  | .rbf => Dbl.exp (Dbl.neg gamma *. ((sxi +. sxj) -. (Dbl.ofInt 2 *. dot)))
  | .sigmoid => Dbl.tanh ((gamma *. dot) +. coefficient0)

/-- `function(i, j)`: Kernel.cpp:60-117 (the cached squares are read for the RBF kernel only) -/
def function (k : Kern F) (i j : Nat) : Res F := do
  let a ← idxR k.x i
  let b ← idxR k.x j
  if k.kernelType = .rbf then do
    let s ← idxR k.xSquare i
    let t ← idxR k.xSquare j
    pure (value k.kernelType k.degree k.gamma k.coefficient0 (nodeDot a b) s t)
  else
    pure (value k.kernelType k.degree k.gamma k.coefficient0 (nodeDot a b) Dbl.zero Dbl.zero)

end Kern

/-- loops Kernel.cpp:155-162 -/
def restSquares (sum : F) : NodeL F → F
  | [] => sum
  | a :: x => restSquares (sum +. (a.value *. a.value)) x

/-- loops Kernel.cpp:139-162; the lists are the parts not yet passed by `px` and `py` -/
def distLoop (sum : F) : NodeL F → NodeL F → F
  | [], y => restSquares sum y
  | a :: x, [] => restSquares sum (a :: x)
  | a :: x, b :: y =>
    if a.index = b.index then
      distLoop (sum +. ((a.value -. b.value) *. (a.value -. b.value))) x y
    else if a.index > b.index then distLoop (sum +. (b.value *. b.value)) (a :: x) y
    else distLoop (sum +. (a.value *. a.value)) x (b :: y)
termination_by x y => x.length + y.length

/-- static `Kernel::function(x, y, parameter)`: Kernel.cpp:130-168 -/
def kernelValue (p : SvmParam F) (x y : NodeL F) : F :=
  match p.kernelType with
  | .linear => nodeDot x y
  | .polynom => Dbl.pow ((p.gamma *. nodeDot x y) +. p.coefficient0) p.degree
  | .rbf => Dbl.exp (Dbl.neg p.gamma *. distLoop Dbl.zero x y)
  | .sigmoid => Dbl.tanh ((p.gamma *. nodeDot x y) +. p.coefficient0)

/-- `QMatrix`: QMatrix.h:13-14 -/
structure QMat (F : Type) where
  kernel : Kern F
  y : List F
deriving DecidableEq, Repr

namespace QMat

/-- constructor: QMatrix.cpp:14-20 (`l` and `x` are those of the problem) -/
def make (l : Nat) (x : List (NodeL F)) (p : SvmParam F) (y : List F) : Res (QMat F) := do
  let k ← Kern.make l x p
  let c ← (List.range l).mapM (idxR y)
  pure ⟨k, c⟩

/-- loop body QMatrix.cpp:33 -/
def entry (q : QMat F) (i j : Nat) : Res F := do
  let a ← idxR q.y i
  let b ← idxR q.y j
  let v ← q.kernel.function i j
  pure ((a *. b) *. v)

/-- `getQ(i, length)`: QMatrix.cpp:29-36 -/
def getQ (q : QMat F) (i length : Nat) : Res (List F) := (List.range length).mapM (q.entry i)

/-- `swapIndex`: QMatrix.cpp:44-49 -/
def swapIndex (q : QMat F) (i j : Nat) : Res (QMat F) := do
  let k ← q.kernel.swapIndex i j
  let y ← swapR q.y i j
  pure ⟨k, y⟩

end QMat

end Verif
