import Verif.Spec.Stream
import Verif.Spec.DataSet
import Verif.Model.Matrix
import Verif.Model.NeuralNetwork
import Verif.Model.Parametric

/-! # The file formats that the loaders of the other models understand -/

namespace Verif
open Dbl

variable {F : Type} [Dbl F]

/-- two matrices with the same entries -/
structure Mat.Same (m m' : Mat F) : Prop where
  rows : m'.rows = m.rows
  cols : m'.cols = m.cols
  entries : ∀ i j, i < m.rows → j < m.cols → m'.e i j = m.e i j

/-- all entries survive printing -/
def Mat.Survives (T : Txt F) (m : Mat F) : Prop :=
  ∀ i j, i < m.rows → j < m.cols → Verif.Survives T (m.e i j)

/-- contract of the Math library: a matrix is read back with the same entries (`copy m` is the
matrix read for `m`) -/
structure MatOk (T : Txt F) (K : MatLib F (Mat F)) (copy : Mat F → Mat F) : Prop where
  same : ∀ m : Mat F, m.Same (copy m)
  mat : ∀ m : Mat F, m.Survives T → Restores K.matRead (K.matText m) (copy m)

/-- the number of classes, the number of inputs and the classes of a network -/
def netFile (labels : List String) (d : Nat) : List Char :=
  line (toString labels.length) ++ (line (toString d) ++ labels.flatMap line)

/-- the name of an activation function -/
def Activation.name : Activation → String
  | .sigmoid => "SIGMOID"
  | .tanh => "TANH"
  | .relu => "RELU"

/-- linear perceptron: the network, then the weights -/
def percFile (K : MatLib F (Mat F)) (n : Net (Mat F)) : List Char :=
  netFile n.labels n.d ++ K.matText n.weights

/-- multi-layer perceptron: the network, the two matrices, the activation function -/
def mlpFile (K : MatLib F (Mat F)) (n : Net (Two F)) (a : Activation) : List Char :=
  netFile n.labels n.d ++ (K.matText n.weights.W ++ (K.matText n.weights.V ++ line a.name))

/-- deep network: the network, the number of hidden layers, the matrices, the activation
function -/
def deepFile (K : MatLib F (Mat F)) (n : Net (List (Mat F))) (a : Activation) : List Char :=
  netFile n.labels n.d ++ (line (toString ((n.weights.length : Int) - 1)) ++
    (n.weights.flatMap K.matText ++ line a.name))

/-- random classifier: a seed, the number of classes, the classes -/
def randomFile (seed : Int) (labels : List String) : List Char :=
  line (toString seed) ++ (line (toString labels.length) ++ labels.flatMap line)

/-- linear discriminant: the class distribution, a number and a vector for every class -/
def ldaFile (T : Txt F) (L : MathLib F) (m : Lda F) : List Char :=
  L.ddText m.prior ++ (m.w0.flatMap (fun p => line p.1 ++ line (T.shown p.2)) ++
    m.w.flatMap (fun p => line p.1 ++ L.vecText p.2))

/-- quadratic discriminant: the same, then a matrix for every class -/
def qdaFile (T : Txt F) (L : MathLib F) (K : MatLib F (Mat F)) (m : Qda F) : List Char :=
  ldaFile T L ⟨m.prior, m.w0, m.w⟩ ++ m.W.flatMap (fun p => line p.1 ++ K.matText p.2)

/-- the model has a number and a vector for every class of its distribution; they survive
printing -/
structure Lda.Writable (T : Txt F) (m : Lda F) : Prop where
  prior : m.prior.Proper
  labels : ∀ k ∈ m.prior.getItems, Word k
  w0Keys : m.w0.map Prod.fst = m.prior.getItems
  wKeys : m.w.map Prod.fst = m.prior.getItems
  w0 : ∀ p ∈ m.w0, Survives T p.2
  w : ∀ p ∈ m.w, ∀ x ∈ p.2, Survives T x

/-- the same with a matrix for every class -/
structure Qda.Writable (T : Txt F) (m : Qda F) : Prop where
  lda : Lda.Writable T ⟨m.prior, m.w0, m.w⟩
  WKeys : m.W.map Prod.fst = m.prior.getItems
  W : ∀ p ∈ m.W, p.2.Survives T

/-! ## instance lists -/

/-- the word for an attribute type -/
def typeWord : Attr F → String
  | .discrete _ => "DISCRETE"
  | .continuous _ => "CONTINUOUS"
  | .indexed _ _ _ => "?"
  | .binary _ => "?"

/-- the cell for an attribute value -/
def cellOf (T : Txt F) : Attr F → String
  | .discrete v => v
  | .continuous v => T.toStr v
  | .indexed v _ _ => v
  | .binary v => v

/-- a row: the values and the class, separated by commas -/
def rowFile (T : Txt F) (x : Inst F) : List Char :=
  line (joinWith "," (x.attrs.map (cellOf T) ++ [x.label]))

/-- instance list: the types separated by blanks, the number of rows, the rows -/
def listFile (T : Txt F) (types : List String) (l : IList F) : List Char :=
  line (joinWith " " types) ++ (line (toString l.length) ++ l.flatMap (rowFile T))

/-- the instance can be written as a row of these types: a discrete value is a cell, a number is
understood by `stof` -/
structure Inst.RowOk (T : Txt F) (types : List String) (x : Inst F) : Prop where
  types : x.attrs.map typeWord = types
  plain : x.possible = none
  label : CellText x.label
  cells : ∀ a ∈ x.attrs, CellText (cellOf T a)
  kinds : ∀ a ∈ x.attrs, (∃ v, a = .discrete v) ∨
    ∃ v, a = .continuous v ∧ T.stof (T.toStr v) = .ok v

/-- what the library's `split(line)` is relied on to do -/
def SplitsWords (words : String → List String) : Prop :=
  ∀ ws : List String, ws ≠ [] → (∀ w ∈ ws, Word w) → words (joinWith " " ws) = ws

end Verif
