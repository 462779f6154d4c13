import Verif.Model.Stream
import Verif.Model.Svm
import Verif.Model.Parametric
import Verif.Model.Knn
import Verif.Model.DecisionTree
import Verif.Model.NeuralNetwork

/-! # Saving and loading models (`serialize`, `load`, stream constructors)

Simplification: an uninitialised number that is stored in the object counts as undefined
behaviour when it is stored. -/

namespace Verif
open Dbl

variable {F : Type} [Dbl F]

/-- `out << n << "\n"` for an integer -/
def intLine (n : Int) : List Char := line (toString n)

/-! ## Sparse vectors, support vector machine -/

/-- `Node::serialize`: Node.cpp:46-49 -/
def SNode.text (T : Txt F) (n : SNode F) : List Char := intLine n.index ++ line (T.shown n.value)

/-- `Node(ifstream&)`: Node.cpp:51-54. Simplification: a negative index is read as 0. -/
def SNode.read (T : Txt F) : Rd (SNode F) := do
  let i ← rdInt none
  let v ← rdDouble T none
  let i ← use i
  let v ← use v
  pure ⟨i.toNat, v⟩

/-- `NodeList::serialize`: NodeList.cpp:84-89 -/
def NodeL.text (T : Txt F) (l : NodeL F) : List Char :=
  intLine l.length ++ l.flatMap (SNode.text T)

/-- loop body NodeList.cpp:95-96 -/
def NodeL.readStep (T : Txt F) (l : NodeL F) : Rd (NodeL F) := do
  let n ← SNode.read T
  pure (l ++ [n])

/-- `NodeList(ifstream&)`: NodeList.cpp:91-98 -/
def NodeL.read (T : Txt F) : Rd (NodeL F) := do
  let size ← rdInt none
  let n ← use size
  rdLoop (NodeL.readStep T) n.toNat []

namespace Svm

/-- one entry of `supportVectorCoefficients`: SvmModel.cpp:258-261 -/
def coefText (T : Txt F) (c : List F) : List Char :=
  intLine c.length ++ c.flatMap (fun v => line (T.shown v))

/-- `SvmModel::serialize`: SvmModel.cpp:240-263 -/
def text (T : Txt F) (L : MathLib F) (m : Svm F) : List Char :=
  intLine m.classes ++ (intLine m.problems ++ (L.ddText m.dist ++
  (intLine m.rho.length ++ (m.rho.flatMap (fun r => line (T.shown r)) ++
  (intLine m.svCounts.length ++ (m.svCounts.flatMap (fun (s : Nat) => intLine s) ++
  (intLine m.supportVectors.length ++ (m.supportVectors.flatMap (NodeL.text T) ++
  (intLine m.coefs.length ++ m.coefs.flatMap (coefText T))))))))))

/-- loop bodies SvmModel.cpp:273-274, 289-290: the variable (`r`, `value`) and the vector -/
def readDoubleStep (T : Txt F) (s : Option F × List F) : Rd (Option F × List F) := do
  let r ← rdDouble T s.1
  let v ← use r
  pure (r, s.2 ++ [v])

/-- loop body SvmModel.cpp:278-279. Simplification: a negative count is read as 0. -/
def readCountStep (s : Option Int × List Nat) : Rd (Option Int × List Nat) := do
  let r ← rdInt s.1
  let v ← use r
  pure (r, s.2 ++ [v.toNat])

/-- loop body SvmModel.cpp:283-284 -/
def readVectorStep (T : Txt F) (l : List (NodeL F)) : Rd (List (NodeL F)) := do
  let n ← NodeL.read T
  pure (l ++ [n])

/-- loop body SvmModel.cpp:287-294: the variables `size2` and `value`, and the vectors -/
def readCoefStep (T : Txt F) (s : (Option Int × Option F) × List (List F)) :
    Rd ((Option Int × Option F) × List (List F)) := do
  let size2 ← rdInt s.1.1
  let n ← use size2
  let r ← rdLoop (readDoubleStep T) n.toNat (s.1.2, [])
  pure ((size2, r.1), s.2 ++ [r.2])

/-- `SvmModel(ifstream&)`: SvmModel.cpp:265-296; `parameter` is not set -/
def read (T : Txt F) (L : MathLib F) : Rd (Svm F) := do
  let nc ← rdInt none
  let np ← rdInt none
  let d ← L.ddRead
  let size ← rdInt none
  let n ← use size
  let rho ← rdLoop (readDoubleStep T) n.toNat (none, [])
  let size ← rdInt size
  let n ← use size
  let counts ← rdLoop readCountStep n.toNat (none, [])
  let size ← rdInt size
  let n ← use size
  let svs ← rdLoop (readVectorStep T) n.toNat []
  let size ← rdInt size
  let n ← use size
  let coefs ← rdLoop (readCoefStep T) n.toNat ((none, none), [])
  let nc ← use nc
  let np ← use np
  pure ⟨d, rho.2, counts.2, svs, coefs.2, none, nc.toNat, np.toNat⟩

end Svm

/-! ## Random and dummy classifier -/

/-- `RandomModel::serialize`: RandomModel.cpp:41-46 -/
def randomText (labels : List String) : List Char :=
  intLine labels.length ++ labels.flatMap line

/-- loop bodies RandomModel.cpp:100-101, NeuralNetworkModel.cpp:227-228: the variable
`classLabel` and the list of labels -/
def readLabelStep (s : String × List String) : Rd (String × List String) := do
  let c ← rdWord s.1
  pure (c, s.2 ++ [c])

/-- `RandomModel::load`: RandomModel.cpp:94-103 (`seed` is not used afterwards) -/
def randomRead (old : List String) : Rd (List String) := do
  let _seed ← rdInt none
  let size ← rdInt none
  let n ← use size
  let r ← rdLoop readLabelStep n.toNat ("", old)
  pure r.2

/-- `DummyModel::serialize`: DummyModel.cpp:36-38 -/
def dummyText (L : MathLib F) (d : DD) : List Char := L.ddText d

/-- `DummyModel::load`: DummyModel.cpp:83-85 -/
def dummyRead (L : MathLib F) : Rd DD := L.ddRead

/-! ## Naive Bayes, LDA, QDA -/

/-- a map from labels to vectors: NaiveBayesModel.cpp:76-79, 80-83, LdaModel.cpp:49-52 -/
def vecMapText (L : MathLib F) (m : OMap (List F)) : List Char :=
  m.flatMap (fun p => line p.1 ++ L.vecText p.2)

/-- loop bodies NaiveBayesModel.cpp:157-159, 162-164, LdaModel.cpp:132-134: the variable
`classLabel` and the map -/
def readVecStep (L : MathLib F) (s : String × OMap (List F)) : Rd (String × OMap (List F)) := do
  let c ← rdWord s.1
  let v ← L.vecRead
  pure (c, s.2.emplace c v)

namespace NaiveBayes

/-- `NaiveBayesModel::serialize`: NaiveBayesModel.cpp:74-84 -/
def text (L : MathLib F) (m : NaiveBayes F) : List Char :=
  L.ddText m.prior ++ (vecMapText L m.classMeans ++ vecMapText L m.classDeviations)

/-- `NaiveBayesModel::loadModel` on an object: NaiveBayesModel.cpp:142-148, 154-166,
GaussianModel.cpp:67-69 -/
def read (L : MathLib F) (old : NaiveBayes F) : Rd (NaiveBayes F) := do
  let d ← L.ddRead
  let r ← rdLoop (readVecStep L) d.size ("", old.classMeans)
  let s ← rdLoop (readVecStep L) d.size (r.1, old.classDeviations)
  pure ⟨d, r.2, s.2, old.classAttributeDistributions⟩

end NaiveBayes

namespace Lda

/-- `LdaModel::serialize`: LdaModel.cpp:42-53 -/
def text (T : Txt F) (L : MathLib F) (m : Lda F) : List Char :=
  L.ddText m.prior ++ (intLine m.w0.length ++
    (m.w0.flatMap (fun p => line p.1 ++ line (T.shown p.2)) ++ vecMapText L m.w))

/-- loop body LdaModel.cpp:127-129: the variables `classLabel` and `weight`, and the map -/
def readWeightStep (T : Txt F) (s : (String × Option F) × OMap F) :
    Rd ((String × Option F) × OMap F) := do
  let c ← rdWord s.1.1
  let w ← rdDouble T s.1.2
  let v ← use w
  pure ((c, w), s.2.emplace c v)

/-- `LdaModel::loadModel` on an object: LdaModel.cpp:111-117, 123-136 -/
def read (T : Txt F) (L : MathLib F) (old : Lda F) : Rd (Lda F) := do
  let d ← L.ddRead
  let r ← rdLoop (readWeightStep T) d.size (("", none), old.w0)
  let s ← rdLoop (readVecStep L) d.size (r.1.1, old.w)
  pure ⟨d, r.2, s.2⟩

end Lda

/-- `QdaModel` has no `serialize` of its own: LdaModel.cpp:42-53 -/
def Qda.text (T : Txt F) (L : MathLib F) (m : Qda F) : List Char :=
  Lda.text T L ⟨m.prior, m.w0, m.w⟩

/-- loop body QdaModel.cpp:107-109: the variable `classLabel` and the map -/
def Qda.readMatStep (K : MatLib F (Mat F)) (s : String × OMap (Mat F)) :
    Rd (String × OMap (Mat F)) := do
  let c ← rdWord s.1
  let m ← K.matRead
  pure (c, s.2.emplace c m)

/-- `QdaModel::loadModel` on an object: QdaModel.cpp:90-111 -/
def Qda.read (T : Txt F) (L : MathLib F) (K : MatLib F (Mat F)) (old : Qda F) : Rd (Qda F) := do
  let l ← Lda.read T L ⟨old.prior, old.w0, old.w⟩
  let s ← rdLoop (Qda.readMatStep K) l.prior.size ("", old.W)
  pure ⟨l.prior, l.w0, l.w, s.2⟩

/-! ## Instance lists, k-nearest neighbours -/

/-- `Instance::serialize`: Instance.cpp:210-215 -/
def Inst.fileText (T : Txt F) (x : Inst F) : List Char :=
  x.attrs.flatMap (fun a => (a.toStr T.toStr).toList ++ [' ']) ++ line x.label

/-- the words InstanceList.cpp:571-583 -/
def Attr.typeText (a : Attr F) : List Char :=
  if a.isDiscrete then "Discrete ".toList
  else if a.isContinuous then "Continuous ".toList
  else if a.isBinary then "Binary ".toList
  else []

/-- `InstanceList::serialize`: InstanceList.cpp:568-589 -/
def IList.fileText (T : Txt F) (l : IList F) : Res (List Char) := do
  let first ← atR l 0
  pure (intLine first.attrs.length ++ (first.attrs.flatMap Attr.typeText ++ ('\n' ::
    (intLine l.length ++ l.flatMap (Inst.fileText T)))))

/-- loop body InstanceList.cpp:608-616 -/
def readAttr (T : Txt F) (values : List String) (as : List (Attr F)) (p : String × Nat) :
    Res (List (Attr F)) :=
  if p.1 = "DISCRETE" then do
    let v ← idxR values p.2
    pure (as ++ [.discrete v])
  else if p.1 = "CONTINUOUS" then do
    let v ← idxR values p.2
    let f ← T.stof v
    pure (as ++ [.continuous f])
  else pure as

/-- loop body InstanceList.cpp:605-619: the variable `line` and the list; `split` is
`StringUtils::split(line, ",")` -/
def readInstStep (T : Txt F) (split : String → List String) (types : List String)
    (s : String × IList F) : Rd (String × IList F) := do
  let ln ← rdLine s.1
  let values := split ln
  let as ← (types.zipIdx.foldlM (readAttr T values) [] : Res _)
  let label ← (idxR values types.length : Res _)
  pure (ln, s.2 ++ [⟨label, as, none⟩])

/-- `InstanceList(ifstream&)`: InstanceList.cpp:595-621; `words` is `StringUtils::split(line)` -/
def IList.fileRead (T : Txt F) (words split : String → List String) : Rd (IList F) := do
  rdIgnore
  let ln ← rdLine ""
  let types := words ln
  let size ← rdInt none
  rdIgnore
  let n ← use size
  let r ← rdLoop (readInstStep T split types) n.toNat (ln, [])
  pure r.2

namespace Knn

/-- `KnnModel::serialize`: KnnModel.cpp:76-79 -/
def text (T : Txt F) (m : Knn F) : Res (List Char) := do
  let t ← m.data.fileText T
  pure (intLine m.k ++ t)

/-- `KnnModel::load`: KnnModel.cpp:127-131 -/
def read (T : Txt F) (words split : String → List String) : Rd (Knn F) := do
  let k ← rdInt none
  let data ← IList.fileRead T words split
  let k ← use k
  pure ⟨data, k, euclidean⟩

end Knn

namespace KMeans

/-- the mean of a class as an instance; a null attribute is undefined behaviour -/
def meanInst (p : MeanInst F) : Res (Inst F) := do
  let as ← nonNull p.2
  pure ⟨p.1, as, none⟩

/-- `KMeansModel::serialize`: KMeansModel.cpp:34-37, GaussianModel.cpp:51-53 -/
def text (T : Txt F) (L : MathLib F) (m : KMeans F) : Res (List Char) := do
  let ms ← m.classMeans.mapM meanInst
  let t ← IList.fileText T ms
  pure (L.ddText m.prior ++ t)

/-- `KMeansModel::loadModel`: KMeansModel.cpp:67-82, GaussianModel.cpp:67-69 -/
def read (T : Txt F) (L : MathLib F) (words split : String → List String) : Rd (KMeans F) := do
  let d ← L.ddRead
  let ms ← IList.fileRead T words split
  pure ⟨d, ms.map (fun x => (x.label, x.attrs.map some)), euclidean⟩

end KMeans

/-! ## Decision trees -/

/-- `DecisionCondition::serialize`: DecisionCondition.cpp:94-107; dereferencing an unset
`value` is undefined -/
def Cond.text (T : Txt F) (c : Cond F) : Res (List Char) :=
  if c.attr = -1 then pure (intLine c.attr)
  else match c.value with
    | none => .error (.ub "null pointer")
    | some v => pure (intLine c.attr ++ (c.cmp :: '\n' ::
        ((if v.isDiscrete then line "Discrete"
          else if v.isContinuous then line "Continuous" else []) ++ line (v.toStr T.toStr))))

mutual
/-- `DecisionNode::serialize`: DecisionNode.cpp:295-305 -/
def Node.text (T : Txt F) : Node F → Res (List Char)
  | .mk c _ lab _ ch => do
    let t ← c.text T
    let s ← Node.textAll T ch
    pure (t ++ (intLine ch.length ++ (if ch.isEmpty then line lab else s)))
/-- the loop DecisionNode.cpp:299-301 -/
def Node.textAll (T : Txt F) : List (Node F) → Res (List Char)
  | [] => pure []
  | n :: ns => do
    let t ← Node.text T n
    let s ← Node.textAll T ns
    pure (t ++ s)
end

/-- the value of the condition: DecisionCondition.cpp:119-130 -/
def Cond.readValue (T : Txt F) (cmp : Option Char) (type : String) : Rd (Char × Attr F) := do
  let c ← use cmp
  if c = '=' then pure ('=', .discrete type)
  else if c = ':' then do
    let mx ← rdInt none
    let i ← (T.stoi type : Res _)
    let mx ← use mx
    pure ('=', .indexed "" i mx)
  else do
    let f ← (T.stof type : Res _)
    pure (c, .continuous f)

/-- `DecisionCondition(ifstream&)`: DecisionCondition.cpp:113-132; `attributeIndex` is -1
before (DecisionCondition.h:12). (An uninitialised
`comparison` of a condition that is never tested is read as '='.) -/
def Cond.read (T : Txt F) : Rd (Cond F) := do
  let i ← rdInt (some (-1))
  let cmp ← rdChar none
  let type ← rdWord ""
  let i ← use i
  if i = -1 then pure ⟨i, cmp.getD '=', none⟩
  else do
    let r ← Cond.readValue T cmp type
    pure ⟨i, r.1, some r.2⟩

/-- `DecisionNode(ifstream&)`: DecisionNode.cpp:311-326. The recursion has fuel; running out
of it is the outcome `throw "fuel"`. -/
def Node.read (T : Txt F) (L : MathLib F) : Nat → Rd (Node F)
  | 0 => throw (.throw "fuel")
  | fuel + 1 => do
    let c ← Cond.read T
    let size ← rdInt none
    let n ← use size
    if n = 0 then do
      let lab ← rdWord ""
      let d ← L.ddRead
      pure (.mk c true lab d [])
    else do
      let ch ← rdLoop (fun (ch : List (Node F)) => do
        let t ← Node.read T L fuel
        pure (ch ++ [t])) n.toNat []
      pure (.mk c false "" DD.empty ch)

/-- `DecisionTree::loadModel` / `DecisionTree(ifstream&)`: DecisionTree.cpp:83-85, 118-123 -/
def treeRead (T : Txt F) (L : MathLib F) : Rd (Node F) := fun i =>
  Node.read T L (i.rest.length + 1) i

/-- `TreeEnsembleModel::serialize`: TreeEnsembleModel.cpp:33-38 -/
def ensembleText (T : Txt F) (forest : List (Node F)) : Res (List Char) := do
  let t ← Node.textAll T forest
  pure (intLine forest.length ++ t)

/-- loop body TreeEnsembleModel.cpp:65-66 -/
def ensembleReadStep (T : Txt F) (L : MathLib F) (forest : List (Node F)) :
    Rd (List (Node F)) := do
  let t ← treeRead T L
  pure (forest ++ [t])

/-- `TreeEnsembleModel::load`: TreeEnsembleModel.cpp:61-68 -/
def ensembleRead (T : Txt F) (L : MathLib F) (old : List (Node F)) : Rd (List (Node F)) := do
  let size ← rdInt none
  let n ← use size
  rdLoop (ensembleReadStep T L) n.toNat old

/-! ## Neural networks -/

/-- `NeuralNetworkModel::serialize`, not overridden by the perceptrons, the deep network and the
auto encoder: NeuralNetworkModel.cpp:168-174 -/
def Net.text {W : Type} (n : Net W) : List Char :=
  intLine n.labels.length ++ (intLine n.d ++ n.labels.flatMap line)

/-- `NeuralNetworkModel::load`: NeuralNetworkModel.cpp:222-230; the labels and `d` -/
def netRead (old : List String) : Rd (List String × Int) := do
  let K ← rdInt none
  let d ← rdInt none
  let n ← use K
  let r ← rdLoop readLabelStep n.toNat ("", old)
  let d ← use d
  pure (r.2, d)

/-- `LinearPerceptronModel::loadModel` on an object with the given labels:
LinearPerceptronModel.cpp:79-94. Simplification: a negative `d` is read as 0. -/
def percRead (K : MatLib F (Mat F)) (old : List String) : Rd (Net (Mat F)) := do
  let n ← netRead old
  let W ← K.matRead
  pure ⟨n.1, n.2.toNat, W⟩

/-- `getActivationFunction`: NeuralNetworkModel.cpp:204-216 -/
def activationRead : Rd Activation := do
  let s ← rdWord ""
  if s = "TANH" then pure .tanh
  else if s = "RELU" then pure .relu
  else pure .sigmoid

/-- `MultiLayerPerceptronModel::loadModel`: MultiLayerPerceptronModel.cpp:121-133 -/
def mlpRead (K : MatLib F (Mat F)) (old : List String) : Rd (Net (Two F) × Activation) := do
  let n ← percRead K old
  let V ← K.matRead
  let a ← activationRead
  pure (⟨n.labels, n.d, ⟨n.weights, V⟩⟩, a)

/-- loop body DeepNetworkModel.cpp:171 -/
def deepReadStep (K : MatLib F (Mat F)) (ws : List (Mat F)) : Rd (List (Mat F)) := do
  let W ← K.matRead
  pure (ws ++ [W])

/-- `DeepNetworkModel::loadModel` on an object: DeepNetworkModel.cpp:168-186 -/
def deepRead (K : MatLib F (Mat F)) (old : Net (List (Mat F))) :
    Rd (Net (List (Mat F)) × Activation) := do
  let n ← netRead old.labels
  let h ← rdInt none
  let h ← use h
  let ws ← rdLoop (deepReadStep K) (h + 1).toNat old.weights
  let a ← activationRead
  pure (⟨n.1, n.2.toNat, ws⟩, a)

end Verif
