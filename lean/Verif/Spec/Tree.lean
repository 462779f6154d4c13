import Verif.Model.DecisionTree
import Verif.Model.DblReal

/-! # Specification vocabulary for decision trees -/

namespace Verif
open Dbl

variable {F : Type} [Dbl F]

/-- value of a continuous attribute -/
def contValAt (x : Inst F) (i : Nat) : F :=
  match x.attrs[i]? with
  | some (.continuous v) => v
  | _ => Dbl.zero

/-- value of a plain discrete attribute -/
def discValAt (x : Inst F) (i : Nat) : String :=
  match x.attrs[i]? with
  | some (.discrete v) => v
  | _ => ""

/-- index of an indexed attribute -/
def idxValAt (x : Inst F) (i : Nat) : Int :=
  match x.attrs[i]? with
  | some (.indexed _ k _) => k
  | _ => 0

/-- `Reaches n x path leaf`: starting at node `n` and always following the first child whose
condition `x` satisfies, `x` arrives at the leaf `leaf`; `path` lists the positions of the
children taken. -/
inductive Reaches : Node F → Inst F → List Nat → Node F → Prop
  | here (n : Node F) (x : Inst F) (h : n.isLeaf = true) : Reaches n x [] n
  | step (n : Node F) (x : Inst F) (k : Nat) (c : Node F) (path : List Nat) (leaf : Node F)
      (h : n.isLeaf = false) (hc : n.children[k]? = some c) (hsat : c.cond.satisfy x = .ok true)
      (hfirst : ∀ j < k, ∀ q, n.children[j]? = some q → q.cond.satisfy x = .ok false)
      (hrest : Reaches c x path leaf) : Reaches n x (k :: path) leaf

/-- `Follows n x path m`: starting at node `n` and always taking the first child whose condition
`x` satisfies, `x` comes to node `m` after the steps `path`; leaves have no way on. -/
inductive Follows : Node F → Inst F → List Nat → Node F → Prop
  | here (n : Node F) (x : Inst F) : Follows n x [] n
  | step (n : Node F) (x : Inst F) (k : Nat) (c : Node F) (path : List Nat) (m : Node F)
      (h : n.isLeaf = false) (hc : n.children[k]? = some c) (hsat : c.cond.satisfy x = .ok true)
      (hfirst : ∀ j < k, ∀ q, n.children[j]? = some q → q.cond.satisfy x = .ok false)
      (hrest : Follows c x path m) : Follows n x (k :: path) m

/-- `StopsAt n x path m`: the way of `x` ends at `m`, which is a leaf or has no child whose
condition `x` satisfies (for instance because of a value that was not in the training data) -/
def StopsAt (n : Node F) (x : Inst F) (path : List Nat) (m : Node F) : Prop :=
  Follows n x path m ∧ (m.isLeaf = true ∨ ∀ c ∈ m.children, c.cond.satisfy x = .ok false)

open Classical in
/-- the instances of `data` whose way through `n` begins with `path` -/
noncomputable def passing (n : Node F) (data : IList F) (path : List Nat) : IList F :=
  data.filter (fun y => decide (∃ m, Follows n y path m))

/-- `PrunedFrom n n'`: `n'` is `n` with some inner nodes marked as leaves, and otherwise the same
conditions, labels, distributions and children. -/
inductive PrunedFrom : Node F → Node F → Prop
  | same (n : Node F) : PrunedFrom n n
  | cut (c : Cond F) (s : String) (d : DD) (ch : List (Node F)) :
      PrunedFrom (.mk c false s d ch) (.mk c true s d ch)
  | inner (c : Cond F) (s : String) (d : DD) (ch ch' : List (Node F))
      (h : ch.length = ch'.length)
      (hch : ∀ (i : Nat) n n', ch[i]? = some n → ch'[i]? = some n' → PrunedFrom n n') :
      PrunedFrom (.mk c false s d ch) (.mk c false s d ch')

/-- `CutOnce n n'`: exactly one inner node of `n` is marked as a leaf in `n'`. -/
inductive CutOnce : Node F → Node F → Prop
  | here (c : Cond F) (s : String) (d : DD) (ch : List (Node F)) :
      CutOnce (.mk c false s d ch) (.mk c true s d ch)
  | child (c : Cond F) (s : String) (d : DD) (l r : List (Node F)) (n n' : Node F)
      (h : CutOnce n n') : CutOnce (.mk c false s d (l ++ n :: r)) (.mk c false s d (l ++ n' :: r))

mutual
/-- number of nodes of a tree -/
def Node.countNodes : Node F → Nat
  | .mk _ _ _ _ ch => 1 + Node.countNodesIn ch
/-- total number of nodes of some trees -/
def Node.countNodesIn : List (Node F) → Nat
  | [] => 0
  | n :: l => n.countNodes + Node.countNodesIn l
end

mutual
/-- number of leaves of a tree -/
def Node.countLeaves : Node F → Nat
  | .mk _ leaf _ _ ch => if leaf then 1 else Node.countLeavesIn ch
/-- total number of leaves of some trees -/
def Node.countLeavesIn : List (Node F) → Nat
  | [] => 0
  | n :: l => n.countLeaves + Node.countLeavesIn l
end

/-- the two instances have the same value at attribute `i` -/
def SameAt (i : Nat) (x y : Inst F) : Prop :=
  contValAt x i = contValAt y i ∧ discValAt x i = discValAt y i ∧ idxValAt x i = idxValAt y i

/-- number of instances of `l` for which `f` predicts their label -/
def correctOn (f : Inst F → Res String) (l : IList F) : Nat :=
  l.countP (fun x => decide (f x = .ok x.label))

/-- `p` lists exactly the labels of the instances `l`, each with its share; the shares sum to 1 -/
structure ClassShares (p : OMap ℝ) (l : IList ℝ) : Prop where
  mem : ∀ a q, (a, q) ∈ p ↔ a ∈ l.map Inst.label ∧ q = ((l.map Inst.label).count a : ℝ) / l.length
  sum : (p.map Prod.snd).sum = 1

/-- all instances declare the same number of values for an indexed attribute -/
def SameValueCounts (l : IList F) : Prop :=
  ∀ x ∈ l, ∀ y ∈ l, ∀ (i : Nat) v k m v' k' m', x.attrs[i]? = some (.indexed v k m) →
    y.attrs[i]? = some (.indexed v' k' m') → m = m'

end Verif
