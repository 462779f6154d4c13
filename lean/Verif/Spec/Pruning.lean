import Verif.Spec.Tree

/-! # Words used in the properties of pruning -/

namespace Verif
open Dbl

variable {F : Type} [Dbl F]

/-- what a subtree answers for an instance that reaches it: its prediction; a composite instance
for which it has no prediction (`""`) gets `fb`, the answer of the nodes above -/
def Node.answer (fb : Inst F → Res String) (n : Node F) (x : Inst F) : Res String := do
  let p ← n.predict x
  if p = "" ∧ x.isComposite = true then fb x else .ok p

/-- the answer of the nodes above a child: the most frequent of the possible classes at the
parent, or what was answered above the parent -/
def fallback (d : DD) (fb : Inst F → Res String) (x : Inst F) : Res String :=
  if d.getMaxItemOf x.possibleLabels = "" then fb x else .ok (d.getMaxItemOf x.possibleLabels)

/-- does the instance fail the tests `before` and pass `c`? -/
def goesTo (before : List (Cond F)) (c : Cond F) (x : Inst F) : Bool :=
  before.all (fun b => decide (b.satisfy x = .ok false)) && decide (c.satisfy x = .ok true)

/-- the instances of `l` that go to the child with test `c` after the children with tests
`before` -/
def reaching (before : List (Cond F)) (c : Cond F) (l : IList F) : IList F :=
  l.filter (goesTo before c)

/-- `n'` is `n` pruned by itself, on the instances `l` that reach it: an inner node becomes a leaf
if as a leaf it is right on at least as many of these instances; otherwise it stays, and each
child is pruned by itself on the instances that go on to it. -/
inductive PrunedAlone : (Inst F → Res String) → IList F → Node F → Node F → Prop
  | leaf (fb : Inst F → Res String) (l : IList F) (c : Cond F) (s : String) (d : DD)
      (ch : List (Node F)) : PrunedAlone fb l (.mk c true s d ch) (.mk c true s d ch)
  | cut (fb : Inst F → Res String) (l : IList F) (c : Cond F) (s : String) (d : DD)
      (ch : List (Node F))
      (h : correctOn ((Node.mk c false s d ch).answer fb) l ≤
        correctOn ((Node.mk c true s d ch).answer fb) l) :
      PrunedAlone fb l (.mk c false s d ch) (.mk c true s d ch)
  | keep (fb : Inst F → Res String) (l : IList F) (c : Cond F) (s : String) (d : DD)
      (ch ch' : List (Node F))
      (h : correctOn ((Node.mk c true s d ch).answer fb) l <
        correctOn ((Node.mk c false s d ch).answer fb) l)
      (hlen : ch.length = ch'.length)
      (hch : ∀ (i : Nat) n n', ch[i]? = some n → ch'[i]? = some n' →
        PrunedAlone (fallback d fb) (reaching ((ch.take i).map Node.cond) n.cond l) n n') :
      PrunedAlone fb l (.mk c false s d ch) (.mk c false s d ch')

/-- what a tree answers a composite instance for which no node has a prediction: the first of
its possible classes -/
def firstPossible (x : Inst F) : Res String := atR x.possibleLabels 0

end Verif
