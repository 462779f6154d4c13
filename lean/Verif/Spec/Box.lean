import Verif.Spec.Tree

/-! # Boxes in the space of instances, and the place where a tree's path ends -/

namespace Verif
open Dbl

variable {F : Type} [Dbl F]

/-- `c` is a value of an attribute between `a` and `b`: one of the two, or a number between two numbers -/
def AttrBetween (a b c : Option (Attr F)) : Prop :=
  c = a ∨ c = b ∨ ∃ u v w : F, a = some (.continuous u) ∧ b = some (.continuous v) ∧ c = some (.continuous w) ∧
    ((u <=. w) = true ∧ (w <=. v) = true ∨ (v <=. w) = true ∧ (w <=. u) = true)

/-- `z` lies in the box with corners `x` and `y`: every attribute of `z` has a value between those of `x` and `y` -/
structure InBoxOf (x y z : Inst F) : Prop where
  attrs : ∀ i : Nat, AttrBetween x.attrs[i]? y.attrs[i]? z.attrs[i]?
  possible_left : z.possible = x.possible
  possible_right : z.possible = y.possible

/-- `EndsAt n x path m`: from node `n` and always taking the first child whose condition `x` satisfies, `x` comes to `m`,
which is a leaf or has no child for `x`; `path` lists the positions of the children taken. -/
inductive EndsAt : Node F → Inst F → List Nat → Node F → Prop
  | leaf (n : Node F) (x : Inst F) (h : n.isLeaf = true) : EndsAt n x [] n
  | stuck (n : Node F) (x : Inst F) (h : n.isLeaf = false)
      (hnone : ∀ q ∈ n.children, q.cond.satisfy x = .ok false) : EndsAt n x [] n
  | step (n : Node F) (x : Inst F) (k : Nat) (c : Node F) (path : List Nat) (m : Node F)
      (h : n.isLeaf = false) (hc : n.children[k]? = some c) (hsat : c.cond.satisfy x = .ok true)
      (hfirst : ∀ j < k, ∀ q, n.children[j]? = some q → q.cond.satisfy x = .ok false)
      (hrest : EndsAt c x path m) : EndsAt n x (k :: path) m

end Verif
