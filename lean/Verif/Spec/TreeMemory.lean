import Verif.Model.TreeMemory
import Verif.Spec.Tree

/-! # Specification: a tree in memory -/

namespace Verif

variable {F : Type} [Dbl F]

/-- the pointer `q` leads to the value `v` -/
def ValueAt (m : TMem F) (q : Option Nat) (v : Option (Attr F)) : Prop :=
  match q, v with
  | none, none => True
  | some q, some a => m.vals[q]? = some (some a)
  | _, _ => False

mutual
/-- the object at address `p` and the objects it leads to form the tree `n`; `fp` lists the
addresses of the node objects in use -/
def Occupies (m : TMem F) (p : Nat) : Node F → List Nat → Prop
  | .mk c leaf label dist ch, fp => ∃ q ps fps,
      m.nodes[p]? = some (some ⟨c.attr, c.cmp, q, leaf, label, dist, ps⟩) ∧
      ValueAt m q c.value ∧ OccupiesAll m ps ch fps ∧ fp = p :: fps
/-- the same for a list of trees -/
def OccupiesAll (m : TMem F) : List Nat → List (Node F) → List Nat → Prop
  | [], [], fps => fps = []
  | p :: ps, n :: ns, fps => ∃ f g, Occupies m p n f ∧ OccupiesAll m ps ns g ∧ fps = f ++ g
  | [], _ :: _, _ => False
  | _ :: _, [], _ => False
end

/-- a tree in memory that shares no object with itself -/
def TreeAt (m : TMem F) (p : Nat) (n : Node F) (fp : List Nat) : Prop := Occupies m p n fp ∧ fp.Nodup

/-- the memories differ at most in the node objects listed -/
def SameOutside (m m' : TMem F) (fp : List Nat) : Prop :=
  m'.vals = m.vals ∧ m'.nodes.length = m.nodes.length ∧ ∀ q, q ∉ fp → m'.nodes[q]? = m.nodes[q]?

/-- `m'` has the objects of `m` and possibly new ones -/
def Extends (m m' : TMem F) : Prop := m.nodes <+: m'.nodes ∧ m.vals <+: m'.vals

/-- number of node objects in use -/
def nodesInUse (m : TMem F) : Nat := m.nodes.countP Option.isSome
/-- number of value objects in use -/
def valuesInUse (m : TMem F) : Nat := m.vals.countP Option.isSome

mutual
/-- number of nodes of a tree whose condition compares with a value -/
def conditionValues : Node F → Nat
  | .mk c _ _ _ ch => (if c.value.isSome then 1 else 0) + conditionValuesIn ch
/-- the same for a list of trees -/
def conditionValuesIn : List (Node F) → Nat
  | [] => 0
  | n :: ns => conditionValues n + conditionValuesIn ns
end

/-- trees in memory, no two sharing a node object -/
def ForestAt (m : TMem F) (roots : List Nat) (trees : List (Node F)) (fps : List Nat) : Prop :=
  OccupiesAll m roots trees fps ∧ fps.Nodup

/-- every node object in `fp` has been deleted -/
def Released (m : TMem F) (fp : List Nat) : Prop := ∀ q ∈ fp, m.nodes[q]? = some none

end Verif
