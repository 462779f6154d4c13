import Verif.Model.Deps
import Verif.Model.Instance
import Mathlib.Data.List.Perm.Basic

/-!
# Small specifications used in the property theorems

Nothing here refers to how the modelled functions compute; these are the words of the
English properties.
-/

namespace Verif

/-- `d` lists every element of `l` exactly once, nothing else, in order of first occurrence. -/
structure IsFirstOccurrences {α : Type} [DecidableEq α] (l d : List α) : Prop where
  nodup : d.Nodup
  mem_iff : ∀ x, x ∈ d ↔ x ∈ l
  order : d.Pairwise (fun a b => l.idxOf a < l.idxOf b)

/-- `r` occurs in `l` with maximal multiplicity and is the smallest such element. -/
structure IsMajority (l : List String) (r : String) : Prop where
  mem : r ∈ l
  max : ∀ s, l.count s ≤ l.count r
  tie : ∀ s ∈ l, l.count s = l.count r → r ≤ s

/-- The distribution `d` counts exactly the items of the multiset `l`. -/
structure Counts (d : DD) (l : List String) : Prop where
  count : ∀ k, d.getCount k = l.count k
  sum : d.getSum = l.length
  mem_items : ∀ k, k ∈ d.getItems ↔ k ∈ l
  sorted : d.getItems.Pairwise (· < ·)

/-- Attribute `i` of `x` is discrete-valued (plain, binary or indexed) with value `v`. -/
def DiscAt {F : Type} (x : Inst F) (i : Nat) (v : String) : Prop :=
  x.attrs[i]? = some (.discrete v) ∨ x.attrs[i]? = some (.binary v) ∨
    ∃ k m, x.attrs[i]? = some (.indexed v k m)

/-- Attribute `i` of `x` is continuous with value `v`. -/
def ContAt {F : Type} (x : Inst F) (i : Nat) (v : F) : Prop :=
  x.attrs[i]? = some (.continuous v)

/-- Attribute `i` of `x` is indexed with index `k`. -/
def IndexAt {F : Type} (x : Inst F) (i : Nat) (k : Int) : Prop :=
  ∃ v m, x.attrs[i]? = some (.indexed v k m)

/-- `σ` is what a uniform random permutation generator can return for `n` elements. -/
def IsPermutation (σ : List Nat) (n : Nat) : Prop := σ.Perm (List.range n)

/-- `s` is the result of stably sorting `l` by the relation "`key` not greater":
a rearrangement of `l`, ascending, equal keys in original order. -/
structure IsStableSort {α β : Type} (le : β → β → Prop) (key : α → β)
    (l s : List α) : Prop where
  perm : s.Perm l
  sorted : s.Pairwise (fun a b => le (key a) (key b))
  stable : ∀ (p : α → Bool), (∀ a ∈ l, ∀ b ∈ l, p a = true → p b = true → le (key a) (key b)) →
    s.filter p = l.filter p

end Verif
