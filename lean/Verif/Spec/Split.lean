import Verif.Spec.Basic
import Verif.Spec.Tree
import Verif.Spec.DataSet
import Verif.Spec.Entropy
import Verif.Model.DblReal

/-! # The splits a decision node chooses from, and their entropies -/

namespace Verif

/-- Entropy of the class labels that remains when the key of an instance is known: the average
of the entropies of the groups with equal key, weighted by group size. -/
noncomputable def condEntropy {κ : Type} [DecidableEq κ] (data : IList ℝ) (key : Inst ℝ → κ) : ℝ :=
  ∑ a ∈ (data.map key).toFinset, ((data.filter (fun x => key x = a)).length : ℝ) / data.length *
    shannon ((data.filter (fun x => key x = a)).map Inst.label)

/-- a split: by all values of a discrete attribute, by one index against the rest, by a threshold -/
inductive Split where
  | discrete (i : Nat)
  | indexed (i : Nat) (k : Int)
  | threshold (i : Nat) (t : ℝ)

namespace Split

/-- the attribute -/
def attr : Split → Nat
  | discrete i => i
  | indexed i _ => i
  | threshold i _ => i

open Classical in
/-- entropy remaining after the split -/
noncomputable def entropy (data : IList ℝ) : Split → ℝ
  | discrete i => condEntropy data (fun x => discValAt x i)
  | indexed i k => condEntropy data (fun x => decide (idxValAt x i = k))
  | threshold i t => condEntropy data (fun x => decide (contValAt x i ≤ t))

/-- The splits a node with data `data` of types `ts` may choose: on a discrete attribute, on an
index that occurs, on the middle of two neighbouring values of a continuous attribute. -/
def Candidate (ts : List AttrType) (data : IList ℝ) : Split → Prop
  | discrete i => ts[i]? = some .discrete
  | indexed i k => ts[i]? = some .discreteIndexed ∧ 0 ≤ k ∧ ∃ x ∈ data, idxValAt x i = k
  | threshold i t => ts[i]? = some .continuous ∧ ∃ x ∈ data, ∃ y ∈ data,
      contValAt x i < contValAt y i ∧
      (∀ z ∈ data, contValAt z i ≤ contValAt x i ∨ contValAt y i ≤ contValAt z i) ∧
      t = (contValAt x i + contValAt y i) / 2

/-- `S` is looked at before `T` by a node that tries the attributes in the order `tried`: it is on an
attribute tried earlier, or on the same attribute with a smaller index or threshold. -/
def Before (tried : List Nat) (S T : Split) : Prop :=
  tried.idxOf S.attr < tried.idxOf T.attr ∨
  (∃ i k k', S = indexed i k ∧ T = indexed i k' ∧ k < k') ∨
  ∃ i t t', S = threshold i t ∧ T = threshold i t' ∧ t < t'

open Classical in
/-- The conditions of the branches, with the data that goes to each. -/
def Branches (data : IList ℝ) : Split → List (Cond ℝ × IList ℝ) → Prop
  | discrete i, bs => ∃ vs : List String, vs.Nodup ∧ (∀ a, a ∈ vs ↔ a ∈ data.map (fun x => discValAt x i)) ∧
      List.Forall₂ (fun a b => b.1 = ⟨i, '=', some (.discrete a)⟩ ∧
        b.2.Perm (data.filter (fun x => discValAt x i = a))) vs bs
  | indexed i k, bs => ∃ p q m, bs = [(⟨i, '=', some (.indexed "" k m)⟩, p), (⟨i, '=', some (.indexed "" (-1) m)⟩, q)] ∧
      p.Perm (data.filter (fun x => idxValAt x i = k)) ∧ q.Perm (data.filter (fun x => idxValAt x i ≠ k))
  | threshold i t, bs => ∃ p q, bs = [(⟨i, '<', some (.continuous t)⟩, p), (⟨i, '>', some (.continuous t)⟩, q)] ∧
      p.Perm (data.filter (fun x => contValAt x i ≤ t)) ∧ q.Perm (data.filter (fun x => t < contValAt x i))

end Split

/-- The tree grown from `data` by choosing, at every node with more than one label, the split of
minimal entropy below that of the node, the first one if several have that entropy, and stopping
when there is none. Every node carries the majority label and the class counts of its data. `cand`
says which splits are considered, `before` in which order. -/
inductive OptimalTree (cand : IList ℝ → Split → Prop) (before : Split → Split → Prop) : IList ℝ → Node ℝ → Prop
  | pure (data : IList ℝ) (c : Cond ℝ) (lab : String) (d : DD) (hne : data ≠ [])
      (hlab : IsMajority (data.map Inst.label) lab) (hd : Counts d (data.map Inst.label))
      (h : ∀ x ∈ data, ∀ y ∈ data, x.label = y.label) : OptimalTree cand before data (.mk c true lab d [])
  | stop (data : IList ℝ) (c : Cond ℝ) (lab : String) (d : DD)
      (hlab : IsMajority (data.map Inst.label) lab) (hd : Counts d (data.map Inst.label))
      (hmixed : ∃ x ∈ data, ∃ y ∈ data, x.label ≠ y.label)
      (h : ∀ S, cand data S → shannon (data.map Inst.label) ≤ S.entropy data) :
      OptimalTree cand before data (.mk c true lab d [])
  | split (data : IList ℝ) (c : Cond ℝ) (lab : String) (d : DD) (S : Split) (bs : List (Cond ℝ × IList ℝ))
      (ch : List (Node ℝ))
      (hlab : IsMajority (data.map Inst.label) lab) (hd : Counts d (data.map Inst.label))
      (hmixed : ∃ x ∈ data, ∃ y ∈ data, x.label ≠ y.label) (hS : cand data S)
      (hless : S.entropy data < shannon (data.map Inst.label))
      (hmin : ∀ S', cand data S' → S.entropy data ≤ S'.entropy data)
      (hfirst : ∀ S', cand data S' → before S' S → S.entropy data < S'.entropy data)
      (hbs : S.Branches data bs)
      (hlen : bs.length = ch.length)
      (hcond : ∀ (k : Nat) b n, bs[k]? = some b → ch[k]? = some n → n.cond = b.1)
      (hch : ∀ (k : Nat) b n, bs[k]? = some b → ch[k]? = some n → OptimalTree cand before b.2 n) :
      OptimalTree cand before data (.mk c false lab d ch)

end Verif
