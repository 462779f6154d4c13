import Verif.Spec.Basic
import Verif.Model.InstanceList

/-! # Auxiliary lemmas: monadic folds, maps, counters, distributions, stable sort -/

set_option linter.unusedSectionVars false

namespace Verif
open Dbl

section Monadic

@[simp] theorem res_bind_ok {α β : Type} (a : α) (f : α → Res β) :
    ((Except.ok a : Res α) >>= f) = f a := rfl
@[simp] theorem res_bind_error {α β : Type} (e : Err) (f : α → Res β) :
    ((Except.error e : Res α) >>= f) = .error e := rfl
@[simp] theorem res_pure {α : Type} (a : α) : (pure a : Res α) = .ok a := rfl

theorem foldlM_ok {α β : Type} {f : β → α → Res β} {g : β → α → β} {l : List α}
    (h : ∀ x ∈ l, ∀ s, f s x = .ok (g s x)) (s : β) :
    l.foldlM f s = .ok (l.foldl g s) := by
  induction l generalizing s with
  | nil => rfl
  | cons a l ih =>
    simp only [List.foldlM_cons, List.foldl_cons]
    rw [h a (by simp)]
    exact ih (fun x hx => h x (by simp [hx])) _

/-- foldlM keeps a property that every step keeps -/
theorem foldlM_keeps {α β : Type} {f : β → α → Res β} {P : β → Prop}
    (hstep : ∀ b a b', P b → f b a = .ok b' → P b') : ∀ (as : List α) (b b' : β),
    as.foldlM f b = .ok b' → P b → P b' := by
  intro as
  induction as with
  | nil => intro b b' h hb; cases h; exact hb
  | cons a as ih =>
    intro b b' h hb
    rw [List.foldlM_cons] at h
    cases hf : f b a with
    | error e => rw [hf] at h; cases h
    | ok b1 => rw [hf] at h; exact ih b1 b' h (hstep b a b1 hb hf)

theorem bind_ok_iff {α β : Type} {x : Res α} {f : α → Res β} {b : β} :
    (x >>= f) = .ok b ↔ ∃ a, x = .ok a ∧ f a = .ok b := by
  cases x with
  | error e => exact ⟨fun h => (by cases h), fun ⟨a, h, _⟩ => (by cases h)⟩
  | ok a => exact ⟨fun h => ⟨a, rfl, h⟩, fun ⟨_, h, h2⟩ => (by cases h; exact h2)⟩

theorem mapM_ok {α β : Type} {f : α → Res β} {g : α → β} {l : List α}
    (h : ∀ x ∈ l, f x = .ok (g x)) : l.mapM f = .ok (l.map g) := by
  induction l with
  | nil => rfl
  | cons a l ih =>
    rw [List.mapM_cons, h a (by simp), ih (fun x hx => h x (by simp [hx]))]
    rfl

theorem mapM_ok_inv {α β : Type} {f : α → Res β} {l : List α} {r : List β}
    (h : l.mapM f = .ok r) : List.Forall₂ (fun a b => f a = .ok b) l r := by
  induction l generalizing r with
  | nil => simp [List.mapM_nil] at h; subst h; exact .nil
  | cons a l ih =>
    rw [List.mapM_cons] at h
    cases h1 : f a with
    | error e => rw [h1] at h; cases h
    | ok b =>
      rw [h1] at h
      cases h2 : l.mapM f with
      | error e => rw [h2] at h; cases h
      | ok bs =>
        rw [h2] at h
        cases h
        exact .cons h1 (ih h2)

@[simp] theorem atR_eq_ok {α : Type} {l : List α} {i : Nat} {a : α} :
    atR l i = .ok a ↔ l[i]? = some a := by
  unfold atR; cases l[i]? <;> simp

@[simp] theorem idxR_eq_ok {α : Type} {l : List α} {i : Nat} {a : α} :
    idxR l i = .ok a ↔ l[i]? = some a := by
  unfold idxR; cases l[i]? <;> simp

theorem atR_ok_of_lt {α : Type} {l : List α} {i : Nat} (h : i < l.length) :
    atR l i = .ok l[i] := by simp [h]

theorem idxR_ok_of_lt {α : Type} {l : List α} {i : Nat} (h : i < l.length) :
    idxR l i = .ok l[i] := by simp [h]

@[simp] theorem atR_cons_zero {α : Type} (a : α) (l : List α) : atR (a :: l) 0 = .ok a := rfl

end Monadic

section Cols
variable {F : Type} [Dbl F]

theorem discAt_ok {x : Inst F} {i : Nat} {v : String} (h : DiscAt x i v) :
    x.discAt i = .ok v := by
  rcases h with h | h | ⟨k, m, h⟩ <;>
    simp [Inst.discAt, Inst.getAttribute, atR, h, Attr.discVal]

theorem discAt_iff {x : Inst F} {i : Nat} {v : String} :
    x.discAt i = .ok v ↔ DiscAt x i v := by
  refine ⟨fun h => ?_, discAt_ok⟩
  unfold Inst.discAt Inst.getAttribute atR at h
  cases ha : x.attrs[i]? with
  | none => rw [ha] at h; cases h
  | some a =>
    rw [ha] at h
    cases a <;> simp_all [Attr.discVal, DiscAt]

theorem contAt_iff {x : Inst F} {i : Nat} {v : F} :
    x.contAt i = .ok v ↔ ContAt x i v := by
  unfold Inst.contAt Inst.getAttribute atR ContAt
  cases ha : x.attrs[i]? with
  | none => simp
  | some a => cases a <;> simp [Attr.contVal]

theorem contAt_ok {x : Inst F} {i : Nat} {v : F} (h : ContAt x i v) : x.contAt i = .ok v :=
  contAt_iff.2 h

theorem indexAt_iff {x : Inst F} {i : Nat} {k : Int} :
    x.indexAt i = .ok k ↔ IndexAt x i k := by
  unfold Inst.indexAt Inst.getAttribute atR IndexAt
  cases ha : x.attrs[i]? with
  | none => simp
  | some a => cases a <;> simp [Attr.getIndex]

theorem indexAt_ok {x : Inst F} {i : Nat} {k : Int} (h : IndexAt x i k) :
    x.indexAt i = .ok k := indexAt_iff.2 h

end Cols

/-! ## dedup by fold -/

section Dedup
variable {α : Type} [DecidableEq α]

/-- the loop body "push_back if not found" -/
def pushNew (r : List α) (x : α) : List α := if x ∈ r then r else r ++ [x]

theorem pushNew_first {l : List α} {r : List α} (h : IsFirstOccurrences l r) (x : α) :
    IsFirstOccurrences (l ++ [x]) (pushNew r x) := by
  unfold pushNew
  split
  · rename_i hx
    refine ⟨h.nodup, fun y => ?_, ?_⟩
    · rw [h.mem_iff]; simp only [List.mem_append, List.mem_singleton]
      constructor
      · exact Or.inl
      · rintro (hy | rfl)
        · exact hy
        · exact (h.mem_iff _).1 hx
    · refine h.order.imp_of_mem ?_
      intro a b ha hb hab
      rw [List.idxOf_append_of_mem ((h.mem_iff a).1 ha),
        List.idxOf_append_of_mem ((h.mem_iff b).1 hb)]
      exact hab
  · rename_i hx
    have hxl : x ∉ l := fun hh => hx ((h.mem_iff x).2 hh)
    refine ⟨?_, fun y => ?_, ?_⟩
    · rw [List.nodup_append]
      refine ⟨h.nodup, by simp, ?_⟩
      intro a ha b hb
      simp only [List.mem_singleton] at hb
      subst hb
      rintro rfl
      exact hx ha
    · simp [h.mem_iff]
    · rw [List.pairwise_append]
      refine ⟨?_, by simp, ?_⟩
      · refine h.order.imp_of_mem ?_
        intro a b ha hb hab
        rw [List.idxOf_append_of_mem ((h.mem_iff a).1 ha),
          List.idxOf_append_of_mem ((h.mem_iff b).1 hb)]
        exact hab
      · intro a ha b hb
        simp only [List.mem_singleton] at hb
        subst hb
        rw [List.idxOf_append_of_mem ((h.mem_iff a).1 ha),
          List.idxOf_append_of_notMem hxl]
        have := List.idxOf_lt_length_of_mem ((h.mem_iff a).1 ha)
        simp
        omega

theorem dedup_aux (l : List α) : ∀ (l0 r : List α), IsFirstOccurrences l0 r →
    IsFirstOccurrences (l0 ++ l) (l.foldl pushNew r) := by
  induction l with
  | nil => intro l0 r h; simpa using h
  | cons a l ih =>
    intro l0 r h
    have := ih (l0 ++ [a]) (pushNew r a) (pushNew_first h a)
    simpa using this

theorem firstOccurrences_nil : IsFirstOccurrences ([] : List α) [] :=
  ⟨List.nodup_nil, by simp, List.Pairwise.nil⟩

theorem dedup_first (l : List α) : IsFirstOccurrences l (l.foldl pushNew []) := by
  simpa using dedup_aux l [] [] firstOccurrences_nil

/-- the specification determines the list -/
theorem IsFirstOccurrences.unique {l d e : List α} (hd : IsFirstOccurrences l d)
    (he : IsFirstOccurrences l e) : d = e := by
  have hp : d.Perm e := by
    rw [List.perm_ext_iff_of_nodup hd.nodup he.nodup]
    intro a; rw [hd.mem_iff, he.mem_iff]
  refine hp.eq_of_pairwise ?_ hd.order he.order
  intro a b ha hb hab hba
  omega

end Dedup

/-! ## ordered maps -/

namespace OMap
variable {V : Type}

@[simp] theorem find?_nil (k : String) : OMap.find? ([] : OMap V) k = none := rfl

theorem find?_cons (p : String × V) (m : OMap V) (k : String) :
    OMap.find? (p :: m) k = if k = p.1 then some p.2 else OMap.find? m k := by
  unfold OMap.find?
  rw [List.lookup_cons]
  by_cases h : k = p.1
  · simp [h]
  · have : (k == p.1) = false := by simpa using h
    simp [h, this]

theorem find?_insert (m : OMap V) (k : String) (v : V) (k' : String) :
    OMap.find? (OMap.insert m k v) k' = if k' = k then some v else OMap.find? m k' := by
  induction m with
  | nil => simp [OMap.insert, find?_cons]
  | cons p m ih =>
    obtain ⟨a, b⟩ := p
    unfold OMap.insert
    by_cases h1 : k = a
    · subst h1
      simp only [if_pos, find?_cons]
      by_cases h : k' = k <;> simp [h]
    · rw [if_neg h1]
      by_cases h2 : k < a
      · rw [if_pos h2]; simp only [find?_cons]
      · rw [if_neg h2]
        simp only [find?_cons, ih]
        by_cases h3 : k' = a
        · subst h3; simp [Ne.symm h1]
        · simp [h3]

theorem mem_keys_insert (m : OMap V) (k : String) (v : V) (x : String) :
    x ∈ OMap.keys (OMap.insert m k v) ↔ x = k ∨ x ∈ OMap.keys m := by
  induction m with
  | nil => simp [OMap.insert, OMap.keys]
  | cons p m ih =>
    obtain ⟨a, b⟩ := p
    unfold OMap.insert
    by_cases h1 : k = a
    · subst h1; simp [OMap.keys]
    · rw [if_neg h1]
      by_cases h2 : k < a
      · rw [if_pos h2]; simp [OMap.keys]
      · rw [if_neg h2]
        simp only [OMap.keys, List.map_cons, List.mem_cons] at ih ⊢
        rw [ih]; tauto

/-- keys strictly increasing -/
def Sorted (m : OMap V) : Prop := (OMap.keys m).Pairwise (· < ·)

theorem sorted_nil : Sorted ([] : OMap V) := List.Pairwise.nil

theorem sorted_insert {m : OMap V} (h : Sorted m) (k : String) (v : V) :
    Sorted (OMap.insert m k v) := by
  induction m with
  | nil => simp [Sorted, OMap.insert, OMap.keys]
  | cons p m ih =>
    obtain ⟨a, b⟩ := p
    unfold Sorted at h ih ⊢
    simp only [OMap.keys, List.map_cons, List.pairwise_cons] at h
    unfold OMap.insert
    by_cases h1 : k = a
    · subst h1; simpa [OMap.keys] using h
    · rw [if_neg h1]
      by_cases h2 : k < a
      · rw [if_pos h2]
        simp only [OMap.keys, List.map_cons, List.pairwise_cons]
        refine ⟨?_, h⟩
        intro y hy
        simp only [List.mem_cons] at hy
        rcases hy with rfl | hy
        · exact h2
        · exact lt_trans h2 (h.1 y hy)
      · rw [if_neg h2]
        have ha : a < k := lt_of_le_of_ne (not_lt.1 h2) (Ne.symm h1)
        simp only [OMap.keys, List.map_cons, List.pairwise_cons]
        refine ⟨?_, ih h.2⟩
        intro y hy
        rcases (mem_keys_insert m k v y).1 hy with rfl | hy
        · exact ha
        · exact h.1 y hy

theorem find?_isSome_iff (m : OMap V) (k : String) :
    (OMap.find? m k).isSome ↔ k ∈ OMap.keys m := by
  induction m with
  | nil => simp [OMap.keys]
  | cons p m ih =>
    rw [find?_cons]
    by_cases h : k = p.1
    · simp [h, OMap.keys]
    · simp only [h, if_false, ih]; simp [OMap.keys, h]

theorem find?_eq_none_iff (m : OMap V) (k : String) :
    OMap.find? m k = none ↔ k ∉ OMap.keys m := by
  rw [← find?_isSome_iff]; cases OMap.find? m k <;> simp

theorem mem_of_find? {m : OMap V} {k : String} {v : V} (h : OMap.find? m k = some v) :
    (k, v) ∈ m := by
  induction m with
  | nil => simp at h
  | cons p m ih =>
    rw [find?_cons] at h
    by_cases hk : k = p.1
    · rw [if_pos hk] at h; cases h; subst hk; simp
    · rw [if_neg hk] at h; exact List.mem_cons_of_mem _ (ih h)

theorem find?_of_mem {m : OMap V} (hs : Sorted m) {k : String} {v : V} (h : (k, v) ∈ m) :
    OMap.find? m k = some v := by
  induction m with
  | nil => simp at h
  | cons p m ih =>
    unfold Sorted at hs ih
    simp only [OMap.keys, List.map_cons, List.pairwise_cons] at hs
    rw [find?_cons]
    rcases List.mem_cons.1 h with rfl | h
    · simp
    · have : p.1 < k := hs.1 k (List.mem_map_of_mem (f := Prod.fst) h)
      rw [if_neg (ne_of_gt this)]
      exact ih hs.2 h

theorem find?_erase (m : OMap V) (k k' : String) :
    OMap.find? (OMap.erase m k) k' = if k' = k then none else OMap.find? m k' := by
  induction m with
  | nil => simp [OMap.erase]
  | cons p m ih =>
    unfold OMap.erase at ih ⊢
    by_cases h : p.1 = k
    · rw [List.filter_cons_of_neg (by simp [h]), ih, find?_cons]
      by_cases h' : k' = k
      · simp [h']
      · simp [h', h]
    · rw [List.filter_cons_of_pos (by simp [h]), find?_cons, find?_cons, ih]
      by_cases h' : k' = p.1
      · subst h'; simp [h]
      · simp [h']

theorem sorted_erase {m : OMap V} (h : Sorted m) (k : String) : Sorted (OMap.erase m k) := by
  unfold Sorted OMap.keys OMap.erase at *
  exact h.sublist (List.filter_sublist.map _)

/-- two sorted maps with the same lookups are equal -/
theorem ext {m n : OMap V} (hm : Sorted m) (hn : Sorted n)
    (h : ∀ k, OMap.find? m k = OMap.find? n k) : m = n := by
  have hperm : m.Perm n := by
    rw [List.perm_ext_iff_of_nodup]
    · rintro ⟨k, v⟩
      constructor
      · intro hmem; exact mem_of_find? (h k ▸ find?_of_mem hm hmem)
      · intro hmem; exact mem_of_find? ((h k).symm ▸ find?_of_mem hn hmem)
    · exact (List.pairwise_map.1 hm).imp (fun h hab => ne_of_lt h (congrArg Prod.fst hab))
    · exact (List.pairwise_map.1 hn).imp (fun h hab => ne_of_lt h (congrArg Prod.fst hab))
  have hm' : m.Pairwise (fun a b => a.1 < b.1) := List.pairwise_map.1 hm
  have hn' : n.Pairwise (fun a b => a.1 < b.1) := List.pairwise_map.1 hn
  refine hperm.eq_of_pairwise ?_ hm' hn'
  intro a b _ _ h1 h2
  exact absurd h1 (lt_asymm h2)

end OMap

/-! ## counters -/

namespace Counter

@[simp] theorem count_nil (k : String) : count [] k = 0 := rfl

theorem count_put (m : Counter) (k k' : String) :
    count (put m k) k' = count m k' + if k' = k then 1 else 0 := by
  unfold count put
  rw [OMap.find?_insert]
  by_cases h : k' = k
  · subst h; simp [count]
  · simp [h]

theorem count_putN (m : Counter) (k : String) (n : Nat) (k' : String) :
    count (putN m k n) k' = count m k' + if k' = k then n else 0 := by
  unfold count putN
  rw [OMap.find?_insert]
  by_cases h : k' = k
  · subst h; simp [count]
  · simp [h]

/-- well-formed: sorted keys, positive counts -/
structure WF (m : Counter) : Prop where
  sorted : OMap.Sorted m
  pos : ∀ k v, OMap.find? m k = some v → 0 < v

theorem wf_nil : WF [] := ⟨OMap.sorted_nil, by simp⟩

theorem wf_put {m : Counter} (h : WF m) (k : String) : WF (put m k) := by
  refine ⟨OMap.sorted_insert h.sorted _ _, ?_⟩
  intro k' v hv
  unfold put at hv
  rw [OMap.find?_insert] at hv
  by_cases hk : k' = k
  · simp [hk] at hv; omega
  · simp [hk] at hv; exact h.pos k' v hv

theorem wf_putN {m : Counter} (h : WF m) (k : String) {n : Nat} (hn : 0 < n) :
    WF (putN m k n) := by
  refine ⟨OMap.sorted_insert h.sorted _ _, ?_⟩
  intro k' v hv
  unfold putN at hv
  rw [OMap.find?_insert] at hv
  by_cases hk : k' = k
  · simp [hk] at hv; omega
  · simp [hk] at hv; exact h.pos k' v hv

theorem mem_keys_iff {m : Counter} (h : WF m) (k : String) :
    k ∈ OMap.keys m ↔ 0 < count m k := by
  rw [← OMap.find?_isSome_iff]
  unfold count
  cases hf : OMap.find? m k with
  | none => simp
  | some v => simpa using h.pos k v hf

/-- the loop `for (l : labels) frequencies.put(l)` -/
def ofList (labels : List String) : Counter := labels.foldl (fun m l => put m l) []

theorem foldl_put (labels : List String) : ∀ m : Counter, WF m →
    WF (labels.foldl (fun m l => put m l) m) ∧
    ∀ k, count (labels.foldl (fun m l => put m l) m) k = count m k + labels.count k := by
  induction labels with
  | nil => intro m h; exact ⟨h, by simp⟩
  | cons a l ih =>
    intro m h
    obtain ⟨h1, h2⟩ := ih (put m a) (wf_put h a)
    refine ⟨h1, fun k => ?_⟩
    simp only [List.foldl_cons]
    rw [h2 k, count_put, List.count_cons]
    by_cases hk : k = a
    · subst hk; simp; omega
    · simp [hk, Ne.symm hk]

theorem wf_ofList (l : List String) : WF (ofList l) := (foldl_put l [] wf_nil).1
theorem count_ofList (l : List String) (k : String) : count (ofList l) k = l.count k := by
  have := (foldl_put l [] wf_nil).2 k
  simpa [ofList] using this

theorem sum_foldl (m : Counter) (s : Nat) :
    m.foldl (fun s p => s + p.2) s = s + (m.map Prod.snd).sum := by
  induction m generalizing s with
  | nil => simp
  | cons p m ih => simp [ih]; omega

theorem sumOfCounts_eq (m : Counter) : sumOfCounts m = (m.map Prod.snd).sum := by
  simp [sumOfCounts, sum_foldl]

theorem sum_insert (m : Counter) (k : String) (v : Nat) (hs : OMap.Sorted m) :
    ((OMap.insert m k v).map Prod.snd).sum + count m k = (m.map Prod.snd).sum + v := by
  induction m with
  | nil => simp [OMap.insert]
  | cons p m ih =>
    obtain ⟨a, b⟩ := p
    have hs' : OMap.Sorted m := by
      unfold OMap.Sorted OMap.keys at hs ⊢; exact (List.pairwise_cons.1 hs).2
    unfold OMap.insert
    by_cases h1 : k = a
    · subst h1
      simp [count, OMap.find?_cons]; omega
    · rw [if_neg h1]
      by_cases h2 : k < a
      · rw [if_pos h2]
        have hk : OMap.find? m k = none := by
          rw [OMap.find?_eq_none_iff]
          intro hk
          unfold OMap.Sorted OMap.keys at hs
          have := (List.pairwise_cons.1 hs).1 k hk
          exact absurd (lt_trans h2 this) (lt_irrefl _)
        simp [count, OMap.find?_cons, h1, hk]; omega
      · rw [if_neg h2]
        have hc : count ((a, b) :: m) k = count m k := by simp [count, OMap.find?_cons, h1]
        rw [hc]
        have := ih hs'
        simp only [List.map_cons, List.sum_cons]
        omega

theorem sum_put (m : Counter) (k : String) (hs : OMap.Sorted m) :
    sumOfCounts (put m k) = sumOfCounts m + 1 := by
  rw [sumOfCounts_eq, sumOfCounts_eq]
  have := sum_insert m k (count m k + 1) hs
  unfold put; omega

theorem sum_putN (m : Counter) (k : String) (n : Nat) (hs : OMap.Sorted m) :
    sumOfCounts (putN m k n) = sumOfCounts m + n := by
  rw [sumOfCounts_eq, sumOfCounts_eq]
  have := sum_insert m k (count m k + n) hs
  unfold putN; omega

theorem sumOfCounts_ofList (l : List String) : sumOfCounts (ofList l) = l.length := by
  have : ∀ (l : List String) (m : Counter), WF m →
      sumOfCounts (l.foldl (fun m l => put m l) m) = sumOfCounts m + l.length := by
    intro l
    induction l with
    | nil => intro m _; rfl
    | cons a l ih =>
      intro m hm
      simp only [List.foldl_cons, List.length_cons]
      rw [ih _ (wf_put hm a), sum_put m a hm.sorted]; omega
  simpa [ofList, sumOfCounts] using this l [] wf_nil

/-- two well-formed counters with the same counts are equal -/
theorem ext {m n : Counter} (hm : WF m) (hn : WF n) (h : ∀ k, count m k = count n k) :
    m = n := by
  refine OMap.ext hm.sorted hn.sorted ?_
  intro k
  have := h k
  unfold count at this
  cases h1 : OMap.find? m k with
  | none =>
    cases h2 : OMap.find? n k with
    | none => rfl
    | some v => rw [h1, h2] at this; have := hn.pos k v h2; simp at *; omega
  | some u =>
    cases h2 : OMap.find? n k with
    | none => rw [h1, h2] at this; have := hm.pos k u h1; simp at *; omega
    | some v => rw [h1, h2] at this; simpa using this

/-- invariant of the `max` loop over a prefix -/
theorem max_fold (m : Counter) : ∀ b : String × Nat,
    let r := m.foldl (fun (b : String × Nat) p => if p.2 > b.2 then p else b) b
    (r = b ∧ ∀ p ∈ m, p.2 ≤ b.2) ∨
    (∃ l1 l2, m = l1 ++ r :: l2 ∧ b.2 < r.2 ∧ (∀ p ∈ l1, p.2 < r.2) ∧ ∀ p ∈ l2, p.2 ≤ r.2) := by
  induction m with
  | nil => intro b; left; simp
  | cons p m ih =>
    intro b
    simp only [List.foldl_cons]
    by_cases h : p.2 > b.2
    · rw [if_pos h]
      rcases ih p with ⟨h1, h2⟩ | ⟨l1, l2, h1, h2, h3, h4⟩
      · right
        refine ⟨[], m, ?_, ?_, by simp, ?_⟩
        · simp [h1]
        · rw [h1]; exact h
        · rw [h1]; exact h2
      · right
        refine ⟨p :: l1, l2, by rw [List.cons_append, ← h1], by omega, ?_, h4⟩
        intro q hq
        rcases List.mem_cons.1 hq with rfl | hq
        · exact h2
        · exact h3 q hq
    · rw [if_neg h]
      rcases ih b with ⟨h1, h2⟩ | ⟨l1, l2, h1, h2, h3, h4⟩
      · left
        refine ⟨h1, ?_⟩
        intro q hq
        rcases List.mem_cons.1 hq with rfl | hq
        · omega
        · exact h2 q hq
      · right
        refine ⟨p :: l1, l2, by rw [List.cons_append, ← h1], h2, ?_, h4⟩
        intro q hq
        rcases List.mem_cons.1 hq with rfl | hq
        · omega
        · exact h3 q hq

theorem max_nil : max [] = "" := rfl

/-- `max()` of a non-empty well-formed counter -/
theorem max_spec {m : Counter} (h : WF m) (hne : m ≠ []) :
    0 < count m (max m) ∧ (∀ k, count m k ≤ count m (max m)) ∧
    ∀ k, 0 < count m k → count m k = count m (max m) → max m ≤ k := by
  have hf := max_fold m ("", 0)
  set r := m.foldl (fun (b : String × Nat) p => if p.2 > b.2 then p else b) ("", 0) with hr
  have hmax : max m = r.1 := rfl
  have hcnt : ∀ k v, (k, v) ∈ m → count m k = v := by
    intro k v hkv
    simp [count, OMap.find?_of_mem h.sorted hkv]
  rcases hf with ⟨h1, h2⟩ | ⟨l1, l2, h1, h2, h3, h4⟩
  · exfalso
    cases m with
    | nil => exact hne rfl
    | cons p m =>
      have hp := h2 p (by simp)
      have := h.pos p.1 p.2 (OMap.find?_of_mem h.sorted (by simp))
      simp at hp; omega
  · have hrm : r ∈ m := by rw [h1]; simp
    have hcr : count m r.1 = r.2 := hcnt r.1 r.2 hrm
    rw [hmax, hcr]
    refine ⟨by omega, ?_, ?_⟩
    · intro k
      cases hk : OMap.find? m k with
      | none => simp [count, hk]
      | some v =>
        have hmem := OMap.mem_of_find? hk
        have : count m k = v := by simp [count, hk]
        rw [this]
        rw [h1] at hmem
        rcases List.mem_append.1 hmem with hm | hm
        · exact le_of_lt (h3 _ hm)
        · rcases List.mem_cons.1 hm with hm | hm
          · rw [← hm]
          · exact h4 _ hm
    · intro k hk0 hk
      cases hkf : OMap.find? m k with
      | none => simp [count, hkf] at hk0
      | some v =>
        have hmem := OMap.mem_of_find? hkf
        have hv : count m k = v := by simp [count, hkf]
        rw [hv] at hk
        rw [h1] at hmem
        have hs := h.sorted
        unfold OMap.Sorted OMap.keys at hs
        rw [h1] at hs
        rcases List.mem_append.1 hmem with hm | hm
        · have := h3 _ hm; simp at this; omega
        · rcases List.mem_cons.1 hm with hm | hm
          · rw [← hm]
          · rw [List.map_append, List.map_cons, List.pairwise_append, List.pairwise_cons] at hs
            exact le_of_lt (hs.2.1.1 k (List.mem_map_of_mem (f := Prod.fst) hm))

theorem ofList_ne_nil {l : List String} (h : l ≠ []) : ofList l ≠ [] := by
  intro h0
  have := sumOfCounts_ofList l
  rw [h0] at this
  simp [sumOfCounts] at this
  exact h (List.length_eq_zero_iff.1 this.symm)

end Counter

/-! ## distributions -/

namespace DD

/-- well-formed distribution: counts of some multiset -/
structure WF (d : DD) : Prop where
  m : Counter.WF d.m
  sum : d.sum = Counter.sumOfCounts d.m

theorem wf_empty : WF empty := ⟨Counter.wf_nil, rfl⟩

theorem wf_addItem {d : DD} (h : WF d) (k : String) : WF (d.addItem k) :=
  ⟨Counter.wf_put h.m k, by simp [addItem, Counter.sum_put _ _ h.m.sorted, h.sum]⟩

theorem getCount_addItem (d : DD) (k k' : String) :
    (d.addItem k).getCount k' = d.getCount k' + if k' = k then 1 else 0 :=
  Counter.count_put d.m k k'

/-- the loop `for (k : l) d.addItem(k)` -/
def ofList (l : List String) : DD := l.foldl (fun d k => d.addItem k) empty

theorem foldl_addItem (l : List String) : ∀ d : DD, WF d →
    WF (l.foldl (fun d k => d.addItem k) d) ∧
    (∀ k, (l.foldl (fun d k => d.addItem k) d).getCount k = d.getCount k + l.count k) ∧
    (l.foldl (fun d k => d.addItem k) d).sum = d.sum + l.length := by
  induction l with
  | nil => intro d h; exact ⟨h, by simp, by simp⟩
  | cons a l ih =>
    intro d h
    obtain ⟨h1, h2, h3⟩ := ih (d.addItem a) (wf_addItem h a)
    refine ⟨h1, fun k => ?_, ?_⟩
    · simp only [List.foldl_cons]
      rw [h2 k, getCount_addItem, List.count_cons]
      by_cases hk : k = a
      · subst hk; simp; omega
      · simp [hk, Ne.symm hk]
    · simp only [List.foldl_cons]
      rw [h3]; simp [addItem]; omega

theorem wf_ofList (l : List String) : WF (ofList l) := (foldl_addItem l empty wf_empty).1
theorem getCount_ofList (l : List String) (k : String) : (ofList l).getCount k = l.count k := by
  have := (foldl_addItem l empty wf_empty).2.1 k
  simpa [ofList, getCount, empty] using this
theorem sum_ofList (l : List String) : (ofList l).sum = l.length := by
  have := (foldl_addItem l empty wf_empty).2.2
  simpa [ofList, empty] using this

theorem counts_of_wf {d : DD} (h : WF d) {l : List String}
    (hc : ∀ k, d.getCount k = l.count k) (hs : d.sum = l.length) : Counts d l := by
  refine ⟨hc, hs, fun k => ?_, h.m.sorted⟩
  rw [show (k ∈ d.getItems) = (k ∈ OMap.keys d.m) from rfl, Counter.mem_keys_iff h.m]
  have := hc k
  unfold getCount at this
  rw [this, List.count_pos_iff]

theorem counts_ofList (l : List String) : Counts (ofList l) l :=
  counts_of_wf (wf_ofList l) (getCount_ofList l) (sum_ofList l)

theorem ext_counts {d e : DD} (hd : WF d) (he : WF e) (h : ∀ k, d.getCount k = e.getCount k) :
    d = e := by
  have hm : d.m = e.m := Counter.ext hd.m he.m h
  have hs : d.sum = e.sum := by rw [hd.sum, he.sum, hm]
  cases d; cases e; simp_all

theorem ofList_perm {l l' : List String} (h : l.Perm l') : ofList l = ofList l' :=
  ext_counts (wf_ofList l) (wf_ofList l') (fun k => by
    rw [getCount_ofList, getCount_ofList, h.count_eq])

end DD

/-! ## stable sort -/

section Sorting
variable {α : Type}

theorem insertBy_perm (lt : α → α → Bool) (x : α) (l : List α) :
    (insertBy lt x l).Perm (x :: l) := by
  induction l with
  | nil => exact .refl _
  | cons y ys ih =>
    unfold insertBy
    split
    · exact (ih.cons y).trans (.swap x y ys)
    · exact .refl _

theorem stableSort_perm (lt : α → α → Bool) (l : List α) : (stableSort lt l).Perm l := by
  induction l with
  | nil => exact .refl _
  | cons x l ih => exact (insertBy_perm lt x _).trans (ih.cons x)

/-- on the elements of `S`, `lt` is a strict weak order -/
structure StrictWeakOn (S : α → Prop) (lt : α → α → Bool) : Prop where
  asymm : ∀ a b, S a → S b → lt a b = true → lt b a = false
  negtrans : ∀ a b c, S a → S b → S c → lt b a = false → lt c b = false → lt c a = false

theorem insertBy_sorted {S : α → Prop} {lt : α → α → Bool} (h : StrictWeakOn S lt) {x : α}
    {l : List α} (hx : S x) (hl : ∀ y ∈ l, S y)
    (hs : l.Pairwise (fun a b => lt b a = false)) :
    (insertBy lt x l).Pairwise (fun a b => lt b a = false) := by
  induction l with
  | nil => simp [insertBy]
  | cons y ys ih =>
    rw [List.pairwise_cons] at hs
    unfold insertBy
    split
    · rename_i hyx
      rw [List.pairwise_cons]
      refine ⟨?_, ih (fun z hz => hl z (by simp [hz])) hs.2⟩
      intro z hz
      have hz' := (insertBy_perm lt x ys).mem_iff.1 hz
      rcases List.mem_cons.1 hz' with rfl | hz'
      · exact h.asymm y z (hl y (by simp)) hx hyx
      · exact hs.1 z hz'
    · rename_i hyx
      rw [List.pairwise_cons]
      refine ⟨?_, List.pairwise_cons.2 hs⟩
      intro z hz
      have hyx' : lt y x = false := by simpa using hyx
      rcases List.mem_cons.1 hz with rfl | hz'
      · exact hyx'
      · exact h.negtrans x y z hx (hl y (by simp)) (hl z hz) hyx' (hs.1 z hz')

theorem stableSort_sorted {S : α → Prop} {lt : α → α → Bool} (h : StrictWeakOn S lt)
    {l : List α} (hl : ∀ y ∈ l, S y) :
    (stableSort lt l).Pairwise (fun a b => lt b a = false) := by
  induction l with
  | nil => exact List.Pairwise.nil
  | cons x l ih =>
    refine insertBy_sorted h (hl x (by simp)) ?_ (ih (fun y hy => hl y (by simp [hy])))
    intro y hy
    exact hl y (by simp [(stableSort_perm lt l).mem_iff.1 hy])

theorem insertBy_filter_neg (lt : α → α → Bool) (x : α) (l : List α) (p : α → Bool)
    (hp : p x = false) : (insertBy lt x l).filter p = l.filter p := by
  induction l with
  | nil => simp [insertBy, hp]
  | cons y ys ih =>
    unfold insertBy
    split
    · simp [List.filter_cons, ih]
    · simp [List.filter_cons, hp]

theorem insertBy_filter_pos (lt : α → α → Bool) (x : α) (l : List α) (p : α → Bool)
    (hp : p x = true) (hl : ∀ y ∈ l, p y = true → lt y x = false) :
    (insertBy lt x l).filter p = x :: l.filter p := by
  induction l with
  | nil => simp [insertBy, hp]
  | cons y ys ih =>
    unfold insertBy
    split
    · rename_i hyx
      have hpy : p y = false := by
        by_contra hc
        have := hl y (by simp) (by simpa using hc)
        rw [hyx] at this; cases this
      rw [List.filter_cons_of_neg (by simp [hpy]), List.filter_cons_of_neg (by simp [hpy])]
      exact ih (fun z hz => hl z (by simp [hz]))
    · rw [List.filter_cons_of_pos hp]

theorem stableSort_stable (lt : α → α → Bool) (l : List α) (p : α → Bool)
    (hp : ∀ a ∈ l, ∀ b ∈ l, p a = true → p b = true → lt b a = false) :
    (stableSort lt l).filter p = l.filter p := by
  induction l with
  | nil => rfl
  | cons x l ih =>
    have ih' := ih (fun a ha b hb => hp a (by simp [ha]) b (by simp [hb]))
    unfold stableSort at ih' ⊢
    simp only [List.foldr_cons]
    by_cases hx : p x = true
    · rw [insertBy_filter_pos lt x _ p hx, ih', List.filter_cons_of_pos hx]
      intro y hy hpy
      have hy' : y ∈ l := (stableSort_perm lt l).mem_iff.1 hy
      exact hp x (by simp) y (by simp [hy']) hx hpy
    · rw [insertBy_filter_neg lt x _ p (by simpa using hx), ih',
        List.filter_cons_of_neg hx]

end Sorting

section SortD
variable {F : Type} [Dbl F] [LawfulOrd F]

theorem not_lt_iff_le {a b : F} (ha : Dbl.Ord a) (hb : Dbl.Ord b) :
    (b <. a) = false ↔ (a <=. b) = true := by
  constructor
  · intro h
    rcases LawfulOrd.total a b ha hb with h1 | h1
    · exact h1
    · by_contra hc
      have := (LawfulOrd.lt_iff b a).2 ⟨h1, hc⟩
      rw [h] at this; cases this
  · intro h
    by_contra hc
    have := (LawfulOrd.lt_iff b a).1 (by simpa using hc)
    exact this.2 h

theorem strictWeak_key {α : Type} (key : α → F) :
    StrictWeakOn (fun a => Dbl.Ord (key a)) (fun a b => key a <. key b) := by
  constructor
  · intro a b ha hb h
    rw [not_lt_iff_le ha hb]
    exact ((LawfulOrd.lt_iff _ _).1 h).1
  · intro a b c ha hb hc h1 h2
    rw [not_lt_iff_le ha hb] at h1
    rw [not_lt_iff_le hb hc] at h2
    rw [not_lt_iff_le ha hc]
    exact LawfulOrd.le_trans _ _ _ h1 h2

end SortD

end Verif
