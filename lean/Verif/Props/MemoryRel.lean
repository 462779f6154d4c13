import Verif.Spec.Memory
import Verif.Lemmas.Basic
import Mathlib.Data.List.Nodup

/-! # Objects in memory and values: the simulation relation -/

set_option linter.unusedSectionVars false

namespace Verif
open Dbl

variable {F : Type} [Dbl F]

/-! ## Related outcomes -/

/-- two computations both return related results or fail with the same error -/
inductive Agree {α β : Type} (R : α → β → Prop) : Res α → Res β → Prop
  | ok {a : α} {b : β} : R a b → Agree R (.ok a) (.ok b)
  | err (e : Err) : Agree R (.error e) (.error e)

namespace Agree

variable {α β γ δ : Type} {R : α → β → Prop} {S : γ → δ → Prop}

theorem bind {r : Res α} {q : Res β} {f : α → Res γ} {g : β → Res δ} (h : Agree R r q)
    (hf : ∀ a b, R a b → Agree S (f a) (g b)) : Agree S (r >>= f) (q >>= g) := by
  cases h with
  | ok h => exact hf _ _ h
  | err e => exact .err e

theorem mono {R' : α → β → Prop} {r : Res α} {q : Res β} (h : Agree R r q)
    (hR : ∀ a b, R a b → R' a b) : Agree R' r q := by
  cases h with
  | ok h => exact .ok (hR _ _ h)
  | err e => exact .err e

theorem fold {ι : Type} {f : α → ι → Res α} {g : β → ι → Res β}
    (hf : ∀ a b i, R a b → Agree R (f a i) (g b i)) :
    ∀ (l : List ι) (a : α) (b : β), R a b → Agree R (l.foldlM f a) (l.foldlM g b) := by
  intro l
  induction l with
  | nil => intro a b h; exact .ok h
  | cons i l ih =>
    intro a b h
    rw [List.foldlM_cons, List.foldlM_cons]
    exact (hf a b i h).bind ih

theorem fold_mem {ι : Type} {f : α → ι → Res α} {g : β → ι → Res β} :
    ∀ (l : List ι) (a : α) (b : β), (∀ i ∈ l, ∀ a b, R a b → Agree R (f a i) (g b i)) → R a b →
      Agree R (l.foldlM f a) (l.foldlM g b) := by
  intro l
  induction l with
  | nil => intro a b _ h; exact .ok h
  | cons i l ih =>
    intro a b hf h
    rw [List.foldlM_cons, List.foldlM_cons]
    exact (hf i (by simp) a b h).bind fun a b hab => ih a b (fun j hj => hf j (by simp [hj])) hab

end Agree

/-! ## The relation -/

/-- an instance object and the value it stands for -/
structure ObjRel (as : List (Option (Attr F))) (o : IObj) (x : Inst F) : Prop where
  label : o.label = x.label
  possible : o.possible = x.possible
  attrs : List.Forall₂ (fun (p : Nat) a => as[p]? = some (some a)) o.attrs x.attrs

/-- memory and values; with `sep` no attribute object has two owners -/
structure Rel (sep : Bool) (m : Mem F) (s : Vals F) : Prop where
  len : m.insts.length = s.length
  dead : ∀ i : Nat, m.insts[i]? = some none → s[i]? = some none
  cell : ∀ (i : Nat) (o : IObj), m.insts[i]? = some (some o) →
    ∃ x, s[i]? = some (some x) ∧ ObjRel m.attrs o x
  nodup : sep = true → ∀ (i : Nat) (o : IObj), m.insts[i]? = some (some o) → o.attrs.Nodup
  disj : sep = true → ∀ (i j : Nat) (o o' : IObj), i ≠ j → m.insts[i]? = some (some o) →
    m.insts[j]? = some (some o') → ∀ p ∈ o.attrs, p ∉ o'.attrs

theorem rel_empty (sep : Bool) : Rel sep (Mem.empty : Mem F) [] where
  len := rfl
  dead := by intro i h; simp [Mem.empty] at h
  cell := by intro i o h; simp [Mem.empty] at h
  nodup := by intro _ i o h; simp [Mem.empty] at h
  disj := by intro _ i j o o' _ h; simp [Mem.empty] at h

namespace ObjRel

variable {as as' : List (Option (Attr F))} {o : IObj} {x : Inst F}

theorem live (h : ObjRel as o x) : ∀ p ∈ o.attrs, ∃ a, as[p]? = some (some a) := by
  intro p hp
  obtain ⟨k, hk⟩ := List.mem_iff_getElem?.1 hp
  have hl := h.attrs.length_eq
  obtain ⟨hk1, hk2⟩ := List.getElem?_eq_some_iff.1 hk
  refine ⟨x.attrs[k]'(hl ▸ hk1), ?_⟩
  have := h.attrs.get hk1 (hl ▸ hk1)
  simp only [List.get_eq_getElem] at this
  rw [hk2] at this
  exact this

theorem lt (h : ObjRel as o x) : ∀ p ∈ o.attrs, p < as.length := by
  intro p hp
  obtain ⟨a, ha⟩ := h.live p hp
  exact (List.getElem?_eq_some_iff.1 ha).1

theorem mono (h : ObjRel as o x)
    (hm : ∀ p ∈ o.attrs, ∀ a, as[p]? = some (some a) → as'[p]? = some (some a)) :
    ObjRel as' o x where
  label := h.label
  possible := h.possible
  attrs := by
    have := h.attrs
    have hm := hm
    revert hm
    generalize o.attrs = ps at this
    generalize x.attrs = xs at this
    induction this with
    | nil => intro _; exact .nil
    | cons h1 _ ih =>
      intro hm
      exact .cons (hm _ (by simp) _ h1) (ih fun p hp a ha => hm p (by simp [hp]) a ha)

/-- reading the k-th attribute of the object and of the value -/
theorem read {m : Mem F} (h : ObjRel m.attrs o x) (k : Nat) :
    (∃ p a, o.attrs[k]? = some p ∧ x.attrs[k]? = some a ∧ atR o.attrs k = .ok p ∧
      m.attr p = .ok a ∧ x.getAttribute k = .ok a) ∨
    (atR o.attrs k = .error (.throw "out_of_range") ∧
      x.getAttribute k = .error (.throw "out_of_range")) := by
  have hl := h.attrs.length_eq
  by_cases hk : k < o.attrs.length
  · left
    have := h.attrs.get hk (hl ▸ hk)
    simp only [List.get_eq_getElem] at this
    refine ⟨o.attrs[k], x.attrs[k]'(hl ▸ hk), List.getElem?_eq_getElem hk,
      List.getElem?_eq_getElem (hl ▸ hk), ?_, ?_, ?_⟩
    · simp [atR, List.getElem?_eq_getElem hk]
    · simp only [Mem.attr, idxR, this]; rfl
    · simp [Inst.getAttribute, atR, List.getElem?_eq_getElem (hl ▸ hk)]
  · right
    have h1 : o.attrs[k]? = none := List.getElem?_eq_none (by omega)
    have h2 : x.attrs[k]? = none := List.getElem?_eq_none (by omega)
    simp [Inst.getAttribute, atR, h1, h2]

theorem mapM {m : Mem F} (h : ObjRel m.attrs o x) : o.attrs.mapM m.attr = .ok x.attrs := by
  have := h.attrs
  generalize o.attrs = ps at this
  generalize x.attrs = xs at this
  induction this with
  | nil => rfl
  | @cons p a ps xs h1 _ ih =>
    have : m.attr p = .ok a := by simp only [Mem.attr, idxR, h1]; rfl
    rw [List.mapM_cons, this, res_bind_ok, ih]; rfl

end ObjRel

namespace Rel

variable {sep : Bool} {m : Mem F} {s : Vals F}

/-- the address is out of range, the object deleted, or both sides have it -/
theorem cases (h : Rel sep m s) (i : Nat) :
    (m.obj i = .error (.ub "operator[]") ∧ valAt s i = .error (.ub "operator[]")) ∨
    (m.obj i = .error (.ub "deleted object") ∧ valAt s i = .error (.ub "deleted object") ) ∨
    (∃ o x, m.insts[i]? = some (some o) ∧ s[i]? = some (some x) ∧ ObjRel m.attrs o x ∧
      m.obj i = .ok o ∧ valAt s i = .ok x) := by
  cases hi : m.insts[i]? with
  | none =>
    left
    have h1 : m.insts.length ≤ i := List.getElem?_eq_none_iff.1 hi
    have h2 : s[i]? = none := List.getElem?_eq_none (by rw [← h.len]; exact h1)
    simp [Mem.obj, valAt, idxR, hi, h2]
  | some c =>
    cases c with
    | none =>
      right; left
      have h2 := h.dead i hi
      simp [Mem.obj, valAt, idxR, hi, h2, live]
    | some o =>
      right; right
      obtain ⟨x, hx, ho⟩ := h.cell i o hi
      refine ⟨o, x, rfl, hx, ho, ?_, ?_⟩
      · simp [Mem.obj, idxR, hi, live]
      · simp [valAt, idxR, hx, live]

/-- reading an address gives the same -/
theorem look (h : Rel sep m s) (i : Nat) : m.look i = valAt s i := by
  rcases h.cases i with ⟨h1, h2⟩ | ⟨h1, h2⟩ | ⟨o, x, _, _, ho, h1, h2⟩
  · rw [h2, Mem.look, h1]; rfl
  · rw [h2, Mem.look, h1]; rfl
  · rw [h2, Mem.look, h1, res_bind_ok, ho.mapM, res_bind_ok, ho.label, ho.possible]; rfl

theorem look_eq (h : Rel sep m s) : m.look = valAt s := funext h.look

/-- one object gets new attribute pointers, each an old pointer of this object or a new one -/
theorem update (h : Rel sep m s) {i : Nat} {o o' : IObj} {x' : Inst F}
    {as' : List (Option (Attr F))} (hi : m.insts[i]? = some (some o))
    (hm : ∀ (p : Nat) a, m.attrs[p]? = some (some a) → as'[p]? = some (some a))
    (ho : ObjRel as' o' x')
    (hs : sep = true → o'.attrs.Nodup ∧ ∀ p ∈ o'.attrs, p ∈ o.attrs ∨ m.attrs.length ≤ p) :
    Rel sep ⟨as', m.insts.set i (some o')⟩ (s.set i (some x')) := by
  have hlt : i < m.insts.length := (List.getElem?_eq_some_iff.1 hi).1
  have hlt' : i < s.length := h.len ▸ hlt
  refine ⟨by simpa using h.len, ?_, ?_, ?_, ?_⟩
  · intro j hj
    by_cases e : i = j
    · subst e; simp [hlt] at hj
    · rw [List.getElem?_set_ne e] at hj ⊢
      exact h.dead j hj
  · intro j oj hj
    by_cases e : i = j
    · subst e
      simp only [List.getElem?_set_self hlt, Option.some.injEq] at hj
      subst hj
      exact ⟨x', by simp [hlt'], ho⟩
    · rw [List.getElem?_set_ne e] at hj ⊢
      obtain ⟨x, hx, hox⟩ := h.cell j oj hj
      exact ⟨x, hx, hox.mono fun p _ a ha => hm p a ha⟩
  · intro hsep j oj hj
    by_cases e : i = j
    · subst e
      simp only [List.getElem?_set_self hlt, Option.some.injEq] at hj
      subst hj
      exact (hs hsep).1
    · rw [List.getElem?_set_ne e] at hj
      exact h.nodup hsep j oj hj
  · intro hsep j k oj ok hjk hj hk p hp hpk
    by_cases e : i = j
    · subst e
      simp only [List.getElem?_set_self hlt, Option.some.injEq] at hj
      subst hj
      rw [List.getElem?_set_ne hjk] at hk
      rcases (hs hsep).2 p hp with h1 | h1
      · exact h.disj hsep i k o ok hjk hi hk p h1 hpk
      · obtain ⟨xk, _, hok⟩ := h.cell k ok hk
        have := hok.lt p hpk
        omega
    · rw [List.getElem?_set_ne e] at hj
      by_cases e' : i = k
      · subst e'
        simp only [List.getElem?_set_self hlt, Option.some.injEq] at hk
        subst hk
        rcases (hs hsep).2 p hpk with h1 | h1
        · exact h.disj hsep j i oj o (Ne.symm e) hj hi p hp h1
        · obtain ⟨xj, _, hoj⟩ := h.cell j oj hj
          have := hoj.lt p hp
          omega
      · rw [List.getElem?_set_ne e'] at hk
        exact h.disj hsep j k oj ok hjk hj hk p hp hpk

/-- an attribute object with a single owner is written -/
theorem write (h : Rel true m s) {i : Nat} {o : IObj} {x : Inst F} {k p : Nat} {b : Attr F}
    (hi : m.insts[i]? = some (some o)) (hx : s[i]? = some (some x)) (hp : o.attrs[k]? = some p) :
    Rel true { m with attrs := m.attrs.set p (some b) }
      (s.set i (some { x with attrs := x.attrs.set k b })) := by
  have hlt : i < m.insts.length := (List.getElem?_eq_some_iff.1 hi).1
  have hlt' : i < s.length := h.len ▸ hlt
  obtain ⟨x0, hx0, ho⟩ := h.cell i o hi
  rw [hx] at hx0; cases hx0
  have hpo : p ∈ o.attrs := List.mem_iff_getElem?.2 ⟨k, hp⟩
  have hplt := ho.lt p hpo
  have hnd := h.nodup rfl i o hi
  refine ⟨by simpa using h.len, ?_, ?_, h.nodup, h.disj⟩
  · intro j hj
    by_cases e : i = j
    · subst e; rw [hi] at hj; cases hj
    · rw [List.getElem?_set_ne e]
      exact h.dead j hj
  · intro j oj hj
    by_cases e : i = j
    · subst e
      rw [hi] at hj; cases hj
      refine ⟨{ x with attrs := x.attrs.set k b }, by simp [hlt'], ⟨ho.label, ho.possible, ?_⟩⟩
      have hl := ho.attrs.length_eq
      rw [List.forall₂_iff_get]
      refine ⟨by simpa using hl, ?_⟩
      intro l h1 h2
      simp only [List.get_eq_getElem, List.getElem_set]
      obtain ⟨hk1, hk2⟩ := List.getElem?_eq_some_iff.1 hp
      by_cases ekl : k = l
      · subst ekl
        rw [hk2]
        simp [hplt]
      · have hne : p ≠ o.attrs[l] := by
          intro hpe
          rw [← hk2] at hpe
          exact ekl ((List.Nodup.getElem_inj_iff hnd).1 hpe)
        rw [List.getElem?_set_ne hne]
        simp only [ekl, if_false]
        exact (List.forall₂_iff_get.1 ho.attrs).2 l h1 (hl ▸ h1)
    · rw [List.getElem?_set_ne e]
      obtain ⟨xj, hxj, hoj⟩ := h.cell j oj hj
      refine ⟨xj, hxj, hoj.mono ?_⟩
      intro q hq a ha
      have : p ≠ q := by
        intro hpq; subst hpq
        exact h.disj rfl i j o oj e hi hj p hpo hq
      simp only [List.getElem?_set_ne this]
      exact ha

/-- a new object at the next address -/
theorem append (h : Rel sep m s) {o : IObj} {x : Inst F} (ho : ObjRel m.attrs o x)
    (hs : sep = true → o.attrs = []) :
    Rel sep { m with insts := m.insts ++ [some o] } (s ++ [some x]) := by
  have key : ∀ {j : Nat} {c : Option IObj}, (m.insts ++ [some o])[j]? = some c →
      (j < m.insts.length ∧ m.insts[j]? = some c) ∨ (j = m.insts.length ∧ c = some o) := by
    intro j c hj
    by_cases hlt : j < m.insts.length
    · rw [List.getElem?_append_left hlt] at hj
      exact .inl ⟨hlt, hj⟩
    · rw [List.getElem?_append_right (by omega)] at hj
      have : j - m.insts.length = 0 := by
        by_contra hne
        rw [List.getElem?_eq_none (by simp; omega)] at hj
        cases hj
      rw [this] at hj
      simp only [List.getElem?_cons_zero, Option.some.injEq] at hj
      exact .inr ⟨by omega, hj.symm⟩
  refine ⟨by simp [h.len], ?_, ?_, ?_, ?_⟩
  · intro j hj
    rcases key hj with ⟨hlt, hj⟩ | ⟨_, hc⟩
    · rw [List.getElem?_append_left (h.len ▸ hlt)]
      exact h.dead j hj
    · cases hc
  · intro j oj hj
    rcases key hj with ⟨hlt, hj⟩ | ⟨e, hc⟩
    · rw [List.getElem?_append_left (h.len ▸ hlt)]
      exact h.cell j oj hj
    · cases hc
      refine ⟨x, ?_, ho⟩
      rw [e, h.len]
      simp
  · intro hsep j oj hj
    rcases key hj with ⟨_, hj⟩ | ⟨_, hc⟩
    · exact h.nodup hsep j oj hj
    · cases hc
      rw [hs hsep]; exact List.nodup_nil
  · intro hsep j k oj ok hjk hj hk p hp hpk
    rcases key hj with ⟨_, hj⟩ | ⟨_, hc⟩
    · rcases key hk with ⟨_, hk⟩ | ⟨_, hc⟩
      · exact h.disj hsep j k oj ok hjk hj hk p hp hpk
      · cases hc
        rw [hs hsep] at hpk; cases hpk
    · cases hc
      rw [hs hsep] at hp; cases hp

end Rel

/-! ## Calls on one instance -/

/-- the memory shows the values with the instance at `i` replaced by `x` -/
def At (sep : Bool) (s : Vals F) (i : Nat) (m : Mem F) (x : Inst F) : Prop :=
  i < s.length ∧ Rel sep m (s.set i (some x))

namespace At

variable {sep : Bool} {s : Vals F} {i : Nat} {m : Mem F} {x : Inst F}

theorem of_rel (h : Rel sep m s) (hx : s[i]? = some (some x)) : At sep s i m x := by
  obtain ⟨h1, h2⟩ := List.getElem?_eq_some_iff.1 hx
  refine ⟨h1, ?_⟩
  rw [← h2, List.set_getElem_self]
  exact h

theorem getObj (h : At sep s i m x) : ∃ o, m.insts[i]? = some (some o) ∧ m.obj i = .ok o ∧
    ObjRel m.attrs o x ∧ (s.set i (some x))[i]? = some (some x) := by
  have hx : (s.set i (some x))[i]? = some (some x) := by simp [h.1]
  rcases h.2.cases i with ⟨_, h2⟩ | ⟨_, h2⟩ | ⟨o, y, h3, h4, ho, h1, _⟩
  · simp [valAt, idxR, hx, live] at h2
  · simp [valAt, idxR, hx, live] at h2
  · rw [hx] at h4; cases h4
    exact ⟨o, h3, h1, ho, hx⟩

theorem add (h : At sep s i m x) (a : Attr F) :
    Agree (At sep s i) (m.addAttribute i a) (.ok (x.addAttribute a)) := by
  obtain ⟨o, hi, hobj, ho, hx⟩ := h.getObj
  rw [Mem.addAttribute, hobj, res_bind_ok]
  refine .ok ⟨h.1, ?_⟩
  have hext : ∀ (p : Nat) b, m.attrs[p]? = some (some b) →
      (m.attrs ++ [some a])[p]? = some (some b) := by
    intro p b hb
    rw [List.getElem?_append_left (List.getElem?_eq_some_iff.1 hb).1]; exact hb
  have ho' : ObjRel (m.attrs ++ [some a]) { o with attrs := o.attrs ++ [m.attrs.length] }
      (x.addAttribute a) := by
    refine ⟨ho.label, ho.possible, ?_⟩
    refine List.rel_append (R := fun (p : Nat) a' => _) (ho.mono fun p _ b hb => hext p b hb).attrs ?_
    exact .cons (by simp) .nil
  have := h.2.update hi hext ho' (by
    intro hsep
    have hnd := h.2.nodup hsep i o hi
    constructor
    · rw [List.nodup_append]
      refine ⟨hnd, by simp, ?_⟩
      intro p hp q hq hpq
      simp only [List.mem_singleton] at hq
      have := ho.lt p hp
      omega
    · intro p hp
      simp only [List.mem_append, List.mem_singleton] at hp
      rcases hp with hp | hp
      · exact .inl hp
      · exact .inr (by omega))
  rw [List.set_set] at this
  exact this

theorem remove (h : At sep s i m x) (k : Nat) :
    Agree (At sep s i) (m.removeAttribute i k) (x.removeAttribute k) := by
  obtain ⟨o, hi, hobj, ho, hx⟩ := h.getObj
  have hl := ho.attrs.length_eq
  rw [Mem.removeAttribute, hobj, res_bind_ok, Inst.removeAttribute, ← hl]
  by_cases hk : k < o.attrs.length
  · rw [if_pos hk, if_pos hk]
    refine .ok ⟨h.1, ?_⟩
    have ho' : ObjRel m.attrs { o with attrs := o.attrs.eraseIdx k }
        { x with attrs := x.attrs.eraseIdx k } := by
      refine ⟨ho.label, ho.possible, ?_⟩
      have := ho.attrs
      show List.Forall₂ _ (o.attrs.eraseIdx k) (x.attrs.eraseIdx k)
      rw [List.eraseIdx_eq_take_drop_succ, List.eraseIdx_eq_take_drop_succ]
      exact List.rel_append (List.forall₂_take k this) (List.forall₂_drop (k + 1) this)
    have := h.2.update hi (fun _ _ ha => ha) ho' (by
      intro hsep
      refine ⟨(h.2.nodup hsep i o hi).sublist (List.eraseIdx_sublist _ _), ?_⟩
      intro p hp
      exact .inl (List.mem_of_mem_eraseIdx hp))
    rw [List.set_set] at this
    exact this
  · rw [if_neg hk, if_neg hk]
    exact .err _

theorem removeAll (h : At sep s i m x) :
    Agree (At sep s i) (m.removeAllAttributes i) (.ok x.removeAllAttributes) := by
  obtain ⟨o, hi, hobj, ho, hx⟩ := h.getObj
  rw [Mem.removeAllAttributes, hobj, res_bind_ok]
  refine .ok ⟨h.1, ?_⟩
  have ho' : ObjRel m.attrs { o with attrs := [] } x.removeAllAttributes :=
    ⟨ho.label, ho.possible, .nil⟩
  have := h.2.update hi (fun _ _ ha => ha) ho' (by
    intro _
    exact ⟨List.nodup_nil, fun p hp => by cases hp⟩)
  rw [List.set_set] at this
  exact this

theorem write {o : IObj} {k p : Nat} (h : At true s i m x) (hi : m.insts[i]? = some (some o))
    (hp : o.attrs[k]? = some p) (b : Attr F) :
    At true s i { m with attrs := m.attrs.set p (some b) }
      { x with attrs := x.attrs.set k b } := by
  obtain ⟨o', hi', _, _, hx⟩ := h.getObj
  have := h.2.write (b := b) hi hx hp
  rw [List.set_set] at this
  exact ⟨h.1, this⟩

theorem set (h : At true s i m x) (k : Nat) (v : F) :
    Agree (At true s i) (m.setValue i k v) (x.setValue k v) := by
  obtain ⟨o, hi, hobj, ho, hx⟩ := h.getObj
  rw [Mem.setValue, hobj, res_bind_ok, Inst.setValue]
  rcases ho.read (m := m) k with ⟨p, a, hp, _, h1, h2, h3⟩ | ⟨h1, h2⟩
  · rw [h1, res_bind_ok, h2, res_bind_ok, h3, res_bind_ok]
    cases hc : a.contVal with
    | error e => exact .err e
    | ok c => exact .ok (h.write hi hp _)
  · rw [h1, h2]; exact .err _

/-! ### The conversions of the filters -/

theorem laryStep (h : At sep s i m x) (enc : DD → Attr F → List (Attr F)) (dists : List DD)
    (k : Nat) :
    Agree (At sep s i) (Mem.laryStep enc dists i m k) (Verif.laryStep enc dists x k) := by
  rw [Mem.laryStep, Verif.laryStep]
  cases hd : atR dists k with
  | error e => exact .err e
  | ok d =>
    rw [res_bind_ok, res_bind_ok]
    by_cases he : d.isEmpty = true
    · rw [if_pos he, if_pos he]; exact .ok h
    · rw [if_neg he, if_neg he]
      obtain ⟨o, hi, hobj, ho, hx⟩ := h.getObj
      rw [hobj, res_bind_ok]
      rcases ho.read (m := m) k with ⟨p, a, hp, _, h1, h2, h3⟩ | ⟨h1, h2⟩
      · rw [h1, res_bind_ok, h2, res_bind_ok, h3, res_bind_ok]
        have := Agree.fold (R := At sep s i) (f := fun m b => Mem.addAttribute m i b)
          (g := fun x b => .ok (x.addAttribute b)) (fun m x b hm => hm.add b) (enc d a) m x h
        rw [foldlM_ok (g := Inst.addAttribute) (fun _ _ _ => rfl)] at this
        exact this
      · rw [h1, h2]; exact .err _

theorem removeStep (dists : List DD) (j k : Nat) (h : At sep s i m x) :
    Agree (fun (p : Mem F × Nat) (q : Inst F × Nat) => At sep s i p.1 q.1 ∧ p.2 = q.2)
      (Mem.removeStep dists i (m, k) j) (Verif.removeStep dists (x, k) j) := by
  rw [Mem.removeStep, Verif.removeStep]
  cases hd : atR dists j with
  | error e => exact .err e
  | ok d =>
    rw [res_bind_ok, res_bind_ok]
    by_cases he : d.isEmpty = true
    · rw [if_pos he, if_pos he]; exact .ok ⟨h, rfl⟩
    · rw [if_neg he, if_neg he]
      exact (h.remove k).bind fun m x hm => .ok ⟨hm, rfl⟩

theorem lary (h : At sep s i m x) (enc : DD → Attr F → List (Attr F)) (dists : List DD) :
    Agree (At sep s i) (Mem.laryConvert enc dists m i) (Verif.laryConvert enc dists x) := by
  obtain ⟨o, hi, hobj, ho, hx⟩ := h.getObj
  rw [Mem.laryConvert, hobj, res_bind_ok]
  simp only [Verif.laryConvert, Inst.attributeSize, ho.attrs.length_eq]
  refine (Agree.fold (fun m x k hm => hm.laryStep enc dists k) _ m x h).bind ?_
  intro m x hm
  rw [removeDiscreteAttributes]
  refine (Agree.fold (R := fun (p : Mem F × Nat) (q : Inst F × Nat) =>
    At sep s i p.1 q.1 ∧ p.2 = q.2) ?_ _ (m, 0) (x, 0) ⟨hm, rfl⟩).bind ?_
  · rintro ⟨m, k⟩ ⟨x, k'⟩ j ⟨h1, h2⟩
    cases h2
    exact removeStep dists j k h1
  · intro p q hpq
    exact .ok hpq.1

theorem normalizeStep (h : At true s i m x) (avg sd : List (Option (Attr F))) (k : Nat) :
    Agree (At true s i) (Mem.normalizeStep avg sd i m k) (Verif.normalizeStep avg sd x k) := by
  obtain ⟨o, hi, hobj, ho, hx⟩ := h.getObj
  rw [Mem.normalizeStep, hobj, res_bind_ok, Verif.normalizeStep]
  rcases ho.read (m := m) k with ⟨p, a, hp, _, h1, h2, h3⟩ | ⟨h1, h2⟩
  · rw [h1, res_bind_ok, h2, res_bind_ok, h3, res_bind_ok]
    by_cases hc : a.isContinuous = true
    · rw [if_pos hc, if_pos hc]
      cases hv : a.contVal with
      | error e => exact .err e
      | ok xi =>
        rw [res_bind_ok, res_bind_ok]
        cases hmi : optContAt avg k with
        | error e => exact .err e
        | ok mi =>
          rw [res_bind_ok, res_bind_ok]
          cases hsi : optContAt sd k with
          | error e => exact .err e
          | ok si => exact .ok (h.write hi hp _)
    · rw [if_neg hc, if_neg hc]; exact .ok h
  · rw [h1, h2]; exact .err _

theorem norm (h : At true s i m x) (avg sd : List (Option (Attr F))) :
    Agree (At true s i) (Mem.normalizeConvert avg sd m i) (normalizeInstance avg sd x) := by
  obtain ⟨o, hi, hobj, ho, hx⟩ := h.getObj
  rw [Mem.normalizeConvert, hobj, res_bind_ok, normalizeInstance, Inst.attributeSize,
    ho.attrs.length_eq]
  exact Agree.fold (fun m x k hm => hm.normalizeStep avg sd k) _ m x h

theorem pcaStep (h : At sep s i m x) (as : List F) (e : List F) :
    Agree (At sep s i) (Mem.pcaStep as i m e) (.ok (Verif.pcaStep as x e)) := by
  unfold Mem.pcaStep Verif.pcaStep
  cases dotProduct as e with
  | error _ => exact .ok h
  | ok d => exact h.add _

theorem pca (h : At sep s i m x) (es : List (List F)) :
    Agree (At sep s i) (Mem.pcaConvert es m i) (pcaInstance es x) := by
  obtain ⟨o, hi, hobj, ho, hx⟩ := h.getObj
  have hl : m.look i = .ok x := by rw [h.2.look]; simp [valAt, idxR, hx, live]
  rw [Mem.pcaConvert, hl, res_bind_ok, pcaInstance]
  cases hc : x.continuousAttributes with
  | error e => exact .err e
  | ok as =>
    rw [res_bind_ok, res_bind_ok]
    have h1 := h.removeAll
    cases hr : m.removeAllAttributes i with
    | error e => rw [hr] at h1; cases h1
    | ok m' =>
      rw [hr] at h1
      cases h1 with
      | ok h1 =>
        rw [res_bind_ok]
        have := Agree.fold (R := At sep s i) (f := Mem.pcaStep as i)
          (g := fun x e => .ok (Verif.pcaStep as x e)) (fun m x e hm => hm.pcaStep as e) es m' _ h1
        rw [foldlM_ok (g := Verif.pcaStep as) (fun _ _ _ => rfl)] at this
        exact this

end At

/-- a call on one instance that follows its pointer first -/
theorem upd_sim {sep : Bool} {m : Mem F} {s : Vals F} {i : Nat} {r : Res (Mem F)}
    {f : Inst F → Res (Inst F)} (h : Rel sep m s) (he : ∀ e, m.obj i = .error e → r = .error e)
    (hf : ∀ x, At sep s i m x → Agree (At sep s i) r (f x)) :
    Agree (Rel sep) r (updAt f s i) := by
  rcases h.cases i with ⟨h1, h2⟩ | ⟨h1, h2⟩ | ⟨o, x, _, hx, ho, h1, h2⟩
  · rw [he _ h1, updAt, h2]; exact .err _
  · rw [he _ h1, updAt, h2]; exact .err _
  · rw [updAt, h2, res_bind_ok]
    have := hf x (At.of_rel h hx)
    revert this
    generalize f x = q
    intro this
    cases this with
    | err e => exact .err e
    | ok hy => exact .ok hy.2

end Verif
