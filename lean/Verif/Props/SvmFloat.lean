import Verif.Lemmas.SvmFloat
import Verif.Props.Solver
import Verif.Props.TreeUnits

/-! # C177: the multipliers of the support vector machine in double precision -/

set_option linter.unusedSectionVars false

namespace Verif
open Dbl D53
variable {L : CMath}

/-! ## Specification -/

/-- the value of the kernel for two rows -/
def rowKernel (p : SvmParam (D53 L)) (a b : NodeL (D53 L)) : D53 L :=
  Kern.value p.kernelType p.degree p.gamma p.coefficient0 (nodeDot a b) (nodeDot a a) (nodeDot b b)

/-- what the caller hands over: `l` labels that are 1 or -1, finite linear terms, a finite bound that is not
negative, and rows whose kernel values are finite -/
structure SvmInput (l : Nat) (x : List (NodeL (D53 L))) (y b : List (D53 L)) (p : SvmParam (D53 L)) (c : ℚ) : Prop where
  bound : Is p.C c
  nonneg : 0 ≤ c
  labels : ∀ a ∈ y, Is a 1 ∨ Is a (-1)
  linear : ∀ a ∈ b, a.Num
  kernel : ∀ u ∈ x, ∀ v ∈ x, (rowKernel p u v).Num

/-- the exact value of `y_0 a_0 + ... + y_(l-1) a_(l-1)` -/
def balance (l : Nat) (y alpha : List (D53 L)) : ℚ :=
  ∑ k ∈ Finset.range l, (y.getD k Dbl.zero).num * (alpha.getD k Dbl.zero).num

namespace SvmFloat

/-! ## Arrays -/

section arrays
variable {α : Type}

theorem swapR_inv {v v' : List α} {i j : Nat} (h : swapR v i j = .ok v') :
    i < v.length ∧ j < v.length ∧ v'.length = v.length ∧ ∀ k, v'[k]? = v[Equiv.swap i j k]? := by
  have h' := h
  unfold swapR at h'
  simp only [bind_ok_iff, idxR_eq_ok] at h'
  obtain ⟨a, ha, b, hb, -⟩ := h'
  have hi := (List.getElem?_eq_some_iff.1 ha).1
  have hj := (List.getElem?_eq_some_iff.1 hb).1
  obtain ⟨w, e, hl, hk⟩ := swapR_ok v i j hi hj
  rw [h] at e
  cases e
  exact ⟨hi, hj, hl, hk⟩

theorem swapR_all {P : α → Prop} {v v' : List α} {i j : Nat} (h : swapR v i j = .ok v') (hv : ∀ a ∈ v, P a) :
    ∀ a ∈ v', P a := fun a ha => hv a (swapped_mem v v' i j (swapR_inv h).2.2.2 a ha)

theorem set_all {P : α → Prop} {v : List α} {k : Nat} {c : α} (hv : ∀ a ∈ v, P a) (hc : P c) : ∀ a ∈ v.set k c, P a := by
  intro a ha
  rcases List.mem_or_eq_of_mem_set ha with h | h
  · exact hv a h
  · exact h ▸ hc

theorem updateAt_inv {v v' : List α} {k : Nat} {f : α → Res α} (h : updateAt v k f = .ok v') :
    ∃ a c, v[k]? = some a ∧ f a = .ok c ∧ v' = v.set k c := by
  unfold updateAt at h
  simp only [bind_ok_iff, idxR_eq_ok] at h
  obtain ⟨a, ha, c, hc, h⟩ := h
  exact ⟨a, c, ha, hc, (Except.ok.inj h).symm⟩

theorem updateAll_all {P : α → Prop} {v v' : List α} {ks : List Nat} {f : Nat → α → Res α}
    (h : updateAll v ks f = .ok v') (hv : ∀ a ∈ v, P a) (hf : ∀ k a c, P a → f k a = .ok c → P c) : ∀ a ∈ v', P a := by
  unfold updateAll at h
  refine foldlM_keeps (P := fun v : List α => ∀ a ∈ v, P a) ?_ ks v v' h hv
  intro v k v' hv h
  obtain ⟨a, c, ha, hc, rfl⟩ := updateAt_inv h
  exact set_all hv (hf k a c (hv a (List.mem_of_getElem? ha)) hc)

theorem updateAll_other {v v' : List α} {ks : List Nat} {f : Nat → α → Res α} {m : Nat}
    (h : updateAll v ks f = .ok v') (hm : m ∉ ks) : v'[m]? = v[m]? := by
  unfold updateAll at h
  induction ks generalizing v with
  | nil => cases h; rfl
  | cons k ks ih =>
    rw [List.foldlM_cons, bind_ok_iff] at h
    obtain ⟨w, hw, h⟩ := h
    rw [List.mem_cons, not_or] at hm
    rw [ih h hm.2]
    obtain ⟨a, c, ha, hc, rfl⟩ := updateAt_inv hw
    rw [List.getElem?_set_ne (Ne.symm hm.1)]

end arrays

/-! ## Kernel -/

/-- the rows of the kernel are rows of the problem, with their squares -/
structure KernOk (x : List (NodeL (D53 L))) (p : SvmParam (D53 L)) (k : Kern (D53 L)) : Prop where
  rows : ∀ a ∈ k.x, a ∈ x
  type : k.kernelType = p.kernelType
  degree : k.degree = p.degree
  gamma : k.gamma = p.gamma
  coefficient0 : k.coefficient0 = p.coefficient0
  squares : p.kernelType = .rbf → k.xSquare = k.x.map (fun n => nodeDot n n)

variable {x : List (NodeL (D53 L))} {p : SvmParam (D53 L)} {c : ℚ}

theorem KernOk.make {l : Nat} {k : Kern (D53 L)} (h : Kern.make l x p = .ok k) : KernOk x p k := by
  unfold Kern.make at h
  rw [bind_ok_iff] at h
  obtain ⟨u, hu, h⟩ := h
  have rows : ∀ a ∈ u, a ∈ x := by
    intro a ha
    obtain ⟨i, -, hi⟩ := mapM_ok_mem hu ha
    rw [idxR_eq_ok] at hi
    exact List.mem_of_getElem? hi
  by_cases ht : p.kernelType = .rbf
  · simp only [if_pos ht] at h
    rw [mapM_pure (fun n : NodeL (D53 L) => nodeDot n n), res_bind_ok] at h
    cases h
    exact ⟨rows, rfl, rfl, rfl, rfl, fun _ => rfl⟩
  · simp only [if_neg ht] at h
    cases h
    exact ⟨rows, rfl, rfl, rfl, rfl, fun h => absurd h ht⟩

theorem KernOk.swap {k k' : Kern (D53 L)} {i j : Nat} (hk : KernOk x p k) (h : k.swapIndex i j = .ok k') : KernOk x p k' := by
  unfold Kern.swapIndex at h
  rw [bind_ok_iff] at h
  obtain ⟨u, hu, h⟩ := h
  have hm := swapR_map k.x u (fun n => nodeDot n n) i j hu
  by_cases he : k.xSquare.isEmpty = true
  · simp only [if_pos he] at h
    cases h
    refine ⟨swapR_all hu hk.rows, hk.type, hk.degree, hk.gamma, hk.coefficient0, fun ht => ?_⟩
    rw [← hk.squares ht] at hm
    have := (swapR_inv hm).1
    rw [List.isEmpty_iff.1 he] at this
    exact absurd this (Nat.not_lt_zero _)
  · simp only [if_neg he, bind_ok_iff] at h
    obtain ⟨sq, hsq, h⟩ := h
    cases h
    refine ⟨swapR_all hu hk.rows, hk.type, hk.degree, hk.gamma, hk.coefficient0, fun ht => ?_⟩
    rw [← hk.squares ht, hsq] at hm
    exact Except.ok.inj hm

theorem KernOk.value {k : Kern (D53 L)} {i j : Nat} {v : D53 L} (hk : KernOk x p k) (h : k.function i j = .ok v) :
    ∃ a ∈ x, ∃ b ∈ x, v = rowKernel p a b := by
  unfold Kern.function at h
  simp only [bind_ok_iff, idxR_eq_ok] at h
  obtain ⟨a, ha, b, hb, h⟩ := h
  refine ⟨a, hk.rows a (List.mem_of_getElem? ha), b, hk.rows b (List.mem_of_getElem? hb), ?_⟩
  rw [hk.type] at h
  by_cases ht : p.kernelType = .rbf
  · rw [if_pos ht] at h
    simp only [bind_ok_iff, idxR_eq_ok] at h
    obtain ⟨s, hs, t, ht', h⟩ := h
    rw [hk.squares ht, List.getElem?_map, ha] at hs
    rw [hk.squares ht, List.getElem?_map, hb] at ht'
    cases hs; cases ht'
    rw [hk.degree, hk.gamma, hk.coefficient0] at h
    exact (Except.ok.inj h).symm
  · rw [if_neg ht, hk.degree, hk.gamma, hk.coefficient0] at h
    rw [← Except.ok.inj h]
    unfold rowKernel Kern.value
    cases hp : p.kernelType <;> first | rfl | exact absurd hp ht

/-! ## Invariant -/

/-- 1 or -1 -/
def Label (a : D53 L) : Prop := Is a 1 ∨ Is a (-1)

theorem Label.num {a : D53 L} (h : Label a) : a.Num := h.elim Is.toNum Is.toNum

structure Inv (x : List (NodeL (D53 L))) (p : SvmParam (D53 L)) (c : ℚ) (l : Nat) (s : Smo (D53 L)) : Prop where
  size : s.l = l
  act : s.activeSize ≤ l
  C : Is s.C c
  c0 : 0 ≤ c
  len : s.alpha.length = l
  alpha : ∀ a ∈ s.alpha, a.InBox c
  y : ∀ a ∈ s.y, Label a
  b : ∀ a ∈ s.b, a.Num
  G : ∀ a ∈ s.G, a.Num
  GBar : ∀ a ∈ s.GBar, a.Num
  Qy : ∀ a ∈ s.Q.y, Label a
  kern : KernOk x p s.Q.kernel

/-- all kernel values are finite -/
def Finite (x : List (NodeL (D53 L))) (p : SvmParam (D53 L)) : Prop := ∀ u ∈ x, ∀ v ∈ x, (rowKernel p u v).Num

variable {l : Nat} {s s' : Smo (D53 L)}

theorem Inv.entry (h : Inv x p c l s) (hf : Finite x p) {i j : Nat} {v : D53 L} (he : s.Q.entry i j = .ok v) : v.Num := by
  unfold QMat.entry at he
  simp only [bind_ok_iff, idxR_eq_ok] at he
  obtain ⟨a, ha, b, hb, k, hk, he⟩ := he
  obtain ⟨u, hu, w, hw, rfl⟩ := h.kern.value hk
  cases he
  exact ((h.Qy a (List.mem_of_getElem? ha)).num.mul (h.Qy b (List.mem_of_getElem? hb)).num).mul (hf u hu w hw)

theorem Inv.getQ (h : Inv x p c l s) (hf : Finite x p) {i n : Nat} {v : List (D53 L)} (he : s.Q.getQ i n = .ok v) :
    ∀ a ∈ v, a.Num := by
  intro a ha
  obtain ⟨j, -, hj⟩ := mapM_ok_mem he ha
  exact h.entry hf hj

theorem addScaled_num {a : D53 L} {q : List (D53 L)} (ha : a.Num) (hq : ∀ a ∈ q, a.Num) (k : Nat) (o r : D53 L)
    (ho : o.Num) (h : Smo.addScaled a q k o = .ok r) : r.Num := by
  unfold Smo.addScaled at h
  simp only [bind_ok_iff, idxR_eq_ok] at h
  obtain ⟨b, hb, h⟩ := h
  cases h
  exact ho.add (ha.mul (hq b (List.mem_of_getElem? hb)))

theorem subScaled_num {a : D53 L} {q : List (D53 L)} (ha : a.Num) (hq : ∀ a ∈ q, a.Num) (k : Nat) (o r : D53 L)
    (ho : o.Num) (h : Smo.subScaled a q k o = .ok r) : r.Num := by
  unfold Smo.subScaled at h
  simp only [bind_ok_iff, idxR_eq_ok] at h
  obtain ⟨b, hb, h⟩ := h
  cases h
  exact ho.sub (ha.mul (hq b (List.mem_of_getElem? hb)))

/-- what a step that moves no multiplier keeps -/
structure Keeps (x : List (NodeL (D53 L))) (p : SvmParam (D53 L)) (c : ℚ) (l : Nat) (s s' : Smo (D53 L)) : Prop where
  inv : Inv x p c l s'
  balance : balance l s'.y s'.alpha = balance l s.y s.alpha

theorem Keeps.rfl (h : Inv x p c l s) : Keeps x p c l s s := ⟨h, by rfl⟩

theorem Keeps.trans {s'' : Smo (D53 L)} (h : Keeps x p c l s s') (h' : Keeps x p c l s' s'') : Keeps x p c l s s'' :=
  ⟨h'.inv, h'.balance.trans h.balance⟩

theorem balance_swap {y y' alpha alpha' : List (D53 L)} {i j : Nat} (hi : i < l) (hj : j < l)
    (hy : ∀ k, y'[k]? = y[Equiv.swap i j k]?) (ha : ∀ k, alpha'[k]? = alpha[Equiv.swap i j k]?) :
    balance l y' alpha' = balance l y alpha := by
  unfold balance
  refine Finset.sum_nbij' (Equiv.swap i j) (Equiv.swap i j) ?_ ?_ ?_ ?_ ?_
  · intro k hk
    rw [Finset.mem_range] at hk ⊢
    exact (swap_lt i j k l hi hj).2 hk
  · intro k hk
    rw [Finset.mem_range] at hk ⊢
    exact (swap_lt i j k l hi hj).2 hk
  · intro k _; exact Equiv.swap_apply_self i j k
  · intro k _; exact Equiv.swap_apply_self i j k
  · intro k _
    rw [getD_of_swapped y y' _ i j hy, getD_of_swapped alpha alpha' _ i j ha]

theorem Inv.swap (h : Inv x p c l s) {i j : Nat} (hs : s.swapIndex i j = .ok s') : Keeps x p c l s s' := by
  unfold Smo.swapIndex QMat.swapIndex at hs
  simp only [bind_ok_iff] at hs
  obtain ⟨Q, ⟨k, hk, qy, hqy, hQ⟩, y, hy, G, hG, al, hal, b, hb, gb, hgb, as, has, st, hst, hs⟩ := hs
  cases hs
  cases hQ
  have ia := swapR_inv hal
  have iy := swapR_inv hy
  rw [h.len] at ia
  exact ⟨⟨h.size, h.act, h.C, h.c0, ia.2.2.1, swapR_all hal h.alpha, swapR_all hy h.y, swapR_all hb h.b,
    swapR_all hG h.G, swapR_all hgb h.GBar, swapR_all hqy h.Qy, h.kern.swap hk⟩, balance_swap ia.1 ia.2.1 iy.2.2.2 ia.2.2.2⟩

theorem Inv.swap_lt (h : Inv x p c l s) {i j : Nat} (hs : s.swapIndex i j = .ok s') : i < l := by
  unfold Smo.swapIndex at hs
  simp only [bind_ok_iff] at hs
  obtain ⟨Q, -, y, -, G, -, al, hal, -⟩ := hs
  exact h.len ▸ (swapR_inv hal).1

theorem Inv.reconstruct (h : Inv x p c l s) (hf : Finite x p) (hs : s.reconstructGradient = .ok s') :
    Keeps x p c l s s' ∧ ∃ G, s' = { s with G := G } ∧ ∀ k < s.activeSize, G[k]? = s.G[k]? := by
  unfold Smo.reconstructGradient at hs
  by_cases he : s.activeSize = s.l
  · rw [if_pos he] at hs
    cases hs
    exact ⟨.rfl h, s.G, rfl, fun k _ => by rfl⟩
  · rw [if_neg he] at hs
    simp only [bind_ok_iff] at hs
    obtain ⟨G1, h1, G2, h2, hs⟩ := hs
    cases hs
    have n1 : ∀ a ∈ G1, a.Num := by
      refine updateAll_all h1 h.G ?_
      intro k a r _ hr
      unfold Smo.resetEntry at hr
      simp only [bind_ok_iff, idxR_eq_ok] at hr
      obtain ⟨g, hg, b, hb, hr⟩ := hr
      cases hr
      exact (h.GBar g (List.mem_of_getElem? hg)).add (h.b b (List.mem_of_getElem? hb))
    have o1 : ∀ k < s.activeSize, G1[k]? = s.G[k]? := fun k hk =>
      updateAll_other h1 (by rw [List.mem_range'_1]; omega)
    have n2 : (∀ a ∈ G2, a.Num) ∧ ∀ k < s.activeSize, G2[k]? = s.G[k]? := by
      refine foldlM_keeps (P := fun G : List (D53 L) => (∀ a ∈ G, a.Num) ∧ ∀ k < s.activeSize, G[k]? = s.G[k]?)
        ?_ _ _ _ h2 ⟨n1, o1⟩
      intro G i G' hG hs
      unfold Smo.freeContribution at hs
      simp only [bind_ok_iff] at hs
      obtain ⟨fr, -, hs⟩ := hs
      by_cases hfr : fr = true
      · rw [if_pos hfr] at hs
        simp only [bind_ok_iff, idxR_eq_ok] at hs
        obtain ⟨Qi, hQ, a, ha, hs⟩ := hs
        exact ⟨updateAll_all hs hG.1 (addScaled_num (h.alpha a (List.mem_of_getElem? ha)).num (h.getQ hf hQ)),
          fun k hk => (updateAll_other hs (by rw [List.mem_range'_1]; omega)).trans (hG.2 k hk)⟩
      · rw [if_neg hfr] at hs
        cases hs
        exact hG
    exact ⟨⟨⟨h.size, h.act, h.C, h.c0, h.len, h.alpha, h.y, h.b, n2.1, h.GBar, h.Qy, h.kern⟩, by rfl⟩, G2, rfl, n2.2⟩

theorem Inv.active (h : Inv x p c l s) {n : Nat} (hn : n ≤ l) : Keeps x p c l s { s with activeSize := n } :=
  ⟨⟨h.size, hn, h.C, h.c0, h.len, h.alpha, h.y, h.b, h.G, h.GBar, h.Qy, h.kern⟩, by rfl⟩

theorem Inv.counter (h : Inv x p c l s) (n : Int) : Keeps x p c l s { s with counter := n } :=
  ⟨⟨h.size, h.act, h.C, h.c0, h.len, h.alpha, h.y, h.b, h.G, h.GBar, h.Qy, h.kern⟩, by rfl⟩

theorem Inv.unshrinked (h : Inv x p c l s) (n : Bool) : Keeps x p c l s { s with unshrinked := n } :=
  ⟨⟨h.size, h.act, h.C, h.c0, h.len, h.alpha, h.y, h.b, h.G, h.GBar, h.Qy, h.kern⟩, by rfl⟩

theorem Inv.shrinkLoop (gm0 gm1 : D53 L) (n k : Nat) (h : Inv x p c l s) (hs : Smo.shrinkLoop gm0 gm1 n k s = .ok s') :
    Keeps x p c l s s' := by
  induction n generalizing k s with
  | zero => unfold Smo.shrinkLoop at hs; cases hs; exact .rfl h
  | succ n ih =>
    unfold Smo.shrinkLoop at hs
    simp only [bind_ok_iff] at hs
    obtain ⟨st, -, hs⟩ := hs
    by_cases hst : st = true
    · rw [if_pos hst] at hs; exact ih _ h hs
    · rw [if_neg hst] at hs
      simp only [bind_ok_iff] at hs
      obtain ⟨t, ht, hs⟩ := hs
      have h1 := h.active (n := s.activeSize - 1) ((Nat.sub_le _ _).trans h.act)
      have h2 := h1.inv.swap ht
      exact (h1.trans h2).trans (ih _ h2.inv hs)

theorem Inv.unshrinkLoop (gm0 gm1 : D53 L) (n : Nat) (h : Inv x p c l s) (hs : Smo.unshrinkLoop gm0 gm1 n s = .ok s') :
    Keeps x p c l s s' := by
  induction n generalizing s with
  | zero => unfold Smo.unshrinkLoop at hs; cases hs; exact .rfl h
  | succ n ih =>
    unfold Smo.unshrinkLoop at hs
    simp only [bind_ok_iff] at hs
    obtain ⟨st, -, hs⟩ := hs
    by_cases hst : st = true
    · rw [if_pos hst] at hs; exact ih h hs
    · rw [if_neg hst] at hs
      simp only [bind_ok_iff] at hs
      obtain ⟨t, ht, hs⟩ := hs
      have h2 := h.swap ht
      have h3 := h2.inv.active (n := s.activeSize + 1) (by have := h.swap_lt ht; omega)
      exact (h2.trans h3).trans (ih h3.inv hs)

theorem Inv.doShrinking (h : Inv x p c l s) (hf : Finite x p) (hs : s.doShrinking = .ok s') : Keeps x p c l s s' := by
  unfold Smo.doShrinking at hs
  simp only [bind_ok_iff] at hs
  obtain ⟨w, -, hs⟩ := hs
  by_cases hw : w.1 = true
  · rw [if_pos hw] at hs; cases hs; exact .rfl h
  · rw [if_neg hw] at hs
    simp only [bind_ok_iff] at hs
    obtain ⟨o1, -, o0, -, y1, -, g1, -, y0, -, g0, -, t, ht, hs⟩ := hs
    have h1 := h.shrinkLoop _ _ _ _ ht
    split at hs
    · cases hs; exact h1
    · simp only [bind_ok_iff] at hs
      obtain ⟨u, hu, hs⟩ := hs
      have h2 := h1.inv.unshrinked true
      have h3 := (h2.inv.reconstruct hf hu).1
      exact ((h1.trans h2).trans h3).trans (h3.inv.unshrinkLoop _ _ _ hs)

theorem Inv.countDown (h : Inv x p c l s) (hf : Finite x p) (hs : s.countDown = .ok s') : Keeps x p c l s s' := by
  unfold Smo.countDown at hs
  split at hs
  · have h1 := h.counter (min s.l 1000 : Nat)
    simp only at hs
    split at hs
    · exact h1.trans (h1.inv.doShrinking hf hs)
    · cases hs; exact h1
  · cases hs; exact h.counter _

/-! ## The choice of the pair -/

/-- `-y g`, the value compared with `GMax[0]` -/
def v0 (y g : D53 L) : D53 L := if y ==. Dbl.ofInt 1 then Dbl.neg g else g

/-- `y g`, the value compared with `GMax[1]` -/
def v1 (y g : D53 L) : D53 L := if y ==. Dbl.ofInt 1 then g else Dbl.neg g

theorem v0_num {y g : D53 L} (hg : g.Num) : (v0 y g).Num := by unfold v0; split; exacts [hg.neg, hg]
theorem v1_num {y g : D53 L} (hg : g.Num) : (v1 y g).Num := by unfold v1; split; exacts [hg, hg.neg]

def e0 (y : D53 L) (u : AlphaStatus) : Bool := if y ==. Dbl.ofInt 1 then decide (u ≠ .upper) else decide (u ≠ .lower)
def e1 (y : D53 L) (u : AlphaStatus) : Bool := if y ==. Dbl.ofInt 1 then decide (u ≠ .lower) else decide (u ≠ .upper)

theorem selRow_eq (t : Smo.Sel (D53 L)) (i : Nat) (y g : D53 L) (u : AlphaStatus) :
    Smo.selRow t i y g u = (fun t => if e1 y u then Smo.Sel.offer1 t (v1 y g) i else t)
      (if e0 y u then t.offer0 (v0 y g) i else t) := by
  unfold Smo.selRow v0 v1 e0 e1 Smo.Sel.offer0 Smo.Sel.offer1
  by_cases hy : (y ==. Dbl.ofInt 1) = true
  · simp only [hy, if_true, decide_eq_true_eq]
  · simp only [hy]
    cases u <;> simp
    split <;> (split <;> simp_all)

/-- the row `i` was eligible for place `o` with value `v` -/
structure Chosen (s : Smo (D53 L)) (e : D53 L → AlphaStatus → Bool) (f : D53 L → D53 L → D53 L) (i : Nat) (v : D53 L) :
    Prop where
  row : ∃ y g u, s.y[i]? = some y ∧ s.G[i]? = some g ∧ s.status[i]? = some u ∧ e y u = true ∧ v = f y g

/-- result of looking at the rows below `n` for one of the two places -/
def Looked (s : Smo (D53 L)) (e : D53 L → AlphaStatus → Bool) (f : D53 L → D53 L → D53 L) (start : Option Nat) (n : Nat)
    (g : D53 L) (o : Option Nat) : Prop :=
  g.Num ∧ ((o = start ∧ g = Dbl.neg Dbl.maxVal ∧ ∀ k < n, ∀ v, Chosen s e f k v → (Dbl.neg Dbl.maxVal <=. v) = false) ∨
    (∃ i < n, o = some i ∧ Chosen s e f i g ∧ ((Dbl.neg Dbl.maxVal : D53 L) <=. g) = true))

theorem maxVal_num : (Dbl.maxVal : D53 L).Num := ⟨_, rfl⟩

theorem Looked.zero {e : D53 L → AlphaStatus → Bool} {f : D53 L → D53 L → D53 L} {o : Option Nat} :
    Looked s e f o 0 (Dbl.neg Dbl.maxVal) o :=
  ⟨maxVal_num.neg, .inl ⟨rfl, rfl, fun k hk => absurd hk (Nat.not_lt_zero k)⟩⟩

theorem le_refl' {a : D53 L} (h : a.Num) : (a <=. a) = true := by rw [h.is.le h.is]; simp

theorem Chosen.unique {e : D53 L → AlphaStatus → Bool} {f : D53 L → D53 L → D53 L} {n : Nat} {v : D53 L} {y g : D53 L}
    {u : AlphaStatus} (h : Chosen s e f n v) (hy : s.y[n]? = some y) (hg : s.G[n]? = some g) (hu : s.status[n]? = some u) :
    e y u = true ∧ v = f y g := by
  obtain ⟨y', g', u', a, b, d, he, hv⟩ := h.row
  rw [hy] at a; rw [hg] at b; rw [hu] at d
  cases a; cases b; cases d
  exact ⟨he, hv⟩

/-- a row that is not eligible, or whose value is too small -/
theorem Looked.skip {e : D53 L → AlphaStatus → Bool} {f : D53 L → D53 L → D53 L} {st o : Option Nat} {n : Nat} {a : D53 L}
    {y g : D53 L} {u : AlphaStatus} (h : Looked s e f st n a o) (hy : s.y[n]? = some y) (hg : s.G[n]? = some g)
    (hu : s.status[n]? = some u) (hno : e y u = true → (a <=. f y g) = false) : Looked s e f st (n + 1) a o := by
  refine ⟨h.1, ?_⟩
  rcases h.2 with ⟨r1, r2, r3⟩ | ⟨i, hi, r⟩
  · refine .inl ⟨r1, r2, fun k hk v hv => ?_⟩
    rcases Nat.lt_succ_iff_lt_or_eq.1 hk with hk | rfl
    · exact r3 k hk v hv
    · obtain ⟨he, rfl⟩ := hv.unique hy hg hu
      rw [← r2]
      exact hno he
  · exact .inr ⟨i, Nat.lt_succ_of_lt hi, r⟩

/-- a row that is taken -/
theorem Looked.take {e : D53 L → AlphaStatus → Bool} {f : D53 L → D53 L → D53 L} {st o : Option Nat} {n : Nat} {a : D53 L}
    {y g : D53 L} {u : AlphaStatus} (h : Looked s e f st n a o) (hy : s.y[n]? = some y) (hg : s.G[n]? = some g)
    (hu : s.status[n]? = some u) (he : e y u = true) (hle : (a <=. f y g) = true) (hn : (f y g).Num) :
    Looked s e f st (n + 1) (f y g) (some n) := by
  refine ⟨hn, .inr ⟨n, Nat.lt_succ_self n, rfl, ⟨y, g, u, hy, hg, hu, he, rfl⟩, ?_⟩⟩
  have hm : ((Dbl.neg Dbl.maxVal : D53 L) <=. a) = true := by
    rcases h.2 with ⟨-, r2, -⟩ | ⟨i, -, -, -, r⟩
    · rw [r2]; exact le_refl' maxVal_num.neg
    · exact r
  exact LawfulOrd.le_trans _ _ _ hm hle

theorem selStep_looked (hG : ∀ a ∈ s.G, a.Num) {out : WorkSet} {n : Nat} {t t' : Smo.Sel (D53 L)}
    (hs : s.selStep t n = .ok t')
    (h0 : Looked s e0 v0 out.first n t.g0 t.out.first) (h1 : Looked s e1 v1 out.second n t.g1 t.out.second) :
    Looked s e0 v0 out.first (n + 1) t'.g0 t'.out.first ∧ Looked s e1 v1 out.second (n + 1) t'.g1 t'.out.second := by
  unfold Smo.selStep at hs
  simp only [bind_ok_iff, idxR_eq_ok] at hs
  obtain ⟨y, hy, u, hu, g, hg, hs⟩ := hs
  cases hs
  have gn := hG g (List.mem_of_getElem? hg)
  rw [selRow_eq]
  unfold Smo.Sel.offer0 Smo.Sel.offer1
  constructor
  · by_cases a0 : e0 y u = true
    · by_cases b0 : (t.g0 <=. v0 y g) = true
      · have := h0.take hy hg hu a0 b0 (v0_num gn)
        rw [if_pos a0, if_pos b0]
        simp only
        split
        · split <;> exact this
        · exact this
      · have := h0.skip hy hg hu (fun _ => Bool.eq_false_iff.2 b0)
        rw [if_pos a0, if_neg b0]
        simp only
        split
        · split <;> exact this
        · exact this
    · have := h0.skip hy hg hu (fun h => absurd h a0)
      rw [if_neg a0]
      simp only
      split
      · split <;> exact this
      · exact this
  · have key : ∀ t0 : Smo.Sel (D53 L), t0.g1 = t.g1 → t0.out.second = t.out.second →
        Looked s e1 v1 out.second (n + 1)
          ((fun t => if e1 y u then (if (Smo.Sel.g1 t <=. v1 y g) = true then
            { g0 := t.g0, g1 := v1 y g, out := { first := t.out.first, second := some n } } else t) else t) t0).g1
          ((fun t => if e1 y u then (if (Smo.Sel.g1 t <=. v1 y g) = true then
            { g0 := t.g0, g1 := v1 y g, out := { first := t.out.first, second := some n } } else t) else t) t0).out.second := by
      intro t0 ht1 ht2
      simp only
      by_cases a1 : e1 y u = true
      · by_cases b1 : (t0.g1 <=. v1 y g) = true
        · rw [if_pos a1, if_pos b1]
          rw [ht1] at b1
          exact h1.take hy hg hu a1 b1 (v1_num gn)
        · rw [if_pos a1, if_neg b1]
          rw [ht1] at b1
          rw [ht1, ht2]
          exact h1.skip hy hg hu (fun _ => Bool.eq_false_iff.2 b1)
      · rw [if_neg a1, ht1, ht2]
        exact h1.skip hy hg hu (fun h => absurd h a1)
    refine key _ ?_ ?_
    · split
      · split <;> rfl
      · rfl
    · split
      · split <;> rfl
      · rfl

theorem select_looked (hG : ∀ a ∈ s.G, a.Num) {out : WorkSet} {r : Bool × WorkSet} (hs : s.selectWorkingSet out = .ok r) :
    ∃ a0 a1, Looked s e0 v0 out.first s.activeSize a0 r.2.first ∧ Looked s e1 v1 out.second s.activeSize a1 r.2.second ∧
      r.1 = ((a0 +. a1) <. Dbl.lit (1/1000)) := by
  unfold Smo.selectWorkingSet at hs
  simp only [bind_ok_iff] at hs
  obtain ⟨t, ht, hs⟩ := hs
  cases hs
  suffices ∀ n t, (List.range n).foldlM s.selStep ⟨Dbl.neg Dbl.maxVal, Dbl.neg Dbl.maxVal, out⟩ = .ok t →
      Looked s e0 v0 out.first n t.g0 t.out.first ∧ Looked s e1 v1 out.second n t.g1 t.out.second from
    ⟨t.g0, t.g1, (this _ t ht).1, (this _ t ht).2, rfl⟩
  intro n
  induction n with
  | zero => intro t ht; cases ht; exact ⟨.zero, .zero⟩
  | succ n ih =>
    intro t ht
    rw [List.range_succ, List.foldlM_append, bind_ok_iff] at ht
    obtain ⟨t1, h1, h2⟩ := ht
    rw [List.foldlM_cons, bind_ok_iff] at h2
    obtain ⟨t2, h2, h3⟩ := h2
    cases h3
    have := ih t1 h1
    exact selStep_looked hG h2 this.1 this.2

/-- the pair violates the optimality condition -/
structure Pair (s : Smo (D53 L)) (i j : Nat) : Prop where
  viol : ∃ yi yj gi gj, s.y[i]? = some yi ∧ s.y[j]? = some yj ∧ s.G[i]? = some gi ∧ s.G[j]? = some gj ∧
    ((v0 yi gi +. v1 yj gj) <. Dbl.lit (1/1000)) = false

theorem Chosen.same {e : D53 L → AlphaStatus → Bool} {f : D53 L → D53 L → D53 L} {i : Nat} {v : D53 L}
    (h : Chosen s e f i v) (hy : s'.y[i]? = s.y[i]?) (hg : s'.G[i]? = s.G[i]?) (hu : s'.status[i]? = s.status[i]?) :
    Chosen s' e f i v := by
  obtain ⟨y, g, u, a, b, d, r⟩ := h.row
  exact ⟨y, g, u, hy.trans a, hg.trans b, hu.trans d, r⟩

/-- a place filled from `none` was filled by a row -/
theorem Looked.some {e : D53 L → AlphaStatus → Bool} {f : D53 L → D53 L → D53 L} {n i : Nat} {g : D53 L}
    (h : Looked s e f none n g (some i)) : i < n ∧ Chosen s e f i g ∧ ((Dbl.neg Dbl.maxVal : D53 L) <=. g) = true := by
  rcases h.2 with ⟨r, -⟩ | ⟨k, hk, r, r'⟩
  · cases r
  · cases r; exact ⟨hk, r'⟩

/-- the second look does not keep a stale entry -/
theorem Looked.again {e : D53 L → AlphaStatus → Bool} {f : D53 L → D53 L → D53 L} {n m i : Nat} {g g' : D53 L} {o : Option Nat}
    (h : Looked s e f none n g o) (h' : Looked s' e f o m g' (Option.some i)) (hnm : n ≤ m) (hy : s'.y = s.y)
    (hg : ∀ k < n, s'.G[k]? = s.G[k]?) (hu : s'.status = s.status) : Chosen s' e f i g' := by
  rcases h'.2 with ⟨r1, r2, r3⟩ | ⟨k, hk, r, r'⟩
  · subst r1
    obtain ⟨hi, hc, hle⟩ := h.some
    have := r3 i (hi.trans_le hnm) g (hc.same (by rw [hy]) (hg i hi) (by rw [hu]))
    rw [hle] at this
    cases this
  · cases r; exact r'.1

theorem readOut_ok {o : Option Nat} {i : Nat} (h : Smo.readOut o = .ok i) : o = some i := by
  cases o with
  | none => cases h
  | some k => cases h; rfl

theorem Pair.mk' {i j : Nat} {a0 a1 : D53 L} (h0 : Chosen s e0 v0 i a0) (h1 : Chosen s e1 v1 j a1)
    (h : ((a0 +. a1) <. Dbl.lit (1/1000)) = false) : Pair s i j := by
  obtain ⟨y, g, -, hy, hg, -, -, rfl⟩ := h0.row
  obtain ⟨y', g', -, hy', hg', -, -, rfl⟩ := h1.row
  exact ⟨y, y', g, g', hy, hy', hg, hg', h⟩

theorem Inv.choose (h : Inv x p c l s) (hf : Finite x p) {r : Option (Nat × Nat)} (hs : s.choose = .ok (s', r)) :
    Keeps x p c l s s' ∧ ∀ i j, r = some (i, j) → Pair s' i j := by
  unfold Smo.choose at hs
  simp only [bind_ok_iff] at hs
  obtain ⟨s1, h1, w, hw, hs⟩ := hs
  have k1 := h.countDown hf h1
  obtain ⟨a0, a1, l0, l1, hw1⟩ := select_looked k1.inv.G hw
  by_cases hb : w.1 = true
  · rw [if_pos hb] at hs
    simp only [bind_ok_iff] at hs
    obtain ⟨s2, h2, w', hw', hs⟩ := hs
    obtain ⟨k2, G, rfl, hG⟩ := k1.inv.reconstruct hf h2
    have k3 := k2.inv.active (n := s1.l) (by rw [k1.inv.size])
    have k := (k1.trans k2).trans k3
    obtain ⟨b0, b1, m0, m1, hw2⟩ := select_looked k3.inv.G hw'
    by_cases hb' : w'.1 = true
    · rw [if_pos hb'] at hs
      cases hs
      exact ⟨k, fun i j h => by cases h⟩
    · rw [if_neg hb'] at hs
      simp only [bind_ok_iff] at hs
      obtain ⟨i, hi, j, hj, hs⟩ := hs
      cases hs
      refine ⟨k.trans (k3.inv.counter 1), fun i' j' e => ?_⟩
      cases e
      rw [readOut_ok hi] at m0
      rw [readOut_ok hj] at m1
      have hle : s1.activeSize ≤ s1.l := by rw [k1.inv.size]; exact k1.inv.act
      have c0 := l0.again m0 hle rfl hG rfl
      have c1 := l1.again m1 hle rfl hG rfl
      have := Pair.mk' c0 c1 (by rw [← hw2]; exact Bool.eq_false_iff.2 hb')
      exact ⟨this.viol⟩
  · rw [if_neg hb] at hs
    simp only [bind_ok_iff] at hs
    obtain ⟨i, hi, j, hj, hs⟩ := hs
    cases hs
    refine ⟨k1, fun i' j' e => ?_⟩
    cases e
    rw [readOut_ok hi] at l0
    rw [readOut_ok hj] at l1
    exact Pair.mk' l0.some.2.1 l1.some.2.1 (by rw [← hw1]; exact Bool.eq_false_iff.2 hb)

/-! ## The step -/

theorem thousandth : ∃ t : ℚ, 0 < t ∧ Is (Dbl.lit (1/1000) : D53 L) t :=
  ⟨rnd (1/1000), rnd_pos (by norm_num), rfl⟩

theorem one_eq {y : D53 L} (h : Is y 1) : (y ==. Dbl.ofInt 1) = true := by
  have : Is (Dbl.ofInt 1 : D53 L) 1 := by simpa using is_int (L := L) (n := 1) (by norm_num)
  rw [h.eq this]; simp

theorem one_ne {y : D53 L} (h : Is y (-1)) : (y ==. Dbl.ofInt 1) = false := by
  have : Is (Dbl.ofInt 1 : D53 L) 1 := by simpa using is_int (L := L) (n := 1) (by norm_num)
  rw [h.eq this]; norm_num

/-- the chosen rows differ -/
theorem Pair.ne (hs : Inv x p c l s) {i j : Nat} (h : Pair s i j) : i ≠ j := by
  rintro rfl
  obtain ⟨y, y', g, g', hy, hy', hg, hg', hv⟩ := h.viol
  rw [hy] at hy'; rw [hg] at hg'
  cases hy'; cases hg'
  obtain ⟨q, hq⟩ := hs.G g (List.mem_of_getElem? hg)
  obtain ⟨t, ht0, ht⟩ := thousandth (L := L)
  unfold v0 v1 at hv
  rcases hs.y y (List.mem_of_getElem? hy) with h1 | h1
  · rw [one_eq h1, if_pos rfl, if_pos rfl, (hq.neg.add hq).lt ht, decide_eq_false_iff_not] at hv
    rw [show -q + q = 0 by ring, rnd_zero] at hv
    exact hv ht0
  · rw [one_ne h1] at hv
    simp only [Bool.false_eq_true, if_false] at hv
    rw [(hq.add hq.neg).lt ht, decide_eq_false_iff_not] at hv
    rw [show q + -q = 0 by ring, rnd_zero] at hv
    exact hv ht0

/-- a nonzero number divided by a number is not NaN -/
theorem div_ne_nan {a b : D53 L} {q r : ℚ} (ha : Is a q) (hq : q ≠ 0) (hb : Is b r) : (a /. b).val ≠ .nan := by
  by_cases hr : r = 0
  · subst hr
    unfold Is at ha hb
    rw [val_div, ha, hb]
    simp only [XR.div, if_true, XR.infSign, if_neg hq]
    rcases lt_or_gt_of_ne hq with h | h
    · simp [not_lt.2 h.le, XR.rnd]
    · simp [h, XR.rnd]
  · have := ha.div hb hr
    unfold Is at this
    rw [this]; simp

theorem fmax_num {a b : D53 L} (ha : a.Num) (hb : b.Num) : (fmaxD a b).Num := by
  unfold fmaxD; split; exact ha; split; exacts [hb, ha]

theorem fmin_num {a b : D53 L} (ha : a.Num) (hb : b.Num) : (fminD a b).Num := by
  unfold fminD; split; exact ha; split; exacts [hb, ha]

/-- labels, gradients, and the two new multipliers -/
theorem movePair_ok {C yi yj gi gj ai aj qii qjj qij : D53 L} {u v a b : ℚ} (hC : Is C c)
    (hyi : Label yi) (hyj : Label yj) (hgi : gi.Num) (hgj : gj.Num)
    (hviol : ((v0 yi gi +. v1 yj gj) <. Dbl.lit (1/1000)) = false)
    (hqii : qii.Num) (hqjj : qjj.Num) (hqij : qij.Num)
    (hai : Is ai a) (haj : Is aj b) (a0 : 0 ≤ a) (ac : a ≤ c) (b0 : 0 ≤ b) (bc : b ≤ c) (hu : Is yi u) (hv : Is yj v) :
    ∃ a' b', Is (movePair C yi yj gi gj ai aj qii qjj qij).1 a' ∧ Is (movePair C yi yj gi gj ai aj qii qjj qij).2 b' ∧
      0 ≤ a' ∧ a' ≤ c ∧ 0 ≤ b' ∧ b' ≤ c ∧ |(u * a' - u * a) + (v * b' - v * b)| ≤ c / 2 ^ 51 := by
  obtain ⟨t, ht0, ht⟩ := thousandth (L := L)
  obtain ⟨g, hg⟩ := hgi
  obtain ⟨k, hk⟩ := hgj
  have two : (Dbl.ofInt 2 : D53 L).Num := ⟨2, by simpa using is_int (L := L) (n := 2) (by norm_num)⟩
  have dplus : (fmaxD ((qii +. qjj) +. (Dbl.ofInt 2 *. qij)) Dbl.zero).Num :=
    fmax_num ((hqii.add hqjj).add (two.mul hqij)) num_zero
  have dminus : (fmaxD ((qii +. qjj) -. (Dbl.ofInt 2 *. qij)) Dbl.zero).Num :=
    fmax_num ((hqii.add hqjj).sub (two.mul hqij)) num_zero
  have neg_rnd : ∀ {q : ℚ}, ¬ rnd q < t → rnd (-q) ≠ 0 := by
    intro q h h'
    rw [rnd_neg, neg_eq_zero] at h'
    rw [h'] at h
    exact h ht0
  have pos_rnd : ∀ {q : ℚ}, ¬ rnd q < t → rnd q ≠ 0 := fun h h' => h (h' ▸ ht0)
  -- the labels differ
  have differ : (yi ==. yj) = false → rnd (-g - k) ≠ 0 → (∀ a' b', (u * a' - u * a) + (v * b' - v * b) = u * ((a' - b') - (a - b))) →
      (u = 1 ∨ u = -1) → ∃ a' b', Is (movePair C yi yj gi gj ai aj qii qjj qij).1 a' ∧ Is (movePair C yi yj gi gj ai aj qii qjj qij).2 b' ∧
      0 ≤ a' ∧ a' ≤ c ∧ 0 ≤ b' ∧ b' ≤ c ∧ |(u * a' - u * a) + (v * b' - v * b)| ≤ c / 2 ^ 51 := by
    intro he hne halg hu1
    obtain ⟨d, hd⟩ := dplus
    have hnan := div_ne_nan (hg.neg.sub hk) hne hd
    have : KeepsDiff c a b (movePair C yi yj gi gj ai aj qii qjj qij) := by
      unfold movePair
      rw [if_pos he]
      simp only
      by_cases hpos : (Dbl.zero <. (ai -. aj)) = true
      · rw [if_pos hpos]; exact clipDiff_ok hC hai haj a0 ac b0 bc hnan hpos
      · rw [if_neg hpos]; exact clipDiffNeg_ok hC hai haj a0 ac b0 bc hnan (Bool.eq_false_iff.2 hpos)
    obtain ⟨a', b', i1, i2, i3, i4, i5, i6, i7⟩ := this
    refine ⟨a', b', i1, i2, i3, i4, i5, i6, ?_⟩
    rw [halg, abs_mul]
    have : |u| = 1 := by rcases hu1 with rfl | rfl <;> norm_num
    rw [this, _root_.one_mul]; exact i7
  have same : (yi ==. yj) ≠ false → rnd (g - k) ≠ 0 → (∀ a' b', (u * a' - u * a) + (v * b' - v * b) = u * ((a' + b') - (a + b))) →
      (u = 1 ∨ u = -1) → ∃ a' b', Is (movePair C yi yj gi gj ai aj qii qjj qij).1 a' ∧ Is (movePair C yi yj gi gj ai aj qii qjj qij).2 b' ∧
      0 ≤ a' ∧ a' ≤ c ∧ 0 ≤ b' ∧ b' ≤ c ∧ |(u * a' - u * a) + (v * b' - v * b)| ≤ c / 2 ^ 51 := by
    intro he hne halg hu1
    obtain ⟨d, hd⟩ := dminus
    have hnan := div_ne_nan (hg.sub hk) hne hd
    have : KeepsSum c a b (movePair C yi yj gi gj ai aj qii qjj qij) := by
      unfold movePair
      rw [if_neg he]
      simp only
      by_cases hpos : (C <. (ai +. aj)) = true
      · rw [if_pos hpos]; exact clipSumHigh_ok hC hai haj a0 ac b0 bc hnan hpos
      · rw [if_neg hpos]; exact clipSumLow_ok hC hai haj a0 ac b0 bc hnan (Bool.eq_false_iff.2 hpos)
    obtain ⟨a', b', i1, i2, i3, i4, i5, i6, i7⟩ := this
    refine ⟨a', b', i1, i2, i3, i4, i5, i6, ?_⟩
    rw [halg, abs_mul]
    have : |u| = 1 := by rcases hu1 with rfl | rfl <;> norm_num
    rw [this, _root_.one_mul]; exact i7
  unfold v0 v1 at hviol
  rcases hyi with h1 | h1 <;> rcases hyj with h2 | h2 <;> cases hu.unique h1 <;> cases hv.unique h2
  · rw [one_eq h1, one_eq h2, if_pos rfl, if_pos rfl, (hg.neg.add hk).lt ht, decide_eq_false_iff_not] at hviol
    exact same (by rw [h1.eq h2]; simp) (by have := neg_rnd hviol; rwa [show -(-g + k) = g - k by ring] at this)
      (fun _ _ => by ring) (.inl rfl)
  · rw [one_eq h1, one_ne h2] at hviol
    simp only [Bool.false_eq_true, if_false, if_true] at hviol
    rw [(hg.neg.add hk.neg).lt ht, decide_eq_false_iff_not] at hviol
    exact differ (by rw [h1.eq h2]; norm_num) (by have := pos_rnd hviol; rwa [show -g + -k = -g - k by ring] at this)
      (fun _ _ => by ring) (.inl rfl)
  · rw [one_ne h1, one_eq h2] at hviol
    simp only [Bool.false_eq_true, if_false, if_true] at hviol
    rw [(hg.add hk).lt ht, decide_eq_false_iff_not] at hviol
    exact differ (by rw [h1.eq h2]; norm_num) (by have := neg_rnd hviol; rwa [show -(g + k) = -g - k by ring] at this)
      (fun _ _ => by ring) (.inr rfl)
  · rw [one_ne h1, one_ne h2] at hviol
    simp only [Bool.false_eq_true, if_false] at hviol
    rw [(hg.add hk.neg).lt ht, decide_eq_false_iff_not] at hviol
    exact same (by rw [h1.eq h2]; simp) (by have := pos_rnd hviol; rwa [show g + -k = g - k by ring] at this)
      (fun _ _ => by ring) (.inr rfl)

/-- a sum after changes at two places -/
theorem sum_two (n : Nat) (f f' : Nat → ℚ) (p r : Nat) (hp : p < n) (hr : r < n) (hpr : p ≠ r)
    (h : ∀ k, k ≠ p → k ≠ r → f' k = f k) :
    ∑ k ∈ Finset.range n, f' k = ∑ k ∈ Finset.range n, f k + ((f' p - f p) + (f' r - f r)) := by
  have : ∑ k ∈ Finset.range n, (f' k - f k) = (f' p - f p) + (f' r - f r) := by
    apply Finset.sum_eq_add_of_mem p r (Finset.mem_range.mpr hp) (Finset.mem_range.mpr hr) hpr
    intro c _ hc
    rw [h c hc.1 hc.2]; ring
  rw [Finset.sum_sub_distrib] at this
  linarith

theorem updateStatus_eq {i : Nat} (hs : s.updateAlphaStatus i = .ok s') : ∃ st, s' = { s with status := st } := by
  unfold Smo.updateAlphaStatus at hs
  simp only [bind_ok_iff] at hs
  obtain ⟨a, -, t, -, hs⟩ := hs
  cases hs
  exact ⟨_, rfl⟩

theorem Inv.barUpdate (h : Inv x p c l s) (hf : Finite x p) {i : Nat} {u v : Bool} {g g' : List (D53 L)} (hg : ∀ a ∈ g, a.Num)
    (hs : s.barUpdate i u v g = .ok g') : ∀ a ∈ g', a.Num := by
  unfold Smo.barUpdate at hs
  split at hs
  · simp only [bind_ok_iff] at hs
    obtain ⟨Qi, hQ, hs⟩ := hs
    split at hs
    · exact updateAll_all hs hg (subScaled_num ⟨_, h.C⟩ (h.getQ hf hQ))
    · exact updateAll_all hs hg (addScaled_num ⟨_, h.C⟩ (h.getQ hf hQ))
  · cases hs; exact hg

theorem Inv.move (h : Inv x p c l s) (hf : Finite x p) {i j : Nat} (hp : Pair s i j) (hs : s.move i j = .ok s') :
    Inv x p c l s' ∧ |balance l s'.y s'.alpha - balance l s.y s.alpha| ≤ c / 2 ^ 51 := by
  have hne := hp.ne h
  obtain ⟨yi, yj, gi, gj, hyi, hyj, hgi, hgj, hviol⟩ := hp.viol
  unfold Smo.move Smo.moveAlpha at hs
  simp only [bind_ok_iff, idxR_eq_ok] at hs
  obtain ⟨Qi, hQi, Qj, hQj, m, ⟨ai, hai, aj, haj, yi', hyi', yj', hyj', gi', hgi', gj', hgj', qii, hqii, qjj, hqjj, qij,
    hqij, hm⟩, G, hG, ui, -, uj, -, s1, hs1, s2, hs2, vi, -, b1, hb1, vj, -, b2, hb2, hs⟩ := hs
  rw [hyi] at hyi'; rw [hyj] at hyj'; rw [hgi] at hgi'; rw [hgj] at hgj'
  cases hyi'; cases hyj'; cases hgi'; cases hgj'
  have nQi := h.getQ hf hQi
  have nQj := h.getQ hf hQj
  obtain ⟨a, ha, a0, ac⟩ := h.alpha ai (List.mem_of_getElem? hai)
  obtain ⟨b, hb, b0, bc⟩ := h.alpha aj (List.mem_of_getElem? haj)
  have hYi := h.y yi (List.mem_of_getElem? hyi)
  have hYj := h.y yj (List.mem_of_getElem? hyj)
  obtain ⟨u, hu⟩ := hYi.num
  obtain ⟨v, hv⟩ := hYj.num
  obtain ⟨a', b', r1, r2, r3, r4, r5, r6, r7⟩ := movePair_ok h.C hYi hYj (h.G gi (List.mem_of_getElem? hgi))
    (h.G gj (List.mem_of_getElem? hgj)) hviol (nQi _ (List.mem_of_getElem? hqii)) (nQj _ (List.mem_of_getElem? hqjj))
    (nQi _ (List.mem_of_getElem? hqij)) ha hb a0 ac b0 bc hu hv
  set P := movePair s.C yi yj gi gj ai aj qii qjj qij with hP
  have hm' := (Except.ok.inj hm).symm
  have nG : ∀ a ∈ G, a.Num := by
    refine updateAll_all hG h.G ?_
    intro k o r ho hr
    unfold Smo.gradEntry at hr
    simp only [bind_ok_iff, idxR_eq_ok] at hr
    obtain ⟨e, he, f, hf', hr⟩ := hr
    cases hr
    rw [hm']
    exact ho.add (((nQi e (List.mem_of_getElem? he)).mul (r1.toNum.sub ha.toNum)).add
      ((nQj f (List.mem_of_getElem? hf')).mul (r2.toNum.sub hb.toNum)))
  obtain ⟨st1, rfl⟩ := updateStatus_eq hs1
  obtain ⟨st2, rfl⟩ := updateStatus_eq hs2
  have nAlpha : ∀ a ∈ m.1, a.InBox c := by
    rw [hm']
    exact set_all (set_all h.alpha ⟨a', r1, r3, r4⟩) ⟨b', r2, r5, r6⟩
  have lenm : m.1.length = l := by rw [hm']; simpa using h.len
  have inv2 : ∀ g : List (D53 L), (∀ a ∈ g, a.Num) →
      Inv x p c l { s with alpha := m.1, G := G, status := st2, GBar := g } := fun g hg =>
    ⟨h.size, h.act, h.C, h.c0, lenm, nAlpha, h.y, h.b, nG, hg, h.Qy, h.kern⟩
  have nb1 := (inv2 s.GBar h.GBar).barUpdate hf h.GBar hb1
  have nb2 := (inv2 s.GBar h.GBar).barUpdate hf nb1 hb2
  cases hs
  refine ⟨inv2 b2 nb2, ?_⟩
  have hil : i < l := h.len ▸ (List.getElem?_eq_some_iff.1 hai).1
  have hjl : j < l := h.len ▸ (List.getElem?_eq_some_iff.1 haj).1
  unfold balance
  rw [sum_two l (fun k => (s.y.getD k Dbl.zero).num * (s.alpha.getD k Dbl.zero).num) _ i j hil hjl hne ?_, add_sub_cancel_left]
  · have ha1 : m.1.getD i Dbl.zero = P.1 := by
      rw [hm', List.getD_eq_getElem?_getD, List.getElem?_set_ne hne.symm]; simp [h.len, hil]
    have ha2 : m.1.getD j Dbl.zero = P.2 := by
      rw [hm']; simp [List.getD_eq_getElem?_getD, h.len, hjl]
    have hy1 : s.y.getD i Dbl.zero = yi := by simp [List.getD_eq_getElem?_getD, hyi]
    have hy2 : s.y.getD j Dbl.zero = yj := by simp [List.getD_eq_getElem?_getD, hyj]
    have hb1 : s.alpha.getD i Dbl.zero = ai := by simp [List.getD_eq_getElem?_getD, hai]
    have hb2 : s.alpha.getD j Dbl.zero = aj := by simp [List.getD_eq_getElem?_getD, haj]
    simp only [ha1, ha2, hy1, hy2, hb1, hb2]
    rw [hu.num, hv.num, r1.num, r2.num, ha.num, hb.num]
    exact r7
  · intro k hi hj
    have : m.1.getD k Dbl.zero = s.alpha.getD k Dbl.zero := by
      rw [hm']
      simp [List.getD_eq_getElem?_getD, List.getElem?_set_ne (Ne.symm hi), List.getElem?_set_ne (Ne.symm hj)]
    simp only [this]

theorem Inv.iterate (h : Inv x p c l s) (hf : Finite x p) {b : Bool} (hs : s.iterate = .ok (s', b)) :
    Inv x p c l s' ∧ |balance l s'.y s'.alpha - balance l s.y s.alpha| ≤ c / 2 ^ 51 := by
  unfold Smo.iterate at hs
  simp only [bind_ok_iff] at hs
  obtain ⟨⟨s1, r⟩, h1, hs⟩ := hs
  obtain ⟨k, hp⟩ := h.choose hf h1
  cases r with
  | none =>
    cases hs
    refine ⟨k.inv, ?_⟩
    rw [k.balance, sub_self, abs_zero]
    have := h.c0
    positivity
  | some ij =>
    obtain ⟨i, j⟩ := ij
    simp only [bind_ok_iff] at hs
    obtain ⟨s2, h2, hs⟩ := hs
    cases hs
    have := k.inv.move hf (hp i j rfl) h2
    rw [k.balance] at this
    exact this

theorem Inv.run (n : Nat) (h : Inv x p c l s) (hf : Finite x p) {b : Bool} (hs : Smo.run n s = .ok (s', b)) :
    Inv x p c l s' ∧ |balance l s'.y s'.alpha - balance l s.y s.alpha| ≤ n * (c / 2 ^ 51) := by
  have hc : 0 ≤ c / 2 ^ 51 := by have := h.c0; positivity
  induction n generalizing s with
  | zero => unfold Smo.run at hs; cases hs; exact ⟨h, by simp⟩
  | succ n ih =>
    unfold Smo.run at hs
    simp only [bind_ok_iff] at hs
    obtain ⟨⟨s1, b1⟩, h1, hs⟩ := hs
    obtain ⟨i1, d1⟩ := h.iterate hf h1
    push_cast
    cases b1 with
    | true =>
      simp only [if_true] at hs
      cases hs
      exact ⟨i1, d1.trans (by nlinarith [(Nat.cast_nonneg n : (0 : ℚ) ≤ n)])⟩
    | false =>
      simp only [Bool.false_eq_true, if_false] at hs
      obtain ⟨i2, d2⟩ := ih i1 hs
      refine ⟨i2, ?_⟩
      rw [abs_le] at d1 d2 ⊢
      constructor <;> linarith [d1.1, d1.2, d2.1, d2.2]

theorem Inv.start {y b : List (D53 L)} (hin : SvmInput l x y b p c) (hs : Smo.start l x y b p = .ok s) :
    Inv x p c l s ∧ balance l s.y s.alpha = 0 := by
  unfold Smo.start QMat.make at hs
  simp only [bind_ok_iff] at hs
  obtain ⟨Q, ⟨k, hk, qy, hqy, hQ⟩, G, hG, hs⟩ := hs
  cases hQ
  have fromIdx : ∀ {α : Type} {v w : List α} {P : α → Prop}, (List.range l).mapM (idxR v) = .ok w → (∀ a ∈ v, P a) → ∀ a ∈ w, P a := by
    intro α v w P hw hv a ha
    obtain ⟨i, -, hi⟩ := mapM_ok_mem hw ha
    rw [idxR_eq_ok] at hi
    exact hv a (List.mem_of_getElem? hi)
  refine foldlM_keeps (P := fun s : Smo (D53 L) => Inv x p c l s ∧ balance l s.y s.alpha = 0) ?_ _ _ _ hs ⟨?_, ?_⟩
  · rintro s i s' ⟨h, hb⟩ hs
    unfold Smo.initialRow at hs
    simp only [bind_ok_iff] at hs
    obtain ⟨low, -, hs⟩ := hs
    split at hs
    · cases hs; exact ⟨h, hb⟩
    · simp only [bind_ok_iff, idxR_eq_ok] at hs
      obtain ⟨Qi, hQ, a, ha, G, hG, up, -, hs⟩ := hs
      have nQ := h.getQ hin.kernel hQ
      have nG := updateAll_all hG h.G (addScaled_num (h.alpha a (List.mem_of_getElem? ha)).num nQ)
      split at hs
      · simp only [bind_ok_iff] at hs
        obtain ⟨gb, hgb, hs⟩ := hs
        cases hs
        exact ⟨⟨h.size, h.act, h.C, h.c0, h.len, h.alpha, h.y, h.b, nG,
          updateAll_all hgb h.GBar (addScaled_num ⟨_, h.C⟩ nQ), h.Qy, h.kern⟩, hb⟩
      · cases hs
        exact ⟨⟨h.size, h.act, h.C, h.c0, h.len, h.alpha, h.y, h.b, nG, h.GBar, h.Qy, h.kern⟩, hb⟩
  · refine ⟨rfl, le_rfl, hin.bound, hin.nonneg, by simp, ?_, hin.labels, hin.linear, fromIdx hG hin.linear, ?_,
      fromIdx hqy hin.labels, .make hk⟩
    · intro a ha
      rw [(List.mem_replicate.1 ha).2]
      exact ⟨0, is_zero, le_rfl, hin.nonneg⟩
    · intro a ha
      rw [(List.mem_replicate.1 ha).2]
      exact num_zero
  · unfold balance
    refine Finset.sum_eq_zero (fun k hk => ?_)
    have : (List.replicate l (Dbl.zero : D53 L)).getD k Dbl.zero = Dbl.zero := by
      simp [List.getD_eq_getElem?_getD, Finset.mem_range.1 hk]
    simp only [this, is_zero.num, mul_zero]

theorem Inv.rho (h : Inv x p c l s) {r : D53 L} (hs : s.calculateRho = .ok r) : r.Num := by
  unfold Smo.calculateRho at hs
  simp only [bind_ok_iff] at hs
  obtain ⟨t, ht, hs⟩ := hs
  have nt : t.upper.Num ∧ t.lower.Num ∧ t.sumFree.Num := by
    refine foldlM_keeps (P := fun t : Smo.RhoAcc (D53 L) => t.upper.Num ∧ t.lower.Num ∧ t.sumFree.Num) ?_ _ _ _ ht
      ⟨maxVal_num, maxVal_num.neg, num_zero⟩
    rintro t i t' ⟨n1, n2, n3⟩ hs
    unfold Smo.rhoStep at hs
    simp only [bind_ok_iff, idxR_eq_ok] at hs
    obtain ⟨y, hy, g, hg, u, -, hs⟩ := hs
    cases hs
    have nyg := (h.y y (List.mem_of_getElem? hy)).num.mul (h.G g (List.mem_of_getElem? hg))
    unfold Smo.rhoRow
    cases u
    · simp only
      split
      · exact ⟨fmin_num n1 nyg, n2, n3⟩
      · exact ⟨n1, fmax_num n2 nyg, n3⟩
    · simp only
      split
      · exact ⟨fmin_num n1 nyg, n2, n3⟩
      · exact ⟨n1, fmax_num n2 nyg, n3⟩
    · exact ⟨n1, n2, n3.add nyg⟩
  cases hs
  split
  · next hfree =>
    exact ⟨_, nt.2.2.is.div (show Is (Dbl.ofNat t.free : D53 L) _ from val_ofNat _) (rnd_nat_pos hfree).ne'⟩
  · have two : Is (Dbl.ofInt 2 : D53 L) 2 := by simpa using is_int (L := L) (n := 2) (by norm_num)
    exact ⟨_, (nt.1.add nt.2.1).is.div two (by norm_num)⟩

theorem Inv.finish (h : Inv x p c l s) {r : D53 L × List (D53 L)} (hs : s.finish = .ok r) :
    r.1.Num ∧ r.2.length = l ∧ ∀ a ∈ r.2, a.InBox c := by
  unfold Smo.finish at hs
  simp only [bind_ok_iff] at hs
  obtain ⟨al, hal, rho, hrho, hs⟩ := hs
  cases hs
  have : al.length = l ∧ ∀ a ∈ al, a.InBox c := by
    refine foldlM_keeps (P := fun al : List (D53 L) => al.length = l ∧ ∀ a ∈ al, a.InBox c) ?_ _ _ _ hal ⟨h.len, h.alpha⟩
    rintro v i v' ⟨hl, hv⟩ hs
    unfold Smo.writeBack at hs
    simp only [bind_ok_iff, idxR_eq_ok] at hs
    obtain ⟨a, ha, k, -, o, -, hs⟩ := hs
    cases hs
    exact ⟨by simpa using hl, set_all hv (hv a (List.mem_of_getElem? ha))⟩
  exact ⟨Inv.rho (s := { s with alpha := al })
    ⟨h.size, h.act, h.C, h.c0, this.1, this.2, h.y, h.b, h.G, h.GBar, h.Qy, h.kern⟩ hrho, this⟩

end SvmFloat

/-! ## Theorems -/

variable {x : List (NodeL (D53 L))} {p : SvmParam (D53 L)} {c : ℚ} {l : Nat} {y b : List (D53 L)}

/-- in every state that the loop reaches, every multiplier is a number between 0 and `C`: the box constraint is exact
although the arithmetic rounds -/
theorem C177_box (hin : SvmInput l x y b p c) {s s' : Smo (D53 L)} {f : Bool} {n : Nat}
    (hstart : Smo.start l x y b p = .ok s) (hrun : Smo.run n s = .ok (s', f)) :
    s'.alpha.length = l ∧ ∀ a ∈ s'.alpha, ∃ q, Is a q ∧ 0 ≤ q ∧ q ≤ c := by
  have := ((SvmFloat.Inv.start hin hstart).1.run n hin.kernel hrun).1
  exact ⟨this.len, this.alpha⟩

/-- after `n` rounds the constraint `∑ y_i α_i = 0` is violated by at most `n C / 2^51` -/
theorem C177_balance (hin : SvmInput l x y b p c) {s s' : Smo (D53 L)} {f : Bool} {n : Nat}
    (hstart : Smo.start l x y b p = .ok s) (hrun : Smo.run n s = .ok (s', f)) :
    |balance l s'.y s'.alpha| ≤ n * (c / 2 ^ 51) := by
  obtain ⟨h, h0⟩ := SvmFloat.Inv.start hin hstart
  have := (h.run n hin.kernel hrun).2
  rwa [h0, sub_zero] at this

/-- what the solver hands back is finite, and its multipliers lie in the box -/
theorem C177_solution (hin : SvmInput l x y b p c) {n : Nat} {rho : D53 L} {alpha : List (D53 L)}
    (h : Smo.solve n l x y b p = .ok (some (rho, alpha))) :
    (∃ q, Is rho q) ∧ alpha.length = l ∧ ∀ a ∈ alpha, ∃ q, Is a q ∧ 0 ≤ q ∧ q ≤ c := by
  unfold Smo.solve at h
  simp only [bind_ok_iff] at h
  obtain ⟨s, hs, ⟨s', f⟩, hr, h⟩ := h
  cases f with
  | false => simp at h
  | true =>
    simp only [if_true, bind_ok_iff] at h
    obtain ⟨o, ho, h⟩ := h
    cases h
    exact ((SvmFloat.Inv.start hin hs).1.run n hin.kernel hr).1.finish ho

theorem dotLoop_num (s : D53 L) (u v : NodeL (D53 L)) (hs : s.Num) (hu : ∀ a ∈ u, a.value.Num) (hv : ∀ a ∈ v, a.value.Num) :
    (dotLoop s u v).Num := by
  fun_induction dotLoop s u v with
  | case1 => exact hs
  | case2 => exact hs
  | case3 s a u b v _ ih =>
    exact ih (hs.add ((hu a (by simp)).mul (hv b (by simp)))) (fun m h => hu m (by simp [h])) (fun m h => hv m (by simp [h]))
  | case4 s a u b v _ _ ih => exact ih hs hu (fun m h => hv m (by simp [h]))
  | case5 s a u b v _ _ ih => exact ih hs (fun m h => hu m (by simp [h])) hv

/-- with the linear kernel, finite features are enough -/
theorem C177_linear_kernel (hp : p.kernelType = .linear) (hx : ∀ u ∈ x, ∀ a ∈ u, a.value.Num) :
    ∀ u ∈ x, ∀ v ∈ x, (rowKernel p u v).Num := by
  intro u hu v hv
  unfold rowKernel Kern.value
  rw [hp]
  exact dotLoop_num _ _ _ num_zero (hx u hu) (hx v hv)

/-- features that are not double precision numbers, so the sums below are rounded -/
def decimals : List (NodeL (D53 coarseMath)) :=
  [nodeList [Dbl.lit (1/10), Dbl.lit (9/10)], nodeList [Dbl.lit (-3/10), Dbl.lit (1/5)], nodeList [Dbl.lit (7/10), Dbl.lit (1/10)],
   nodeList [Dbl.lit (3/7), Dbl.lit (2/7)]]

def decimalsParam (c : ℚ) : SvmParam (D53 coarseMath) := ⟨.linear, 1, Dbl.one, Dbl.zero, Dbl.lit c, true⟩

def decimalsY : List (D53 coarseMath) := [Dbl.ofInt 1, Dbl.ofInt (-1), Dbl.ofInt 1, Dbl.ofInt (-1)]

def decimalsB : List (D53 coarseMath) := [Dbl.ofInt (-1), Dbl.ofInt (-1), Dbl.ofInt (-1), Dbl.ofInt (-1)]

theorem decimals_input (c : ℚ) (h : 0 ≤ c) :
    SvmInput 4 decimals decimalsY decimalsB (decimalsParam c) (rnd c) where
  bound := rfl
  nonneg := rnd_nonneg h
  labels := by
    intro a ha
    simp only [decimalsY, List.mem_cons, List.not_mem_nil, or_false] at ha
    rcases ha with rfl | rfl | rfl | rfl <;> first | exact .inl (by simpa using is_int (n := 1) (by norm_num)) | exact .inr (by simpa using is_int (n := -1) (by norm_num))
  linear := by
    intro a ha
    simp only [decimalsB, List.mem_cons, List.not_mem_nil, or_false] at ha
    rcases ha with rfl | rfl | rfl | rfl <;> exact ⟨_, rfl⟩
  kernel := C177_linear_kernel rfl (by
    have : decimals.all (fun u => u.all (fun a => match a.value.val with | .fin _ => true | _ => false)) = true := by
      decide +kernel
    intro u hu a ha
    have := List.all_eq_true.1 (List.all_eq_true.1 this u hu) a ha
    cases hv : a.value.val with
    | fin q => exact ⟨q, hv⟩
    | _ => rw [hv] at this; cases this)

/-- ten rounds with `C = 10`: the loop goes on, and the constraint is violated by `1/2^51`, so no exact balance holds -/
example : ∃ s s' : Smo (D53 coarseMath), Smo.start 4 decimals decimalsY decimalsB (decimalsParam 10) = .ok s ∧
    Smo.run 10 s = .ok (s', false) ∧ balance 4 s'.y s'.alpha = -1 / 2 ^ 51 ∧ s'.alpha.getD 3 Dbl.zero = Dbl.ofInt 10 := by
  have h : ((Smo.start 4 decimals decimalsY decimalsB (decimalsParam 10) >>= Smo.run 10) >>= fun r =>
      pure (r.2 == false && decide (r.1.alpha.getD 3 Dbl.zero = Dbl.ofInt 10) && decide (
        (r.1.y.getD 0 Dbl.zero).num * (r.1.alpha.getD 0 Dbl.zero).num + (r.1.y.getD 1 Dbl.zero).num * (r.1.alpha.getD 1 Dbl.zero).num +
        (r.1.y.getD 2 Dbl.zero).num * (r.1.alpha.getD 2 Dbl.zero).num + (r.1.y.getD 3 Dbl.zero).num * (r.1.alpha.getD 3 Dbl.zero).num
          = -1 / 2 ^ 51)) : Res Bool) = .ok true := by decide +kernel
  simp only [bind_ok_iff] at h
  obtain ⟨⟨s', f⟩, ⟨s, h1, h2⟩, h3⟩ := h
  have h3 := Except.ok.inj h3
  simp only [Bool.and_eq_true, beq_iff_eq, decide_eq_true_eq] at h3
  obtain ⟨⟨rfl, h4⟩, h5⟩ := h3
  refine ⟨s, s', h1, h2, ?_, h4⟩
  unfold balance
  rw [← h5]
  simp only [Finset.sum_range_succ, Finset.sum_range_zero, _root_.zero_add]

/-- with `C = 10/3` the solver ends, with four different multipliers -/
example : ∃ rho alpha, Smo.solve 10 4 decimals decimalsY decimalsB (decimalsParam (10/3)) = .ok (some (rho, alpha)) ∧
    (alpha.map D53.num).Nodup := by
  have h : (Smo.solve 10 4 decimals decimalsY decimalsB (decimalsParam (10/3)) >>= fun r =>
      pure (match r with | some r => decide ((r.2.map D53.num).Nodup) | none => false) : Res Bool) = .ok true := by
    decide +kernel
  simp only [bind_ok_iff] at h
  obtain ⟨r, h1, h2⟩ := h
  cases r with
  | none => cases h2
  | some r =>
    refine ⟨r.1, r.2, h1, ?_⟩
    have := Except.ok.inj h2
    simpa using this

end Verif
