import Verif.Props.Kernel
import Verif.Model.Solver
import Mathlib.Algebra.BigOperators.Intervals
import Mathlib.Algebra.Order.BigOperators.Group.Finset
import Mathlib.Data.List.Nodup

/-! # The SMO solver: invariants of every reachable state -/

set_option linter.unusedSectionVars false
set_option linter.unusedVariables false

namespace Verif
open Dbl

/-! ## arrays -/

section arrays
variable {α β : Type}

theorem idxR_map (ids : List Nat) (f : Nat → β) (k : Nat) (hk : k < ids.length) :
    idxR (ids.map f) k = .ok (f (ids.getD k 0)) := by
  rw [idxR_ok_of_lt (show k < (ids.map f).length by simpa using hk)]
  simp [hk]

theorem swapR_map (v v' : List α) (f : α → β) (i j : Nat) (h : swapR v i j = .ok v') :
    swapR (v.map f) i j = .ok (v'.map f) := by
  unfold swapR at h ⊢
  simp only [bind_ok_iff] at h
  obtain ⟨a, ha, b, hb, h⟩ := h
  rw [idxR_eq_ok] at ha hb
  have ha' : idxR (v.map f) i = .ok (f a) := by rw [idxR_eq_ok]; simp [ha]
  have hb' : idxR (v.map f) j = .ok (f b) := by rw [idxR_eq_ok]; simp [hb]
  rw [ha', res_bind_ok, hb', res_bind_ok]
  have := Except.ok.inj h
  rw [← this]
  simp [List.map_set]

theorem swapped_nodup (v v' : List α) (i j : Nat) (hi : i < v.length) (hj : j < v.length)
    (hl : v'.length = v.length) (hk : ∀ k, v'[k]? = v[Equiv.swap i j k]?) (hn : v.Nodup) : v'.Nodup := by
  rw [List.nodup_iff_getElem?_ne_getElem?] at hn ⊢
  intro a b hab hb
  rw [hk, hk]
  rw [hl] at hb
  have h1 : Equiv.swap i j a < v.length := (swap_lt i j a _ hi hj).mpr (by omega)
  have h2 : Equiv.swap i j b < v.length := (swap_lt i j b _ hi hj).mpr hb
  have hne : Equiv.swap i j a ≠ Equiv.swap i j b := fun h => by
    have := (Equiv.swap i j).injective h
    omega
  rcases Nat.lt_or_ge (Equiv.swap i j a) (Equiv.swap i j b) with h | h
  · exact hn _ _ h h2
  · exact (hn _ _ (by omega) h1).symm

theorem swapped_mem (v v' : List α) (i j : Nat) (hk : ∀ k, v'[k]? = v[Equiv.swap i j k]?) (x : α)
    (hx : x ∈ v') : x ∈ v := by
  obtain ⟨k, h⟩ := List.mem_iff_getElem?.mp hx
  rw [hk] at h
  exact List.mem_iff_getElem?.mpr ⟨_, h⟩

theorem getD_of_swapped (v v' : List α) (d : α) (i j : Nat) (hk : ∀ k, v'[k]? = v[Equiv.swap i j k]?)
    (k : Nat) : v'.getD k d = v.getD (Equiv.swap i j k) d := by
  simp only [List.getD_eq_getElem?_getD, hk]

theorem map_set_update (ids : List Nat) (A : Nat → β) (i : Nat) (v : β) (hi : i < ids.length)
    (hn : ids.Nodup) :
    (ids.map A).set i v = ids.map (Function.update A (ids.getD i 0) v) := by
  apply List.ext_getElem?
  intro k
  have hg : ids.getD i 0 = ids[i] := by simp [hi]
  rw [List.getElem?_set, List.getElem?_map, List.getElem?_map, hg]
  by_cases hik : i = k
  · subst hik
    rw [if_pos rfl, if_pos (by simpa using hi), List.getElem?_eq_getElem hi]
    simp
  · rw [if_neg hik]
    rcases Nat.lt_or_ge k ids.length with hk | hk
    · rw [List.getElem?_eq_getElem hk]
      have : ids[k] ≠ ids[i] := fun h => hik ((List.Nodup.getElem_inj_iff hn).mp h).symm
      simp [Function.update, this]
    · rw [List.getElem?_eq_none hk]; rfl

end arrays

theorem updateAt_ok {F : Type} (v : List F) (d : F) (k : Nat) (f : F → Res F) (g : F → F) (hk : k < v.length)
    (hf : ∀ a, f a = .ok (g a)) :
    updateAt v k f = .ok (v.set k (g (v.getD k d))) := by
  unfold updateAt
  have : v.getD k d = v[k] := by simp [hk]
  rw [idxR_ok_of_lt hk, res_bind_ok, hf, res_bind_ok, this]
  rfl

theorem updateAll_ok {F : Type} (v : List F) (d : F) (ks : List Nat) (f : Nat → F → Res F) (g : Nat → F → F)
    (hn : ks.Nodup) (hk : ∀ k ∈ ks, k < v.length) (hf : ∀ k ∈ ks, ∀ a, f k a = .ok (g k a)) :
    ∃ v', updateAll v ks f = .ok v' ∧ v'.length = v.length ∧
      (∀ k ∈ ks, v'.getD k d = g k (v.getD k d)) ∧ (∀ k, k ∉ ks → v'.getD k d = v.getD k d) := by
  unfold updateAll
  induction ks generalizing v with
  | nil => exact ⟨v, rfl, rfl, by simp, fun k _ => rfl⟩
  | cons k ks ih =>
    rw [List.nodup_cons] at hn
    have hk0 := hk k (by simp)
    rw [List.foldlM_cons, updateAt_ok v d k (f k) (g k) hk0 (hf k (by simp)), res_bind_ok]
    obtain ⟨v', e, hl, h1, h2⟩ := ih (v.set k (g k (v.getD k d))) hn.2
      (by intro m hm; simpa using hk m (by simp [hm])) (fun m hm => hf m (by simp [hm]))
    refine ⟨v', e, by simpa using hl, ?_, ?_⟩
    · intro m hm
      rw [List.mem_cons] at hm
      rcases hm with rfl | hm
      · rw [h2 m hn.1]
        simp [List.getD_eq_getElem?_getD, hk0]
      · rw [h1 m hm]
        have : k ≠ m := fun h => hn.1 (h ▸ hm)
        simp [List.getD_eq_getElem?_getD, this]
    · intro m hm
      rw [List.mem_cons, not_or] at hm
      rw [h2 m hm.2]
      simp [List.getD_eq_getElem?_getD, Ne.symm hm.1]

/-! ## sums -/

theorem sum_range_list (f : Nat → ℝ) (n : Nat) :
    ∑ i ∈ Finset.range n, f i = ((List.range n).map f).sum := by
  induction n with
  | zero => simp
  | succ n ih => rw [Finset.sum_range_succ, List.range_succ, ih]; simp

/-- positions and instances are in one-to-one correspondence -/
structure Numbering (l : Nat) (ids : List Nat) : Prop where
  length : ids.length = l
  nodup : ids.Nodup
  lt : ∀ i ∈ ids, i < l

namespace Numbering
variable {l : Nat} {ids : List Nat}

theorem range (l : Nat) : Numbering l (List.range l) :=
  ⟨by simp, List.nodup_range, by simp⟩

theorem getD_lt (h : Numbering l ids) {k : Nat} (hk : k < l) : ids.getD k 0 < l := by
  have hk' : k < ids.length := by rw [h.length]; exact hk
  have : ids.getD k 0 = ids[k] := by simp [hk']
  rw [this]
  exact h.lt _ (List.getElem_mem _)

theorem getD_inj (h : Numbering l ids) {i j : Nat} (hi : i < l) (hj : j < l)
    (he : ids.getD i 0 = ids.getD j 0) : i = j := by
  have hi' : i < ids.length := by rw [h.length]; exact hi
  have hj' : j < ids.length := by rw [h.length]; exact hj
  have e1 : ids.getD i 0 = ids[i] := by simp [hi']
  have e2 : ids.getD j 0 = ids[j] := by simp [hj']
  rw [e1, e2] at he
  exact (List.Nodup.getElem_inj_iff h.nodup).mp he

theorem perm (h : Numbering l ids) : ids.Perm (List.range l) := by
  have hsub : ids ⊆ List.range l := fun i hi => by simpa using h.lt i hi
  exact (List.subperm_of_subset h.nodup hsub).perm_of_length_le (by simp [h.length])

/-- a sum over the instances is a sum over the positions -/
theorem sum_eq (h : Numbering l ids) (f : Nat → ℝ) :
    ∑ i ∈ Finset.range l, f i = ∑ k ∈ Finset.range l, f (ids.getD k 0) := by
  rw [sum_range_list, sum_range_list, ← (h.perm.map f).sum_eq]
  congr 1
  apply List.ext_getElem
  · simp [h.length]
  · intro n h1 h2
    have : n < ids.length := by simpa using h1
    simp [this]

theorem surj (h : Numbering l ids) {i : Nat} (hi : i < l) : ∃ k, k < l ∧ ids.getD k 0 = i := by
  have hm : i ∈ ids := h.perm.symm.subset (by simpa using hi)
  obtain ⟨k, hk, he⟩ := List.mem_iff_getElem.mp hm
  exact ⟨k, by rw [← h.length]; exact hk, by simp [hk, he]⟩

theorem swap (h : Numbering l ids) {i j : Nat} (hi : i < l) (hj : j < l) :
    ∃ ids', swapR ids i j = .ok ids' ∧ Numbering l ids' ∧
      (∀ k, ids'[k]? = ids[Equiv.swap i j k]?) := by
  have hi' : i < ids.length := by rw [h.length]; exact hi
  have hj' : j < ids.length := by rw [h.length]; exact hj
  obtain ⟨v, e, hl, hk⟩ := swapR_ok ids i j hi' hj'
  exact ⟨v, e, ⟨by rw [hl, h.length], swapped_nodup ids v i j hi' hj' hl hk h.nodup,
    fun x hx => h.lt x (swapped_mem ids v i j hk x hx)⟩, hk⟩

end Numbering

/-- a sum after changes at two places -/
theorem sum_two_changes (n : Nat) (f f' : Nat → ℝ) (p r : Nat) (hp : p < n) (hr : r < n) (hpr : p ≠ r)
    (h : ∀ k, k ≠ p → k ≠ r → f' k = f k) :
    ∑ k ∈ Finset.range n, f' k = ∑ k ∈ Finset.range n, f k + (f' p - f p) + (f' r - f r) := by
  have : ∑ k ∈ Finset.range n, (f' k - f k) = (f' p - f p) + (f' r - f r) := by
    apply Finset.sum_eq_add_of_mem p r (Finset.mem_range.mpr hp) (Finset.mem_range.mpr hr) hpr
    intro c _ hc
    rw [h c hc.1 hc.2]; ring
  rw [Finset.sum_sub_distrib] at this
  linarith

/-! ## the invariant -/

/-- contribution of the multipliers at their upper bound -/
noncomputable def upperPart (P : SvmProblem) (A : Nat → ℝ) (i : Nat) : ℝ :=
  ∑ j ∈ Finset.range P.size, if statusOf P.param.C (A j) = .upper then P.param.C * P.q i j else 0

/-- the state `s` describes the problem `P` with renumbered rows and multipliers `A` (numbered as in
the problem) -/
structure SmoInv (P : SvmProblem) (A : Nat → ℝ) (s : Smo ℝ) : Prop where
  l : s.l = P.size
  active : s.activeSize ≤ P.size
  C : s.C = P.param.C
  ids : Numbering P.size s.activeSet
  y : s.y = s.activeSet.map P.y
  b : s.b = s.activeSet.map P.b
  Qy : s.Q.y = s.activeSet.map P.y
  kernel : KernelOver P.param (s.activeSet.map (fun i => P.vectors.getD i [])) s.Q.kernel
  alpha : s.alpha = s.activeSet.map A
  status : s.status = s.activeSet.map (fun i => statusOf P.param.C (A i))
  GBar : s.GBar = s.activeSet.map (upperPart P A)
  Glen : s.G.length = P.size
  G : ∀ k, k < s.activeSize → s.G.getD k 0 = P.gradient A (s.activeSet.getD k 0)
  bound : ∀ k, s.activeSize ≤ k → k < P.size →
    statusOf P.param.C (A (s.activeSet.getD k 0)) ≠ .free
  feasible : P.Feasible A

/-- the gradients of the inactive rows are correct, too -/
def FullGradient (P : SvmProblem) (A : Nat → ℝ) (s : Smo ℝ) : Prop :=
  ∀ k, k < P.size → s.G.getD k 0 = P.gradient A (s.activeSet.getD k 0)

theorem SvmProblem.q_comm (P : SvmProblem) (i j : Nat) : P.q i j = P.q j i := by
  unfold SvmProblem.q SvmProblem.kernel
  rw [C67_symmetric]; ring

section inv
variable {P : SvmProblem} {A : Nat → ℝ} {s : Smo ℝ}

theorem SmoInv.idlen (h : SmoInv P A s) : s.activeSet.length = P.size := h.ids.length

/-- shorthand: the instance at position `k` -/
abbrev Smo.id (s : Smo ℝ) (k : Nat) : Nat := s.activeSet.getD k 0

theorem SmoInv.get_y (h : SmoInv P A s) {k : Nat} (hk : k < P.size) : idxR s.y k = .ok (P.y (s.id k)) := by
  rw [h.y, idxR_map _ _ _ (by rw [h.idlen]; exact hk)]

theorem SmoInv.get_b (h : SmoInv P A s) {k : Nat} (hk : k < P.size) : idxR s.b k = .ok (P.b (s.id k)) := by
  rw [h.b, idxR_map _ _ _ (by rw [h.idlen]; exact hk)]

theorem SmoInv.get_alpha (h : SmoInv P A s) {k : Nat} (hk : k < P.size) : idxR s.alpha k = .ok (A (s.id k)) := by
  rw [h.alpha, idxR_map _ _ _ (by rw [h.idlen]; exact hk)]

theorem SmoInv.get_status (h : SmoInv P A s) {k : Nat} (hk : k < P.size) :
    idxR s.status k = .ok (statusOf P.param.C (A (s.id k))) := by
  rw [h.status, idxR_map _ _ _ (by rw [h.idlen]; exact hk)]

theorem SmoInv.get_bar (h : SmoInv P A s) {k : Nat} (hk : k < P.size) :
    idxR s.GBar k = .ok (upperPart P A (s.id k)) := by
  rw [h.GBar, idxR_map _ _ _ (by rw [h.idlen]; exact hk)]

theorem idxR_getD0 (v : List ℝ) (k : Nat) (hk : k < v.length) : idxR v k = .ok (v.getD k 0) := by
  rw [idxR_ok_of_lt hk]; simp [hk]

theorem SmoInv.get_G (h : SmoInv P A s) {k : Nat} (hk : k < s.activeSize) :
    idxR s.G k = .ok (P.gradient A (s.id k)) := by
  have := h.active
  rw [idxR_getD0 s.G k (by rw [h.Glen]; omega), h.G k hk]

theorem SmoInv.entry (h : SmoInv P A s) {i j : Nat} (hi : i < P.size) (hj : j < P.size) :
    s.Q.entry i j = .ok (P.q (s.id i) (s.id j)) := by
  unfold QMat.entry
  have hl := h.idlen
  rw [h.Qy, idxR_map _ _ _ (by rw [hl]; exact hi), res_bind_ok, idxR_map _ _ _ (by rw [hl]; exact hj),
    res_bind_ok, function_over P.param _ s.Q.kernel h.kernel i j (by simpa [hl] using hi)
      (by simpa [hl] using hj), res_bind_ok]
  have e1 : s.id i = s.activeSet[i]'(by rw [hl]; exact hi) := by simp [Smo.id, hl, hi]
  have e2 : s.id j = s.activeSet[j]'(by rw [hl]; exact hj) := by simp [Smo.id, hl, hj]
  simp only [List.getElem_map, ← e1, ← e2, mul_real]
  rfl

theorem SmoInv.getQ (h : SmoInv P A s) {i n : Nat} (hi : i < P.size) (hn : n ≤ P.size) :
    s.Q.getQ i n = .ok ((List.range n).map (fun j => P.q (s.id i) (s.id j))) := by
  unfold QMat.getQ
  refine mapM_ok (g := fun j => P.q (s.id i) (s.id j)) ?_
  intro j hj
  rw [List.mem_range] at hj
  exact h.entry hi (by omega)

theorem idxR_range_map (n k : Nat) (f : Nat → ℝ) (hk : k < n) :
    idxR ((List.range n).map f) k = .ok (f k) := by
  rw [idxR_map _ _ _ (by simpa using hk)]
  simp [hk]

/-! ## exchanging two rows -/

theorem SmoInv.swap (h : SmoInv P A s) {i j : Nat} (hi : i < P.size) (hj : j < P.size) :
    ∃ s', s.swapIndex i j = .ok s' ∧ s'.l = s.l ∧ s'.activeSize = s.activeSize ∧ s'.C = s.C ∧
      s'.unshrinked = s.unshrinked ∧ s'.shrinking = s.shrinking ∧ s'.counter = s.counter ∧
      Numbering P.size s'.activeSet ∧ s'.y = s'.activeSet.map P.y ∧ s'.b = s'.activeSet.map P.b ∧
      s'.Q.y = s'.activeSet.map P.y ∧
      KernelOver P.param (s'.activeSet.map (fun i => P.vectors.getD i [])) s'.Q.kernel ∧
      s'.alpha = s'.activeSet.map A ∧
      s'.status = s'.activeSet.map (fun i => statusOf P.param.C (A i)) ∧
      s'.GBar = s'.activeSet.map (upperPart P A) ∧ s'.G.length = P.size ∧
      (∀ k, s'.G.getD k 0 = s.G.getD (Equiv.swap i j k) 0) ∧ (∀ k, s'.id k = s.id (Equiv.swap i j k)) := by
  obtain ⟨ids', e, hn, hk⟩ := h.ids.swap hi hj
  obtain ⟨G', eG, lG, kG⟩ := swapR_ok s.G i j (by rw [h.Glen]; exact hi) (by rw [h.Glen]; exact hj)
  obtain ⟨k', vs', eK, eV, hK⟩ := swapIndex_over P.param _ s.Q.kernel h.kernel i j
    (by simpa [h.idlen] using hi) (by simpa [h.idlen] using hj)
  have hvs : vs' = ids'.map (fun i => P.vectors.getD i []) := by
    have := swapR_map _ _ (fun i => P.vectors.getD i []) i j e
    rw [eV] at this
    exact Except.ok.inj this
  subst hvs
  refine ⟨{ s with Q := ⟨k', ids'.map P.y⟩, y := ids'.map P.y, G := G', alpha := ids'.map A, b := ids'.map P.b,
                   GBar := ids'.map (upperPart P A), activeSet := ids', status := ids'.map (fun i => statusOf P.param.C (A i)) },
    ?_, rfl, rfl, rfl, rfl, rfl, rfl, hn, rfl, rfl, rfl, hK, rfl, rfl, rfl, ?_, ?_, ?_⟩
  · unfold Smo.swapIndex QMat.swapIndex
    rw [eK, res_bind_ok, h.Qy, swapR_map _ _ P.y i j e, res_bind_ok, res_pure, res_bind_ok, h.y,
      swapR_map _ _ P.y i j e, res_bind_ok, eG, res_bind_ok, h.alpha, swapR_map _ _ A i j e, res_bind_ok,
      h.b, swapR_map _ _ P.b i j e, res_bind_ok, h.GBar, swapR_map _ _ (upperPart P A) i j e, res_bind_ok,
      e, res_bind_ok, h.status, swapR_map _ _ _ i j e, res_bind_ok]
    rfl
  · show G'.length = P.size
    rw [lG, h.Glen]
  · exact getD_of_swapped _ _ 0 i j kG
  · exact getD_of_swapped _ _ 0 i j hk

end inv

end Verif
