import Verif.Props.WorkingSet

/-! # C68, C70 and the gradient: every state the SMO solver reaches -/

set_option linter.unusedSectionVars false
set_option linter.unusedVariables false

namespace Verif
open Dbl

section status
variable {C a : ℝ}

theorem statusOf_upper : statusOf C a = .upper ↔ C ≤ a := by
  unfold statusOf
  simp only [le_real, decide_eq_true_eq, zero_real]
  split_ifs <;> simp_all

theorem statusOf_lower : statusOf C a = .lower ↔ a < C ∧ a ≤ 0 := by
  unfold statusOf
  simp only [le_real, decide_eq_true_eq, zero_real]
  split_ifs <;> simp_all

theorem statusOf_free : statusOf C a = .free ↔ a < C ∧ 0 < a := by
  unfold statusOf
  simp only [le_real, decide_eq_true_eq, zero_real]
  split_ifs <;> simp_all

end status

section inv
variable {P : SvmProblem} {A : Nat → ℝ} {s : Smo ℝ}

/-- the derivative at a feasible point is in range -/
theorem gradient_range (hr : P.InRange) (hf : P.Feasible A) {i : Nat} (hi : i < P.size) :
    |P.gradient A i| ≤ (Dbl.maxVal : ℝ) := by
  refine le_trans ?_ (hr i hi)
  unfold SvmProblem.gradient
  refine (abs_add_le _ _).trans ?_
  have : |∑ j ∈ Finset.range P.size, A j * P.q i j| ≤ ∑ j ∈ Finset.range P.size, P.param.C * |P.q i j| := by
    refine (Finset.abs_sum_le_sum_abs _ _).trans ?_
    apply Finset.sum_le_sum
    intro j hj
    rw [Finset.mem_range] at hj
    rw [abs_mul, abs_of_nonneg (hf.lower j hj)]
    exact mul_le_mul_of_nonneg_right (hf.upper j hj) (abs_nonneg _)
  linarith

theorem SmoInv.rowsOk (hv : P.Valid) (hr : P.InRange) (h : SmoInv P A s) : s.RowsOk := by
  have ha := h.active
  have hid := h.idlen
  refine ⟨by rw [h.y]; simpa [hid] using ha, by rw [h.Glen]; exact ha, by rw [h.status]; simpa [hid] using ha, ?_, ?_⟩
  · intro k hk
    have hk' : k < P.size := by omega
    have : s.label k = P.y (s.id k) := by
      have := h.get_y hk'
      rw [idxR_getD0 s.y k (by rw [h.y]; simpa [hid] using hk')] at this
      exact Except.ok.inj this
    rw [this]
    exact hv.sign _ (h.ids.getD_lt hk')
  · intro k hk
    have hk' : k < P.size := by omega
    unfold Smo.slope
    rw [h.G k hk]
    exact gradient_range hr h.feasible (h.ids.getD_lt hk')

theorem SmoInv.label_eq (h : SmoInv P A s) {k : Nat} (hk : k < P.size) : s.label k = P.y (s.id k) := by
  have := h.get_y hk
  rw [idxR_getD0 s.y k (by rw [h.y]; simpa [h.idlen] using hk)] at this
  exact Except.ok.inj this

theorem SmoInv.slope_eq (h : SmoInv P A s) {k : Nat} (hk : k < s.activeSize) :
    s.slope k = P.gradient A (s.id k) := h.G k hk

theorem SmoInv.mark_eq (h : SmoInv P A s) {k : Nat} (hk : k < P.size) :
    s.mark k = statusOf P.param.C (A (s.id k)) := by
  have := h.get_status hk
  have hl : k < s.status.length := by rw [h.status]; simpa [h.idlen] using hk
  rw [idxR_ok_of_lt hl] at this
  have e : s.mark k = s.status[k] := by simp [Smo.mark, hl]
  rw [e]
  exact Except.ok.inj this

theorem SmoInv.rise_iff (hv : P.Valid) (h : SmoInv P A s) {k : Nat} (hk : k < P.size) :
    s.MayRise k ↔ P.CanRise A (s.id k) := by
  unfold Smo.MayRise SvmProblem.CanRise
  rw [h.label_eq hk, h.mark_eq hk]
  have hC := hv.C_pos
  have h1 : statusOf P.param.C (A (s.id k)) ≠ .upper ↔ A (s.id k) < P.param.C := by
    rw [Ne, statusOf_upper, not_le]
  have h2 : statusOf P.param.C (A (s.id k)) ≠ .lower ↔ 0 < A (s.id k) := by
    rw [Ne, statusOf_lower]
    constructor
    · intro hn
      by_contra h0
      exact hn ⟨by linarith, by linarith⟩
    · rintro h0 ⟨_, h2⟩
      linarith
  rw [h1, h2]

theorem SmoInv.fall_iff (hv : P.Valid) (h : SmoInv P A s) {k : Nat} (hk : k < P.size) :
    s.MayFall k ↔ P.CanFall A (s.id k) := by
  unfold Smo.MayFall SvmProblem.CanFall
  rw [h.label_eq hk, h.mark_eq hk]
  have hC := hv.C_pos
  have h1 : statusOf P.param.C (A (s.id k)) ≠ .upper ↔ A (s.id k) < P.param.C := by
    rw [Ne, statusOf_upper, not_le]
  have h2 : statusOf P.param.C (A (s.id k)) ≠ .lower ↔ 0 < A (s.id k) := by
    rw [Ne, statusOf_lower]
    constructor
    · intro hn
      by_contra h0
      exact hn ⟨by linarith, by linarith⟩
    · rintro h0 ⟨_, h2⟩
      linarith
  rw [h1, h2]

/-! ## reconstructing the gradient -/

/-- contribution to row `m` of the free multipliers among the first `n` positions -/
noncomputable def freePart (P : SvmProblem) (A : Nat → ℝ) (s : Smo ℝ) (n m : Nat) : ℝ :=
  ∑ i ∈ Finset.range n,
    if statusOf P.param.C (A (s.id i)) = .free then A (s.id i) * P.q (s.id i) (s.id m) else 0

theorem gradient_split (hv : P.Valid) (h : SmoInv P A s) (m : Nat) :
    P.gradient A (s.id m) = upperPart P A (s.id m) + P.b (s.id m) + freePart P A s s.activeSize m := by
  have hC := hv.C_pos
  have e1 : ∑ j ∈ Finset.range P.size, A j * P.q (s.id m) j =
      upperPart P A (s.id m) +
        ∑ j ∈ Finset.range P.size,
          if statusOf P.param.C (A j) = .free then A j * P.q j (s.id m) else 0 := by
    unfold upperPart
    rw [← Finset.sum_add_distrib]
    apply Finset.sum_congr rfl
    intro j hj
    rw [Finset.mem_range] at hj
    have hl := h.feasible.lower j hj
    have hu := h.feasible.upper j hj
    rcases hs : statusOf P.param.C (A j) with _ | _ | _
    · rw [statusOf_lower] at hs
      have : A j = 0 := le_antisymm hs.2 hl
      simp [this]
    · rw [statusOf_upper] at hs
      have : A j = P.param.C := le_antisymm hu hs
      simp [this]
    · rw [P.q_comm (s.id m) j]; simp
  have e2 : ∑ j ∈ Finset.range P.size,
      (if statusOf P.param.C (A j) = .free then A j * P.q j (s.id m) else 0) =
      freePart P A s s.activeSize m := by
    rw [h.ids.sum_eq]
    unfold freePart
    symm
    apply Finset.sum_subset (Finset.range_subset_range.mpr h.active)
    intro k hk hk'
    rw [Finset.mem_range] at hk hk'
    rw [if_neg (h.bound k (by omega) hk)]
  unfold SvmProblem.gradient
  rw [e1, e2]; ring

theorem mem_range'_iff (a n k : Nat) (h : a ≤ n) : k ∈ List.range' a (n - a) ↔ a ≤ k ∧ k < n := by
  rw [List.mem_range'_1]; omega

theorem reset_ok (h : SmoInv P A s) :
    ∃ G, updateAll s.G (List.range' s.activeSize (s.l - s.activeSize)) s.resetEntry = .ok G ∧
      G.length = P.size ∧
      (∀ k, k < s.activeSize → G.getD k 0 = s.G.getD k 0) ∧
      (∀ k, s.activeSize ≤ k → k < P.size → G.getD k 0 = upperPart P A (s.id k) + P.b (s.id k)) := by
  have ha : s.activeSize ≤ s.l := by rw [h.l]; exact h.active
  obtain ⟨G, e, hl, h1, h2⟩ := updateAll_ok s.G (0 : ℝ) (List.range' s.activeSize (s.l - s.activeSize)) s.resetEntry
    (fun k _ => upperPart P A (s.id k) + P.b (s.id k)) List.nodup_range'
    (by intro k hk; rw [mem_range'_iff _ _ _ ha, h.l] at hk; rw [h.Glen]; exact hk.2)
    (by
      intro k hk a
      rw [mem_range'_iff _ _ _ ha, h.l] at hk
      unfold Smo.resetEntry
      rw [h.get_bar hk.2, res_bind_ok, h.get_b hk.2, res_bind_ok]
      rfl)
  refine ⟨G, e, by rw [hl, h.Glen], ?_, ?_⟩
  · intro k hk
    exact h2 k (by rw [mem_range'_iff _ _ _ ha]; omega)
  · intro k hk hk'
    exact h1 k (by rw [mem_range'_iff _ _ _ ha, h.l]; exact ⟨hk, hk'⟩)

theorem contributions_ok (h : SmoInv P A s) (G : List ℝ) (hG : G.length = P.size) (n : Nat)
    (hn : n ≤ s.activeSize) :
    ∃ G', (List.range n).foldlM s.freeContribution G = .ok G' ∧ G'.length = P.size ∧
      (∀ k, k < s.activeSize → G'.getD k 0 = G.getD k 0) ∧
      (∀ k, s.activeSize ≤ k → k < P.size → G'.getD k 0 = G.getD k 0 + freePart P A s n k) := by
  have ha : s.activeSize ≤ s.l := by rw [h.l]; exact h.active
  have hact := h.active
  induction n with
  | zero => exact ⟨G, rfl, hG, fun _ _ => rfl, fun k _ _ => by simp [freePart]⟩
  | succ n ih =>
    obtain ⟨G1, e1, l1, a1, b1⟩ := ih (by omega)
    rw [List.range_succ, List.foldlM_append, e1, res_bind_ok]
    simp only [List.foldlM_cons, List.foldlM_nil]
    have hn' : n < P.size := by omega
    unfold Smo.freeContribution Smo.isFree
    rw [h.get_status hn', res_bind_ok, res_pure, res_bind_ok]
    by_cases hs : statusOf P.param.C (A (s.id n)) = .free
    · simp only [hs, decide_true, if_true]
      rw [h.getQ hn' (by rw [h.l]), res_bind_ok, h.get_alpha hn', res_bind_ok]
      obtain ⟨G2, e2, l2, a2, b2⟩ := updateAll_ok G1 (0 : ℝ) (List.range' s.activeSize (s.l - s.activeSize))
        (Smo.addScaled (A (s.id n)) ((List.range s.l).map (fun j => P.q (s.id n) (s.id j))))
        (fun k old => old + A (s.id n) * P.q (s.id n) (s.id k)) List.nodup_range'
        (by intro k hk; rw [mem_range'_iff _ _ _ ha, h.l] at hk; rw [l1]; exact hk.2)
        (by
          intro k hk a
          rw [mem_range'_iff _ _ _ ha] at hk
          unfold Smo.addScaled
          rw [idxR_range_map _ _ _ hk.2, res_bind_ok]
          rfl)
      rw [e2, res_bind_ok]
      refine ⟨G2, rfl, by rw [l2, l1], ?_, ?_⟩
      · intro k hk
        rw [b2 k (by rw [mem_range'_iff _ _ _ ha]; omega), a1 k hk]
      · intro k hk hk'
        rw [a2 k (by rw [mem_range'_iff _ _ _ ha, h.l]; exact ⟨hk, hk'⟩), b1 k hk hk']
        unfold freePart
        rw [Finset.sum_range_succ, if_pos hs]; ring
    · simp only [hs, decide_false, Bool.false_eq_true, if_false]
      refine ⟨G1, rfl, l1, a1, ?_⟩
      intro k hk hk'
      rw [b1 k hk hk']
      unfold freePart
      rw [Finset.sum_range_succ, if_neg hs]; ring

/-- after `reconstructGradient` all derivatives are right -/
theorem SmoInv.reconstruct (hv : P.Valid) (h : SmoInv P A s) :
    ∃ s', s.reconstructGradient = .ok s' ∧ SmoInv P A s' ∧ FullGradient P A s' ∧
      s'.activeSize = s.activeSize ∧ s'.l = s.l ∧ s'.unshrinked = s.unshrinked ∧
      s'.shrinking = s.shrinking ∧ s'.counter = s.counter ∧ s'.activeSet = s.activeSet := by
  unfold Smo.reconstructGradient
  by_cases he : s.activeSize = s.l
  · rw [if_pos he]
    refine ⟨s, rfl, h, ?_, rfl, rfl, rfl, rfl, rfl, rfl⟩
    intro k hk
    exact h.G k (by rw [he, h.l]; exact hk)
  · rw [if_neg he]
    obtain ⟨G1, e1, l1, a1, b1⟩ := reset_ok h
    obtain ⟨G2, e2, l2, a2, b2⟩ := contributions_ok h G1 l1 s.activeSize (le_refl _)
    rw [e1, res_bind_ok, e2, res_bind_ok]
    have full : ∀ k, k < P.size → G2.getD k 0 = P.gradient A (s.id k) := by
      intro k hk
      by_cases hka : k < s.activeSize
      · rw [a2 k hka, a1 k hka, h.G k hka]
      · rw [b2 k (by omega) hk, b1 k (by omega) hk, gradient_split hv h k]
    refine ⟨{ s with G := G2 }, rfl, ?_, full, rfl, rfl, rfl, rfl, rfl, rfl⟩
    exact ⟨h.l, h.active, h.C, h.ids, h.y, h.b, h.Qy, h.kernel, h.alpha, h.status, h.GBar, l2,
      fun k hk => full k (lt_of_lt_of_le hk h.active), h.bound, h.feasible⟩

/-! ## shrinking -/

theorem staysActive_ok (h : SmoInv P A s) (gm0 gm1 : ℝ) {k : Nat} (hk : k < s.activeSize) :
    ∃ r, s.staysActive gm0 gm1 k = .ok r ∧
      (r = false → statusOf P.param.C (A (s.id k)) ≠ .free) := by
  have ha := h.active
  unfold Smo.staysActive
  rw [h.get_status (by omega), res_bind_ok, h.get_y (by omega), res_bind_ok, h.get_G hk, res_bind_ok]
  refine ⟨_, rfl, ?_⟩
  intro hr hf
  rw [hf] at hr
  simp at hr

theorem swap_cases (i j k : Nat) : Equiv.swap i j k = k ∨ (k = i ∧ Equiv.swap i j k = j) ∨
    (k = j ∧ Equiv.swap i j k = i) := by
  by_cases h1 : k = i
  · subst h1; right; left; simp
  · by_cases h2 : k = j
    · subst h2; right; right; simp
    · left; exact Equiv.swap_apply_of_ne_of_ne h1 h2

/-- taking the row `k`, whose multiplier is at a bound, out of the active rows -/
theorem SmoInv.dropRow (h : SmoInv P A s) {k : Nat} (hk : k < s.activeSize)
    (hfree : statusOf P.param.C (A (s.id k)) ≠ .free) :
    ∃ s', ({ s with activeSize := s.activeSize - 1 } : Smo ℝ).swapIndex k (s.activeSize - 1) = .ok s' ∧
      SmoInv P A s' ∧ s'.activeSize = s.activeSize - 1 ∧ s'.unshrinked = s.unshrinked ∧
      ∀ m, s'.id m = s.id (Equiv.swap k (s.activeSize - 1) m) := by
  have ha := h.active
  obtain ⟨s', e', i1, i2, i3, i4, i5, i6, i7, i8, i9, i10, i11, i12, i13, i14, i15, i16, i17⟩ :=
    h.swap (i := k) (j := s.activeSize - 1) (by omega) (by omega)
  have e'' : ({ s with activeSize := s.activeSize - 1 } : Smo ℝ).swapIndex k (s.activeSize - 1) =
      .ok { s' with activeSize := s.activeSize - 1 } := by
    unfold Smo.swapIndex at e' ⊢
    simp only [bind_ok_iff] at e' ⊢
    obtain ⟨q, hq, y, hy, g, hg, al, hal, b, hb, gb, hgb, as, has, st, hst, e'⟩ := e'
    refine ⟨q, hq, y, hy, g, hg, al, hal, b, hb, gb, hgb, as, has, st, hst, ?_⟩
    have := Except.ok.inj e'
    rw [← this]; rfl
  refine ⟨_, e'', ?_, rfl, i4, i17⟩
  refine ⟨by rw [← h.l]; exact i1, ?_, by rw [← h.C]; exact i3, i7, i8, i9, i10, i11, i12, i13, i14, i15, ?_, ?_,
    h.feasible⟩
  · show s.activeSize - 1 ≤ P.size
    omega
  · intro m hm
    have hm : m < s.activeSize - 1 := hm
    show s'.G.getD m 0 = P.gradient A (s'.id m)
    rw [i16, i17]
    refine h.G _ ?_
    rcases swap_cases k (s.activeSize - 1) m with c | ⟨c, d⟩ | ⟨c, d⟩ <;> omega
  · intro m hm hm'
    have hm : s.activeSize - 1 ≤ m := hm
    show statusOf P.param.C (A (s'.id m)) ≠ .free
    rw [i17]
    rcases swap_cases k (s.activeSize - 1) m with c | ⟨c, d⟩ | ⟨c, d⟩
    · rw [c]
      by_cases hmm : m = s.activeSize - 1
      · have : k = m := by
          by_contra hne
          rw [hmm] at c hne
          have : Equiv.swap k (s.activeSize - 1) (s.activeSize - 1) = k := Equiv.swap_apply_right _ _
          rw [this] at c
          exact hne c
        rw [← this]; exact hfree
      · exact h.bound m (by omega) hm'
    · have : m = k := c
      have hmk : k = s.activeSize - 1 := by omega
      rw [d, ← hmk]; exact hfree
    · rw [d]; exact hfree

theorem SmoInv.shrinkLoop (hv : P.Valid) (gm0 gm1 : ℝ) (n k : Nat) (s : Smo ℝ) (h : SmoInv P A s)
    (hk : n + k = s.activeSize) :
    ∃ s', Smo.shrinkLoop gm0 gm1 n k s = .ok s' ∧ SmoInv P A s' := by
  induction n generalizing k s with
  | zero => exact ⟨s, rfl, h⟩
  | succ n ih =>
    simp only [Smo.shrinkLoop]
    have ha := h.active
    obtain ⟨r, e, hr⟩ := staysActive_ok h gm0 gm1 (k := k) (by omega)
    rw [e, res_bind_ok]
    cases r with
    | true => exact ih (k + 1) s h (by omega)
    | false =>
      simp only [Bool.false_eq_true, if_false]
      obtain ⟨s', e', h', ha', _⟩ := h.dropRow (k := k) (by omega) (hr rfl)
      rw [e', res_bind_ok]
      exact ih k s' h' (by omega)

theorem staysInactive_ok (h : SmoInv P A s) (hf : FullGradient P A s) (gm0 gm1 : ℝ) {k : Nat}
    (hk : k < P.size) : ∃ r, s.staysInactive gm0 gm1 k = .ok r := by
  unfold Smo.staysInactive
  rw [h.get_status hk, res_bind_ok, h.get_y hk, res_bind_ok,
    idxR_getD0 s.G k (by rw [h.Glen]; exact hk), res_bind_ok]
  exact ⟨_, rfl⟩

/-- making the row `k` active -/
theorem SmoInv.addRow (h : SmoInv P A s) (hf : FullGradient P A s) {k : Nat} (hka : s.activeSize ≤ k)
    (hk : k < P.size) :
    ∃ s', s.swapIndex k s.activeSize = .ok s' ∧
      SmoInv P A { s' with activeSize := s.activeSize + 1 } ∧
      FullGradient P A { s' with activeSize := s.activeSize + 1 } ∧
      ∀ m, s'.id m = s.id (Equiv.swap k s.activeSize m) := by
  obtain ⟨s', e', i1, i2, i3, i4, i5, i6, i7, i8, i9, i10, i11, i12, i13, i14, i15, i16, i17⟩ :=
    h.swap (i := k) (j := s.activeSize) (by omega) (by omega)
  have full : ∀ m, m < P.size → s'.G.getD m 0 = P.gradient A (s'.id m) := by
    intro m hm
    rw [i16, i17]
    exact hf _ ((swap_lt _ _ m _ (by omega) (by omega)).mpr hm)
  refine ⟨s', e', ?_, full, i17⟩
  refine ⟨by rw [← h.l]; exact i1, ?_, by rw [← h.C]; exact i3, i7, i8, i9, i10, i11, i12, i13, i14, i15, ?_, ?_,
    h.feasible⟩
  · show s.activeSize + 1 ≤ P.size
    omega
  · intro m hm
    have hm : m < s.activeSize + 1 := hm
    exact full m (by omega)
  · intro m hm hm'
    have hm : s.activeSize + 1 ≤ m := hm
    show statusOf P.param.C (A (s'.id m)) ≠ .free
    rw [i17]
    refine h.bound _ ?_ ((swap_lt _ _ m _ (by omega) (by omega)).mpr hm')
    rcases swap_cases k s.activeSize m with c | ⟨c, d⟩ | ⟨c, d⟩ <;> omega

theorem SmoInv.unshrinkLoop (gm0 gm1 : ℝ) (n : Nat) (s : Smo ℝ) (h : SmoInv P A s)
    (hf : FullGradient P A s) (hn : s.activeSize + n ≤ P.size) :
    ∃ s', Smo.unshrinkLoop gm0 gm1 n s = .ok s' ∧ SmoInv P A s' := by
  induction n generalizing s with
  | zero => exact ⟨s, rfl, h⟩
  | succ n ih =>
    simp only [Smo.unshrinkLoop]
    obtain ⟨r, e⟩ := staysInactive_ok h hf gm0 gm1 (k := s.activeSize + n) (by omega)
    rw [e, res_bind_ok]
    cases r with
    | true => exact ih s h hf (by omega)
    | false =>
      simp only [Bool.false_eq_true, if_false]
      obtain ⟨s', e', h', f', _⟩ := h.addRow hf (k := s.activeSize + n) (by omega) (by omega)
      rw [e', res_bind_ok]
      exact ih _ h' f' (by show s.activeSize + 1 + n ≤ P.size; omega)

theorem SmoInv.doShrinking (hv : P.Valid) (hr : P.InRange) (h : SmoInv P A s) :
    ∃ s', s.doShrinking = .ok s' ∧ SmoInv P A s' := by
  unfold Smo.doShrinking
  obtain ⟨stop, o, e, h1, h2⟩ := C69_select (h.rowsOk hv hr) ⟨none, none⟩
  rw [e, res_bind_ok]
  cases stop with
  | true => exact ⟨s, rfl, h⟩
  | false =>
    simp only [Bool.false_eq_true, if_false]
    obtain ⟨i, j, rfl, hi, hj, _⟩ := h2 rfl
    have ha := h.active
    simp only [Smo.readOut]
    rw [res_pure, res_bind_ok, res_pure, res_bind_ok, h.get_y (by omega), res_bind_ok, h.get_G hj, res_bind_ok,
      h.get_y (by omega), res_bind_ok, h.get_G hi, res_bind_ok]
    obtain ⟨s1, e1, h1⟩ := SmoInv.shrinkLoop hv (Dbl.neg (P.y (s.id j)) *. P.gradient A (s.id j))
      (P.y (s.id i) *. P.gradient A (s.id i)) s.activeSize 0 s h (by omega)
    rw [e1, res_bind_ok]
    split
    · exact ⟨s1, rfl, h1⟩
    · have h1' : SmoInv P A { s1 with unshrinked := true } :=
        ⟨h1.l, h1.active, h1.C, h1.ids, h1.y, h1.b, h1.Qy, h1.kernel, h1.alpha, h1.status, h1.GBar, h1.Glen,
          h1.G, h1.bound, h1.feasible⟩
      obtain ⟨s2, e2, h2, f2, _⟩ := h1'.reconstruct hv
      rw [e2, res_bind_ok]
      have ha2 := h2.active
      have hl2 := h2.l
      exact SmoInv.unshrinkLoop _ _ _ s2 h2 f2 (by omega)

end inv

end Verif
