import Verif.Props.SolverEnd
import Verif.Model.DblXR

/-! # C188: shrinking takes no row away that could still improve the objective -/

set_option linter.unusedSectionVars false
set_option linter.unusedVariables false

namespace Verif
open Dbl

/-- the training instances (numbered as in the problem) the solver still looks at -/
def Smo.activeRows (s : Smo ℝ) : List Nat := s.activeSet.take s.activeSize

namespace SvmProblem

/-- rate at which the objective falls when `y_i a_i` rises and `y_j a_j` falls -/
noncomputable def gain (P : SvmProblem) (a : Nat → ℝ) (i j : Nat) : ℝ :=
  P.y j * P.gradient a j - P.y i * P.gradient a i

end SvmProblem

section keep
variable {P : SvmProblem} {A : Nat → ℝ} {s : Smo ℝ}

theorem SmoInv.mem_active (h : SmoInv P A s) (r : Nat) :
    r ∈ s.activeRows ↔ ∃ m, m < s.activeSize ∧ s.id m = r := by
  have ha := h.active
  have hl := h.idlen
  unfold Smo.activeRows
  constructor
  · intro hr
    obtain ⟨m, hm, e⟩ := List.mem_iff_getElem.mp hr
    rw [List.length_take] at hm
    refine ⟨m, by omega, ?_⟩
    rw [List.getElem_take] at e
    rw [← e]
    simp [Smo.id, List.getD_eq_getElem?_getD, List.getElem?_eq_getElem (show m < s.activeSet.length by omega)]
  · rintro ⟨m, hm, rfl⟩
    rw [List.mem_iff_getElem]
    refine ⟨m, by rw [List.length_take]; omega, ?_⟩
    rw [List.getElem_take]
    simp [Smo.id, List.getD_eq_getElem?_getD, List.getElem?_eq_getElem (show m < s.activeSet.length by omega)]

/-- instance `r` passes both comparisons with the thresholds -/
def Near (P : SvmProblem) (A : Nat → ℝ) (gm0 gm1 : ℝ) (r : Nat) : Prop :=
  (P.CanRise A r → ¬ P.CanFall A r → gm0 ≤ -(P.y r * P.gradient A r)) ∧
    (P.CanFall A r → ¬ P.CanRise A r → gm1 ≤ P.y r * P.gradient A r)

theorem status_cases (hv : P.Valid) (r : Nat) (hr : r < P.size) :
    (statusOf P.param.C (A r) = .free ∧ P.CanRise A r ∧ P.CanFall A r) ∨
    (statusOf P.param.C (A r) = .lower ∧ P.y r = 1 ∧ P.CanRise A r ∧ ¬ P.CanFall A r) ∨
    (statusOf P.param.C (A r) = .lower ∧ P.y r = -1 ∧ ¬ P.CanRise A r ∧ P.CanFall A r) ∨
    (statusOf P.param.C (A r) = .upper ∧ P.y r = 1 ∧ ¬ P.CanRise A r ∧ P.CanFall A r) ∨
    (statusOf P.param.C (A r) = .upper ∧ P.y r = -1 ∧ P.CanRise A r ∧ ¬ P.CanFall A r) := by
  have hC := hv.C_pos
  have n1 : ¬ ((1 : ℝ) = -1) := by norm_num
  have n2 : ¬ ((-1 : ℝ) = 1) := by norm_num
  by_cases hu : P.param.C ≤ A r
  · have e : statusOf P.param.C (A r) = .upper := statusOf_upper.mpr hu
    have h0 : 0 < A r := by linarith
    have h1 : ¬ A r < P.param.C := not_lt.mpr hu
    rcases hv.sign r hr with y | y <;> simp [SvmProblem.CanRise, SvmProblem.CanFall, e, y, h0, h1, n1, n2]
  · have h1 : A r < P.param.C := not_le.mp hu
    by_cases h0 : 0 < A r
    · have e : statusOf P.param.C (A r) = .free := by
        unfold statusOf
        simp [hu, not_le.mpr h0]
      rcases hv.sign r hr with y | y <;> simp [SvmProblem.CanRise, SvmProblem.CanFall, e, y, h0, h1, n1, n2]
    · have e : statusOf P.param.C (A r) = .lower := statusOf_lower.mpr ⟨h1, not_lt.mp h0⟩
      rcases hv.sign r hr with y | y <;> simp [SvmProblem.CanRise, SvmProblem.CanFall, e, y, h0, h1, n1, n2]

theorem stays_near (hv : P.Valid) (h : SmoInv P A s) (gm0 gm1 : ℝ) {k : Nat} (hk : k < s.activeSize)
    (hn : Near P A gm0 gm1 (s.id k)) : s.staysActive gm0 gm1 k = .ok true := by
  have ha := h.active
  have hk' : k < P.size := by omega
  unfold Smo.staysActive
  rw [h.get_status hk', res_bind_ok, h.get_y hk', res_bind_ok, h.get_G hk, res_bind_ok, res_pure]
  refine congrArg Except.ok ?_
  have cases := status_cases (A := A) hv (s.id k) (h.ids.getD_lt hk')
  have n2 : ¬ ((-1 : ℝ) = 1) := by norm_num
  generalize s.id k = r at *
  rcases cases with ⟨e, c1, c2⟩ | ⟨e, y, c1, c2⟩ | ⟨e, y, c1, c2⟩ | ⟨e, y, c1, c2⟩ |
    ⟨e, y, c1, c2⟩
  · rw [e]
  · have := hn.1 c1 c2
    rw [y] at this
    rw [e]; simp [y]; linarith
  · have := hn.2 c2 c1
    rw [y] at this
    rw [e]
    simp [y, n2]; linarith
  · have := hn.2 c2 c1
    rw [y] at this
    rw [e]; simp [y]; linarith
  · have := hn.1 c1 c2
    rw [y] at this
    rw [e]; simp [y, n2]; linarith

theorem inactive_near (hv : P.Valid) (h : SmoInv P A s) (hf : FullGradient P A s) (gm0 gm1 : ℝ) {k : Nat}
    (hk : s.activeSize ≤ k) (hk' : k < P.size)
    (hn : Near P A gm0 gm1 (s.id k)) : s.staysInactive gm0 gm1 k = .ok false := by
  unfold Smo.staysInactive
  rw [h.get_status hk', res_bind_ok, h.get_y hk', res_bind_ok,
    idxR_getD0 s.G k (by rw [h.Glen]; exact hk'), res_bind_ok,
    show s.G.getD k 0 = P.gradient A (s.id k) from hf k hk', res_pure]
  refine congrArg Except.ok ?_
  have hb : statusOf P.param.C (A (s.id k)) ≠ .free := h.bound k hk hk'
  have cases := status_cases (A := A) hv (s.id k) (h.ids.getD_lt hk')
  have n2 : ¬ ((-1 : ℝ) = 1) := by norm_num
  generalize s.id k = r at *
  rcases cases with ⟨e, c1, c2⟩ | ⟨e, y, c1, c2⟩ | ⟨e, y, c1, c2⟩ | ⟨e, y, c1, c2⟩ |
    ⟨e, y, c1, c2⟩
  · exact absurd e hb
  · have := hn.1 c1 c2
    rw [y] at this
    rw [e]; simp [y]; linarith
  · have := hn.2 c2 c1
    rw [y] at this
    rw [e]
    simp [y, n2]; linarith
  · have := hn.2 c2 c1
    rw [y] at this
    rw [e]; simp [y]; linarith
  · have := hn.1 c1 c2
    rw [y] at this
    rw [e]; simp [y, n2]; linarith

theorem shrinkLoop_keeps (hv : P.Valid) (gm0 gm1 : ℝ) (n k : Nat) (s : Smo ℝ) (h : SmoInv P A s)
    (hk : n + k = s.activeSize) (s' : Smo ℝ) (hs : Smo.shrinkLoop gm0 gm1 n k s = .ok s') :
    s'.unshrinked = s.unshrinked ∧
    ∀ m, m < s.activeSize → Near P A gm0 gm1 (s.id m) → ∃ m', m' < s'.activeSize ∧ s'.id m' = s.id m := by
  induction n generalizing k s with
  | zero =>
    simp only [Smo.shrinkLoop, res_pure] at hs
    obtain rfl := Except.ok.inj hs
    exact ⟨rfl, fun m hm _ => ⟨m, hm, rfl⟩⟩
  | succ n ih =>
    simp only [Smo.shrinkLoop] at hs
    have ha := h.active
    obtain ⟨r, e, hr⟩ := staysActive_ok h gm0 gm1 (k := k) (by omega)
    rw [e, res_bind_ok] at hs
    cases r with
    | true => exact ih (k + 1) s h (by omega) hs
    | false =>
      simp only [Bool.false_eq_true, if_false] at hs
      have hfree := hr rfl
      obtain ⟨s2, e', inv, a2, i4, i17⟩ := h.dropRow (k := k) (by omega) hfree
      rw [e', res_bind_ok] at hs
      obtain ⟨u, kept⟩ := ih k _ inv (by omega) hs
      refine ⟨u.trans i4, ?_⟩
      intro m hm near
      have hmk : m ≠ k := by
        rintro rfl
        rw [stays_near hv h gm0 gm1 hm near] at e
        cases e
      by_cases hl : m = s.activeSize - 1
      · have hid : s2.id k = s.id m := by
          rw [i17, hl, Equiv.swap_apply_left]
        obtain ⟨m', hm', em'⟩ := kept k (by omega) (by
          show Near P A gm0 gm1 (s2.id k)
          rw [hid]; exact near)
        exact ⟨m', hm', em'.trans hid⟩
      · have hid : s2.id m = s.id m := by
          rw [i17, Equiv.swap_apply_of_ne_of_ne hmk hl]
        obtain ⟨m', hm', em'⟩ := kept m (by omega) (by
          show Near P A gm0 gm1 (s2.id m)
          rw [hid]; exact near)
        exact ⟨m', hm', em'.trans hid⟩

theorem unshrinkLoop_keeps (hv : P.Valid) (gm0 gm1 : ℝ) (n : Nat) (s : Smo ℝ) (h : SmoInv P A s)
    (hf : FullGradient P A s) (hn : s.activeSize + n ≤ P.size) (s' : Smo ℝ)
    (hs : Smo.unshrinkLoop gm0 gm1 n s = .ok s') :
    ∀ m, m < s.activeSize + n → (m < s.activeSize ∨ Near P A gm0 gm1 (s.id m)) →
      ∃ m', m' < s'.activeSize ∧ s'.id m' = s.id m := by
  induction n generalizing s with
  | zero =>
    simp only [Smo.unshrinkLoop, res_pure] at hs
    obtain rfl := Except.ok.inj hs
    exact fun m hm _ => ⟨m, by omega, rfl⟩
  | succ n ih =>
    simp only [Smo.unshrinkLoop] at hs
    obtain ⟨r, e⟩ := staysInactive_ok h hf gm0 gm1 (k := s.activeSize + n) (by omega)
    rw [e, res_bind_ok] at hs
    cases r with
    | true =>
      intro m hm hnear
      have : m ≠ s.activeSize + n := by
        rintro rfl
        rcases hnear with c | c
        · omega
        · rw [inactive_near hv h hf gm0 gm1 (by omega) (by omega) c] at e
          cases e
      exact ih s h hf (by omega) hs m (by omega) hnear
    | false =>
      simp only [Bool.false_eq_true, if_false] at hs
      obtain ⟨s2, e', h', f', i17⟩ := h.addRow hf (k := s.activeSize + n) (by omega) (by omega)
      rw [e', res_bind_ok] at hs
      have kept := ih _ h' f' (by show s.activeSize + 1 + n ≤ P.size; omega) hs
      intro m hm hnear
      rcases swap_cases (s.activeSize + n) s.activeSize m with c | ⟨c, d⟩ | ⟨c, d⟩
      · have hid : s2.id m = s.id m := by rw [i17, c]
        obtain ⟨m', hm', em'⟩ := kept m (by show m < s.activeSize + 1 + n; omega) (by
          rcases hnear with q | q
          · exact Or.inl (show m < s.activeSize + 1 by omega)
          · exact Or.inr (show Near P A gm0 gm1 (s2.id m) by rw [hid]; exact q))
        exact ⟨m', hm', em'.trans hid⟩
      · have hid : s2.id s.activeSize = s.id m := by rw [i17, Equiv.swap_apply_right, c]
        obtain ⟨m', hm', em'⟩ := kept s.activeSize (by show s.activeSize < s.activeSize + 1 + n; omega)
          (Or.inl (show s.activeSize < s.activeSize + 1 by omega))
        exact ⟨m', hm', em'.trans hid⟩
      · have hid : s2.id (s.activeSize + n) = s.id m := by rw [i17, Equiv.swap_apply_left, c]
        obtain ⟨m', hm', em'⟩ := kept (s.activeSize + n) (by show s.activeSize + n < s.activeSize + 1 + n; omega) (by
          rcases hnear with q | q
          · omega
          · exact Or.inr (show Near P A gm0 gm1 (s2.id (s.activeSize + n)) by rw [hid]; exact q))
        exact ⟨m', hm', em'.trans hid⟩

/-- what a shrinking step keeps -/
theorem doShrinking_keeps (hv : P.Valid) (hr : P.InRange) (h : SmoInv P A s) :
    ∃ s', s.doShrinking = .ok s' ∧ SmoInv P A s' ∧
      (∀ i j, i ∈ s.activeRows → j ∈ s.activeRows → P.CanRise A i → P.CanFall A j → 0 ≤ P.gain A i j →
        i ∈ s'.activeRows ∧ j ∈ s'.activeRows) ∧
      (s.unshrinked = false → s'.unshrinked = true → ∀ i j, i < P.size → j < P.size →
        P.CanRise A i → P.CanFall A j → 0 ≤ P.gain A i j →
        (j ∈ s.activeRows → i ∈ s'.activeRows) ∧ (i ∈ s.activeRows → j ∈ s'.activeRows)) := by
  obtain ⟨s', es', hinv⟩ := SmoInv.doShrinking hv hr h
  refine ⟨s', es', hinv, ?_⟩
  unfold Smo.doShrinking at es'
  obtain ⟨stop, o, e, h1, h2⟩ := C69_select (h.rowsOk hv hr) ⟨none, none⟩
  rw [e, res_bind_ok] at es'
  cases stop with
  | true =>
    simp only [if_true, res_pure] at es'
    obtain rfl := Except.ok.inj es'
    exact ⟨fun i j hi hj _ _ _ => ⟨hi, hj⟩, fun a b => by rw [a] at b; cases b⟩
  | false =>
    simp only [Bool.false_eq_true, if_false] at es'
    obtain ⟨i0, j0, rfl, hi, hj, hri, hfa, _, _, hmax⟩ := h2 rfl
    have ha := h.active
    simp only [Smo.readOut] at es'
    rw [res_pure, res_bind_ok, res_pure, res_bind_ok, h.get_y (by omega), res_bind_ok, h.get_G hj, res_bind_ok,
      h.get_y (by omega), res_bind_ok, h.get_G hi, res_bind_ok] at es'
    obtain ⟨gm0, hg0⟩ : ∃ g, g = (Dbl.neg (P.y (s.id j0)) *. P.gradient A (s.id j0) : ℝ) := ⟨_, rfl⟩
    obtain ⟨gm1, hg1⟩ : ∃ g, g = (P.y (s.id i0) *. P.gradient A (s.id i0) : ℝ) := ⟨_, rfl⟩
    simp only [← hg0, ← hg1] at es'
    simp only [mul_real, neg_real] at hg0 hg1
    -- the thresholds are the best offers of the active rows
    have best : ∀ i j, i ∈ s.activeRows → j ∈ s.activeRows → P.CanRise A i → P.CanFall A j →
        gm1 ≤ P.y i * P.gradient A i ∧ P.y j * P.gradient A j ≤ -gm0 := by
      intro i j hi' hj' hr' hf'
      obtain ⟨k, hk, rfl⟩ := (h.mem_active i).mp hi'
      obtain ⟨m, hm, rfl⟩ := (h.mem_active j).mp hj'
      have a1 := hmax k j0 hk hj ((h.rise_iff hv (by omega)).mpr hr') hfa
      have a2 := hmax i0 m hi hm hri ((h.fall_iff hv (by omega)).mpr hf')
      unfold Smo.violation at a1 a2
      rw [h.label_eq (by omega), h.label_eq (by omega), h.label_eq (by omega), h.slope_eq hj, h.slope_eq hk,
        h.slope_eq hi] at a1
      rw [h.label_eq (by omega), h.label_eq (by omega), h.label_eq (by omega), h.slope_eq hm, h.slope_eq hi,
        h.slope_eq hj] at a2
      rw [hg0, hg1]
      constructor <;> linarith
    have act0 : s.id i0 ∈ s.activeRows := (h.mem_active _).mpr ⟨i0, hi, rfl⟩
    have act1 : s.id j0 ∈ s.activeRows := (h.mem_active _).mpr ⟨j0, hj, rfl⟩
    have rise0 : P.CanRise A (s.id i0) := (h.rise_iff hv (by omega)).mp hri
    have fall0 : P.CanFall A (s.id j0) := (h.fall_iff hv (by omega)).mp hfa
    have nearI : ∀ i j, j ∈ s.activeRows → P.CanRise A i → P.CanFall A j → 0 ≤ P.gain A i j →
        Near P A gm0 gm1 i := by
      intro i j hj' hr' hf' hg
      have := (best _ _ act0 hj' rise0 hf').2
      unfold SvmProblem.gain at hg
      exact ⟨fun _ _ => by linarith, fun _ hn => absurd hr' hn⟩
    have nearJ : ∀ i j, i ∈ s.activeRows → P.CanRise A i → P.CanFall A j → 0 ≤ P.gain A i j →
        Near P A gm0 gm1 j := by
      intro i j hi' hr' hf' hg
      have := (best _ _ hi' act1 hr' fall0).1
      unfold SvmProblem.gain at hg
      exact ⟨fun _ hn => absurd hf' hn, fun _ _ => by linarith⟩
    obtain ⟨s1, e1, inv1⟩ := SmoInv.shrinkLoop hv gm0 gm1 s.activeSize 0 s h (by omega)
    obtain ⟨u1, kept1⟩ := shrinkLoop_keeps hv gm0 gm1 s.activeSize 0 s h (by omega) s1 e1
    rw [e1, res_bind_ok] at es'
    split at es'
    · rw [res_pure] at es'
      obtain rfl := Except.ok.inj es'
      refine ⟨?_, fun a b => by rw [u1, a] at b; cases b⟩
      intro i j hi' hj' hr' hf' hg
      obtain ⟨k, hk, rfl⟩ := (h.mem_active i).mp hi'
      obtain ⟨m, hm, rfl⟩ := (h.mem_active j).mp hj'
      exact ⟨(inv1.mem_active _).mpr (kept1 k hk (nearI _ _ hj' hr' hf' hg)),
        (inv1.mem_active _).mpr (kept1 m hm (nearJ _ _ hi' hr' hf' hg))⟩
    · have h1' : SmoInv P A { s1 with unshrinked := true } :=
        ⟨inv1.l, inv1.active, inv1.C, inv1.ids, inv1.y, inv1.b, inv1.Qy, inv1.kernel, inv1.alpha, inv1.status,
          inv1.GBar, inv1.Glen, inv1.G, inv1.bound, inv1.feasible⟩
      obtain ⟨s2, e2, inv2, f2, a2, _, _, _, _, id2⟩ := h1'.reconstruct hv
      rw [e2, res_bind_ok] at es'
      have ha2 := inv2.active
      have hl2 := inv2.l
      have kept2 := unshrinkLoop_keeps hv gm0 gm1 _ s2 inv2 f2 (by omega) s' es'
      have near_active : ∀ r, r < P.size → Near P A gm0 gm1 r → r ∈ s'.activeRows := by
        intro r hr' hn
        have : r ∈ s2.activeSet := inv2.ids.perm.mem_iff.mpr (List.mem_range.mpr hr')
        obtain ⟨m, hm, em⟩ := List.mem_iff_getElem.mp this
        have hm' : m < P.size := by rw [← inv2.idlen]; exact hm
        have eid : s2.id m = r := by
          rw [← em]
          simp [Smo.id, List.getD_eq_getElem?_getD, List.getElem?_eq_getElem hm]
        obtain ⟨m', hm'', e''⟩ := kept2 m (by omega) (Or.inr (by rw [eid]; exact hn))
        exact (hinv.mem_active r).mpr ⟨m', hm'', by rw [e'', eid]⟩
      refine ⟨?_, ?_⟩
      · intro i j hi' hj' hr' hf' hg
        have lt : ∀ r, r ∈ s.activeRows → r < P.size := fun r hr =>
          h.ids.lt r (List.mem_of_mem_take hr)
        exact ⟨near_active i (lt i hi') (nearI _ _ hj' hr' hf' hg), near_active j (lt j hj') (nearJ _ _ hi' hr' hf' hg)⟩
      · intro _ _ i j hi' hj' hr' hf' hg
        exact ⟨fun hja => near_active i hi' (nearI _ _ hja hr' hf' hg),
          fun hia => near_active j hj' (nearJ _ _ hia hr' hf' hg)⟩

/-- **C188**: in every state the solver reaches, a shrinking step changes no multiplier, and two rows
it still looks at, the first of which can rise and the second fall without making the objective
worse, are both still looked at afterwards.  When it looks at all rows again (which it does once), it
takes back every row that forms such a pair with a row it looked at before. -/
theorem C188_shrinking (P : SvmProblem) (hv : P.Valid) (hr : P.InRange) (n : Nat) :
    ∃ s stop s', solverState P n = .ok (s, stop) ∧ s.doShrinking = .ok s' ∧
      s'.activeSet.Perm s.activeSet ∧
      ∃ A : Nat → ℝ, s.alpha = s.activeSet.map A ∧ s'.alpha = s'.activeSet.map A ∧
        (∀ i j, i ∈ s.activeRows → j ∈ s.activeRows → P.CanRise A i → P.CanFall A j → 0 ≤ P.gain A i j →
          i ∈ s'.activeRows ∧ j ∈ s'.activeRows) ∧
        (s.unshrinked = false → s'.unshrinked = true → ∀ i j, i < P.size → j < P.size →
          P.CanRise A i → P.CanFall A j → 0 ≤ P.gain A i j →
          (j ∈ s.activeRows → i ∈ s'.activeRows) ∧ (i ∈ s.activeRows → j ∈ s'.activeRows)) := by
  obtain ⟨s, stop, A, e, h, _⟩ := solverState_ok P hv hr n
  obtain ⟨s', e', h', k1, k2⟩ := doShrinking_keeps hv hr h
  exact ⟨s, stop, s', e, e', h'.ids.perm.trans h.ids.perm.symm, A, h.alpha, h'.alpha, k1, k2⟩

/-- the points 1 and -1: at the beginning the first can rise, the second can fall, and this improves the
objective -/
example : pairProblem.Valid ∧ pairProblem.InRange ∧ pairProblem.CanRise (fun _ => 0) 0 ∧
    pairProblem.CanFall (fun _ => 0) 1 ∧ 0 ≤ pairProblem.gain (fun _ => 0) 0 1 := by
  refine ⟨pairProblem_valid.1, pairProblem_inRange, ?_, ?_, ?_⟩
  · exact Or.inl ⟨by simp [pairProblem, SvmProblem.y], by norm_num [pairProblem]⟩
  · exact Or.inr ⟨by simp [pairProblem, SvmProblem.y], by norm_num [pairProblem]⟩
  · simp [SvmProblem.gain, SvmProblem.gradient, pairProblem, SvmProblem.y, SvmProblem.b]

/-- a shrinking step that does take a row away: three instances, the last of which can only rise and
makes the objective worse with each of the others -/
example : (match Smo.start 3 [nodeList [XR.fin 1], nodeList [.fin (-1)], nodeList [.fin 2]]
      [.fin 1, .fin (-1), .fin 1] [.fin (-1), .fin (-1), .fin 5] lineParam >>= Smo.doShrinking with
    | .ok s => s.activeSet.take s.activeSize == [0, 1] && s.activeSet == [0, 1, 2] && !s.unshrinked
    | .error _ => false) = true := by decide +kernel

end keep

end Verif
