import Verif.Props.SolverMove

/-! # C68, C70, C71, C123, C124: runs of the SMO solver -/

set_option linter.unusedSectionVars false
set_option linter.unusedVariables false

namespace Verif
open Dbl

theorem map_getD_range {α : Type} (v : List α) (d : α) : (List.range v.length).map (fun i => v.getD i d) = v := by
  apply List.ext_getElem
  · simp
  · intro k h1 h2
    simp [h2]

section inv
variable {P : SvmProblem} {A : Nat → ℝ} {s : Smo ℝ}

/-! ## the start -/

/-- the state before the first round -/
noncomputable def firstState (P : SvmProblem) (k : Kern ℝ) : Smo ℝ where
  l := P.size
  activeSize := P.size
  y := P.labels
  alpha := List.replicate P.size Dbl.zero
  G := P.linear
  status := List.replicate P.size (statusOf P.param.C Dbl.zero)
  Q := ⟨k, P.labels⟩
  C := P.param.C
  b := P.linear
  activeSet := List.range P.size
  GBar := List.replicate P.size Dbl.zero
  unshrinked := false
  shrinking := P.param.shrinking
  counter := (min P.size 1000 : Nat) + 1

theorem start_ok (hv : P.Valid) :
    ∃ s, Smo.start P.size (P.vectors.map nodeList) P.labels P.linear P.param = .ok s ∧
      SmoInv P (fun _ => 0) s ∧ s.activeSet = List.range P.size ∧ s.activeSize = P.size ∧
      s.counter = (min P.size 1000 : Nat) + 1 := by
  have hC := hv.C_pos
  have hlow : statusOf P.param.C 0 = .lower := by rw [statusOf_lower]; exact ⟨hC, le_refl _⟩
  obtain ⟨k, ek, hk⟩ := make_over P.param P.vectors
  have ey : (List.range P.size).mapM (idxR P.labels) = .ok P.labels := by
    have := mapM_idx P.labels; rwa [hv.labels] at this
  have eb : (List.range P.size).mapM (idxR P.linear) = .ok P.linear := by
    have := mapM_idx P.linear; rwa [hv.linear] at this
  have mapy : P.labels = (List.range P.size).map P.y := by
    have := map_getD_range P.labels 0; rw [hv.labels] at this; exact this.symm
  have mapb : P.linear = (List.range P.size).map P.b := by
    have := map_getD_range P.linear 0; rw [hv.linear] at this; exact this.symm
  obtain ⟨s0, hs0⟩ : ∃ s0 : Smo ℝ, s0 = firstState P k := ⟨_, rfl⟩
  have hrow : ∀ m, m ≤ P.size → (List.range m).foldlM Smo.initialRow s0 = .ok s0 := by
    intro m
    induction m with
    | zero => intro _; rfl
    | succ m ih =>
      intro hm
      rw [List.range_succ, List.foldlM_append, ih (by omega), res_bind_ok]
      simp only [List.foldlM_cons, List.foldlM_nil]
      have : s0.initialRow m = .ok s0 := by
        unfold Smo.initialRow Smo.isLower
        have hst : idxR s0.status m = .ok .lower := by
          rw [hs0, idxR_eq_ok]
          show (List.replicate P.size (statusOf P.param.C Dbl.zero))[m]? = some .lower
          rw [zero_real, hlow, List.getElem?_replicate, if_pos (by omega)]
        rw [hst, res_bind_ok]
        rfl
      rw [this]; rfl
  refine ⟨s0, ?_, ?_, by rw [hs0]; rfl, by rw [hs0]; rfl, by rw [hs0]; rfl⟩
  · unfold Smo.start QMat.make
    have hz : Kern.make P.size (P.vectors.map nodeList) P.param = .ok k := ek
    rw [hz, res_bind_ok, ey, res_bind_ok, res_pure, res_bind_ok, eb, res_bind_ok]
    have := hrow P.size (le_refl _)
    rw [hs0] at this ⊢
    exact this
  · rw [hs0]
    have hvs : (List.range P.size).map (fun i => P.vectors.getD i []) = P.vectors := map_getD_range P.vectors []
    refine ⟨rfl, le_refl _, rfl, Numbering.range _, mapy, mapb, mapy, ?_, ?_, ?_, ?_, ?_, ?_, ?_, ⟨?_, ?_, ?_⟩⟩
    · show KernelOver P.param ((List.range P.size).map (fun i => P.vectors.getD i [])) k
      rw [hvs]; exact hk
    · simp [firstState]
    · show List.replicate P.size (statusOf P.param.C Dbl.zero) = (List.range P.size).map _
      rw [zero_real]; simp
    · have : upperPart P (fun _ => 0) = fun _ => 0 := by
        funext i
        unfold upperPart
        apply Finset.sum_eq_zero
        intro j _
        rw [hlow]; simp
      rw [this]; simp [firstState]
    · exact hv.linear
    · intro k hk
      have hk : k < P.size := hk
      show P.linear.getD k 0 = P.gradient (fun _ => 0) ((List.range P.size).getD k 0)
      have : (List.range P.size).getD k 0 = k := by simp [hk]
      rw [this]
      unfold SvmProblem.gradient
      simp [SvmProblem.b]
    · intro k hk hk'
      have hk : P.size ≤ k := hk
      omega
    · intro i _; exact le_refl _
    · intro i _; exact le_of_lt hC
    · simp

/-! ## one round of the loop -/

theorem SmoInv.countDown (hv : P.Valid) (hr : P.InRange) (h : SmoInv P A s) :
    ∃ s', s.countDown = .ok s' ∧ SmoInv P A s' := by
  unfold Smo.countDown
  have keep : ∀ c : Int, SmoInv P A { s with counter := c } := fun c =>
    ⟨h.l, h.active, h.C, h.ids, h.y, h.b, h.Qy, h.kernel, h.alpha, h.status, h.GBar, h.Glen, h.G, h.bound, h.feasible⟩
  split
  · simp only
    split
    · exact (keep _).doShrinking hv hr
    · exact ⟨_, rfl, keep _⟩
  · exact ⟨_, rfl, keep _⟩

/-- what the choice of the pair guarantees -/
structure GoodChoice (P : SvmProblem) (A : Nat → ℝ) (s : Smo ℝ) (i j : Nat) : Prop where
  first : i < s.activeSize
  second : j < s.activeSize
  ne : i ≠ j
  rise : P.CanRise A (s.id i)
  fall : P.CanFall A (s.id j)
  gain : 1/1000 ≤ P.y (s.id j) * P.gradient A (s.id j) - P.y (s.id i) * P.gradient A (s.id i)

theorem SmoInv.goodChoice (hv : P.Valid) (h : SmoInv P A s) {i j : Nat} (hi : i < s.activeSize)
    (hj : j < s.activeSize) (hr : s.MayRise i) (hf : s.MayFall j) (hij : i ≠ j)
    (hg : 1/1000 ≤ s.violation i j) : GoodChoice P A s i j := by
  have ha := h.active
  refine ⟨hi, hj, hij, (h.rise_iff hv (by omega)).mp hr, (h.fall_iff hv (by omega)).mp hf, ?_⟩
  unfold Smo.violation at hg
  rwa [h.label_eq (by omega), h.label_eq (by omega), h.slope_eq hi, h.slope_eq hj] at hg

theorem SmoInv.choose (hv : P.Valid) (hr : P.InRange) (h : SmoInv P A s) :
    ∃ s' o, s.choose = .ok (s', o) ∧ SmoInv P A s' ∧
      (o = none → s'.activeSize = P.size ∧ P.NearlyOptimal (1/1000) A) ∧
      (∀ i j, o = some (i, j) → GoodChoice P A s' i j) := by
  unfold Smo.choose
  obtain ⟨s1, e1, h1⟩ := h.countDown hv hr
  rw [e1, res_bind_ok]
  obtain ⟨stop, o, e2, _, c2⟩ := C69_select (h1.rowsOk hv hr) ⟨none, none⟩
  rw [e2, res_bind_ok]
  cases stop with
  | false =>
    simp only [Bool.false_eq_true, if_false]
    obtain ⟨i, j, rfl, hi, hj, hri, hfa, hne, hgain, _⟩ := c2 rfl
    simp only [Smo.readOut]
    rw [res_pure, res_bind_ok, res_pure, res_bind_ok]
    refine ⟨s1, some (i, j), rfl, h1, by simp, ?_⟩
    intro i' j' he
    have : i = i' ∧ j = j' := by simpa using he
    obtain ⟨rfl, rfl⟩ := this
    exact h1.goodChoice hv hi hj hri hfa hne hgain
  | true =>
    simp only [if_true]
    obtain ⟨s2, e3, h2, f2, a2, l2, _⟩ := h1.reconstruct hv
    rw [e3, res_bind_ok]
    have h3 : SmoInv P A { s2 with activeSize := s2.l } :=
      ⟨h2.l, by show s2.l ≤ P.size; rw [h2.l], h2.C, h2.ids, h2.y, h2.b, h2.Qy, h2.kernel, h2.alpha, h2.status, h2.GBar,
        h2.Glen, fun k hk => f2 k (by have hk : k < s2.l := hk; rw [← h2.l]; exact hk),
        fun k hk hk' => by have hk : s2.l ≤ k := hk; rw [h2.l] at hk; omega, h2.feasible⟩
    have hal : ({ s2 with activeSize := s2.l } : Smo ℝ).activeSize = P.size := h2.l
    obtain ⟨stop', o', e4, c3, c4⟩ := C69_select (h3.rowsOk hv hr) o
    rw [e4, res_bind_ok]
    cases stop' with
    | true =>
      simp only [if_true]
      refine ⟨_, none, rfl, h3, fun _ => ⟨h2.l, ?_⟩, by simp⟩
      intro i j hi hj hri hfa
      obtain ⟨k, hk, rfl⟩ := h3.ids.surj hi
      obtain ⟨m, hm, rfl⟩ := h3.ids.surj hj
      have := c3.mp rfl k m (by rw [hal]; exact hk) (by rw [hal]; exact hm)
        ((h3.rise_iff hv hk).mpr hri) ((h3.fall_iff hv hm).mpr hfa)
      unfold Smo.violation at this
      rwa [h3.label_eq hm, h3.label_eq hk, h3.slope_eq (by rw [hal]; exact hm),
        h3.slope_eq (by rw [hal]; exact hk)] at this
    | false =>
      simp only [Bool.false_eq_true, if_false]
      obtain ⟨i, j, rfl, hi, hj, hri, hfa, hne, hgain, _⟩ := c4 rfl
      simp only [Smo.readOut]
      rw [res_pure, res_bind_ok, res_pure, res_bind_ok]
      have h4 : SmoInv P A { s2 with activeSize := s2.l, counter := 1 } :=
        ⟨h3.l, h3.active, h3.C, h3.ids, h3.y, h3.b, h3.Qy, h3.kernel, h3.alpha, h3.status, h3.GBar, h3.Glen,
          h3.G, h3.bound, h3.feasible⟩
      refine ⟨_, some (i, j), rfl, h4, by simp, ?_⟩
      intro i' j' he
      have : i = i' ∧ j = j' := by simpa using he
      obtain ⟨rfl, rfl⟩ := this
      have g := h3.goodChoice hv hi hj hri hfa hne hgain
      exact ⟨g.first, g.second, g.ne, g.rise, g.fall, g.gain⟩

theorem SmoInv.iterate (hv : P.Valid) (hr : P.InRange) (h : SmoInv P A s) :
    ∃ s' stop A', s.iterate = .ok (s', stop) ∧ SmoInv P A' s' ∧
      (stop = true → s'.activeSize = P.size ∧ P.NearlyOptimal (1/1000) A') := by
  unfold Smo.iterate
  obtain ⟨s1, o, e1, h1, c1, c2⟩ := h.choose hv hr
  rw [e1, res_bind_ok]
  cases o with
  | none => exact ⟨s1, true, A, rfl, h1, fun _ => c1 rfl⟩
  | some p =>
    obtain ⟨i, j⟩ := p
    have g := c2 i j rfl
    obtain ⟨s2, e2, h2, _⟩ := h1.move hv g.first g.second g.ne
    simp only
    rw [e2, res_bind_ok]
    exact ⟨s2, false, _, rfl, h2, by simp⟩

theorem SmoInv.run (hv : P.Valid) (hr : P.InRange) (n : Nat) : ∀ (A : Nat → ℝ) (s : Smo ℝ), SmoInv P A s →
    ∃ s' stop A', Smo.run n s = .ok (s', stop) ∧ SmoInv P A' s' ∧
      (stop = true → s'.activeSize = P.size ∧ P.NearlyOptimal (1/1000) A') := by
  induction n with
  | zero => intro A s h; exact ⟨s, false, A, rfl, h, by simp⟩
  | succ n ih =>
    intro A s h
    obtain ⟨s1, stop, A1, e1, h1, c1⟩ := h.iterate hv hr
    simp only [Smo.run]
    rw [e1, res_bind_ok]
    cases stop with
    | true => exact ⟨s1, true, A1, rfl, h1, c1⟩
    | false => exact ih A1 s1 h1

end inv

/-- the state after at most `n` rounds of the loop of `solve()`, and whether the loop has ended -/
noncomputable def solverState (P : SvmProblem) (n : Nat) : Res (Smo ℝ × Bool) :=
  Smo.start P.size (P.vectors.map nodeList) P.labels P.linear P.param >>= Smo.run n

theorem solverState_ok (P : SvmProblem) (hv : P.Valid) (hr : P.InRange) (n : Nat) :
    ∃ s stop A, solverState P n = .ok (s, stop) ∧ SmoInv P A s ∧
      (stop = true → s.activeSize = P.size ∧ P.NearlyOptimal (1/1000) A) := by
  obtain ⟨s0, e0, h0, _⟩ := start_ok hv
  obtain ⟨s, stop, A, e, h, c⟩ := SmoInv.run hv hr n _ s0 h0
  refine ⟨s, stop, A, ?_, h, c⟩
  unfold solverState
  rw [e0, res_bind_ok, e]

/-- **C68**: whatever the problem and the number `n` of rounds (with their shrinking steps), the solver
reaches a state without undefined behaviour, all its multipliers are in `[0, C]` and `Σ y_i a_i = 0`. -/
theorem C68_feasible (P : SvmProblem) (hv : P.Valid) (hr : P.InRange) (n : Nat) :
    ∃ s stop, solverState P n = .ok (s, stop) ∧ s.alpha.length = P.size ∧
      (∀ a ∈ s.alpha, 0 ≤ a ∧ a ≤ P.param.C) ∧ (List.zipWith (· * ·) s.y s.alpha).sum = 0 := by
  obtain ⟨s, stop, A, e, h, _⟩ := solverState_ok P hv hr n
  refine ⟨s, stop, e, by rw [h.alpha]; simpa using h.idlen, ?_, ?_⟩
  · intro a ha
    rw [h.alpha, List.mem_map] at ha
    obtain ⟨i, hi, rfl⟩ := ha
    exact ⟨h.feasible.lower i (h.ids.lt i hi), h.feasible.upper i (h.ids.lt i hi)⟩
  · have : List.zipWith (· * ·) s.y s.alpha = s.activeSet.map (fun i => P.y i * A i) := by
      rw [h.y, h.alpha, List.zipWith_map, List.zipWith_self]
    rw [this, (h.ids.perm.map _).sum_eq, ← sum_range_list]
    exact h.feasible.balance

end Verif
