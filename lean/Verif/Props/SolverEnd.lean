import Verif.Props.SolverRun

/-! # C70, C71, C123, C124: bookkeeping and the result of the SMO solver -/

set_option linter.unusedSectionVars false
set_option linter.unusedVariables false

namespace Verif
open Dbl

/-! ## C70 -/

/-- `swapIndex` repeated -/
def swapAll {F : Type} (swaps : List (Nat × Nat)) (s : Smo F) : Res (Smo F) :=
  swaps.foldlM (fun s p => s.swapIndex p.1 p.2) s

/-- every array of the state has one entry per row (the cached squares may be absent) -/
structure Rectangular {F : Type} (s : Smo F) (l : Nat) : Prop where
  y : s.y.length = l
  alpha : s.alpha.length = l
  G : s.G.length = l
  status : s.status.length = l
  b : s.b.length = l
  activeSet : s.activeSet.length = l
  GBar : s.GBar.length = l
  Qy : s.Q.y.length = l
  rows : s.Q.kernel.x.length = l
  squares : s.Q.kernel.xSquare = [] ∨ s.Q.kernel.xSquare.length = l

/-- `s'` is `s` with the rows exchanged: every array, and nothing else, is rearranged, all in the
same way -/
structure SameRows {F : Type} (swaps : List (Nat × Nat)) (s s' : Smo F) : Prop where
  y : Exchanged swaps s.y s'.y
  alpha : Exchanged swaps s.alpha s'.alpha
  G : Exchanged swaps s.G s'.G
  status : Exchanged swaps s.status s'.status
  b : Exchanged swaps s.b s'.b
  activeSet : Exchanged swaps s.activeSet s'.activeSet
  GBar : Exchanged swaps s.GBar s'.GBar
  Qy : Exchanged swaps s.Q.y s'.Q.y
  rows : Exchanged swaps s.Q.kernel.x s'.Q.kernel.x
  squares : s.Q.kernel.xSquare ≠ [] → Exchanged swaps s.Q.kernel.xSquare s'.Q.kernel.xSquare
  noSquares : s.Q.kernel.xSquare = [] → s'.Q.kernel.xSquare = []
  rest : s' = { s with y := s'.y, alpha := s'.alpha, G := s'.G, status := s'.status, b := s'.b, activeSet := s'.activeSet, GBar := s'.GBar, Q := { y := s'.Q.y, kernel := { s.Q.kernel with x := s'.Q.kernel.x, xSquare := s'.Q.kernel.xSquare } } }

/-- **C70**: after any sequence of `swapIndex` calls all arrays (labels, multipliers, gradients,
statuses, linear terms, the active set, and the rows, labels and squares inside `Q`) are
rearranged in the same way, and nothing else has changed. -/
theorem C70_swaps {F : Type} (s : Smo F) (l : Nat) (h : Rectangular s l) (swaps : List (Nat × Nat))
    (hs : ∀ p ∈ swaps, p.1 < l ∧ p.2 < l) :
    ∃ s', swapAll swaps s = .ok s' ∧ Rectangular s' l ∧ SameRows swaps s s' := by
  unfold swapAll
  induction swaps using List.reverseRecOn with
  | nil =>
    exact ⟨s, rfl, h, ⟨.refl _, .refl _, .refl _, .refl _, .refl _, .refl _, .refl _, .refl _, .refl _,
      fun _ => .refl _, fun e => e, rfl⟩⟩
  | append_singleton t p ih =>
    obtain ⟨s1, e1, r1, x1⟩ := ih (fun p hp => hs p (by simp [hp]))
    obtain ⟨hi, hj⟩ := hs p (by simp)
    obtain ⟨i, j⟩ := p
    simp only at hi hj
    obtain ⟨y', ey, ly, ky⟩ := swapR_ok s1.y i j (by rw [r1.y]; exact hi) (by rw [r1.y]; exact hj)
    obtain ⟨a', ea, la, ka⟩ := swapR_ok s1.alpha i j (by rw [r1.alpha]; exact hi) (by rw [r1.alpha]; exact hj)
    obtain ⟨G', eG, lG, kG⟩ := swapR_ok s1.G i j (by rw [r1.G]; exact hi) (by rw [r1.G]; exact hj)
    obtain ⟨t', et, lt, kt⟩ := swapR_ok s1.status i j (by rw [r1.status]; exact hi) (by rw [r1.status]; exact hj)
    obtain ⟨b', eb, lb, kb⟩ := swapR_ok s1.b i j (by rw [r1.b]; exact hi) (by rw [r1.b]; exact hj)
    obtain ⟨c', ec, lc, kc⟩ := swapR_ok s1.activeSet i j (by rw [r1.activeSet]; exact hi) (by rw [r1.activeSet]; exact hj)
    obtain ⟨g', eg, lg, kg⟩ := swapR_ok s1.GBar i j (by rw [r1.GBar]; exact hi) (by rw [r1.GBar]; exact hj)
    obtain ⟨q', eq, lq, kq⟩ := swapR_ok s1.Q.y i j (by rw [r1.Qy]; exact hi) (by rw [r1.Qy]; exact hj)
    obtain ⟨x', ex, lx, kx⟩ := swapR_ok s1.Q.kernel.x i j (by rw [r1.rows]; exact hi) (by rw [r1.rows]; exact hj)
    have hsq : ∃ w, (if s1.Q.kernel.xSquare.isEmpty then (pure s1.Q.kernel.xSquare : Res (List F))
        else swapR s1.Q.kernel.xSquare i j) = .ok w ∧
        ((s1.Q.kernel.xSquare = [] ∧ w = []) ∨ (s1.Q.kernel.xSquare ≠ [] ∧ w.length = l ∧
          s1.Q.kernel.xSquare.length = l ∧ ∀ k, w[k]? = s1.Q.kernel.xSquare[Equiv.swap i j k]?)) := by
      rcases r1.squares with e | e
      · rw [e]; exact ⟨[], rfl, Or.inl ⟨rfl, rfl⟩⟩
      · obtain ⟨w, ew, lw, kw⟩ := swapR_ok s1.Q.kernel.xSquare i j (by rw [e]; exact hi) (by rw [e]; exact hj)
        have hne : s1.Q.kernel.xSquare ≠ [] := by intro h0; rw [h0] at e; simp at e; omega
        have : s1.Q.kernel.xSquare.isEmpty = false := by
          cases hx : s1.Q.kernel.xSquare with
          | nil => exact absurd hx hne
          | cons a v => rfl
        rw [this]
        exact ⟨w, ew, Or.inr ⟨hne, by rw [lw, e], e, kw⟩⟩
    obtain ⟨w, ew, hw⟩ := hsq
    have ek : s1.Q.kernel.swapIndex i j = .ok { s1.Q.kernel with x := x', xSquare := w } := by
      unfold Kern.swapIndex
      rw [ex, res_bind_ok]
      by_cases he : s1.Q.kernel.xSquare.isEmpty = true
      · rw [if_pos he] at ew ⊢
        rw [ew, res_bind_ok]; rfl
      · rw [if_neg he] at ew ⊢
        rw [ew, res_bind_ok]; rfl
    have e2 : s1.swapIndex i j = .ok { s1 with y := y', alpha := a', G := G', status := t', b := b', activeSet := c', GBar := g', Q := { y := q', kernel := { s1.Q.kernel with x := x', xSquare := w } } } := by
      unfold Smo.swapIndex QMat.swapIndex
      rw [ek, res_bind_ok, eq, res_bind_ok, res_pure, res_bind_ok, ey, res_bind_ok,
        eG, res_bind_ok, ea, res_bind_ok, eb, res_bind_ok, eg, res_bind_ok, ec, res_bind_ok, et, res_bind_ok]
      rfl
    refine ⟨?_, ?_, ?_, ?_⟩
    · exact { s1 with y := y', alpha := a', G := G', status := t', b := b', activeSet := c', GBar := g', Q := { y := q', kernel := { s1.Q.kernel with x := x', xSquare := w } } }
    · rw [List.foldlM_append, e1, res_bind_ok]
      simp only [List.foldlM_cons, List.foldlM_nil]
      rw [e2]; rfl
    · refine ⟨by rw [← r1.y]; exact ly, by rw [← r1.alpha]; exact la, by rw [← r1.G]; exact lG,
        by rw [← r1.status]; exact lt, by rw [← r1.b]; exact lb, by rw [← r1.activeSet]; exact lc,
        by rw [← r1.GBar]; exact lg, by rw [← r1.Qy]; exact lq, by rw [← r1.rows]; exact lx, ?_⟩
      rcases hw with ⟨_, hw⟩ | ⟨_, hw, _⟩
      · exact Or.inl hw
      · exact Or.inr hw
    · have hrest := x1.rest
      refine ⟨x1.y.snoc ly ky, x1.alpha.snoc la ka, x1.G.snoc lG kG, x1.status.snoc lt kt, x1.b.snoc lb kb,
        x1.activeSet.snoc lc kc, x1.GBar.snoc lg kg, x1.Qy.snoc lq kq, x1.rows.snoc lx kx, ?_, ?_, ?_⟩
      · intro hne
        have hx := x1.squares hne
        rcases hw with ⟨h0, _⟩ | ⟨_, hw1, hw2, hw3⟩
        · have : s.Q.kernel.xSquare.length = 0 := by rw [← hx.1, h0]; rfl
          exact absurd (List.length_eq_zero_iff.mp this) hne
        · exact hx.snoc (by rw [hw1, hw2]) hw3
      · intro h0
        have := x1.noSquares h0
        rcases hw with ⟨_, hw⟩ | ⟨hne, _⟩
        · exact hw
        · exact absurd this hne
      · rw [hrest]

/-- **C70** (reachable states): in every state the solver reaches, the active set is a renumbering of
the training instances; labels, linear terms and kernel rows are those of the original problem under
this renumbering; the status array agrees with the multipliers; and for the active rows the
stored derivative is the derivative of the objective at the current multipliers. -/
theorem C70_reachable (P : SvmProblem) (hv : P.Valid) (hr : P.InRange) (n : Nat) :
    ∃ s stop, solverState P n = .ok (s, stop) ∧ s.activeSet.Perm (List.range P.size) ∧
      s.y = s.activeSet.map P.y ∧ s.b = s.activeSet.map P.b ∧
      s.Q.kernel.x = s.activeSet.map (fun i => nodeList (P.vectors.getD i [])) ∧ s.Q.y = s.y ∧
      ∃ A : Nat → ℝ, s.alpha = s.activeSet.map A ∧ s.status = s.alpha.map (statusOf P.param.C) ∧
        ∀ k, k < s.activeSize → s.G.getD k 0 = P.gradient A (s.activeSet.getD k 0) := by
  obtain ⟨s, stop, A, e, h, _⟩ := solverState_ok P hv hr n
  refine ⟨s, stop, e, h.ids.perm, h.y, h.b, ?_, by rw [h.y, h.Qy], A, h.alpha, ?_, h.G⟩
  · rw [h.kernel.rows, List.map_map]; rfl
  · rw [h.status, h.alpha, List.map_map]; rfl

/-- **C123**: when the solver stops, its multipliers (numbered as the instances, through the active
set) satisfy the constraints and no admissible change of two of them improves the objective at a rate of
0.001 or more. -/
theorem C123_optimal (P : SvmProblem) (hv : P.Valid) (hr : P.InRange) (n : Nat) (s : Smo ℝ)
    (hs : solverState P n = .ok (s, true)) :
    ∃ A : Nat → ℝ, s.alpha = s.activeSet.map A ∧ s.activeSet.Perm (List.range P.size) ∧ P.Feasible A ∧
      P.NearlyOptimal (1/1000) A := by
  obtain ⟨s', stop, A, e, h, c⟩ := solverState_ok P hv hr n
  rw [e] at hs
  have := Except.ok.inj hs
  obtain ⟨rfl, rfl⟩ : s' = s ∧ stop = true := by simpa using this
  exact ⟨A, h.alpha, h.ids.perm, h.feasible, (c rfl).2⟩


/-! ## C71 -/

/-- state of the loop that copies the multipliers back when the rows are in their original places -/
theorem writeBack_id {F : Type} (l n : Nat) (alpha : List F) (ha : alpha.length = l) (hn : n ≤ l) :
    (List.range n).foldlM (Smo.writeBack (List.range l)) alpha = .ok alpha := by
  induction n with
  | zero => rfl
  | succ n ih =>
    rw [List.range_succ, List.foldlM_append, ih (by omega), res_bind_ok]
    simp only [List.foldlM_cons, List.foldlM_nil, Smo.writeBack]
    have hn' : n < alpha.length := by omega
    have h1 : idxR alpha n = .ok alpha[n] := by
      rw [idxR_eq_ok, List.getElem?_eq_getElem]
    have h2 : idxR (List.range l) n = .ok n := by
      rw [idxR_eq_ok, List.getElem?_range (by omega)]
    rw [h1, res_bind_ok, h2, res_bind_ok, h1, res_bind_ok]
    rw [List.set_getElem_self]; rfl

/-- **C71** (part): if the rows are in their original places at the end, `solve()` reports the
multipliers it computed, unchanged. -/
theorem C71_unpermuted_partial {F : Type} [Dbl F] (s : Smo F) (h : s.activeSet = List.range s.l)
    (hl : s.alpha.length = s.l) (ρ : F) (a : List F) (hf : s.finish = .ok (ρ, a)) : a = s.alpha := by
  unfold Smo.finish at hf
  have e : (List.range s.l).foldlM (Smo.writeBack s.activeSet) s.alpha = .ok s.alpha := by
    rw [h]; exact writeBack_id s.l s.l s.alpha hl (le_refl _)
  rw [e, res_bind_ok] at hf
  cases hc : s.calculateRho with
  | error e =>
    have hc' : ({ s with alpha := s.alpha } : Smo F).calculateRho = .error e := hc
    rw [hc'] at hf; cases hf
  | ok r =>
    have hc' : ({ s with alpha := s.alpha } : Smo F).calculateRho = .ok r := hc
    rw [hc', res_bind_ok] at hf
    have := Except.ok.inj hf
    simp at this
    exact this.2.symm

section
variable {P : SvmProblem} {A : Nat → ℝ} {s : Smo ℝ}

/-- nothing has been shrunk yet -/
structure Unshrunk (P : SvmProblem) (s : Smo ℝ) (c : Int) : Prop where
  all : s.activeSize = P.size
  ids : s.activeSet = List.range P.size
  counter : s.counter = c

theorem iterate_unshrunk (hv : P.Valid) (hr : P.InRange) (h : SmoInv P A s) (c : Int) (hu : Unshrunk P s (c + 1))
    (hc : 0 < c) :
    ∃ s' stop A', s.iterate = .ok (s', stop) ∧ SmoInv P A' s' ∧ Unshrunk P s' c := by
  have e1 : s.countDown = .ok { s with counter := c } := by
    unfold Smo.countDown
    rw [hu.counter, if_neg (by omega)]
    simp
  obtain ⟨s1, hs1⟩ : ∃ s1 : Smo ℝ, s1 = { s with counter := c } := ⟨_, rfl⟩
  rw [← hs1] at e1
  have h1 : SmoInv P A s1 := by
    rw [hs1]
    exact ⟨h.l, h.active, h.C, h.ids, h.y, h.b, h.Qy, h.kernel, h.alpha, h.status, h.GBar, h.Glen, h.G, h.bound,
      h.feasible⟩
  have u1 : Unshrunk P s1 c := by rw [hs1]; exact ⟨hu.all, hu.ids, rfl⟩
  obtain ⟨stop, o, e2, c1, c2⟩ := C69_select (h1.rowsOk hv hr) ⟨none, none⟩
  unfold Smo.iterate Smo.choose
  rw [e1, res_bind_ok, e2, res_bind_ok]
  cases stop with
  | false =>
    obtain ⟨i, j, rfl, hi, hj, hri, hfa, hne, hgain, _⟩ := c2 rfl
    simp only [Bool.false_eq_true, if_false, Smo.readOut]
    rw [res_pure, res_bind_ok, res_pure, res_bind_ok, res_pure, res_bind_ok]
    obtain ⟨s2, e3, h2, a2, a3, a4⟩ := h1.move hv hi hj hne
    simp only
    rw [e3, res_bind_ok]
    exact ⟨s2, false, _, rfl, h2, ⟨by rw [a3]; exact u1.all, by rw [a2]; exact u1.ids, by rw [a4]; exact u1.counter⟩⟩
  | true =>
    have hlen : s1.activeSize = s1.l := by rw [u1.all, h1.l]
    have e3 : s1.reconstructGradient = .ok s1 := by
      unfold Smo.reconstructGradient
      rw [if_pos hlen]; rfl
    have e4 : ({ s1 with activeSize := s1.l } : Smo ℝ) = s1 := by
      cases s1; simp only at hlen; rw [← hlen]
    obtain ⟨stop', o', e5, c3, _⟩ := C69_select (h1.rowsOk hv hr) o
    have : stop' = true := c3.mpr (c1.mp rfl)
    subst this
    simp only [if_true]
    rw [e3, res_bind_ok, e4, e5, res_bind_ok]
    simp only [if_true]
    rw [res_pure, res_bind_ok]
    exact ⟨s1, true, A, rfl, h1, u1⟩

theorem run_unshrunk (hv : P.Valid) (hr : P.InRange) (n : Nat) : ∀ (A : Nat → ℝ) (s : Smo ℝ) (c : Int),
    SmoInv P A s → Unshrunk P s c → (n : Int) < c →
    ∃ s' stop A' c', Smo.run n s = .ok (s', stop) ∧ SmoInv P A' s' ∧ Unshrunk P s' c' := by
  induction n with
  | zero => intro A s c h hu _; exact ⟨s, false, A, c, rfl, h, hu⟩
  | succ n ih =>
    intro A s c h hu hc
    obtain ⟨s1, stop, A1, e1, h1, u1⟩ := iterate_unshrunk hv hr h (c - 1) (by rw [sub_add_cancel]; exact hu)
      (by push_cast at hc; omega)
    simp only [Smo.run]
    rw [e1, res_bind_ok]
    cases stop with
    | true => exact ⟨s1, true, A1, _, rfl, h1, u1⟩
    | false => exact ih A1 s1 _ h1 u1 (by push_cast at hc; omega)

/-! ## C124: the threshold -/

/-- `calculateRho` after `m` rows -/
structure RhoInv (P : SvmProblem) (A : Nat → ℝ) (s : Smo ℝ) (m : Nat) (r : Smo.RhoAcc ℝ) : Prop where
  upper_le : ∀ k, k < m → statusOf P.param.C (A (s.id k)) ≠ .free → P.CanRise A (s.id k) →
    r.upper ≤ P.y (s.id k) * P.gradient A (s.id k)
  upper_ge : -(Dbl.maxVal : ℝ) ≤ r.upper
  upper_max : r.upper ≤ (Dbl.maxVal : ℝ)
  upper_is : r.upper = Dbl.maxVal ∨ ∃ k, k < m ∧ P.CanRise A (s.id k) ∧
    r.upper = P.y (s.id k) * P.gradient A (s.id k)
  lower_ge : ∀ k, k < m → statusOf P.param.C (A (s.id k)) ≠ .free → P.CanFall A (s.id k) →
    P.y (s.id k) * P.gradient A (s.id k) ≤ r.lower
  lower_max : -(Dbl.maxVal : ℝ) ≤ r.lower
  lower_le : r.lower ≤ (Dbl.maxVal : ℝ)
  lower_is : r.lower = -Dbl.maxVal ∨ ∃ k, k < m ∧ P.CanFall A (s.id k) ∧
    r.lower = P.y (s.id k) * P.gradient A (s.id k)
  sum_lt : ∀ v, (∀ k, k < m → statusOf P.param.C (A (s.id k)) = .free →
    P.y (s.id k) * P.gradient A (s.id k) < v) → 0 < r.free → r.sumFree < r.free * v
  sum_gt : ∀ v, (∀ k, k < m → statusOf P.param.C (A (s.id k)) = .free →
    v < P.y (s.id k) * P.gradient A (s.id k)) → 0 < r.free → r.free * v < r.sumFree
  none_free : r.free = 0 → r.sumFree = 0 ∧ ∀ k, k < m → statusOf P.param.C (A (s.id k)) ≠ .free

theorem yG_range (hv : P.Valid) (hr : P.InRange) (hf : P.Feasible A) {i : Nat} (hi : i < P.size) :
    |P.y i * P.gradient A i| ≤ (Dbl.maxVal : ℝ) := by
  have := gradient_range hr hf hi
  rcases hv.sign i hi with h | h <;> rw [h] <;> simpa using this

theorem fminD_real (a b : ℝ) : fminD a b = min a b := by
  unfold fminD
  simp only [le_real, eq_real, decide_eq_true_eq]
  split
  · rw [min_eq_left (by assumption)]
  · rw [if_pos trivial, min_eq_right (by linarith)]

theorem fmaxD_real (a b : ℝ) : fmaxD a b = max a b := by
  unfold fmaxD
  simp only [le_real, eq_real, decide_eq_true_eq]
  split
  · rw [max_eq_left (by assumption)]
  · rw [if_pos trivial, max_eq_right (by linarith)]

theorem rhoLoop_ok (hv : P.Valid) (hr : P.InRange) (h : SmoInv P A s) (m : Nat) (hm : m ≤ s.activeSize) :
    ∃ r, (List.range m).foldlM s.rhoStep ⟨Dbl.maxVal, Dbl.neg Dbl.maxVal, Dbl.zero, 0⟩ = .ok r ∧
      RhoInv P A s m r := by
  have hpos := maxVal_real_pos
  induction m with
  | zero =>
    refine ⟨_, rfl, ?_⟩
    simp only [neg_real, zero_real]
    exact ⟨by simp, by linarith, le_refl _, Or.inl rfl, by simp, le_refl _, by linarith, Or.inl rfl, by simp, by simp,
      by simp⟩
  | succ m ih =>
    obtain ⟨r, e, i⟩ := ih (by omega)
    have hact := h.active
    have hms : m < P.size := by omega
    have hid : s.id m < P.size := h.ids.getD_lt hms
    rw [List.range_succ, List.foldlM_append, e, res_bind_ok]
    simp only [List.foldlM_cons, List.foldlM_nil, Smo.rhoStep]
    rw [h.get_y hms, res_bind_ok, h.get_G (by omega), res_bind_ok, h.get_status hms, res_bind_ok]
    have hrange := abs_le.mp (yG_range hv hr h.feasible hid)
    have hCpos := hv.C_pos
    have lt_succ : ∀ k, k < m + 1 → k = m ∨ k < m := fun k hk => by omega
    -- a row at its bound whose value may rise
    have rise : statusOf P.param.C (A (s.id m)) ≠ .free → P.CanRise A (s.id m) → ¬ P.CanFall A (s.id m) →
        RhoInv P A s (m + 1) { r with upper := min r.upper (P.y (s.id m) * P.gradient A (s.id m)) } := by
      intro hnf hri hnfa
      refine ⟨?_, le_min i.upper_ge hrange.1, le_trans (min_le_left _ _) i.upper_max, ?_, ?_, i.lower_max, i.lower_le, ?_,
        ?_, ?_, ?_⟩
      · intro k hk hf hr'
        rcases lt_succ k hk with rfl | hk
        · exact min_le_right _ _
        · exact le_trans (min_le_left _ _) (i.upper_le k hk hf hr')
      · rcases min_choice r.upper (P.y (s.id m) * P.gradient A (s.id m)) with hc | hc
        · rcases i.upper_is with h1 | ⟨k, hk, h1, h2⟩
          · exact Or.inl (by rw [← h1]; exact hc)
          · exact Or.inr ⟨k, by omega, h1, by rw [← h2]; exact hc⟩
        · exact Or.inr ⟨m, by omega, hri, hc⟩
      · intro k hk hf hr'
        rcases lt_succ k hk with rfl | hk
        · exact absurd hr' hnfa
        · exact i.lower_ge k hk hf hr'
      · rcases i.lower_is with h1 | ⟨k, hk, h1, h2⟩
        · exact Or.inl h1
        · exact Or.inr ⟨k, by omega, h1, h2⟩
      · intro v hall h0; exact i.sum_lt v (fun k hk => hall k (by omega)) h0
      · intro v hall h0; exact i.sum_gt v (fun k hk => hall k (by omega)) h0
      · intro h0
        refine ⟨(i.none_free h0).1, fun k hk => ?_⟩
        rcases lt_succ k hk with rfl | hk
        · exact hnf
        · exact (i.none_free h0).2 k hk
    have fall : statusOf P.param.C (A (s.id m)) ≠ .free → P.CanFall A (s.id m) → ¬ P.CanRise A (s.id m) →
        RhoInv P A s (m + 1) { r with lower := max r.lower (P.y (s.id m) * P.gradient A (s.id m)) } := by
      intro hnf hfa hnri
      refine ⟨?_, i.upper_ge, i.upper_max, ?_, ?_, le_trans i.lower_max (le_max_left _ _), max_le i.lower_le hrange.2, ?_,
        ?_, ?_, ?_⟩
      · intro k hk hf hr'
        rcases lt_succ k hk with rfl | hk
        · exact absurd hr' hnri
        · exact i.upper_le k hk hf hr'
      · rcases i.upper_is with h1 | ⟨k, hk, h1, h2⟩
        · exact Or.inl h1
        · exact Or.inr ⟨k, by omega, h1, h2⟩
      · intro k hk hf hr'
        rcases lt_succ k hk with rfl | hk
        · exact le_max_right _ _
        · exact le_trans (i.lower_ge k hk hf hr') (le_max_left _ _)
      · rcases max_choice r.lower (P.y (s.id m) * P.gradient A (s.id m)) with hc | hc
        · rcases i.lower_is with h1 | ⟨k, hk, h1, h2⟩
          · exact Or.inl (by rw [← h1]; exact hc)
          · exact Or.inr ⟨k, by omega, h1, by rw [← h2]; exact hc⟩
        · exact Or.inr ⟨m, by omega, hfa, hc⟩
      · intro v hall h0; exact i.sum_lt v (fun k hk => hall k (by omega)) h0
      · intro v hall h0; exact i.sum_gt v (fun k hk => hall k (by omega)) h0
      · intro h0
        refine ⟨(i.none_free h0).1, fun k hk => ?_⟩
        rcases lt_succ k hk with rfl | hk
        · exact hnf
        · exact (i.none_free h0).2 k hk
    refine ⟨_, rfl, ?_⟩
    unfold Smo.rhoRow
    simp only [mul_real, lt_real, zero_real, fminD_real, fmaxD_real, add_real]
    cases hst : statusOf P.param.C (A (s.id m)) with
    | lower =>
      obtain ⟨h1, h2⟩ := statusOf_lower.mp hst
      simp only
      rcases hv.sign _ hid with hy | hy
      · rw [if_pos (by rw [hy]; simp)]
        refine rise (by rw [hst]; simp) (Or.inl ⟨hy, h1⟩) ?_
        rintro (⟨_, h3⟩ | ⟨h3, _⟩)
        · linarith
        · rw [hy] at h3; norm_num at h3
      · rw [if_neg (by rw [hy]; simp)]
        refine fall (by rw [hst]; simp) (Or.inr ⟨hy, h1⟩) ?_
        rintro (⟨h3, _⟩ | ⟨_, h3⟩)
        · rw [hy] at h3; norm_num at h3
        · linarith
    | upper =>
      have h1 := statusOf_upper.mp hst
      simp only
      rcases hv.sign _ hid with hy | hy
      · rw [if_neg (by rw [hy]; simp)]
        refine fall (by rw [hst]; simp) (Or.inl ⟨hy, by linarith⟩) ?_
        rintro (⟨_, h3⟩ | ⟨h3, _⟩)
        · linarith
        · rw [hy] at h3; norm_num at h3
      · rw [if_pos (by rw [hy]; simp)]
        refine rise (by rw [hst]; simp) (Or.inr ⟨hy, by linarith⟩) ?_
        rintro (⟨h3, _⟩ | ⟨_, h3⟩)
        · rw [hy] at h3; norm_num at h3
        · linarith
    | free =>
      simp only
      refine ⟨?_, i.upper_ge, i.upper_max, ?_, ?_, i.lower_max, i.lower_le, ?_, ?_, ?_, by simp⟩
      · intro k hk hf hr'
        rcases lt_succ k hk with rfl | hk
        · exact absurd hst hf
        · exact i.upper_le k hk hf hr'
      · rcases i.upper_is with h1 | ⟨k, hk, h1, h2⟩
        · exact Or.inl h1
        · exact Or.inr ⟨k, by omega, h1, h2⟩
      · intro k hk hf hr'
        rcases lt_succ k hk with rfl | hk
        · exact absurd hst hf
        · exact i.lower_ge k hk hf hr'
      · rcases i.lower_is with h1 | ⟨k, hk, h1, h2⟩
        · exact Or.inl h1
        · exact Or.inr ⟨k, by omega, h1, h2⟩
      · intro v hall _
        have hm' := hall m (by omega) hst
        push_cast
        rcases Nat.eq_zero_or_pos r.free with h0 | h0
        · rw [(i.none_free h0).1, h0]; push_cast; linarith
        · have := i.sum_lt v (fun k hk => hall k (by omega)) h0
          linarith
      · intro v hall _
        have hm' := hall m (by omega) hst
        push_cast
        rcases Nat.eq_zero_or_pos r.free with h0 | h0
        · rw [(i.none_free h0).1, h0]; push_cast; linarith
        · have := i.sum_gt v (fun k hk => hall k (by omega)) h0
          linarith

/-- the threshold separates the rows that can rise from those that can fall, up to `ε` -/
theorem rho_separates (hv : P.Valid) (hr : P.InRange) (h : SmoInv P A s) (hall : s.activeSize = P.size)
    (hopt : P.NearlyOptimal (1/1000) A) :
    ∃ ρ, s.calculateRho = .ok ρ ∧
      (∀ k, k < P.size → P.CanRise A k → ρ - 1/1000 < P.y k * P.gradient A k) ∧
      (∀ k, k < P.size → P.CanFall A k → P.y k * P.gradient A k < ρ + 1/1000) := by
  obtain ⟨r, e, i⟩ := rhoLoop_ok hv hr h s.activeSize (le_refl _)
  have freeBoth : ∀ k, k < P.size → statusOf P.param.C (A k) = .free → P.CanRise A k ∧ P.CanFall A k := by
    intro k hk hf
    obtain ⟨h1, h2⟩ := statusOf_free.mp hf
    rcases hv.sign k hk with hy | hy
    · exact ⟨Or.inl ⟨hy, h1⟩, Or.inl ⟨hy, h2⟩⟩
    · exact ⟨Or.inr ⟨hy, h2⟩, Or.inr ⟨hy, h1⟩⟩
  unfold Smo.calculateRho
  rw [e, res_bind_ok]
  refine ⟨_, rfl, ?_, ?_⟩
  · intro k hk hri
    by_cases hf : r.free > 0
    · rw [if_pos hf, div_real, ofNat_real]
      have hpos : (0 : ℝ) < r.free := by exact_mod_cast hf
      have := i.sum_lt (P.y k * P.gradient A k + 1/1000) (by
        intro m hm hst
        have hid : s.id m < P.size := h.ids.getD_lt (by omega)
        have := hopt k (s.id m) hk hid hri (freeBoth _ hid hst).2
        linarith) hf
      rw [← div_lt_iff₀' hpos] at this
      linarith
    · rw [if_neg hf, div_real, add_real, ofInt_real]
      push_cast
      obtain ⟨m, hm, rfl⟩ := h.ids.surj hk
      have nf := (i.none_free (by omega)).2
      have h1 := i.upper_le m (by omega) (nf m (by omega)) hri
      rcases i.lower_is with h2 | ⟨j, hj, h2, h3⟩
      · have := i.upper_ge
        have e1 : s.id m = s.activeSet.getD m 0 := rfl
        rw [e1] at h1
        rw [h2]; linarith
      · have hid : s.id j < P.size := h.ids.getD_lt (by omega)
        have := hopt (s.activeSet.getD m 0) (s.id j) hk hid hri h2
        have e1 : s.id m = s.activeSet.getD m 0 := rfl
        rw [e1] at h1
        rw [h3]; linarith
  · intro k hk hfa
    by_cases hf : r.free > 0
    · rw [if_pos hf, div_real, ofNat_real]
      have hpos : (0 : ℝ) < r.free := by exact_mod_cast hf
      have := i.sum_gt (P.y k * P.gradient A k - 1/1000) (by
        intro m hm hst
        have hid : s.id m < P.size := h.ids.getD_lt (by omega)
        have := hopt (s.id m) k hid hk (freeBoth _ hid hst).1 hfa
        linarith) hf
      rw [← lt_div_iff₀' hpos] at this
      linarith
    · rw [if_neg hf, div_real, add_real, ofInt_real]
      push_cast
      obtain ⟨m, hm, rfl⟩ := h.ids.surj hk
      have nf := (i.none_free (by omega)).2
      have h1 := i.lower_ge m (by omega) (nf m (by omega)) hfa
      have e1 : s.id m = s.activeSet.getD m 0 := rfl
      rw [e1] at h1
      rcases i.upper_is with h2 | ⟨j, hj, h2, h3⟩
      · have := i.lower_le
        rw [h2]; linarith
      · have hid : s.id j < P.size := h.ids.getD_lt (by omega)
        have := hopt (s.id j) (s.activeSet.getD m 0) hid hk h2 hfa
        rw [h3]; linarith

/-- label times derivative, through the decision value -/
theorem decision_eq (hv : P.Valid) (hb : ∀ k, k < P.size → P.b k = -1) (ρ : ℝ) {k : Nat} (hk : k < P.size) :
    P.decision A ρ k = P.y k * P.gradient A k + P.y k - ρ := by
  unfold SvmProblem.decision SvmProblem.gradient
  have hyy : P.y k * P.y k = 1 := by rcases hv.sign k hk with h | h <;> rw [h] <;> norm_num
  rw [hb k hk, mul_add, Finset.mul_sum]
  have : ∑ j ∈ Finset.range P.size, P.y k * (A j * P.q k j) =
      ∑ j ∈ Finset.range P.size, P.y j * A j * P.kernel j k := by
    refine Finset.sum_congr rfl (fun j _ => ?_)
    rw [SvmProblem.q_comm]
    unfold SvmProblem.q
    calc P.y k * (A j * (P.y j * P.y k * P.kernel j k)) = (P.y k * P.y k) * (P.y j * A j * P.kernel j k) := by ring
      _ = _ := by rw [hyy, one_mul]
  rw [this]; ring

/-- nearly optimal multipliers with a separating threshold satisfy the margin conditions -/
theorem margins_of_separates (hv : P.Valid) (hb : ∀ k, k < P.size → P.b k = -1) (ρ : ℝ)
    (h1 : ∀ k, k < P.size → P.CanRise A k → ρ - 1/1000 < P.y k * P.gradient A k)
    (h2 : ∀ k, k < P.size → P.CanFall A k → P.y k * P.gradient A k < ρ + 1/1000) :
    P.Margins (1/1000) A ρ := by
  constructor
  · intro k hk ha
    rw [decision_eq hv hb ρ hk]
    rcases hv.sign k hk with hy | hy
    · have := h1 k hk (Or.inl ⟨hy, ha⟩)
      rw [hy] at this ⊢; linarith
    · have := h2 k hk (Or.inr ⟨hy, ha⟩)
      rw [hy] at this ⊢; linarith
  · intro k hk ha
    rw [decision_eq hv hb ρ hk]
    rcases hv.sign k hk with hy | hy
    · have := h2 k hk (Or.inl ⟨hy, ha⟩)
      rw [hy] at this ⊢; linarith
    · have := h1 k hk (Or.inr ⟨hy, ha⟩)
      rw [hy] at this ⊢; linarith

end

/-- **C124**: when the solver stops, the threshold it computes and the multipliers it has found (each
for its own instance) satisfy the margin conditions of the training set up to 0.001: every
instance with a multiplier below `C` has `y f(x) > 0.999`, every one with a positive multiplier has
`y f(x) < 1.001`. -/
theorem C124_margins (P : SvmProblem) (hv : P.Valid) (hr : P.InRange) (hb : ∀ k, k < P.size → P.b k = -1)
    (n : Nat) (s : Smo ℝ) (hs : solverState P n = .ok (s, true)) :
    ∃ (A : Nat → ℝ) (ρ : ℝ), s.alpha = s.activeSet.map A ∧ s.activeSet.Perm (List.range P.size) ∧
      s.calculateRho = .ok ρ ∧ P.Feasible A ∧ P.Margins (1/1000) A ρ := by
  obtain ⟨s', stop, A, e, h, c⟩ := solverState_ok P hv hr n
  rw [e] at hs
  have := Except.ok.inj hs
  obtain ⟨rfl, rfl⟩ : s' = s ∧ stop = true := by simpa using this
  obtain ⟨ρ, e1, h1, h2⟩ := rho_separates hv hr h (c rfl).1 (c rfl).2
  exact ⟨A, ρ, h.alpha, h.ids.perm, e1, h.feasible, margins_of_separates hv hb ρ h1 h2⟩

/-- **C71** (part): if the solver stops within `min (number of instances) 1000` rounds, the
multipliers and the threshold it reports are those of the original instances: they satisfy the
constraints and the margin conditions up to 0.001. -/
theorem C71_early_stop_partial (P : SvmProblem) (hv : P.Valid) (hr : P.InRange)
    (hb : ∀ k, k < P.size → P.b k = -1) (n : Nat) (hn : n ≤ min P.size 1000) (ρ : ℝ) (a : List ℝ)
    (hs : Smo.solve n P.size (P.vectors.map nodeList) P.labels P.linear P.param = .ok (some (ρ, a))) :
    a.length = P.size ∧ P.Feasible (a.getD · 0) ∧ P.Margins (1/1000) (a.getD · 0) ρ := by
  obtain ⟨s0, e0, h0, i0, z0, c0⟩ := start_ok hv
  obtain ⟨s', stop, A, c', e, h, hu⟩ := run_unshrunk hv hr n _ s0 _ h0 ⟨z0, i0, c0⟩ (by push_cast; omega)
  have hrun := solverState_ok P hv hr n
  obtain ⟨s2, stop2, A2, e2, h2, c2⟩ := hrun
  unfold solverState at e2
  rw [e0, res_bind_ok, e] at e2
  obtain ⟨rfl, rfl⟩ : s' = s2 ∧ stop = stop2 := by simpa using e2
  unfold Smo.solve at hs
  rw [e0, res_bind_ok, e, res_bind_ok] at hs
  cases stop with
  | false => cases hs
  | true =>
    simp only [if_true] at hs
    obtain ⟨ρ', e1, k1, k2⟩ := rho_separates hv hr h2 (c2 rfl).1 (c2 rfl).2
    have hids : s'.activeSet = List.range s'.l := by rw [hu.ids, h2.l]
    have hal : s'.alpha.length = s'.l := by rw [h2.alpha, List.length_map, h2.idlen, h2.l]
    cases hfin : s'.finish with
    | error er => rw [hfin] at hs; cases hs
    | ok o =>
      obtain ⟨ρ1, a1⟩ := o
      rw [hfin, res_bind_ok] at hs
      obtain ⟨rfl, rfl⟩ : ρ1 = ρ ∧ a1 = a := by
        have := Except.ok.inj hs
        simpa using this
      have ha := C71_unpermuted_partial s' hids hal ρ1 a1 hfin
      have hρ : ρ1 = ρ' := by
        unfold Smo.finish at hfin
        have e4 : (List.range s'.l).foldlM (Smo.writeBack s'.activeSet) s'.alpha = .ok s'.alpha := by
          rw [hids]; exact writeBack_id s'.l s'.l s'.alpha hal (le_refl _)
        have e5 : ({ s' with alpha := s'.alpha } : Smo ℝ).calculateRho = .ok ρ' := e1
        rw [e4, res_bind_ok, e5, res_bind_ok] at hfin
        have := Except.ok.inj hfin
        simp at this
        exact this.1.symm
      subst hρ
      have hget : ∀ k, k < P.size → a1.getD k 0 = A2 k := by
        intro k hk
        rw [ha, h2.alpha, hu.ids]
        simp [hk]
      refine ⟨by rw [ha, hal, h2.l], ?_, ?_⟩
      · refine ⟨fun k hk => ?_, fun k hk => ?_, ?_⟩
        · rw [hget k hk]; exact h2.feasible.lower k hk
        · rw [hget k hk]; exact h2.feasible.upper k hk
        · refine Eq.trans ?_ h2.feasible.balance
          exact Finset.sum_congr rfl (fun k hk => by
            show P.y k * a1.getD k 0 = _
            rw [hget k (Finset.mem_range.mp hk)])
      · have hm := margins_of_separates (A := A2) hv hb ρ1 k1 k2
        have hdec : ∀ k, P.decision (a1.getD · 0) ρ1 k = P.decision A2 ρ1 k := by
          intro k
          unfold SvmProblem.decision
          congr 1
          exact Finset.sum_congr rfl (fun i hi => by
            show P.y i * a1.getD i 0 * P.kernel i k = _
            rw [hget i (Finset.mem_range.mp hi)])
        constructor
        · intro k hk hlt
          rw [hget k hk] at hlt
          rw [hdec]; exact hm.outside k hk hlt
        · intro k hk hlt
          rw [hget k hk] at hlt
          rw [hdec]; exact hm.inside k hk hlt

/-- three points on a line, the third of the other class, linear kernel, `C = 2` -/
def lineProblem : List (NodeL XR) := [nodeList [.fin 0], nodeList [.fin 3], nodeList [.fin (-1)]]

/-- parameters with `C = 2` and the linear kernel -/
def lineParam : SvmParam XR := ⟨.linear, 1, .fin 0, .fin 0, .fin 2, true⟩

/-- **C71 is false** in general: `solve()` copies the multipliers back inside one array, so that a
multiplier read late may already have been overwritten. On three points the solver ends with
the multipliers 2, 2, 0 for the instances 0, 2, 1, but reports 2, 2, 2, which do not even satisfy
`Σ y_i a_i = 0`. -/
theorem C71_refuted :
    (Smo.start 3 lineProblem [.fin 1, .fin 1, .fin (-1)] [.fin (-1), .fin (-1), .fin (-1)] lineParam >>=
        Smo.run 5).map (fun r => (r.1.activeSet, r.1.alpha, r.2)) =
      .ok ([0, 2, 1], [.fin 2, .fin 2, .fin 0], true) ∧
    (Smo.solve 5 3 lineProblem [.fin 1, .fin 1, .fin (-1)] [.fin (-1), .fin (-1), .fin (-1)] lineParam).map
        (fun o => o.map Prod.snd) = .ok (some [XR.fin 2, .fin 2, .fin 2]) := by
  decide +kernel

/-! ## the hypotheses are met -/

/-- the points `1` and `-1`, of different classes, `C = 2` -/
noncomputable def pairProblem : SvmProblem := ⟨[[1], [-1]], [1, -1], [-1, -1], ⟨.linear, 1, 0, 0, 2, true⟩⟩

theorem pairProblem_valid : pairProblem.Valid ∧ ∀ k, k < pairProblem.size → pairProblem.b k = -1 := by
  refine ⟨⟨rfl, rfl, ?_, ?_⟩, ?_⟩
  · intro i hi
    have : i = 0 ∨ i = 1 := by have : i < 2 := hi; omega
    rcases this with rfl | rfl
    · exact Or.inl rfl
    · exact Or.inr rfl
  · show (0 : ℝ) < 2; norm_num
  · intro i hi
    have : i = 0 ∨ i = 1 := by have : i < 2 := hi; omega
    rcases this with rfl | rfl <;> rfl

theorem pairProblem_inRange : pairProblem.InRange := by
  have hmax : (100 : ℝ) ≤ Dbl.maxVal := by
    rw [maxVal_real]
    calc (100 : ℝ) ≤ 2 ^ 7 := by norm_num
      _ ≤ 2 ^ 1024 := pow_le_pow_right₀ (by norm_num) (by norm_num)
  intro i hi
  have : i = 0 ∨ i = 1 := by have : i < 2 := hi; omega
  refine le_trans ?_ hmax
  have hsz : pairProblem.size = 2 := rfl
  rw [hsz]
  rcases this with rfl | rfl <;>
    simp [Finset.sum_range_succ, SvmProblem.b, SvmProblem.q, SvmProblem.y, SvmProblem.kernel, pairProblem,
      kernelFormula, denseDot] <;> norm_num

/-- on these points the solver stops in the second round, with the multipliers 1/2, 1/2 and the threshold 0 -/
example : Smo.solve 2 2 [nodeList [XR.fin 1], nodeList [.fin (-1)]] [.fin 1, .fin (-1)] [.fin (-1), .fin (-1)]
    lineParam = .ok (some (.fin 0, [.fin (1/2), .fin (1/2)])) := by decide +kernel

/-- a rectangular state and admissible swaps -/
example : ∃ s s' : Smo Int, Rectangular s 2 ∧ swapAll [(0, 1)] s = .ok s' ∧ s'.alpha = [8, 7] ∧ s'.activeSet = [1, 0] :=
  ⟨⟨2, 2, [1, -1], [7, 8], [3, 4], [.lower, .free], ⟨⟨[[], []], [], .linear, 1, 0, 0⟩, [1, -1]⟩, 9, [-1, -1], [0, 1], [5, 6],
    false, true, 3⟩, _, ⟨rfl, rfl, rfl, rfl, rfl, rfl, rfl, rfl, rfl, Or.inl rfl⟩, rfl, rfl, rfl⟩

end Verif
