import Verif.Props.SolverMin
import Verif.Props.SvmCases

/-! # C127, C129: the solver and the training of a support vector machine end -/

set_option linter.unusedSectionVars false
set_option linter.unusedVariables false

namespace Verif
open Dbl

/-! ## kernels that tell vectors apart -/

theorem sqDist_pos (u v : List ℝ) (hl : u.length = v.length) (hne : u ≠ v) : 0 < denseSqDist u v := by
  have h0 : 0 ≤ denseSqDist u v := Finset.sum_nonneg (fun i _ => sq_nonneg _)
  refine lt_of_le_of_ne h0 (fun e => hne ?_)
  unfold denseSqDist at e
  have hz := (Finset.sum_eq_zero_iff_of_nonneg (fun i _ => sq_nonneg _)).mp e.symm
  apply List.ext_getElem hl
  intro i h1 h2
  have := hz i (Finset.mem_range.mpr (lt_of_lt_of_le h1 (le_max_left _ _)))
  have := sq_eq_zero_iff.mp this
  simp [h1, h2] at this
  linarith

theorem dot_sum_nonneg (u v : List ℝ) (hl : u.length = v.length) :
    0 ≤ denseDot u u + denseDot v v + 2 * denseDot u v := by
  have e : denseDot u u + denseDot v v + 2 * denseDot u v =
      ∑ i ∈ Finset.range u.length, (u.getD i 0 + v.getD i 0) ^ 2 := by
    unfold denseDot
    rw [← hl, max_self, Finset.mul_sum, ← Finset.sum_add_distrib, ← Finset.sum_add_distrib]
    exact Finset.sum_congr rfl (fun i _ => by ring)
  rw [e]
  exact Finset.sum_nonneg (fun i _ => sq_nonneg _)

theorem dot_self_nonneg (u : List ℝ) : 0 ≤ denseDot u u := by
  unfold denseDot
  exact Finset.sum_nonneg (fun i _ => mul_self_nonneg _)

/-- `t ^ n` is below the mean of `a ^ n` and `b ^ n` when `t` is below the mean of `a` and `b` -/
theorem pow_gap (n : Nat) (hn : n ≠ 0) (a b t : ℝ) (ha : 0 ≤ a) (hb : 0 ≤ b) (ht : t < (a + b) / 2)
    (h : Odd n ∨ -t < (a + b) / 2) : 0 < a ^ n + b ^ n - 2 * t ^ n := by
  have h1 : t ^ n < ((a + b) / 2) ^ n := by
    rcases Nat.even_or_odd n with he | ho
    · have h2 : -t < (a + b) / 2 := h.resolve_left (by simpa using he)
      rw [← he.pow_abs t]
      exact pow_lt_pow_left₀ (abs_lt.mpr ⟨by linarith, ht⟩) (abs_nonneg _) hn
    · exact ho.strictMono_pow ht
  have h2 := add_pow_le ha hb n
  have h3 : 2 * ((a + b) / 2) ^ n ≤ a ^ n + b ^ n := by
    obtain ⟨k, rfl⟩ := Nat.exists_eq_succ_of_ne_zero hn
    rw [div_pow]
    simp only [Nat.succ_eq_add_one, Nat.add_sub_cancel] at h2 ⊢
    rw [pow_succ 2 k]
    have h4 : (0 : ℝ) < 2 ^ k := by positivity
    have h5 : (a + b) ^ (k + 1) / (2 ^ k * 2) = (a + b) ^ (k + 1) / 2 ^ k / 2 := by
      rw [div_div]
    rw [h5]
    have : (a + b) ^ (k + 1) / 2 ^ k ≤ a ^ (k + 1) + b ^ (k + 1) := by
      rw [div_le_iff₀ h4]; linarith
    linarith
  linarith

theorem kernel_gap (p : SvmParam ℝ) (hp : SeparatingKernel p) (u v : List ℝ) (hl : u.length = v.length) (hne : u ≠ v) :
    0 < kernelFormula p u u + kernelFormula p v v - 2 * kernelFormula p u v := by
  have hd := sqDist_pos u v hl hne
  rcases hp with h | ⟨h, hg⟩ | ⟨h, hdeg, hg, hc, hodd⟩
  · simp only [kernelFormula, h]
    rw [sqDist_expand]; exact hd
  · simp only [kernelFormula, h]
    have h1 : ∀ w : List ℝ, denseSqDist w w = 0 := by intro w; simp [denseSqDist]
    rw [h1, h1]
    have : Real.exp (-p.gamma * denseSqDist u v) < 1 := by
      rw [Real.exp_lt_one_iff]
      nlinarith
    simp only [mul_zero, Real.exp_zero]
    linarith
  · simp only [kernelFormula, h]
    obtain ⟨n, hn⟩ : ∃ n : Nat, p.degree = n := ⟨p.degree.toNat, by omega⟩
    rw [hn] at hdeg hodd ⊢
    simp only [zpow_natCast]
    have e1 := sqDist_expand u v
    have e2 := dot_sum_nonneg u v hl
    have e3 := dot_self_nonneg u
    have e4 := dot_self_nonneg v
    refine pow_gap n (by omega) _ _ _ (by positivity) (by positivity) ?_ ?_
    · nlinarith [mul_pos hg hd]
    · rcases hodd with h | h
      · left; exact_mod_cast h
      · right
        nlinarith [mul_nonneg hg.le e2]

/-! ## the values the solver reports -/

theorem writeBack_ok {F : Type} (ids : List Nat) (l n : Nat) (hn : n ≤ l) (hids : ids.length = l) (hlt : ∀ i ∈ ids, i < l)
    (alpha : List F) (ha : alpha.length = l) :
    ∃ a, (List.range n).foldlM (Smo.writeBack ids) alpha = .ok a ∧ a.length = l := by
  induction n with
  | zero => exact ⟨alpha, rfl, ha⟩
  | succ n ih =>
    obtain ⟨a, e, hl⟩ := ih (by omega)
    have hi : n < ids.length := by omega
    have hk : ids[n] < l := hlt _ (List.getElem_mem hi)
    refine ⟨a.set ids[n] (a[n]'(by omega)), ?_, by rw [List.length_set, hl]⟩
    rw [List.range_succ, List.foldlM_append, e, res_bind_ok]
    simp only [List.foldlM_cons, List.foldlM_nil, Smo.writeBack]
    rw [idxR_ok_of_lt (show n < a.length by omega), res_bind_ok, idxR_ok_of_lt hi, res_bind_ok,
      idxR_ok_of_lt (show ids[n] < a.length by omega), res_bind_ok]
    rfl

/-- **C127** (the whole call): on a training set in which no vector occurs with two labels, `solve()` returns, and the
array of multipliers it fills has one entry for each instance. -/
theorem C127_solve_returns (P : SvmProblem) (hv : P.Valid) (hr : P.InRange) (hd : P.Consistent) :
    ∃ n ρ a, Smo.solve n P.size (P.vectors.map nodeList) P.labels P.linear P.param = .ok (some (ρ, a)) ∧ a.length = P.size := by
  obtain ⟨n, s, hs⟩ := C127_terminates P hv hr hd
  obtain ⟨s', stop, A, e, h, c⟩ := solverState_ok P hv hr n
  rw [e] at hs
  obtain ⟨rfl, rfl⟩ : s' = s ∧ stop = true := by
    have := Except.ok.inj hs
    simpa using this
  obtain ⟨ρ, e1, _, _⟩ := rho_separates hv hr h (c rfl).1 (c rfl).2
  obtain ⟨a, e2, ha⟩ := writeBack_ok s'.activeSet s'.l s'.l (le_refl _) (by rw [h.idlen, h.l])
    (fun i hi => by rw [h.l]; exact h.ids.lt i hi) s'.alpha (by rw [h.alpha, List.length_map, h.idlen, h.l])
  have e3 : ({ s' with alpha := a } : Smo ℝ).calculateRho = .ok ρ := e1
  refine ⟨n, ρ, a, ?_, by rw [ha, h.l]⟩
  unfold solverState at e
  unfold Smo.solve
  cases e0 : Smo.start P.size (P.vectors.map nodeList) P.labels P.linear P.param with
  | error er => rw [e0] at e; cases e
  | ok s0 =>
    rw [e0, res_bind_ok] at e
    rw [res_bind_ok, e, res_bind_ok]
    simp only [if_true]
    unfold Smo.finish
    rw [e2, res_bind_ok, e3, res_bind_ok]; rfl

/-! ## training -/

theorem twoClass_consistent (p : SvmParam ℝ) (l : IList ℝ) (vec : Inst ℝ → List ℝ) (d : Nat) (hk : SeparatingKernel p)
    (hlen : ∀ x ∈ l, (vec x).length = d) (hcon : ∀ x ∈ l, ∀ y ∈ l, vec x = vec y → x.label = y.label)
    (a b : String) (hab : a ≠ b) : (twoClass p l vec a b).Consistent := by
  have hsize := twoClass_size p l vec a b
  have key : ∀ i, i < (twoClass p l vec a b).size → ∃ x ∈ l, (twoClass p l vec a b).vectors.getD i [] = vec x ∧
      ((x.label = a ∧ (twoClass p l vec a b).y i = 1) ∨ (x.label = b ∧ (twoClass p l vec a b).y i = -1)) := by
    intro i hi
    rw [hsize] at hi
    rcases Nat.lt_or_ge i (classVectors l vec a).length with h | h
    · have e : (twoClass p l vec a b).vectors.getD i [] = (classVectors l vec a)[i] := by
        simp [twoClass, List.getElem?_append_left h, h]
      have hm := List.getElem_mem h
      obtain ⟨x, hx, hxe⟩ := List.mem_map.mp (show (classVectors l vec a)[i] ∈
        (l.filter (fun x => x.label == a)).map vec from hm)
      rw [List.mem_filter] at hx
      exact ⟨x, hx.1, by rw [e, hxe], Or.inl ⟨by simpa using hx.2, twoClass_y_left p l vec a b i h⟩⟩
    · obtain ⟨k, rfl⟩ : ∃ k, i = (classVectors l vec a).length + k := ⟨i - (classVectors l vec a).length, by omega⟩
      have h' : k < (classVectors l vec b).length := by omega
      have e : (twoClass p l vec a b).vectors.getD ((classVectors l vec a).length + k) [] = (classVectors l vec b)[k] := by
        simp [twoClass, h']
      have hm := List.getElem_mem h'
      obtain ⟨x, hx, hxe⟩ := List.mem_map.mp (show (classVectors l vec b)[k] ∈
        (l.filter (fun x => x.label == b)).map vec from hm)
      rw [List.mem_filter] at hx
      exact ⟨x, hx.1, by rw [e, hxe], Or.inr ⟨by simpa using hx.2, twoClass_y_right p l vec a b k h'⟩⟩
  intro i j hi hj
  obtain ⟨x, hx, ex, hyx⟩ := key i hi
  obtain ⟨z, hz, ez, hyz⟩ := key j hj
  by_cases heq : vec x = vec z
  · right
    have hlab := hcon x hx z hz heq
    refine ⟨by rw [ex, ez, heq], ?_, by rw [twoClass_b p l vec a b i hi, twoClass_b p l vec a b j hj]⟩
    rcases hyx with ⟨h1, h2⟩ | ⟨h1, h2⟩ <;> rcases hyz with ⟨h3, h4⟩ | ⟨h3, h4⟩
    · rw [h2, h4]
    · exact absurd (h1.symm.trans (hlab.trans h3)) hab
    · exact absurd (h3.symm.trans (hlab.symm.trans h1)) hab
    · rw [h2, h4]
  · left
    unfold SvmProblem.gap SvmProblem.kernel
    rw [ex, ez]
    exact kernel_gap p hk _ _ (by rw [hlen x hx, hlen z hz]) heq

/-- **C129**: train with the library's own solver, a kernel that tells vectors apart, on instances with equally many values,
no two of which have the same values and different classes. Training returns (all limits `N` on the number
of rounds beyond some `N₀` are never reached and make no difference), every prediction afterwards returns one of the class
labels of the training data, the one with the most votes of the two-class machines with weights `w` and
thresholds `ρ`. -/
theorem C129_training_returns (old : Svm ℝ) (l : IList ℝ) (p : SvmParam ℝ) (vec : Inst ℝ → List ℝ) (d : Nat)
    (ps : List (Nat × Nat))
    (fresh : old.rho = [] ∧ old.svCounts = [] ∧ old.supportVectors = []) (hC : 0 < p.C) (hk : SeparatingKernel p)
    (hne : ∀ x, l[0]? = some x → discreteCheck x = true) (hl : l ≠ [])
    (hn : ∀ x ∈ l, x.continuousAttributes = .ok (vec x))
    (hr : ∀ a b, a < b → a ∈ l.map Inst.label → b ∈ l.map Inst.label → (twoClass p l vec a b).InRange)
    (hlen : ∀ x ∈ l, (vec x).length = d) (hcon : ∀ x ∈ l, ∀ y ∈ l, vec x = vec y → x.label = y.label)
    (hps : IsPairs l.classDistribution.size ps) :
    ∃ (N₀ : Nat) (w : String → String → List ℝ) (ρ : String → String → ℝ), ∀ N, N₀ ≤ N →
      ∃ m, Svm.train (Svm.boundedSolver N p) old l p = .ok (m, l.sortByClass) ∧
        ∀ x q, x.continuousAttributes = .ok q → ∃ (values : List ℝ) (b : Nat) (label : String),
          m.predict x = .ok label ∧ label ∈ l.map Inst.label ∧
          values = ps.map (fun e =>
            let a := l.classDistribution.getItems.getD e.1 ""
            let b := l.classDistribution.getItems.getD e.2 ""
            decisionValue p q (classVectors l vec a ++ classVectors l vec b) (w a b) (ρ a b)) ∧
          l.classDistribution.getItems[b]? = some label ∧
          ∀ c, c < l.classDistribution.size → votesFor ps values c ≤ votesFor ps values b ∧
            (c < b → votesFor ps values c < votesFor ps values b) := by
  have hch : ∀ a b, ∃ (k : Nat) (o : ℝ × List ℝ), a < b → a ∈ l.map Inst.label → b ∈ l.map Inst.label →
      Smo.solve k (twoClass p l vec a b).size ((twoClass p l vec a b).vectors.map nodeList)
          (twoClass p l vec a b).labels (twoClass p l vec a b).linear p = .ok (some o) ∧
        o.2.length = (twoClass p l vec a b).size := by
    intro a b
    by_cases h : a < b ∧ a ∈ l.map Inst.label ∧ b ∈ l.map Inst.label
    · obtain ⟨k, ρ, α, e, hα⟩ := C127_solve_returns _ (twoClass_valid p l vec a b hC) (hr a b h.1 h.2.1 h.2.2)
        (twoClass_consistent p l vec d hk hlen hcon a b (fun e => lt_irrefl _ (e ▸ h.1)))
      exact ⟨k, (ρ, α), fun _ _ _ => ⟨e, hα⟩⟩
    · exact ⟨0, (0, []), fun h1 h2 h3 => absurd ⟨h1, h2, h3⟩ h⟩
  choose K O hO using hch
  have hbound : ∃ N₀, ∀ a ∈ l.map Inst.label, ∀ b ∈ l.map Inst.label, K a b ≤ N₀ := by
    refine ⟨((l.map Inst.label).map (fun a => ((l.map Inst.label).map (K a)).sum)).sum, ?_⟩
    intro a ha b hb
    calc K a b ≤ ((l.map Inst.label).map (K a)).sum :=
          List.single_le_sum (by simp) _ (List.mem_map.mpr ⟨b, hb, rfl⟩)
      _ ≤ _ := List.single_le_sum (by simp) _ (List.mem_map.mpr ⟨a, ha, rfl⟩)
  obtain ⟨N₀, hN₀⟩ := hbound
  refine ⟨N₀, fun a b => (List.range (twoClass p l vec a b).size).map
      (fun i => (O a b).2.getD i 0 * (twoClass p l vec a b).y i), fun a b => (O a b).1, ?_⟩
  intro N hN
  obtain ⟨m, em, hm⟩ := C125_decision_values (Svm.boundedSolver N p) old l p vec
    (fun a b => ((O a b).1, (List.range (twoClass p l vec a b).size).map
      (fun i => (O a b).2.getD i 0 * (twoClass p l vec a b).y i))) ps fresh hne hl hn
    (fun a b h1 h2 h3 => by
      obtain ⟨e, hα⟩ := hO a b h1 h2 h3
      exact solveSingle_bounded p l vec a b hC N (K a b) (le_trans (hN₀ a h2 b h3) hN) _ _ hα e)
    hps
  refine ⟨m, em, ?_⟩
  intro x q hq
  obtain ⟨values, hv, hval, b, label, hp, hbl, hmax⟩ := hm x q hq
  have hd := C10_class_distribution l
  exact ⟨values, b, label, hp, (hd.mem_items label).mp (List.mem_of_getElem? hbl), hval, hbl, hmax⟩

/-! ## the hypotheses are met -/

/-- two points of different classes: no vector with two labels -/
theorem pairProblem_consistent : pairProblem.Consistent := by
  intro i j hi hj
  have h1 : i = 0 ∨ i = 1 := by have : i < 2 := hi; omega
  have h2 : j = 0 ∨ j = 1 := by have : j < 2 := hj; omega
  rcases h1 with rfl | rfl <;> rcases h2 with rfl | rfl
  · right; exact ⟨rfl, rfl, rfl⟩
  · left
    simp [SvmProblem.gap, SvmProblem.kernel, pairProblem, kernelFormula, denseDot]; norm_num
  · left
    simp [SvmProblem.gap, SvmProblem.kernel, pairProblem, kernelFormula, denseDot]; norm_num
  · right; exact ⟨rfl, rfl, rfl⟩

/-- the hypotheses of `C127_terminates`, `C127_solve_returns` and `C128_near_minimum` -/
example : ∃ n s, solverState pairProblem n = .ok (s, true) :=
  C127_terminates pairProblem pairProblem_valid.1 pairProblem_inRange pairProblem_consistent

example : ∃ n s A, solverState pairProblem n = .ok (s, true) ∧ s.alpha = s.activeSet.map A ∧
    pairProblem.MinimalUpTo (1/1000 * (2 * pairProblem.size)) A := by
  obtain ⟨n, s, hs⟩ := C127_terminates pairProblem pairProblem_valid.1 pairProblem_inRange pairProblem_consistent
  obtain ⟨A, h1, _, _, h4⟩ := C128_near_minimum pairProblem pairProblem_valid.1 pairProblem_inRange (Or.inl rfl) n s hs
  exact ⟨n, s, A, hs, h1, h4⟩

/-- the hypothesis of `C127_progress`: the first round on these points does not end the loop -/
example : ∃ s', solverState pairProblem (0 + 1) = .ok (s', false) := by
  refine ⟨pairMid, ?_⟩
  unfold solverState
  have e : Smo.start pairProblem.size (pairProblem.vectors.map nodeList) pairProblem.labels pairProblem.linear
      pairProblem.param = .ok pairStart := pair_start
  rw [e, res_bind_ok]
  simp only [Smo.run]
  rw [pair_round1, res_bind_ok]; rfl

/-- a polynomial kernel that tells vectors apart: degree 2 with constant 1 -/
example : SeparatingKernel ⟨.polynom, 2, 1, 1, 1, true⟩ :=
  Or.inr (Or.inr ⟨rfl, by norm_num, by norm_num, by norm_num, Or.inr (by norm_num)⟩)

/-- degree 2 without a constant does not: the vectors 1 and -1 have distance 0 -/
example : kernelFormula (⟨.polynom, 2, 1, 0, 1, true⟩ : SvmParam ℝ) [1] [1] +
    kernelFormula (⟨.polynom, 2, 1, 0, 1, true⟩ : SvmParam ℝ) [-1] [-1] -
    2 * kernelFormula (⟨.polynom, 2, 1, 0, 1, true⟩ : SvmParam ℝ) [1] [-1] = 0 := by
  simp [kernelFormula, denseDot]; norm_num

/-- the hypotheses of `C129_training_returns` are met by `pairList` -/
example : ∃ N₀, ∀ N, N₀ ≤ N → ∃ m,
    Svm.train (Svm.boundedSolver N pairParam) (emptySvm ℝ) pairList pairParam = .ok (m, pairList.sortByClass) := by
  obtain ⟨N₀, w, ρ, h⟩ := C129_training_returns (emptySvm ℝ) pairList pairParam pairVec 1
    (classPairs pairList.classDistribution.size) ⟨rfl, rfl, rfl⟩ (by norm_num [pairParam]) (Or.inl rfl)
    (by intro x hx; cases hx; rfl) (by simp [pairList])
    (by
      intro x hx
      simp only [pairList, List.mem_cons, List.not_mem_nil, or_false] at hx
      rcases hx with rfl | rfl
      · simp [pairVec]; rfl
      · simp [pairVec]; rfl)
    (by intro a b h1 h2 h3; rw [pair_twoClass a b h1 h2 h3]; exact pairProblem_inRange)
    (by
      intro x hx
      simp only [pairVec]; split <;> rfl)
    (by
      intro x hx y hy
      simp only [pairList, List.mem_cons, List.not_mem_nil, or_false] at hx hy
      rcases hx with rfl | rfl <;> rcases hy with rfl | rfl <;> simp [pairVec] <;> norm_num)
    (classPairs_isPairs _)
  refine ⟨N₀, fun N hN => ?_⟩
  obtain ⟨m, e, _⟩ := h N hN
  exact ⟨m, e⟩

end Verif
