import Verif.Props.SolverStop
import Verif.Props.SolverEnd
import Mathlib.Analysis.SpecialFunctions.Exponential

/-! # C128: the solver ends near the minimum of its objective -/

set_option linter.unusedSectionVars false
set_option linter.unusedVariables false

namespace Verif
open Dbl

/-! ## kernels with a feature space -/

/-- the quadratic form of `K` on the first `n` indices is never negative -/
def NonnegForm (n : Nat) (K : Nat → Nat → ℝ) : Prop :=
  ∀ D : Nat → ℝ, 0 ≤ ∑ i ∈ Finset.range n, ∑ j ∈ Finset.range n, D i * D j * K i j

theorem NonnegForm.one (n : Nat) : NonnegForm n (fun _ _ => 1) := by
  intro D
  have : ∑ i ∈ Finset.range n, ∑ j ∈ Finset.range n, D i * D j * 1 = (∑ i ∈ Finset.range n, D i) ^ 2 := by
    rw [sq, Finset.sum_mul_sum]
    simp
  rw [this]; exact sq_nonneg _

theorem NonnegForm.scale {n : Nat} {K : Nat → Nat → ℝ} (h : NonnegForm n K) (f : Nat → ℝ) :
    NonnegForm n (fun i j => f i * f j * K i j) := by
  intro D
  have := h (fun i => D i * f i)
  refine le_trans this (le_of_eq ?_)
  apply Finset.sum_congr rfl; intro i _
  apply Finset.sum_congr rfl; intro j _
  ring

theorem NonnegForm.add {n : Nat} {K L : Nat → Nat → ℝ} (h : NonnegForm n K) (h' : NonnegForm n L) :
    NonnegForm n (fun i j => K i j + L i j) := by
  intro D
  have h1 := h D
  have h2 := h' D
  have : ∑ i ∈ Finset.range n, ∑ j ∈ Finset.range n, D i * D j * (K i j + L i j) =
      ∑ i ∈ Finset.range n, ∑ j ∈ Finset.range n, D i * D j * K i j +
      ∑ i ∈ Finset.range n, ∑ j ∈ Finset.range n, D i * D j * L i j := by
    simp only [← Finset.sum_add_distrib]
    apply Finset.sum_congr rfl; intro i _
    apply Finset.sum_congr rfl; intro j _
    ring
  rw [this]; linarith

theorem NonnegForm.mulConst {n : Nat} {K : Nat → Nat → ℝ} (h : NonnegForm n K) {c : ℝ} (hc : 0 ≤ c) :
    NonnegForm n (fun i j => c * K i j) := by
  intro D
  have h1 := h D
  have : ∑ i ∈ Finset.range n, ∑ j ∈ Finset.range n, D i * D j * (c * K i j) =
      c * ∑ i ∈ Finset.range n, ∑ j ∈ Finset.range n, D i * D j * K i j := by
    rw [Finset.mul_sum]
    apply Finset.sum_congr rfl; intro i _
    rw [Finset.mul_sum]
    apply Finset.sum_congr rfl; intro j _
    ring
  rw [this]; exact mul_nonneg hc h1

theorem NonnegForm.sum {n : Nat} (m : Nat) {K : Nat → Nat → Nat → ℝ} (h : ∀ d, NonnegForm n (K d)) :
    NonnegForm n (fun i j => ∑ d ∈ Finset.range m, K d i j) := by
  induction m with
  | zero => intro D; simp
  | succ m ih =>
    have := ih.add (h m)
    intro D
    refine le_trans (this D) (le_of_eq ?_)
    apply Finset.sum_congr rfl; intro i _
    apply Finset.sum_congr rfl; intro j _
    simp only [Finset.sum_range_succ]

theorem NonnegForm.congr {n : Nat} {K L : Nat → Nat → ℝ} (h : NonnegForm n K)
    (e : ∀ i j, i < n → j < n → K i j = L i j) : NonnegForm n L := by
  intro D
  refine le_trans (h D) (le_of_eq ?_)
  apply Finset.sum_congr rfl; intro i hi
  apply Finset.sum_congr rfl; intro j hj
  rw [e i j (Finset.mem_range.mp hi) (Finset.mem_range.mp hj)]

section kernels
variable (vs : List (List ℝ))

/-- dot product of two of the vectors -/
noncomputable def dotAt (i j : Nat) : ℝ := denseDot (vs.getD i []) (vs.getD j [])

theorem dims (i : Nat) : (vs.getD i []).length ≤ (vs.map List.length).sum := by
  by_cases h : i < vs.length
  · have : vs.getD i [] = vs[i] := by simp [h]
    rw [this]
    exact List.single_le_sum (by simp) _ (List.mem_map.mpr ⟨_, List.getElem_mem h, rfl⟩)
  · have : vs.getD i [] = [] := by simp [Nat.le_of_not_lt h]
    rw [this]; simp

theorem dotAt_eq (i j : Nat) :
    dotAt vs i j = ∑ d ∈ Finset.range (vs.map List.length).sum, (vs.getD i []).getD d 0 * (vs.getD j []).getD d 0 :=
  sum_getD_le _ _ _ (max_le (dims vs i) (dims vs j))

theorem NonnegForm.dot {n : Nat} {K : Nat → Nat → ℝ} (h : NonnegForm n K) :
    NonnegForm n (fun i j => dotAt vs i j * K i j) := by
  have := NonnegForm.sum (vs.map List.length).sum
    (K := fun d i j => (vs.getD i []).getD d 0 * (vs.getD j []).getD d 0 * K i j)
    (fun d => h.scale (fun i => (vs.getD i []).getD d 0))
  refine this.congr ?_
  intro i j _ _
  rw [dotAt_eq, Finset.sum_mul]

theorem NonnegForm.poly (n : Nat) (c0 g : ℝ) (h0 : 0 ≤ c0) (hg : 0 ≤ g) (m : Nat) :
    NonnegForm n (fun i j => (g * dotAt vs i j + c0) ^ m) := by
  induction m with
  | zero => exact (NonnegForm.one n).congr (fun i j _ _ => by rw [pow_zero])
  | succ m ih =>
    have h1 := (NonnegForm.dot vs ih).mulConst hg
    have h2 := ih.mulConst h0
    refine (h1.add h2).congr ?_
    intro i j _ _
    rw [pow_succ]; ring

theorem NonnegForm.exp (n : Nat) (g : ℝ) (hg : 0 ≤ g) : NonnegForm n (fun i j => Real.exp (g * dotAt vs i j)) := by
  intro D
  have hs : ∀ x : ℝ, HasSum (fun k : Nat => x ^ k / (k.factorial : ℝ)) (Real.exp x) := by
    intro x
    have := NormedSpace.expSeries_div_hasSum_exp x
    rwa [← Real.exp_eq_exp_ℝ] at this
  have ht : Filter.Tendsto (fun m => ∑ i ∈ Finset.range n, ∑ j ∈ Finset.range n,
      D i * D j * ∑ k ∈ Finset.range m, (g * dotAt vs i j) ^ k / (k.factorial : ℝ)) Filter.atTop
      (nhds (∑ i ∈ Finset.range n, ∑ j ∈ Finset.range n, D i * D j * Real.exp (g * dotAt vs i j))) := by
    apply tendsto_finsetSum; intro i _
    apply tendsto_finsetSum; intro j _
    exact ((hs _).tendsto_sum_nat).const_mul _
  refine ge_of_tendsto' ht ?_
  intro m
  have := NonnegForm.sum (n := n) m (K := fun k i j => (1 / (k.factorial : ℝ)) * (g * dotAt vs i j + 0) ^ k)
    (fun k => (NonnegForm.poly vs n 0 g (le_refl _) hg k).mulConst (by positivity))
  refine le_trans (this D) (le_of_eq ?_)
  apply Finset.sum_congr rfl; intro i _
  apply Finset.sum_congr rfl; intro j _
  congr 1
  apply Finset.sum_congr rfl; intro k _
  rw [add_zero]; ring

/-- the kernels with a feature space have quadratic forms that are never negative -/
theorem NonnegForm.kernel (p : SvmParam ℝ) (hp : FeatureKernel p) (n : Nat) :
    NonnegForm n (fun i j => kernelFormula p (vs.getD i []) (vs.getD j [])) := by
  rcases hp with h | ⟨h, hd, hg, h0⟩ | ⟨h, hg⟩
  · refine (NonnegForm.dot vs (NonnegForm.one n)).congr ?_
    intro i j _ _
    simp [kernelFormula, h, dotAt]
  · obtain ⟨m, hm⟩ := Int.eq_ofNat_of_zero_le hd
    refine (NonnegForm.poly vs n p.coefficient0 p.gamma h0 hg m).congr ?_
    intro i j _ _
    simp [kernelFormula, h, hm, dotAt]
  · refine ((NonnegForm.exp vs n (2 * p.gamma) (by linarith)).scale
      (fun i => Real.exp (-p.gamma * dotAt vs i i))).congr ?_
    intro i j _ _
    have : kernelFormula p (vs.getD i []) (vs.getD j []) = Real.exp (-p.gamma * denseSqDist (vs.getD i []) (vs.getD j [])) := by
      simp [kernelFormula, h]
    rw [this, ← sqDist_expand, ← Real.exp_add, ← Real.exp_add]
    congr 1
    unfold dotAt; ring

end kernels

section minimum
variable {P : SvmProblem} {A B : Nat → ℝ}

/-- a point that satisfies the optimality conditions up to `ε` has an objective within `ε C n` of the minimum -/
theorem near_minimum (hv : P.Valid) (hk : FeatureKernel P.param) (ε : ℝ) (hε : 0 ≤ ε) (hA : P.Feasible A)
    (ho : P.NearlyOptimal ε A) : P.MinimalUpTo (ε * (P.param.C * P.size)) A := by
  intro B hB
  obtain ⟨δ, hδ⟩ : ∃ δ : Nat → ℝ, δ = fun k => P.y k * (B k - A k) := ⟨_, rfl⟩
  obtain ⟨w, hw⟩ : ∃ w : Nat → ℝ, w = fun k => P.y k * P.gradient A k := ⟨_, rfl⟩
  have e : B = fun k => A k + (B k - A k) := by funext k; ring
  have hform : 0 ≤ ∑ i ∈ Finset.range P.size, ∑ j ∈ Finset.range P.size, (B i - A i) * (B j - A j) * P.q i j := by
    have := (NonnegForm.kernel P.vectors P.param hk P.size).scale P.y
    exact this (fun k => B k - A k)
  have hobj := objective_add (P := P) A (fun k => B k - A k)
  rw [← e] at hobj
  have hlin : ∑ i ∈ Finset.range P.size, (B i - A i) * P.gradient A i = ∑ i ∈ Finset.range P.size, w i * δ i := by
    apply Finset.sum_congr rfl
    intro i hi
    have := y_sq hv (Finset.mem_range.mp hi)
    rw [hw, hδ]
    calc (B i - A i) * P.gradient A i = (P.y i * P.y i) * ((B i - A i) * P.gradient A i) := by rw [this, one_mul]
      _ = _ := by ring
  have hbal : ∑ i ∈ Finset.range P.size, δ i = 0 := by
    have h1 := hA.balance
    have h2 := hB.balance
    have : ∑ i ∈ Finset.range P.size, δ i = ∑ i ∈ Finset.range P.size, P.y i * B i - ∑ i ∈ Finset.range P.size, P.y i * A i := by
      rw [← Finset.sum_sub_distrib]
      apply Finset.sum_congr rfl; intro i _; rw [hδ]; ring
    rw [this, h1, h2, sub_zero]
  have hrise : ∀ k, k < P.size → 0 < δ k → P.CanRise A k := by
    intro k hk h
    rw [hδ] at h
    rcases hv.sign k hk with hy | hy
    · left
      refine ⟨hy, ?_⟩
      simp only [hy] at h
      linarith [hB.upper k hk]
    · right
      refine ⟨hy, ?_⟩
      simp only [hy] at h
      linarith [hB.lower k hk]
  have hfall : ∀ k, k < P.size → δ k < 0 → P.CanFall A k := by
    intro k hk h
    rw [hδ] at h
    rcases hv.sign k hk with hy | hy
    · left
      refine ⟨hy, ?_⟩
      simp only [hy] at h
      linarith [hB.lower k hk]
    · right
      refine ⟨hy, ?_⟩
      simp only [hy] at h
      linarith [hB.upper k hk]
  have hsize : ∀ k, k < P.size → |δ k| ≤ P.param.C := by
    intro k hk
    have : |δ k| = |B k - A k| := by
      rw [hδ]
      simp only
      rw [abs_mul]
      rcases hv.sign k hk with hy | hy <;> rw [hy] <;> simp
    rw [this, abs_le]
    constructor <;> linarith [hA.lower k hk, hA.upper k hk, hB.lower k hk, hB.upper k hk]
  -- a value between those that rise and those that fall
  obtain ⟨m, hm1, hm2⟩ : ∃ m, (∀ k, k < P.size → 0 < δ k → m ≤ w k) ∧ (∀ k, k < P.size → δ k < 0 → w k ≤ m + ε) := by
    by_cases hne : ((Finset.range P.size).filter (fun k => 0 < δ k)).Nonempty
    · obtain ⟨k0, hk0, hmin⟩ := Finset.exists_min_image _ w hne
      rw [Finset.mem_filter, Finset.mem_range] at hk0
      refine ⟨w k0, ?_, ?_⟩
      · intro k hk h
        exact hmin k (Finset.mem_filter.mpr ⟨Finset.mem_range.mpr hk, h⟩)
      · intro k hk h
        have := ho k0 k hk0.1 hk (hrise k0 hk0.1 hk0.2) (hfall k hk h)
        rw [hw]
        simp only
        linarith
    · have hnone : ∀ k, k < P.size → ¬ 0 < δ k := by
        intro k hk h
        exact hne ⟨k, Finset.mem_filter.mpr ⟨Finset.mem_range.mpr hk, h⟩⟩
      have hzero : ∀ k ∈ Finset.range P.size, δ k = 0 := by
        have h1 : ∀ k ∈ Finset.range P.size, 0 ≤ -δ k := fun k hk => by
          have := hnone k (Finset.mem_range.mp hk); linarith
        have h2 : ∑ k ∈ Finset.range P.size, -δ k = 0 := by rw [Finset.sum_neg_distrib, hbal, neg_zero]
        intro k hk
        have := (Finset.sum_eq_zero_iff_of_nonneg h1).mp h2 k hk
        linarith
      refine ⟨0, fun k hk h => absurd h (hnone k hk), fun k hk h => ?_⟩
      rw [hzero k (Finset.mem_range.mpr hk)] at h
      exact absurd h (lt_irrefl _)
  have hterm : ∀ k ∈ Finset.range P.size, m * δ k - ε * P.param.C ≤ w k * δ k := by
    intro k hk
    have hk' := Finset.mem_range.mp hk
    have hs := hsize k hk'
    have hC := hv.C_pos
    rcases lt_trichotomy (δ k) 0 with h | h | h
    · have h1 := hm2 k hk' h
      have h2 : -P.param.C ≤ δ k := (abs_le.mp hs).1
      nlinarith
    · rw [h]; nlinarith
    · have h1 := hm1 k hk' h
      nlinarith
  have hsum := Finset.sum_le_sum hterm
  rw [Finset.sum_sub_distrib, ← Finset.mul_sum, hbal, Finset.sum_const, Finset.card_range, nsmul_eq_mul] at hsum
  rw [hobj, hlin]
  have : ε * (P.param.C * (P.size : ℝ)) = (P.size : ℝ) * (ε * P.param.C) := by ring
  rw [this]
  linarith

end minimum

/-- **C128**: with a linear, polynomial or RBF kernel (degree, `γ`, `coefficient0` not negative), the multipliers of the
solver when it stops are feasible and their objective is within `n C / 1000` of the minimum over all feasible
points, `n` being the number of instances. -/
theorem C128_near_minimum (P : SvmProblem) (hv : P.Valid) (hr : P.InRange) (hk : FeatureKernel P.param) (n : Nat) (s : Smo ℝ)
    (hs : solverState P n = .ok (s, true)) :
    ∃ A : Nat → ℝ, s.alpha = s.activeSet.map A ∧ s.activeSet.Perm (List.range P.size) ∧ P.Feasible A ∧
      P.MinimalUpTo (1/1000 * (P.param.C * P.size)) A := by
  obtain ⟨A, h1, h2, h3, h4⟩ := C123_optimal P hv hr n s hs
  exact ⟨A, h1, h2, h3, near_minimum hv hk _ (by norm_num) h3 h4⟩

end Verif
