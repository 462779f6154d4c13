import Verif.Spec.NeuralNetwork
import Mathlib.Algebra.BigOperators.Field
import Mathlib.Analysis.Calculus.Deriv.Add
import Mathlib.Analysis.Calculus.Deriv.Mul
import Mathlib.Analysis.Calculus.Deriv.Inv
import Mathlib.Analysis.Calculus.Deriv.Comp
import Mathlib.Analysis.SpecialFunctions.ExpDeriv
import Mathlib.Analysis.SpecialFunctions.Log.Deriv
import Mathlib.Analysis.SpecialFunctions.Trigonometric.DerivHyp

/-! # Derivatives of the log-likelihood of a network (exact arithmetic) -/

set_option linter.unusedSectionVars false

namespace Verif

/-- derivatives of the activation functions -/
noncomputable def actDeriv : Activation → ℝ → ℝ
  | .sigmoid, z => (1 - actReal .sigmoid z) * actReal .sigmoid z
  | .tanh, z => 1 - Real.tanh z * Real.tanh z
  | .relu, z => if 0 < z then 1 else 0

theorem hasDerivAt_sigmoid (z : ℝ) :
    HasDerivAt (actReal .sigmoid) (actDeriv .sigmoid z) z := by
  have h1 : HasDerivAt (fun z : ℝ => 1 + Real.exp (-z)) (-Real.exp (-z)) z := by
    have := ((hasDerivAt_neg z).exp).const_add 1
    simpa using this
  have hpos : (1 + Real.exp (-z)) ≠ 0 := by positivity
  have h2 := h1.inv hpos
  have hf : actReal .sigmoid = fun z : ℝ => (1 + Real.exp (-z))⁻¹ := by
    funext z; simp [actReal]
  rw [hf]
  refine h2.congr_deriv ?_
  simp only [actDeriv, actReal]
  field_simp
  ring

theorem hasDerivAt_tanh (z : ℝ) : HasDerivAt (actReal .tanh) (actDeriv .tanh z) z := by
  have hf : actReal .tanh = fun z : ℝ => Real.sinh z / Real.cosh z := by
    funext z; simp [actReal, Real.tanh_eq_sinh_div_cosh]
  have hc : Real.cosh z ≠ 0 := (Real.cosh_pos z).ne'
  have := (Real.hasDerivAt_sinh z).div (Real.hasDerivAt_cosh z) hc
  rw [hf]
  refine this.congr_deriv ?_
  simp only [actDeriv, Real.tanh_eq_sinh_div_cosh]
  field_simp

theorem hasDerivAt_relu (z : ℝ) (hz : z ≠ 0) : HasDerivAt (actReal .relu) (actDeriv .relu z) z := by
  rcases lt_or_gt_of_ne hz with h | h
  · have : actDeriv .relu z = 0 := if_neg (by linarith)
    rw [this]
    refine (hasDerivAt_const z (0 : ℝ)).congr_of_eventuallyEq ?_
    filter_upwards [Iio_mem_nhds h] with t ht
    exact max_eq_right (le_of_lt ht)
  · have : actDeriv .relu z = 1 := if_pos h
    rw [this]
    refine (hasDerivAt_id z).congr_of_eventuallyEq ?_
    filter_upwards [Ioi_mem_nhds h] with t ht
    exact max_eq_left (le_of_lt ht)

/-- the activation function has a derivative at `z` -/
def SmoothAt (act : Activation) (z : ℝ) : Prop := act = .relu → z ≠ 0

theorem hasDerivAt_act (act : Activation) (z : ℝ) (h : SmoothAt act z) :
    HasDerivAt (actReal act) (actDeriv act z) z := by
  cases act with
  | sigmoid => exact hasDerivAt_sigmoid z
  | tanh => exact hasDerivAt_tanh z
  | relu => exact hasDerivAt_relu z (h rfl)

/-- error of the output: 1 for the actual class, 0 for the others, minus the probability -/
noncomputable def outError (K c : Nat) (s : Nat → ℝ) (i : Nat) : ℝ :=
  (if i = c then 1 else 0) - Real.exp (s i) / ∑ k ∈ Finset.range K, Real.exp (s k)

theorem hasDerivAt_logProb (K c : Nat) (hc : c < K) (s : ℝ → Nat → ℝ) (s' : Nat → ℝ) (t : ℝ)
    (h : ∀ k < K, HasDerivAt (fun t => s t k) (s' k) t) :
    HasDerivAt (fun t => logProb K (s t) c) (∑ k ∈ Finset.range K, outError K c (s t) k * s' k) t := by
  have hS : 0 < ∑ k ∈ Finset.range K, Real.exp (s t k) :=
    Finset.sum_pos (fun k _ => Real.exp_pos _) ⟨c, Finset.mem_range.2 hc⟩
  have h1 : HasDerivAt (fun t => ∑ k ∈ Finset.range K, Real.exp (s t k))
      (∑ k ∈ Finset.range K, Real.exp (s t k) * s' k) t :=
    HasDerivAt.fun_sum (fun k hk => (h k (Finset.mem_range.1 hk)).exp)
  have h2 := (h c hc).sub (h1.log hS.ne')
  unfold logProb
  refine h2.congr_deriv ?_
  unfold outError
  simp only [sub_mul, Finset.sum_sub_distrib, ite_mul, one_mul, zero_mul]
  rw [Finset.sum_ite_eq' (Finset.range K) c, if_pos (Finset.mem_range.2 hc), Finset.sum_div]
  congr 1
  exact Finset.sum_congr rfl (fun k _ => by ring)

/-! ## many layers -/

/-- log-probability as a function of the weighted sums `z` of one layer, `ws` being the layers
above it -/
noncomputable def lossZ (act : Activation) (K c : Nat) : List (Mat ℝ) → (Nat → ℝ) → ℝ
  | [], z => logProb K z c
  | w :: ws, z => lossZ act K c ws (score w (withBias (fun i => actReal act (z i))))

/-- its partial derivatives, layer by layer from the top -/
noncomputable def deltaZ (act : Activation) (K c : Nat) : List (Mat ℝ) → (Nat → ℝ) → Nat → ℝ
  | [], z, i => outError K c z i
  | w :: ws, z, i => (∑ a ∈ Finset.range w.rows,
      deltaZ act K c ws (score w (withBias (fun i => actReal act (z i)))) a * w.e a (i + 1)) * actDeriv act (z i)

/-- no kink is met above: the activation functions have derivatives at the `n` sums `z` and at
those of the layers above -/
def SmoothZ (act : Activation) : List (Mat ℝ) → (Nat → ℝ) → Nat → Prop
  | [], _, _ => True
  | w :: ws, z, n => (∀ i < n, SmoothAt act (z i)) ∧
      SmoothZ act ws (score w (withBias (fun i => actReal act (z i)))) w.rows

theorem hasDerivAt_score (w : Mat ℝ) (u : ℝ → Nat → ℝ) (u' : Nat → ℝ) (t : ℝ)
    (h : ∀ j < w.cols, HasDerivAt (fun t => u t j) (u' j) t) (i : Nat) :
    HasDerivAt (fun t => score w (u t) i) (∑ j ∈ Finset.range w.cols, w.e i j * u' j) t := by
  unfold score
  exact HasDerivAt.fun_sum (fun j hj => (h j (Finset.mem_range.1 hj)).const_mul _)

theorem hasDerivAt_lossZ (act : Activation) (K c : Nat) (hc : c < K) (ws : List (Mat ℝ)) :
    ∀ (n : Nat) (z : ℝ → Nat → ℝ) (z' : Nat → ℝ) (t : ℝ), Fits ws (n + 1) K → SmoothZ act ws (z t) n →
      (∀ i < n, HasDerivAt (fun t => z t i) (z' i) t) →
      HasDerivAt (fun t => lossZ act K c ws (z t)) (∑ i ∈ Finset.range n, deltaZ act K c ws (z t) i * z' i) t := by
  induction ws with
  | nil =>
    intro n z z' t hfit _ h
    have hn : n = K := by simpa [Fits] using hfit
    subst hn
    exact hasDerivAt_logProb n c hc z z' t h
  | cons w ws ih =>
    intro n z z' t hfit hsm h
    obtain ⟨hcols, hfit⟩ := hfit
    obtain ⟨hs1, hs2⟩ := hsm
    have hu : ∀ j < w.cols, HasDerivAt (fun t => withBias (fun i => actReal act (z t i)) j)
        (match j with | 0 => 0 | j + 1 => actDeriv act (z t j) * z' j) t := by
      intro j hj
      cases j with
      | zero => exact hasDerivAt_const t (1 : ℝ)
      | succ j => exact (hasDerivAt_act act (z t j) (hs1 j (by omega))).comp t (h j (by omega))
    have hz2 := fun i => hasDerivAt_score w _ _ t hu i
    have := ih w.rows (fun t => score w (withBias (fun i => actReal act (z t i)))) _ t hfit hs2 (fun i _ => hz2 i)
    simp only [lossZ, deltaZ]
    refine this.congr_deriv ?_
    simp only [hcols, Finset.sum_range_succ', mul_zero, add_zero]
    simp only [Finset.sum_mul, Finset.mul_sum]
    rw [Finset.sum_comm]
    exact Finset.sum_congr rfl (fun a _ => Finset.sum_congr rfl (fun i _ => by ring))

/-- inputs of the layer above the layers `ws` -/
noncomputable def inputAbove (act : Activation) : List (Mat ℝ) → (Nat → ℝ) → Nat → ℝ
  | [], u => u
  | w :: ws, u => inputAbove act ws (withBias (fun i => actReal act (score w u i)))

theorem netScores_append (act : Activation) (pre : List (Mat ℝ)) (w : Mat ℝ) (post : List (Mat ℝ)) :
    ∀ u, netScores act (pre ++ w :: post) u = netScores act (w :: post) (inputAbove act pre u) := by
  induction pre with
  | nil => intro u; rfl
  | cons a pre ih =>
    intro u
    rw [List.cons_append]
    have : netScores act (a :: (pre ++ w :: post)) u =
        netScores act (pre ++ w :: post) (withBias (fun i => actReal act (score a u i))) := by
      cases h : pre ++ w :: post with
      | nil => simp at h
      | cons _ _ => rfl
    rw [this, ih]
    rfl

theorem logProb_netScores (act : Activation) (K c : Nat) (post : List (Mat ℝ)) : ∀ (w : Mat ℝ) (u : Nat → ℝ),
    logProb K (netScores act (w :: post) u) c = lossZ act K c post (score w u) := by
  induction post with
  | nil => intro w u; rfl
  | cons w2 post ih =>
    intro w u
    have : netScores act (w :: w2 :: post) u =
        netScores act (w2 :: post) (withBias (fun i => actReal act (score w u i))) := rfl
    rw [this, ih]
    rfl

theorem score_setEntry (w : Mat ℝ) (u : Nat → ℝ) (i j : Nat) (hj : j < w.cols) (t : ℝ) (a : Nat) :
    score (setEntry w i j t) u a = score w u a + (if a = i then (t - w.e i j) * u j else 0) := by
  unfold score
  by_cases h : a = i
  · subst h
    rw [if_pos rfl]
    have : ∀ b ∈ Finset.range w.cols, (setEntry w a j t).e a b * u b =
        w.e a b * u b + (if b = j then (t - w.e a j) * u j else 0) := by
      intro b _
      by_cases hb : b = j
      · subst hb; simp [setEntry]; ring
      · simp [setEntry, hb]
    have hcols : (setEntry w a j t).cols = w.cols := rfl
    rw [hcols, Finset.sum_congr rfl this, Finset.sum_add_distrib,
      Finset.sum_ite_eq' (Finset.range w.cols) j, if_pos (Finset.mem_range.2 hj)]
  · rw [if_neg h, add_zero]
    refine Finset.sum_congr rfl (fun b _ => ?_)
    simp [setEntry, h]

/-- derivative with respect to one weight -/
theorem hasDerivAt_weight (act : Activation) (K c : Nat) (hc : c < K) (pre : List (Mat ℝ)) (w : Mat ℝ)
    (post : List (Mat ℝ)) (u : Nat → ℝ) (hfit : Fits post (w.rows + 1) K)
    (hsm : SmoothZ act post (score w (inputAbove act pre u)) w.rows) (i j : Nat) (hi : i < w.rows) (hj : j < w.cols) :
    HasDerivAt (fun t => logProb K (netScores act (pre ++ setEntry w i j t :: post) u) c)
      (deltaZ act K c post (score w (inputAbove act pre u)) i * inputAbove act pre u j) (w.e i j) := by
  have hfun : (fun t => logProb K (netScores act (pre ++ setEntry w i j t :: post) u) c) =
      fun t => lossZ act K c post (score (setEntry w i j t) (inputAbove act pre u)) := by
    funext t
    rw [netScores_append, logProb_netScores]
  rw [hfun]
  have hself : score (setEntry w i j (w.e i j)) (inputAbove act pre u) = score w (inputAbove act pre u) := by
    funext a
    rw [score_setEntry w _ i j hj]
    simp
  have := hasDerivAt_lossZ act K c hc post w.rows
    (fun t => score (setEntry w i j t) (inputAbove act pre u))
    (fun a => if a = i then inputAbove act pre u j else 0) (w.e i j) hfit (by simp only [hself]; exact hsm) (by
      intro a _
      have he : (fun t => score (setEntry w i j t) (inputAbove act pre u) a) =
          fun t => score w (inputAbove act pre u) a + (if a = i then (t - w.e i j) * inputAbove act pre u j else 0) := by
        funext t
        exact score_setEntry w _ i j hj t a
      rw [he]
      by_cases ha : a = i
      · simp only [if_pos ha]
        have h1 := (((hasDerivAt_id (w.e i j)).sub_const (w.e i j)).mul_const (inputAbove act pre u j)).const_add
          (score w (inputAbove act pre u) a)
        simpa using h1
      · simp only [if_neg ha, add_zero]
        exact hasDerivAt_const _ _)
  refine this.congr_deriv ?_
  simp only [mul_ite, mul_zero, hself]
  rw [Finset.sum_ite_eq' (Finset.range w.rows) i, if_pos (Finset.mem_range.2 hi)]

end Verif
