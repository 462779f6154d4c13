import Verif.Props.Backprop
import Mathlib.Analysis.SpecialFunctions.Artanh

/-! # C116 for one hidden layer, where it fails for `tanh`, and C117: the autoencoder -/

namespace Verif
open Dbl
set_option linter.unusedSectionVars false

theorem mlpDerivative_eq (act : Activation) (h : List ℝ) : mlpDerivative act h = deepDerivative act h.length h := by
  cases act <;> rfl

/-- the derivative the code uses for `tanh`: of the wrong argument -/
theorem mlpDerivative_tanh (n : Nat) (z : Nat → ℝ) :
    mlpDerivative .tanh (vec n (fun i => actReal .tanh (z i))) =
      .ok (vec n (fun i => 1 - Real.tanh (Real.tanh (z i)) * Real.tanh (Real.tanh (z i)))) := by
  simp only [mlpDerivative, vec_length]
  rw [replicate_vec, vec_map, elemR_vec]
  simp only [res_bind_ok]
  rw [diffR_vec]
  simp only [one_real, tanh_real, actReal]

/-- one presentation to a network with one hidden layer, whatever the derivative `D` used by the
code -/
theorem mlpStep_ok (labels : List String) (act : Activation) (x : Inst ℝ) (u : List ℝ) (w : Two ℝ) (eta : ℝ)
    (hattr : x.attrs = u.map Attr.continuous) (hx : x.label ∈ labels)
    (hfit : Fits [w.W, w.V] (u.length + 1) labels.length) (D : Nat → ℝ)
    (hD : mlpDerivative act (vec w.W.rows (fun i => actReal act (score w.W (withBias (fun j => u.getD j 0)) i))) =
      .ok (vec w.W.rows D)) :
    ∃ w', mlpStep labels act eta w x = .ok w' ∧ w'.W.rows = w.W.rows ∧ w'.W.cols = w.W.cols ∧
      w'.V.rows = w.V.rows ∧ w'.V.cols = w.V.cols ∧
      (∀ i < w.W.rows, ∀ j < w.W.cols, w'.W.e i j = w.W.e i j + eta * ((∑ a ∈ Finset.range w.V.rows,
        outError labels.length (labels.idxOf x.label) (score w.V (withBias (fun i => actReal act
          (score w.W (withBias (fun j => u.getD j 0)) i)))) a * w.V.e a (i + 1)) * D i *
            withBias (fun j => u.getD j 0) j)) ∧
      (∀ i < w.V.rows, ∀ j < w.V.cols, w'.V.e i j = w.V.e i j + eta * (outError labels.length (labels.idxOf x.label)
        (score w.V (withBias (fun i => actReal act (score w.W (withBias (fun j => u.getD j 0)) i)))) i *
          withBias (fun i => actReal act (score w.W (withBias (fun j => u.getD j 0)) i)) j)) := by
  set inp := withBias (fun j => u.getD j 0) with hinp
  set hid := withBias (fun i => actReal act (score w.W inp i)) with hhid
  set err := outError labels.length (labels.idxOf x.label) (score w.V hid) with herr
  obtain ⟨hc, hc2, hr⟩ := hfit
  have hr' : w.V.rows = labels.length := by simpa [Fits] using hr
  obtain ⟨V', hV1, hV2, hV3, hV4⟩ := outer_vec_scale_add w.V err hid eta
  obtain ⟨W', hW1, hW2, hW3, hW4⟩ := outer_vec_scale_add w.W
    (fun i => (∑ a ∈ Finset.range w.V.rows, err a * w.V.e a (i + 1)) * D i) inp eta
  refine ⟨⟨W', V'⟩, ?_, hW2, hW3, hV2, hV3, hW4, hV4⟩
  have hdelta : mlpDeltas labels act x (vec (u.length + 1) inp) w =
      .ok (Mat.outer (vec w.W.rows (fun i => (∑ a ∈ Finset.range w.V.rows, err a * w.V.e a (i + 1)) * D i)) (vec w.W.cols inp),
        Mat.outer (vec w.V.rows err) (vec w.V.cols hid)) := by
    unfold mlpDeltas
    rw [← hc, calculateHidden_vec]
    simp only [res_bind_ok]
    rw [biased_vec, ← hhid, ← hc2, rMinusY_vec labels x w.V hid hx hr', ← herr, ← hr']
    simp only [res_bind_ok]
    rw [mulLeftR_vec, hc2, vec_succ]
    simp only [res_bind_ok, removeFirst]
    rw [hD]
    simp only [res_bind_ok]
    rw [elemR_vec]
    rfl
  unfold mlpStep
  rw [inputVector_vec x u hattr, ← hinp]
  simp only [res_bind_ok]
  rw [hdelta]
  simp only [res_bind_ok]
  unfold applyTwo addW
  rw [hV1]
  simp only [res_bind_ok]
  rw [hW1]
  rfl

/-- **C116 (partial: `tanh` is missing, see `C116_tanh_refuted`).** Presenting an instance to a
network with one hidden layer of sigmoid or rectifier nodes (none exactly at the kink) adds to
every weight of both layers `eta` times the derivative of the log-probability of the class of the
instance with respect to that weight. -/
theorem C116_multilayer_gradient_partial (labels : List String) (act : Activation) (hact : act ≠ .tanh) (x : Inst ℝ)
    (u : List ℝ) (w : Two ℝ) (eta : ℝ) (hattr : x.attrs = u.map Attr.continuous) (hx : x.label ∈ labels)
    (hfit : Fits [w.W, w.V] (u.length + 1) labels.length)
    (hk : NoKink act [w.W, w.V] (withBias (fun j => u.getD j 0))) :
    ∃ w', mlpStep labels act eta w x = .ok w' ∧ w'.W.rows = w.W.rows ∧ w'.W.cols = w.W.cols ∧
      w'.V.rows = w.V.rows ∧ w'.V.cols = w.V.cols ∧
      (∀ i < w.W.rows, ∀ j < w.W.cols, ∃ g,
        HasDerivAt (fun t => logProb labels.length
          (netScores act [setEntry w.W i j t, w.V] (withBias (fun j => u.getD j 0))) (labels.idxOf x.label)) g (w.W.e i j) ∧
        w'.W.e i j = w.W.e i j + eta * g) ∧
      (∀ i < w.V.rows, ∀ j < w.V.cols, ∃ g,
        HasDerivAt (fun t => logProb labels.length
          (netScores act [w.W, setEntry w.V i j t] (withBias (fun j => u.getD j 0))) (labels.idxOf x.label)) g (w.V.e i j) ∧
        w'.V.e i j = w.V.e i j + eta * g) := by
  obtain ⟨w', h1, h2, h3, h4, h5, h6, h7⟩ := mlpStep_ok labels act x u w eta hattr hx hfit
    (fun i => actDeriv act (score w.W (withBias (fun j => u.getD j 0)) i))
    (by rw [mlpDerivative_eq, vec_length]; exact deepDerivative_vec act hact _ _ _)
  refine ⟨w', h1, h2, h3, h4, h5, ?_, ?_⟩
  · intro i hi j hj
    exact ⟨_, hasDerivAt_weight act labels.length (labels.idxOf x.label) (List.idxOf_lt_length_iff.2 hx)
      [] w.W [w.V] (withBias (fun j => u.getD j 0)) hfit.2 ⟨hk.1, trivial⟩ i j hi hj, h6 i hi j hj⟩
  · intro i hi j hj
    exact ⟨_, hasDerivAt_weight act labels.length (labels.idxOf x.label) (List.idxOf_lt_length_iff.2 hx)
      [w.W] w.V [] (withBias (fun j => u.getD j 0)) hfit.2.2 trivial i j hi hj, h7 i hi j hj⟩

example : ∃ w', mlpStep ["a", "b"] .relu (1 / 10) (⟨⟨3, 2, fun _ _ => 1⟩, ⟨2, 4, fun i j => i - j⟩⟩ : Two ℝ)
    ⟨"b", [.continuous 3], none⟩ = .ok w' := by
  obtain ⟨w', h, _⟩ := C116_multilayer_gradient_partial ["a", "b"] .relu (by decide) ⟨"b", [.continuous 3], none⟩ [3]
    (⟨⟨3, 2, fun _ _ => 1⟩, ⟨2, 4, fun i j => i - j⟩⟩ : Two ℝ) (1 / 10) rfl (by decide) ⟨rfl, rfl, rfl⟩
    ⟨fun i _ _ => by simp [score, Finset.sum_range_succ, withBias]; norm_num, trivial⟩
  exact ⟨w', h⟩

/-- four layers -/
example : ∃ ws', deepStep ["a", "b"] .sigmoid 3 (1 / 10) ([⟨3, 2, fun _ _ => 1⟩, ⟨2, 4, fun i j => i - j⟩,
    ⟨5, 3, fun i j => i * j⟩, ⟨2, 6, fun i _ => i⟩] : List (Mat ℝ)) ⟨"b", [.continuous 3], none⟩ = .ok ws' := by
  obtain ⟨w', h, _⟩ := C116_deep_gradient_partial ["a", "b"] .sigmoid (by decide) ⟨"b", [.continuous 3], none⟩ [3]
    ([⟨3, 2, fun _ _ => 1⟩, ⟨2, 4, fun i j => i - j⟩, ⟨5, 3, fun i j => i * j⟩, ⟨2, 6, fun i _ => i⟩] : List (Mat ℝ))
    (1 / 10) rfl (by decide) ⟨rfl, rfl, rfl, rfl, rfl⟩ (by simp)
    ⟨fun _ _ h => (by cases h), fun _ _ h => (by cases h), fun _ _ h => (by cases h), trivial⟩
  exact ⟨w', h⟩

/-! ## `tanh` -/

theorem tanh_pos' (z : ℝ) (h : 0 < z) : 0 < Real.tanh z := by
  rw [Real.tanh_eq_sinh_div_cosh]
  exact div_pos (Real.sinh_pos_iff.2 h) (Real.cosh_pos z)

theorem tanh_tanh_one_ne : Real.tanh (Real.tanh 1) * Real.tanh (Real.tanh 1) ≠ Real.tanh 1 * Real.tanh 1 := by
  have hp : 0 < Real.tanh 1 := tanh_pos' _ one_pos
  have hp2 : 0 < Real.tanh (Real.tanh 1) := tanh_pos' _ hp
  intro h
  have h1 : Real.tanh (Real.tanh 1) = Real.tanh 1 := by nlinarith [mul_self_eq_mul_self_iff.1 h]
  have h2 := Real.tanh_injective h1
  have h3 := Real.tanh_lt_one 1
  linarith

/-- **C116 is refuted for `tanh`.** With one hidden `tanh` node the weight change is not `eta`
times the derivative, for any learning rate but 0: the code takes the hyperbolic tangent of the
hidden value a second time before computing `1 - h²`. -/
theorem C116_tanh_refuted (eta : ℝ) (heta : eta ≠ 0) :
    ∃ (w w' : Two ℝ), Fits [w.W, w.V] 1 2 ∧ mlpStep ["a", "b"] .tanh eta w ⟨"a", [], none⟩ = .ok w' ∧
      ¬ ∃ g, HasDerivAt (fun t => logProb 2 (netScores .tanh [setEntry w.W 0 0 t, w.V] (withBias (fun _ => 0))) 0)
        g (w.W.e 0 0) ∧ w'.W.e 0 0 = w.W.e 0 0 + eta * g := by
  let w : Two ℝ := ⟨⟨1, 1, fun _ _ => 1⟩, ⟨2, 2, fun i j => if i = 0 ∧ j = 1 then 1 else 0⟩⟩
  obtain ⟨w', h1, _, _, _, _, h6, _⟩ := mlpStep_ok ["a", "b"] .tanh ⟨"a", [], none⟩ [] w eta rfl (by decide)
    ⟨rfl, rfl, rfl⟩ _ (mlpDerivative_tanh _ _)
  refine ⟨w, w', ⟨rfl, rfl, rfl⟩, h1, ?_⟩
  rintro ⟨g, hg, he⟩
  have hu : withBias (fun _ => (0 : ℝ)) = withBias (fun j => ([] : List ℝ).getD j 0) := by
    funext j; cases j <;> simp [withBias]
  rw [hu] at hg
  have hd := hasDerivAt_weight .tanh 2 0 (by decide) [] w.W [w.V] (withBias (fun j => ([] : List ℝ).getD j 0))
    ⟨rfl, rfl⟩ ⟨fun _ _ h => (by cases h), trivial⟩ 0 0 (by simp [w]) (by simp [w])
  have hgu := hg.unique hd
  have h6' := h6 0 (by simp [w]) 0 (by simp [w])
  rw [he, hgu] at h6'
  have hidx : List.idxOf "a" ["a", "b"] = 0 := by decide
  simp only [hidx, List.length_cons, List.length_nil] at h6'
  have h7 := mul_left_cancel₀ heta (add_left_cancel h6')
  have hs : score w.W (withBias (fun j => ([] : List ℝ).getD j 0)) 0 = 1 := by
    simp [w, score, withBias]
  simp only [deltaZ, inputAbove, hs] at h7
  have hV : w.V.rows = 2 := rfl
  simp only [hV, actDeriv] at h7
  set E : ℝ := outError (0 + 1 + 1) 0 (score w.V (withBias (fun i => actReal .tanh
    (score w.W (withBias (fun j => ([] : List ℝ).getD j 0)) i)))) 0 with hE
  have hEne : E ≠ 0 := by
    rw [hE]
    unfold outError
    rw [if_pos rfl, sub_ne_zero]
    intro h
    have hsum : ∀ f : Nat → ℝ, (∑ k ∈ Finset.range (0 + 1 + 1), Real.exp (f k)) = Real.exp (f 0) + Real.exp (f 1) := by
      intro f
      simp [Finset.sum_range_succ]
    rw [hsum, eq_div_iff (by positivity)] at h
    have := Real.exp_pos (score w.V (withBias (fun i => actReal .tanh
      (score w.W (withBias (fun j => ([] : List ℝ).getD j 0)) i))) 1)
    linarith
  simp [w, withBias] at h7
  rcases h7 with h7 | h7
  · exact tanh_tanh_one_ne h7.symm
  · apply hEne
    rw [hE]
    simpa [w] using h7

/-- **C116 is refuted for deep `tanh` networks.** When the width of the last hidden layer is not
by accident the number of hidden layers, no instance changes any weight: the vector of ones is as
long as the number of layers, and the mismatch is caught and ignored. -/
theorem C116_deep_tanh_refuted (labels : List String) (x : Inst ℝ) (u : List ℝ) (ws : List (Mat ℝ)) (eta : ℝ)
    (hattr : x.attrs = u.map Attr.continuous) (hx : x.label ∈ labels)
    (hfit : Fits ws (u.length + 1) labels.length) (hlen : 2 ≤ ws.length)
    (hw : ∀ w, ws[ws.length - 2]? = some w → w.rows ≠ ws.length - 1) :
    deepStep labels .tanh (ws.length - 1) eta ws x = .ok ws := by
  set inp := withBias (fun j => u.getD j 0) with hinp
  obtain ⟨hd, hlast⟩ := fits_dims ws _ labels.length hfit
  have hrows := hlast (by omega)
  have herr : deepDeltas labels .tanh (ws.length - 1) x (vec (u.length + 1) inp) ws = .error (.throw "VectorSizeMismatch") := by
    unfold deepDeltas
    rw [forward_ok .tanh ws _ inp hd (ws.length - 1) (by omega)]
    simp only [res_bind_ok]
    rw [if_neg (by omega)]
    have htop : atR ((List.range (ws.length - 1)).map (fun k => vec (widthAt ws (u.length + 1) (k + 1)) (inpAt .tanh ws inp (k + 1))))
        (ws.length - 1 - 1) = .ok (vec (widthAt ws (u.length + 1) (ws.length - 1)) (inpAt .tanh ws inp (ws.length - 1))) := by
      rw [atR_eq_ok, List.getElem?_map, List.getElem?_range (by omega)]
      have : ws.length - 1 - 1 + 1 = ws.length - 1 := by omega
      simp only [Option.map_some, this]
    rw [htop, atR_wAt ws (ws.length - 1) (by omega)]
    simp only [res_bind_ok]
    rw [← hd (ws.length - 1) (by omega), rMinusY_vec labels x _ _ hx hrows]
    simp only [res_bind_ok]
    obtain ⟨m, hm⟩ : ∃ m, ws.length = m + 2 := ⟨ws.length - 2, by omega⟩
    have hm1 : ws.length - 1 = m + 1 := by omega
    rw [hm1, List.range_succ (n := m), List.reverse_append, List.reverse_cons, List.reverse_nil, List.nil_append,
      List.singleton_append, List.foldlM_cons]
    have hstep : ∀ s, deepBackStep .tanh ws (vec (u.length + 1) inp)
        (vec labels.length (outError labels.length (labels.idxOf x.label) (score (wAt ws (m + 1)) (inpAt .tanh ws inp (m + 1)))))
        ((List.range m ++ [m]).map (fun k => vec (wAt ws k).rows (fun i => actReal .tanh (score (wAt ws k) (inpAt .tanh ws inp k) i))))
        ((List.range m ++ [m]).map (fun k => vec (widthAt ws (u.length + 1) (k + 1)) (inpAt .tanh ws inp (k + 1)))) s m =
        .error (.throw "VectorSizeMismatch") := by
      intro s
      unfold deepBackStep
      rw [atR_wAt ws (m + 1) (by omega)]
      simp only [res_bind_ok]
      rw [if_pos hm.symm]
      have : labels.length = (wAt ws (m + 1)).rows := by rw [← hrows, hm1]
      rw [this, mulLeftR_vec, hd (m + 1) (by omega)]
      simp only [res_bind_ok, widthAt]
      rw [vec_succ]
      simp only [removeFirst, res_bind_ok]
      have hh : atR ((List.range m ++ [m]).map (fun k => vec (wAt ws k).rows
          (fun i => actReal .tanh (score (wAt ws k) (inpAt .tanh ws inp k) i)))) m =
          .ok (vec (wAt ws m).rows (fun i => actReal .tanh (score (wAt ws m) (inpAt .tanh ws inp m) i))) := by
        rw [← List.range_succ, atR_eq_ok, List.getElem?_map, List.getElem?_range (by omega)]
        rfl
      rw [hh]
      simp only [res_bind_ok]
      have hder : deepDerivative .tanh ((List.range m ++ [m]).map (fun k => vec (wAt ws k).rows
          (fun i => actReal .tanh (score (wAt ws k) (inpAt .tanh ws inp k) i)))).length
          (vec (wAt ws m).rows (fun i => actReal .tanh (score (wAt ws m) (inpAt .tanh ws inp m) i))) =
          .error (.throw "VectorSizeMismatch") := by
        simp only [deepDerivative]
        rw [vec_map, elemR_vec]
        simp only [res_bind_ok]
        unfold diffR subChecked
        have hne : (wAt ws m).rows ≠ m + 1 := by
          have := hw (wAt ws m) (by
            have h2 : ws.length - 2 = m := by omega
            rw [h2]
            exact wAt_get? ws m (by omega))
          rwa [hm1] at this
        rw [if_neg (by simp [vec_length]; omega)]
      rw [hder]
      rfl
    rw [hstep]
    rfl
  unfold deepStep
  rw [inputVector_vec x u hattr, ← hinp]
  simp only [res_bind_ok]
  rw [herr]
  rfl

/-! ## C117: the autoencoder -/

theorem hasDerivAt_setEntry (w : Mat ℝ) (u : Nat → ℝ) (i j : Nat) (hj : j < w.cols) (a : Nat) :
    HasDerivAt (fun t => score (setEntry w i j t) u a) (if a = i then u j else 0) (w.e i j) := by
  have he : (fun t => score (setEntry w i j t) u a) =
      fun t => score w u a + (if a = i then (t - w.e i j) * u j else 0) := by
    funext t
    exact score_setEntry w _ i j hj t a
  rw [he]
  by_cases ha : a = i
  · simp only [if_pos ha]
    have h1 := (((hasDerivAt_id (w.e i j)).sub_const (w.e i j)).mul_const (u j)).const_add (score w u a)
    simpa using h1
  · simp only [if_neg ha, add_zero]
    exact hasDerivAt_const _ _

theorem hasDerivAt_reconstruction (d : Nat) (r : Nat → ℝ) (s : ℝ → Nat → ℝ) (s' : Nat → ℝ) (t : ℝ)
    (h : ∀ k < d, HasDerivAt (fun t => s t k) (s' k) t) :
    HasDerivAt (fun t => reconstructionError d r (s t)) (-∑ k ∈ Finset.range d, (r k - s t k) * s' k) t := by
  unfold reconstructionError
  have h1 : HasDerivAt (fun t => ∑ k ∈ Finset.range d, (r k - s t k) ^ 2)
      (∑ k ∈ Finset.range d, 2 * (r k - s t k) * (-s' k)) t := by
    refine HasDerivAt.fun_sum (fun k hk => ?_)
    have := ((h k (Finset.mem_range.1 hk)).const_sub (r k)).pow 2
    refine this.congr_deriv ?_
    norm_num
  refine (h1.div_const 2).congr_deriv ?_
  rw [Finset.sum_div, ← Finset.sum_neg_distrib]
  exact Finset.sum_congr rfl (fun k _ => by ring)

/-- **C117.** Presenting an instance to the autoencoder subtracts from every weight of both
layers `eta` times the derivative, with respect to that weight, of the reconstruction error
`½ Σ_k (x_k - y_k)²`. -/
theorem C117_autoencoder_gradient (x : Inst ℝ) (u : List ℝ) (w : Two ℝ) (eta : ℝ)
    (hattr : x.attrs = u.map Attr.continuous) (hfit : Fits [w.W, w.V] (u.length + 1) u.length) :
    ∃ w', autoStep eta w x = .ok w' ∧ w'.W.rows = w.W.rows ∧ w'.W.cols = w.W.cols ∧
      w'.V.rows = w.V.rows ∧ w'.V.cols = w.V.cols ∧
      (∀ i < w.W.rows, ∀ j < w.W.cols, ∃ g,
        HasDerivAt (fun t => reconstructionError u.length (fun j => u.getD j 0)
          (netScores .sigmoid [setEntry w.W i j t, w.V] (withBias (fun j => u.getD j 0)))) g (w.W.e i j) ∧
        w'.W.e i j = w.W.e i j - eta * g) ∧
      (∀ i < w.V.rows, ∀ j < w.V.cols, ∃ g,
        HasDerivAt (fun t => reconstructionError u.length (fun j => u.getD j 0)
          (netScores .sigmoid [w.W, setEntry w.V i j t] (withBias (fun j => u.getD j 0)))) g (w.V.e i j) ∧
        w'.V.e i j = w.V.e i j - eta * g) := by
  set inp := withBias (fun j => u.getD j 0) with hinp
  set hid : Nat → ℝ := withBias (fun i => actReal .sigmoid (score w.W inp i)) with hhid
  obtain ⟨hc, hc2, hr⟩ := hfit
  have hr' : w.V.rows = u.length := by simpa [Fits] using hr
  set err : Nat → ℝ := fun k => u.getD k 0 - score w.V hid k with herr
  obtain ⟨V', hV1, hV2, hV3, hV4⟩ := outer_vec_scale_add w.V err hid eta
  obtain ⟨W', hW1, hW2, hW3, hW4⟩ := outer_vec_scale_add w.W
    (fun i => (1 - actReal .sigmoid (score w.W inp i)) * (actReal .sigmoid (score w.W inp i) *
      ∑ a ∈ Finset.range w.V.rows, err a * w.V.e a (i + 1))) inp eta
  refine ⟨⟨W', V'⟩, ?_, hW2, hW3, hV2, hV3, ?_, ?_⟩
  · have hdelta : autoDeltas u (vec (u.length + 1) inp) w = .ok
        (Mat.outer (vec w.W.rows (fun i => (1 - actReal .sigmoid (score w.W inp i)) * (actReal .sigmoid (score w.W inp i) *
          ∑ a ∈ Finset.range w.V.rows, err a * w.V.e a (i + 1)))) (vec w.W.cols inp),
        Mat.outer (vec w.V.rows err) (vec w.V.cols hid)) := by
      unfold autoDeltas
      rw [← hc, calculateHidden_vec]
      simp only [res_bind_ok]
      rw [biased_vec, ← hhid, ← hc2, mulRightR_vec]
      simp only [res_bind_ok]
      have hdiff : diffR u (vec w.V.rows (score w.V hid)) = .ok (vec w.V.rows err) := by
        conv_lhs => rw [eq_vec u]
        rw [← hr', diffR_vec]
      rw [hdiff]
      simp only [res_bind_ok]
      unfold oneMinusHidden
      rw [vec_length, replicate_vec, diffR_vec]
      simp only [res_bind_ok]
      rw [mulLeftR_vec, hc2, vec_succ]
      simp only [res_bind_ok, removeFirst]
      rw [elemR_vec]
      simp only [res_bind_ok]
      rw [elemR_vec]
      simp only [one_real]
      rfl
    unfold autoStep
    rw [inputVector_vec x u hattr, toVector_ok x u hattr, ← hinp]
    simp only [res_bind_ok]
    rw [hdelta]
    simp only [res_bind_ok]
    unfold applyTwo addW
    rw [hV1]
    simp only [res_bind_ok]
    rw [hW1]
    rfl
  · intro i hi j hj
    have hself : setEntry w.W i j (w.W.e i j) = w.W := by
      cases hw : w.W with
      | mk r c e =>
        unfold setEntry
        congr 1
        funext a b
        by_cases h : a = i ∧ b = j
        · simp [h]
        · simp [h]
    have hs : ∀ k < u.length, HasDerivAt (fun t => netScores .sigmoid [setEntry w.W i j t, w.V] inp k)
        (w.V.e k (i + 1) * (actDeriv .sigmoid (score w.W inp i) * inp j)) (w.W.e i j) := by
      intro k _
      have h1 := hasDerivAt_score w.V
        (fun t => withBias (fun a => actReal .sigmoid (score (setEntry w.W i j t) inp a)))
        (fun b => match b with
          | 0 => 0
          | b + 1 => if b = i then actDeriv .sigmoid (score w.W inp i) * inp j else 0) (w.W.e i j) (by
          intro b _
          cases b with
          | zero => exact hasDerivAt_const _ _
          | succ b =>
            have h2 := hasDerivAt_setEntry w.W inp i j hj b
            have h3 := HasDerivAt.comp (h₂ := actReal .sigmoid) (w.W.e i j) (hasDerivAt_act .sigmoid
              (score (setEntry w.W i j (w.W.e i j)) inp b) (fun h => (by cases h))) h2
            refine h3.congr_deriv ?_
            rw [hself]
            by_cases hb : b = i
            · simp [hb]
            · simp [hb]) k
      refine h1.congr_deriv ?_
      rw [hc2, Finset.sum_range_succ']
      simp only [mul_zero, add_zero, mul_ite]
      rw [Finset.sum_ite_eq' (Finset.range w.W.rows) i, if_pos (Finset.mem_range.2 hi)]
    refine ⟨_, hasDerivAt_reconstruction u.length _ _ _ _ hs, ?_⟩
    rw [hW4 i hi j hj, hself]
    have h4 : netScores .sigmoid [w.W, w.V] inp = score w.V hid := rfl
    simp only [h4, hr', actDeriv]
    have h5 : (∑ k ∈ Finset.range u.length, (u.getD k 0 - score w.V hid k) * (w.V.e k (i + 1) *
        ((1 - actReal .sigmoid (score w.W inp i)) * actReal .sigmoid (score w.W inp i) * inp j))) =
        ((1 - actReal .sigmoid (score w.W inp i)) * actReal .sigmoid (score w.W inp i) * inp j) *
          ∑ k ∈ Finset.range u.length, err k * w.V.e k (i + 1) := by
      rw [Finset.mul_sum]
      exact Finset.sum_congr rfl (fun k _ => by rw [herr]; ring)
    rw [h5]
    ring
  · intro i hi j hj
    have hs : ∀ k < u.length, HasDerivAt (fun t => netScores .sigmoid [w.W, setEntry w.V i j t] inp k)
        (if k = i then hid j else 0) (w.V.e i j) := fun k _ => hasDerivAt_setEntry w.V hid i j hj k
    refine ⟨_, hasDerivAt_reconstruction u.length _ _ _ _ hs, ?_⟩
    rw [hV4 i hi j hj]
    have hself : ∀ k, netScores .sigmoid [w.W, setEntry w.V i j (w.V.e i j)] inp k = score w.V hid k := by
      intro k
      show score (setEntry w.V i j (w.V.e i j)) hid k = _
      rw [score_setEntry w.V hid i j hj]
      simp
    simp only [hself, mul_ite, mul_zero]
    rw [Finset.sum_ite_eq' (Finset.range u.length) i, if_pos (Finset.mem_range.2 (by omega))]
    rw [herr]
    ring

example : ∃ w', autoStep (1 / 10) (⟨⟨3, 3, fun _ _ => 1⟩, ⟨2, 4, fun i j => i - j⟩⟩ : Two ℝ)
    ⟨"b", [.continuous 3, .continuous 4], none⟩ = .ok w' := by
  obtain ⟨w', h, _⟩ := C117_autoencoder_gradient ⟨"b", [.continuous 3, .continuous 4], none⟩ [3, 4]
    (⟨⟨3, 3, fun _ _ => 1⟩, ⟨2, 4, fun i j => i - j⟩⟩ : Two ℝ) (1 / 10) rfl ⟨rfl, rfl, rfl⟩
  exact ⟨w', h⟩

/-- two hidden layers, the last one of width 5 -/
example : deepStep ["a", "b"] .tanh 2 (1 / 10) ([⟨3, 2, fun _ _ => 1⟩, ⟨5, 4, fun i j => i - j⟩,
    ⟨2, 6, fun i _ => i⟩] : List (Mat ℝ)) ⟨"b", [.continuous 3], none⟩ =
    .ok [⟨3, 2, fun _ _ => 1⟩, ⟨5, 4, fun i j => i - j⟩, ⟨2, 6, fun i _ => i⟩] :=
  C116_deep_tanh_refuted ["a", "b"] ⟨"b", [.continuous 3], none⟩ [3]
    ([⟨3, 2, fun _ _ => 1⟩, ⟨5, 4, fun i j => i - j⟩, ⟨2, 6, fun i _ => i⟩] : List (Mat ℝ)) (1 / 10) rfl (by decide)
    ⟨rfl, rfl, rfl, rfl⟩ (by simp) (by intro w h; simp at h; subst h; simp)

end Verif
