import Verif.Props.Inner
import Verif.Spec.HiddenOrder

/-! # Property C226: the numbering of the hidden nodes -/

set_option linter.unusedSectionVars false

namespace Verif
open Dbl

/-- the number the code takes for the derivative at a hidden value -/
noncomputable def codeDeriv : Activation → ℝ → ℝ
  | .sigmoid, a => (1 - a) * a
  | .tanh, a => 1 - Real.tanh a * Real.tanh a
  | .relu, a => if 0 < a then 1 else 0

theorem mlpDerivative_pointwise (act : Activation) (H : Nat) (f : Nat → ℝ) :
    mlpDerivative act (vec H f) = .ok (vec H (fun i => codeDeriv act (f i))) := by
  cases act with
  | sigmoid =>
    unfold mlpDerivative oneMinusHidden
    simp only [vec_length]
    rw [replicate_vec, diffR_vec]
    simp only [res_bind_ok]
    rw [elemR_vec]
    simp only [one_real, codeDeriv]
  | tanh =>
    unfold mlpDerivative
    simp only [vec_length]
    rw [vec_map, elemR_vec]
    simp only [res_bind_ok]
    rw [replicate_vec, diffR_vec]
    simp only [one_real, codeDeriv]
    rfl
  | relu =>
    unfold mlpDerivative
    simp only [res_pure]
    rw [vec_map]
    congr 1
    refine vec_congr (fun i _ => ?_)
    simp only [reluDerivF, codeDeriv, lt_real, zero_real, one_real, decide_eq_true_eq]

section
variable {n H : Nat} {σ : List Nat}

/-- the hidden values of the renumbered network are those of the other, renumbered -/
theorem renumbered_hidden {w w' : Two ℝ} (h : HiddenRenumbered n H σ w w') (act : Activation) (u : Nat → ℝ) :
    ∃ f : Nat → ℝ, calculateHidden (vec (n + 1) u) w.W act = .ok (vec H f) ∧
      calculateHidden (vec (n + 1) u) w'.W act = .ok (vec H (fun i => f (σ.getD i 0))) := by
  refine ⟨fun i => actReal act (score w.W u i), ?_, ?_⟩
  · rw [← h.cols.1, calculateHidden_vec, h.rows.1]
  · rw [← h.cols.2, calculateHidden_vec, h.rows.2]
    congr 1
    refine vec_congr (fun i hi => ?_)
    congr 1
    unfold score
    rw [h.cols.1, h.cols.2]
    refine Finset.sum_congr rfl (fun j hj => ?_)
    rw [h.into i hi j (by have := Finset.mem_range.1 hj; omega)]

/-- the outputs are the same -/
theorem renumbered_out (hσ : IsPermutation σ H) {w w' : Two ℝ} (h : HiddenRenumbered n H σ w w') (f : Nat → ℝ) :
    w'.V.mulRightR (biased (vec H (fun i => f (σ.getD i 0)))) = w.V.mulRightR (biased (vec H f)) := by
  rw [biased_vec, biased_vec]
  conv_lhs => rw [← h.outCols.2]
  conv_rhs => rw [← h.outCols.1]
  rw [mulRightR_vec, mulRightR_vec, h.outRows]
  congr 1
  refine vec_congr (fun i hi => ?_)
  unfold score
  rw [h.outCols.1, h.outCols.2, Finset.sum_range_succ', Finset.sum_range_succ', h.bias i hi,
    ← sum_columns hσ (fun j => w.V.e i (j + 1) * withBias f (j + 1))]
  congr 1
  refine Finset.sum_congr rfl (fun j hj => ?_)
  rw [h.out i hi j (Finset.mem_range.1 hj)]
  rfl

/-- one training instance -/
theorem renumbered_step (hσ : IsPermutation σ H) (act : Activation) (ls : List String) (eta : ℝ) (w w' : Two ℝ) (x : Inst ℝ)
    (hx : Numeric n x) (h : HiddenRenumbered n H σ w w') :
    ResRel (HiddenRenumbered n H σ) (mlpStep ls act eta w x) (mlpStep ls act eta w' x) := by
  unfold mlpStep
  rw [inputVector_numeric hx]
  simp only [res_bind_ok]
  refine ResRel.caught h ?_
  unfold mlpDeltas inputsOf
  generalize hu : withBias (fun j => (numbersOf x).getD j 0) = u
  obtain ⟨f, e1, e2⟩ := renumbered_hidden h act u
  rw [e1, e2]
  unfold calculateRMinusY
  simp only [res_bind_ok, renumbered_out hσ h, bind_assoc]
  refine ResRel.same _ (fun a _ => ResRel.same _ (fun o _ => ResRel.same _ (fun r _ => ?_)))
  by_cases hr : r.length = w.V.rows
  · have er : r = vec w.V.rows (fun i => r.getD i 0) := by rw [← hr]; exact eq_vec r
    generalize (fun i => r.getD i 0) = q at er
    subst er
    have l1 := mulLeftR_vec w.V q
    have l2 := mulLeftR_vec w'.V q
    rw [h.outRows] at l2
    rw [h.outCols.1, vec_succ] at l1
    rw [h.outCols.2, vec_succ] at l2
    rw [l1, l2]
    simp only [res_bind_ok, removeFirst]
    rw [mlpDerivative_pointwise, mlpDerivative_pointwise]
    simp only [res_bind_ok]
    rw [elemR_vec, elemR_vec]
    simp only [res_bind_ok]
    unfold applyTwo
    simp only [pure_bind]
    rw [biased_vec, biased_vec]
    obtain ⟨V1, v1, v2, v3, v4⟩ := outer_vec_scale_add w.V q (withBias f) eta
    obtain ⟨V2, y1, y2, y3, y4⟩ := outer_vec_scale_add w'.V q (withBias (fun i => f (σ.getD i 0))) eta
    rw [h.outCols.1] at v1
    rw [h.outCols.2, h.outRows] at y1
    rw [v1, y1]
    simp only [res_bind_ok]
    have mid : HiddenRenumbered n H σ { w with V := V1 } { w' with V := V2 } := by
      refine ⟨h.rows, h.cols, h.into, ?_, ⟨by simp [v3, h.outCols.1], by simp [y3, h.outCols.2]⟩, ?_, ?_⟩
      · simp [y2, v2, h.outRows]
      · intro i hi
        have hi' : i < w.V.rows := by rw [← v2]; exact hi
        show V2.e i 0 = V1.e i 0
        rw [v4 i hi' 0 (by rw [h.outCols.1]; omega), y4 i (by rw [h.outRows]; exact hi') 0 (by rw [h.outCols.2]; omega), h.bias i hi']
        rfl
      · intro i hi j hj
        have hi' : i < w.V.rows := by rw [← v2]; exact hi
        have hs := perm_getD_lt hσ hj
        show V2.e i (j + 1) = V1.e i (σ.getD j 0 + 1)
        rw [v4 i hi' _ (by rw [h.outCols.1]; omega), y4 i (by rw [h.outRows]; exact hi') _ (by rw [h.outCols.2]; omega), h.out i hi' j hj]
        rfl
    unfold addW
    refine ResRel.caught mid ?_
    obtain ⟨W1, a1, a2, a3, a4⟩ := outer_vec_scale_add w.W
      (fun j => (∑ i ∈ Finset.range w.V.rows, q i * w.V.e i (j + 1)) * codeDeriv act (f j)) u eta
    obtain ⟨W2, b1, b2, b3, b4⟩ := outer_vec_scale_add w'.W
      (fun j => (∑ i ∈ Finset.range w.V.rows, q i * w'.V.e i (j + 1)) * codeDeriv act (f (σ.getD j 0))) u eta
    rw [h.rows.1, h.cols.1] at a1
    rw [h.rows.2, h.cols.2] at b1
    show ResRel _ (w.W.addR _ >>= _) (w'.W.addR _ >>= _)
    rw [a1, b1]
    refine ⟨⟨by simp [a2, h.rows.1], by simp [b2, h.rows.2]⟩, ⟨by simp [a3, h.cols.1], by simp [b3, h.cols.2]⟩, ?_,
      mid.outRows, mid.outCols, mid.bias, mid.out⟩
    intro i hi j hj
    have hs := perm_getD_lt hσ hi
    show W2.e i j = W1.e (σ.getD i 0) j
    rw [a4 _ (by rw [h.rows.1]; exact hs) j (by rw [h.cols.1]; omega), b4 i (by rw [h.rows.2]; exact hi) j (by rw [h.cols.2]; omega),
      h.into i hi j hj]
    congr 4
    exact Finset.sum_congr rfl (fun k hk => by rw [h.out k (Finset.mem_range.1 hk) i hi])
  · have l1 : ∀ V : Mat ℝ, V.rows = w.V.rows → V.mulLeftR r = .error (.throw "MatrixRowMismatch") := by
      intro V hV
      unfold Mat.mulLeftR Mat.mulLeft
      rw [if_neg (by rw [hV]; exact fun e => hr e.symm)]
    rw [l1 _ rfl, l1 _ h.outRows]
    exact rfl

/-- **C226.** The numbering of the hidden nodes of a multi-layer perceptron does not matter: training from initial weights whose hidden nodes are
numbered differently gives the same predictions and the same probabilities, or the same error. -/
theorem C226_hidden_numbering (hσ : IsPermutation σ H) (p : NetParam ℝ) (random' : Nat → Nat → Mat ℝ) (act : Activation)
    (old : Net (Two ℝ)) (T : IList ℝ) (hT : ∀ y ∈ T, Numeric n y) (x : Inst ℝ) (hx : Numeric n x)
    (hw : HiddenRenumbered n H σ ⟨p.random H (n + 1), p.random T.getDistinctClassLabels.length (H + 1)⟩
      ⟨random' H (n + 1), random' T.getDistinctClassLabels.length (H + 1)⟩) :
    (mlpTrain (p.startingFrom random') H act old T >>= fun m => netPredict m.labels (mlpOutput act m.weights) x) =
      (mlpTrain p H act old T >>= fun m => netPredict m.labels (mlpOutput act m.weights) x) ∧
    (mlpTrain (p.startingFrom random') H act old T >>= fun m => netProbability m.labels (mlpOutput act m.weights) x) =
      (mlpTrain p H act old T >>= fun m => netProbability m.labels (mlpOutput act m.weights) x) := by
  have num : ∀ z ∈ x :: T, Numeric n z := by
    intro z hz
    rcases List.mem_cons.1 hz with rfl | hz
    · exact hx
    · exact hT z hz
  have hk : InnerKept n n id (x :: T) := ⟨fun _ => ⟨rfl, rfl⟩, num, num, fun _ _ _ _ => rfl⟩
  have ho : ∀ w w' y, y ∈ x :: T → HiddenRenumbered n H σ w w' →
      mlpOutput act w' (inputsOf n (id y)) = mlpOutput act w (inputsOf n y) := by
    intro w w' y _ h
    unfold mlpOutput forwardSingleHidden inputsOf
    obtain ⟨f, e1, e2⟩ := renumbered_hidden h act (withBias (fun j => (numbersOf y).getD j 0))
    rw [show id y = y from rfl, e1, e2]
    exact renumbered_out hσ h f
  refine predict_alike (g := id) hk ho ?_ (List.mem_cons_self ..)
  have key := netTrain_alike (R := HiddenRenumbered n H σ) hk (fun y hy => List.mem_cons_of_mem _ hy) p (p.startingFrom random')
    ⟨rfl, rfl, rfl, rfl, rfl, rfl⟩
    (fun ls d => pure ⟨p.random H (d + 1), p.random ls.length (H + 1)⟩)
    (fun ls d => pure ⟨random' H (d + 1), random' ls.length (H + 1)⟩) (fun _ => hw)
    (fun ls => mlpStep ls act) (mlpOutput act) (fun ls eta w w' y hy h => renumbered_step hσ act ls eta w w' y (num y hy) h) ho
  rw [List.map_id] at key
  exact key

end

/-- two hidden nodes exchanged -/
example : IsPermutation [1, 0] 2 ∧ HiddenRenumbered 1 2 [1, 0] ⟨⟨2, 2, fun i j => i + 3 * j⟩, ⟨2, 3, fun i j => i * j⟩⟩
    ⟨⟨2, 2, fun i j => (if i = 0 then 1 else 0) + 3 * j⟩, ⟨2, 3, fun i j => i * (if j = 0 then 0 else if j = 1 then 2 else 1)⟩⟩ := by
  refine ⟨by unfold IsPermutation; decide, ⟨rfl, rfl⟩, ⟨rfl, rfl⟩, ?_, rfl, ⟨rfl, rfl⟩, ?_, ?_⟩
  · intro i hi j _
    interval_cases i <;> simp
  · intro i _
    simp
  · intro i _ j hj
    interval_cases j <;> simp

end Verif
