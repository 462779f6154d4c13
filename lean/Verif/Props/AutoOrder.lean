import Verif.Props.DeepOrder

/-! # Properties C166 and C226 for the autoencoder -/

set_option linter.unusedSectionVars false

namespace Verif
open Dbl

/-- the weights of an autoencoder with its inputs (and outputs) renumbered by `σ` and its hidden nodes by `π` -/
def TwoRen (n H : Nat) (σ π : List Nat) (w w' : Two ℝ) : Prop :=
  LayerRenumbered n H σ π w.W w'.W ∧ LayerRenumbered H n π σ w.V w'.V

section
variable {n H : Nat} {σ π : List Nat}

theorem VecRen.diff {N : Nat} {σ : List Nat} {a b c d : List ℝ} (h : VecRen N σ a b) (h' : VecRen N σ c d) :
    ResRel (VecRen N σ) (diffR a c) (diffR b d) := by
  obtain ⟨f, rfl, rfl⟩ := h
  obtain ⟨g, rfl, rfl⟩ := h'
  rw [diffR_vec, diffR_vec]
  exact ⟨fun i => f i - g i, rfl, rfl⟩

theorem VecRen.oneMinus {N : Nat} {σ : List Nat} {a b : List ℝ} (h : VecRen N σ a b) :
    ResRel (VecRen N σ) (oneMinusHidden a) (oneMinusHidden b) := by
  obtain ⟨f, rfl, rfl⟩ := h
  unfold oneMinusHidden
  simp only [vec_length]
  rw [replicate_vec, diffR_vec, diffR_vec]
  exact ⟨fun i => Dbl.one - f i, rfl, rfl⟩

theorem VecRen.square {N : Nat} {σ : List Nat} (hσ : IsPermutation σ N) {a b : List ℝ} (h : VecRen N σ a b) : dotV b b = dotV a a := by
  obtain ⟨f, rfl, rfl⟩ := h
  rw [dotV_eq N _ _ (vec_length _ _) (vec_length _ _), dotV_eq N _ _ (vec_length _ _) (vec_length _ _)]
  rw [show ∑ i ∈ Finset.range N, (vec N f).getD i 0 * (vec N f).getD i 0 = ∑ i ∈ Finset.range N, f i * f i from
      Finset.sum_congr rfl (fun i hi => by rw [vec_getD _ _ _ (Finset.mem_range.1 hi)]),
    ← sum_columns hσ (fun i => f i * f i)]
  exact Finset.sum_congr rfl (fun i hi => by rw [vec_getD _ _ _ (Finset.mem_range.1 hi)])

theorem reorder_vec (hσ : IsPermutation σ n) {x : Inst ℝ} (hx : Numeric n x) :
    VecRen n σ (numbersOf x) (numbersOf (reorder σ x)) ∧ BiasRen n σ (inputsOf n x) (inputsOf n (reorder σ x)) := by
  have e : vec n (fun j => (numbersOf (reorder σ x)).getD j 0) = vec n (fun i => (numbersOf x).getD (σ.getD i 0) 0) :=
    vec_congr (fun i hi => reorder_getD hσ hx hi)
  constructor
  · refine ⟨fun j => (numbersOf x).getD j 0, ?_, ?_⟩
    · conv_lhs => rw [eq_vec (numbersOf x), numbersOf_size hx]
    · conv_lhs => rw [eq_vec (numbersOf (reorder σ x)), numbersOf_size (numeric_reorder hσ hx)]
      exact e
  · refine ⟨fun j => (numbersOf x).getD j 0, rfl, ?_⟩
    unfold inputsOf
    rw [← biased_vec, ← biased_vec, e]

/-- one training instance -/
theorem auto_step_renumbered (hσ : IsPermutation σ n) (hπ : IsPermutation π H) (eta : ℝ) (w w' : Two ℝ) (x : Inst ℝ) (hx : Numeric n x)
    (h : TwoRen n H σ π w w') : ResRel (TwoRen n H σ π) (autoStep eta w x) (autoStep eta w' (reorder σ x)) := by
  unfold autoStep
  obtain ⟨hr, hv⟩ := reorder_vec hσ hx
  rw [inputVector_numeric hx, inputVector_numeric (numeric_reorder hσ hx), toVector_ok x _ (numeric_attrs hx),
    toVector_ok _ _ (numeric_attrs (numeric_reorder hσ hx))]
  simp only [res_bind_ok]
  refine ResRel.caught h ?_
  unfold autoDeltas
  simp only [bind_assoc]
  refine (h.1.hidden hσ .sigmoid hv).bind (fun hid hid' hh => ?_)
  obtain ⟨s, e1, e2⟩ := h.2.sums hπ hh.biased
  rw [e1, e2]
  simp only [res_bind_ok]
  refine (hr.diff ⟨s, rfl, rfl⟩).bind (fun r r' hr => ?_)
  refine hh.oneMinus.bind (fun om om' hom => ?_)
  rw [← bind_assoc (w.V.mulLeftR r), ← bind_assoc (w'.V.mulLeftR r')]
  refine (h.2.back hσ hr).bind (fun t t' ht => ?_)
  refine (hh.elem ht).bind (fun a a' ha => ?_)
  refine (hom.elem ha).bind (fun b b' hb => ?_)
  simp only [pure_bind]
  unfold applyTwo
  obtain ⟨V, V', v1, v2, v3⟩ := h.2.changed hπ hσ eta ⟨r, r', _, _, hr, hh.biased, rfl, rfl⟩
  obtain ⟨W, W', w1, w2, w3⟩ := h.1.changed hσ hπ eta ⟨b, b', _, _, hb, hv, rfl, rfl⟩
  simp only
  rw [v1, v2]
  simp only [res_bind_ok]
  unfold addW
  refine ResRel.caught ⟨h.1, v3⟩ ?_
  simp only
  rw [w1, w2]
  exact ⟨w3, v3⟩

/-- the reconstruction is the other one, renumbered -/
theorem auto_out_renumbered (hσ : IsPermutation σ n) (hπ : IsPermutation π H) {w w' : Two ℝ} {x : Inst ℝ} (hx : Numeric n x)
    (h : TwoRen n H σ π w w') : ResRel (VecRen n σ) (autoPredictInput w x) (autoPredictInput w' (reorder σ x)) := by
  unfold autoPredictInput
  obtain ⟨_, hv⟩ := reorder_vec hσ hx
  rw [inputVector_numeric hx, inputVector_numeric (numeric_reorder hσ hx)]
  simp only [res_bind_ok]
  have key : ∃ y y', forwardSingleHidden (inputsOf n x) w.W w.V .sigmoid = .ok y ∧
      forwardSingleHidden (inputsOf n (reorder σ x)) w'.W w'.V .sigmoid = .ok y' ∧ VecRen n σ y y' := by
    unfold forwardSingleHidden calculateHidden
    obtain ⟨s, e1, e2⟩ := h.1.sums hσ hv
    rw [e1, e2]
    simp only [res_bind_ok, res_pure, activate_vec]
    obtain ⟨t, t1, t2⟩ := h.2.sums hπ (VecRen.biased ⟨fun i => actReal .sigmoid (s i), rfl, rfl⟩)
    exact ⟨_, _, t1, t2, t, rfl, rfl⟩
  obtain ⟨y, y', k1, k2, k3⟩ := key
  rw [k1, k2]
  exact k3

theorem auto_error_renumbered (hσ : IsPermutation σ n) (hπ : IsPermutation π H) {w w' : Two ℝ} {T : IList ℝ} (hT : ∀ x ∈ T, Numeric n x)
    (h : TwoRen n H σ π w w') : autoError (T.map (reorder σ)) w' = autoError T w := by
  unfold autoError
  rw [List.foldlM_map, List.length_map]
  congr 1
  refine foldlM_congr_on _ _ (fun b x hx => ?_)
  refine (ResRel.eq ?_).symm
  unfold autoErrorStep
  refine (auto_out_renumbered hσ hπ (hT x hx) h).bind (fun y y' hy => ?_)
  rw [toVector_ok x _ (numeric_attrs (hT x hx)), toVector_ok _ _ (numeric_attrs (numeric_reorder hσ (hT x hx)))]
  simp only [res_bind_ok]
  refine ResRel.caught rfl ?_
  refine ((reorder_vec hσ (hT x hx)).1.diff hy).bind (fun e e' he => ?_)
  show b +. dotV e e = b +. dotV e' e'
  rw [he.square hσ]

/-- training both and asking both -/
theorem auto_renumbered (hσ : IsPermutation σ n) (hπ : IsPermutation π H) (p : NetParam ℝ) (random' : Nat → Nat → Mat ℝ) (old : Net (Two ℝ))
    (T : IList ℝ) (hT : ∀ y ∈ T, Numeric n y) (x : Inst ℝ) (hx : Numeric n x)
    (hw : TwoRen n H σ π ⟨p.random H (n + 1), p.random n (H + 1)⟩ ⟨random' H (n + 1), random' n (H + 1)⟩) :
    ResRel (VecRen n σ) (autoTrain p H old T >>= fun m => autoPredictInput m.weights x)
      (autoTrain (p.startingFrom random') H old (T.map (reorder σ)) >>= fun m => autoPredictInput m.weights (reorder σ x)) := by
  refine ResRel.bind (R := fun m m' => TwoRen n H σ π m.weights m'.weights) ?_ (fun m m' h => auto_out_renumbered hσ hπ hx h)
  have hk := innerKept_reorder hσ hT
  by_cases hne : T = []
  · subst hne; exact rfl
  have hdist : IList.getDistinctClassLabels (T.map (reorder σ)) = T.getDistinctClassLabels := by
    unfold IList.getDistinctClassLabels
    rw [List.foldl_map]
    simp only [(hk.classes _).1]
  have ini : ∀ (d : Nat) (l : IList ℝ), l ≠ [] → (∀ x ∈ l, Numeric d x) →
      netInitialize l = .ok (l.getDistinctClassLabels, d) := by
    intro d l hl hn
    obtain ⟨x0, t, rfl⟩ := List.exists_cons_of_ne_nil hl
    obtain ⟨u, hattr, hu⟩ := hn x0 (by simp)
    have hdc : discreteCheck x0 = true := by
      unfold discreteCheck
      rw [hattr]
      simp [Attr.isDiscrete]
    have hget : IList.get (x0 :: t) 0 = .ok x0 := rfl
    unfold netInitialize
    rw [hget]
    simp only [res_bind_ok, hdc, contSize_ok x0 u hattr, hu]
    rfl
  have size : ∀ y, Numeric n y → y.continuousAttributeSize.toNat = n := by
    rintro y ⟨u, hattr, hu⟩
    rw [contSize_ok y u hattr, hu]
    rfl
  unfold autoTrain
  rw [ini n T hne hT, ini n (T.map (reorder σ)) (by simpa using hne) (fun x hx => by
    obtain ⟨y, hy, rfl⟩ := List.mem_map.1 hx
    exact numeric_reorder hσ (hT y hy)), hdist]
  simp only [res_bind_ok, NetParam.startingFrom]
  rw [stratified_map (fun x => (hk.classes x).1), bind_map_res]
  refine ResRel.same _ (fun parts hparts => ?_)
  have hmem : ∀ {i : Nat} {l : IList ℝ}, atR parts i = .ok l → ∀ x ∈ l, Numeric n x := fun hl x hx =>
    hT x (stratified_mem hparts _ (atR_in hl) x hx)
  unfold IList.get
  simp only [keeps_atR, bind_map_res]
  refine ResRel.same _ (fun data hdata => ResRel.same _ (fun val hval => ResRel.same _ (fun x0 hx0 => ?_)))
  have n0 : Numeric n x0 := hmem hdata x0 (atR_in hx0)
  rw [size _ n0, size _ (numeric_reorder hσ n0)]
  have h0 : EpochsAlike (TwoRen n H σ π) (reorder σ) data
      ⟨⟨p.random H (n + 1), p.random n (H + 1)⟩, ⟨p.random H (n + 1), p.random n (H + 1)⟩, Dbl.maxVal, p.learningRate, data⟩
      ⟨⟨random' H (n + 1), random' n (H + 1)⟩, ⟨random' H (n + 1), random' n (H + 1)⟩, Dbl.maxVal, p.learningRate, data.map (reorder σ)⟩ :=
    ⟨hw, hw, rfl, rfl, rfl, fun _ h => h⟩
  refine (epochs_alike (perf := autoError val) (perf' := autoError (val.map (reorder σ)))
    (fun eta w w' y hy h => auto_step_renumbered hσ hπ eta w w' y (hmem hdata y hy) h)
    (fun w w' h => auto_error_renumbered hσ hπ (hmem hval) h) _ _ _ h0).bind (fun s s' h => ?_)
  exact h.best

theorem reorder_range {x : Inst ℝ} (hx : Numeric n x) : reorder (List.range n) x = x := by
  have hp : IsPermutation (List.range n) n := List.Perm.refl _
  have e : numbersOf (reorder (List.range n) x) = numbersOf x := by
    rw [numbersOf_reorder hp hx]
    conv_rhs => rw [eq_vec (numbersOf x), numbersOf_size hx]
    rfl
  have h1 := numeric_attrs (numeric_reorder hp hx)
  rw [e, ← numeric_attrs hx] at h1
  unfold reorder at h1 ⊢
  cases x
  simp only at h1 ⊢
  rw [h1]

/-- **C226** for the autoencoder: whatever the numbering of the hidden nodes, every instance is reconstructed in the same way. -/
theorem C226_autoencoder (hπ : IsPermutation π H) (p : NetParam ℝ) (random' : Nat → Nat → Mat ℝ) (old : Net (Two ℝ))
    (T : IList ℝ) (hT : ∀ y ∈ T, Numeric n y) (x : Inst ℝ) (hx : Numeric n x)
    (hW : LayerRenumbered n H (List.range n) π (p.random H (n + 1)) (random' H (n + 1)))
    (hV : LayerRenumbered H n π (List.range n) (p.random n (H + 1)) (random' n (H + 1))) :
    (autoTrain (p.startingFrom random') H old T >>= fun m => autoPredictInput m.weights x) =
      (autoTrain p H old T >>= fun m => autoPredictInput m.weights x) := by
  have hp : IsPermutation (List.range n) n := List.Perm.refl _
  have key := auto_renumbered hp hπ p random' old T hT x hx ⟨hW, hV⟩
  rw [reorder_range hx, show T.map (reorder (List.range n)) = T from by
    conv_rhs => rw [← List.map_id T]
    exact List.map_congr_left (fun y hy => reorder_range (hT y hy))] at key
  refine (ResRel.eq ?_).symm
  revert key
  cases autoTrain p H old T >>= fun m => autoPredictInput m.weights x with
  | error e => cases autoTrain (p.startingFrom random') H old T >>= fun m => autoPredictInput m.weights x <;> exact id
  | ok a =>
    cases autoTrain (p.startingFrom random') H old T >>= fun m => autoPredictInput m.weights x with
    | error e => exact id
    | ok b =>
      rintro ⟨f, rfl, rfl⟩
      refine vec_congr (fun i hi => ?_)
      rw [List.getD_eq_getElem?_getD, List.getElem?_range hi]
      rfl

/-- **C166** for the autoencoder, when the initial weights are reordered like the columns (in both matrices): the reconstruction of the instance
with reordered columns is the reconstruction of the instance, reordered. -/
theorem C166_autoencoder_partial (hσ : IsPermutation σ n) (p : NetParam ℝ) (random' : Nat → Nat → Mat ℝ) (old : Net (Two ℝ))
    (T : IList ℝ) (hT : ∀ y ∈ T, Numeric n y) (x : Inst ℝ) (hx : Numeric n x)
    (hW : LayerRenumbered n H σ (List.range H) (p.random H (n + 1)) (random' H (n + 1)))
    (hV : LayerRenumbered H n (List.range H) σ (p.random n (H + 1)) (random' n (H + 1))) :
    (autoTrain (p.startingFrom random') H old (T.map (reorder σ)) >>= fun m => autoPredictInput m.weights (reorder σ x)) =
      (autoTrain p H old T >>= fun m => autoPredictInput m.weights x).map (fun y => σ.map (fun i => y.getD i 0)) := by
  have key := auto_renumbered hσ (List.Perm.refl _ : IsPermutation (List.range H) H) p random' old T hT x hx ⟨hW, hV⟩
  refine (ResRel.eq ?_).symm
  revert key
  cases autoTrain p H old T >>= fun m => autoPredictInput m.weights x with
  | error e =>
    cases autoTrain (p.startingFrom random') H old (T.map (reorder σ)) >>= fun m => autoPredictInput m.weights (reorder σ x) <;> exact id
  | ok a =>
    cases autoTrain (p.startingFrom random') H old (T.map (reorder σ)) >>= fun m => autoPredictInput m.weights (reorder σ x) with
    | error e => exact id
    | ok b =>
      rintro ⟨f, rfl, rfl⟩
      show σ.map (fun i => (vec n f).getD i 0) = vec n (fun i => f (σ.getD i 0))
      conv_lhs => rw [perm_eq_map hσ, List.map_map]
      refine vec_congr (fun i hi => ?_)
      exact vec_getD _ _ _ (perm_getD_lt hσ hi)

end

/-- initial weights of an autoencoder with two inputs and three hidden nodes -/
noncomputable def autoStart (reordered : Bool) (r c : Nat) : Mat ℝ :=
  ⟨r, c, fun i j => if reordered then
      (if c = 3 then (i : ℝ) + 5 * (if j = 0 then 0 else if j = 1 then 2 else 1) else (if i = 0 then 1 else 0) + 5 * (j : ℝ))
    else (i : ℝ) + 5 * (j : ℝ)⟩

/-- two columns exchanged -/
example : IsPermutation [1, 0] 2 ∧ LayerRenumbered 2 3 [1, 0] (List.range 3) (autoStart false 3 3) (autoStart true 3 3) ∧
    LayerRenumbered 3 2 (List.range 3) [1, 0] (autoStart false 2 4) (autoStart true 2 4) := by
  refine ⟨by unfold IsPermutation; decide, ⟨⟨rfl, rfl⟩, ⟨rfl, rfl⟩, ?_, ?_⟩, ⟨⟨rfl, rfl⟩, ⟨rfl, rfl⟩, ?_, ?_⟩⟩
  · intro i hi
    rw [List.getD_eq_getElem?_getD, List.getElem?_range hi]
    simp [autoStart]
  · intro i hi j hj
    rw [List.getD_eq_getElem?_getD, List.getElem?_range hi]
    interval_cases j <;> simp [autoStart]
  · intro i hi
    interval_cases i <;> simp [autoStart]
  · intro i hi j hj
    rw [List.getD_eq_getElem?_getD (l := List.range 3), List.getElem?_range hj]
    interval_cases i <;> simp [autoStart]

/-- initial weights before and after exchanging the first two hidden nodes -/
noncomputable def autoStartHidden (renumbered : Bool) (r c : Nat) : Mat ℝ :=
  ⟨r, c, fun i j => if renumbered then
      (if c = 3 then (if i = 0 then 1 else if i = 1 then 0 else i : ℝ) + 5 * (j : ℝ) else
        (i : ℝ) + 5 * (if j = 1 then 2 else if j = 2 then 1 else (j : ℝ)))
    else (i : ℝ) + 5 * (j : ℝ)⟩

example : IsPermutation [1, 0, 2] 3 ∧ LayerRenumbered 2 3 (List.range 2) [1, 0, 2] (autoStartHidden false 3 3) (autoStartHidden true 3 3) ∧
    LayerRenumbered 3 2 [1, 0, 2] (List.range 2) (autoStartHidden false 2 4) (autoStartHidden true 2 4) := by
  refine ⟨by unfold IsPermutation; decide, ⟨⟨rfl, rfl⟩, ⟨rfl, rfl⟩, ?_, ?_⟩, ⟨⟨rfl, rfl⟩, ⟨rfl, rfl⟩, ?_, ?_⟩⟩
  · intro i hi
    interval_cases i <;> simp [autoStartHidden]
  · intro i hi j hj
    rw [List.getD_eq_getElem?_getD (l := List.range 2), List.getElem?_range hj]
    interval_cases i <;> simp [autoStartHidden]
  · intro i hi
    rw [List.getD_eq_getElem?_getD (l := List.range 2), List.getElem?_range hi]
    simp [autoStartHidden]
  · intro i hi j hj
    rw [List.getD_eq_getElem?_getD (l := List.range 2), List.getElem?_range hi]
    interval_cases j <;> simp [autoStartHidden]

end Verif
