import Verif.Props.NetStep

/-! # C118: forward pass, C119: training and prediction succeed, C55 for networks -/

namespace Verif
open Dbl
set_option linter.unusedSectionVars false

/-! ## C118: what the networks compute -/

theorem netScores_last (act : Activation) : ∀ (ws : List (Mat ℝ)) (u : Nat → ℝ), 0 < ws.length →
    netScores act ws u = score (wAt ws (ws.length - 1)) (inpAt act ws u (ws.length - 1)) := by
  intro ws
  induction ws with
  | nil => intro u h; simp at h
  | cons w ws ih =>
    intro u _
    cases ws with
    | nil => rfl
    | cons w2 ws =>
      show netScores act (w2 :: ws) (withBias (fun i => actReal act (score w u i))) = _
      rw [ih _ (by simp)]
      have hi : ∀ k, inpAt act (w :: w2 :: ws) u (k + 1) =
          inpAt act (w2 :: ws) (withBias (fun i => actReal act (score w u i))) k := by
        intro k
        induction k with
        | zero => rfl
        | succ k ih2 => rw [inpAt, ih2]; rfl
      simp only [List.length_cons, Nat.add_sub_cancel]
      rw [hi]
      rfl

theorem deepOutput_loop (act : Activation) (ws : List (Mat ℝ)) (n : Nat) (u : Nat → ℝ)
    (hd : ∀ k < ws.length, (wAt ws k).cols = widthAt ws n k) : ∀ L, L < ws.length →
    (List.range (L + 1)).foldlM (deepOutputStep act ws (vec n u)) [] =
      .ok (vec (widthAt ws n (L + 1)) (inpAt act ws u (L + 1))) := by
  intro L
  induction L with
  | zero =>
    intro h
    rw [Nat.zero_add, List.range_one, List.foldlM_cons]
    simp only [List.foldlM_nil]
    unfold deepOutputStep
    rw [atR_wAt ws 0 h]
    simp only [res_bind_ok, if_true]
    have : n = (wAt ws 0).cols := (hd 0 h).symm
    rw [this, calculateHidden_vec]
    simp only [res_bind_ok, res_pure, biased_vec]
    rfl
  | succ L ih =>
    intro h
    rw [List.range_succ, List.foldlM_append, ih (by omega)]
    simp only [res_bind_ok, List.foldlM_cons, List.foldlM_nil]
    unfold deepOutputStep
    rw [atR_wAt ws (L + 1) h]
    simp only [res_bind_ok]
    rw [if_neg (by omega), ← hd (L + 1) h, calculateHidden_vec]
    simp only [res_bind_ok, res_pure, biased_vec]
    rfl

/-- **C118.** The outputs of the three kinds of networks are the composition of their layers:
weighted sums of the inputs (with a constant 1 in front), the activation function at every hidden
node, nothing at the output nodes. -/
theorem C118_perceptron (W : Mat ℝ) (u : List ℝ) (h : W.cols = u.length) :
    percOutput W u = .ok ((List.range W.rows).map (netScores .sigmoid [W] (fun j => u.getD j 0))) := by
  unfold percOutput
  conv_lhs => rw [eq_vec u, ← h]
  exact mulRightR_vec W _

theorem C118_multilayer (act : Activation) (w : Two ℝ) (u : List ℝ) (K : Nat) (h : Fits [w.W, w.V] u.length K) :
    mlpOutput act w u = .ok ((List.range K).map (netScores act [w.W, w.V] (fun j => u.getD j 0))) := by
  obtain ⟨hc, hc2, hr⟩ := h
  have hr' : w.V.rows = K := by simpa [Fits] using hr
  unfold mlpOutput forwardSingleHidden
  conv_lhs => rw [eq_vec u, ← hc]
  rw [calculateHidden_vec]
  simp only [res_bind_ok]
  rw [biased_vec, ← hc2, mulRightR_vec, hr']
  rfl

theorem C118_deep (act : Activation) (ws : List (Mat ℝ)) (u : List ℝ) (K : Nat) (h : Fits ws u.length K)
    (hlen : 2 ≤ ws.length) :
    deepOutput act ws u = .ok ((List.range K).map (netScores act ws (fun j => u.getD j 0))) := by
  obtain ⟨hd, hlast⟩ := fits_dims ws _ K h
  have hrows := hlast (by omega)
  unfold deepOutput
  conv_lhs => rw [eq_vec u]
  obtain ⟨m, hm⟩ : ∃ m, ws.length = m + 2 := ⟨ws.length - 2, by omega⟩
  have hm1 : ws.length - 1 = m + 1 := by omega
  rw [hm1, deepOutput_loop act ws _ _ hd m (by omega), atR_wAt ws (m + 1) (by omega)]
  simp only [res_bind_ok]
  rw [← hd (m + 1) (by omega), mulRightR_vec, netScores_last act ws _ (by omega), ← hrows, hm1]
  rfl

example : ∃ y, deepOutput .tanh ([⟨3, 2, fun _ _ => 1⟩, ⟨5, 4, fun i j => i - j⟩,
    ⟨2, 6, fun i _ => i⟩] : List (Mat ℝ)) [1, 3] = .ok y :=
  ⟨_, C118_deep .tanh _ [1, 3] 2 ⟨rfl, rfl, rfl, rfl⟩ (by simp)⟩

/-! ## prediction never fails -/

theorem netPredict_total (labels : List String) (hne : labels ≠ []) (output : List ℝ → Res (List ℝ)) (d : Nat)
    (hout : ∀ v : List ℝ, v.length = d + 1 → ∃ y, output v = .ok y ∧ y.length = labels.length)
    (x : Inst ℝ) (hx : NumericInst d x) :
    ∃ c, netPredict labels output x = .ok c ∧ (x.isComposite = false → c ∈ labels) ∧
      (x.isComposite = true → c ∈ x.possibleLabels) := by
  obtain ⟨⟨u, hu, hattr⟩, hp⟩ := hx
  have hv := inputVector_vec x u hattr
  obtain ⟨y, hy, hlen⟩ := hout (vec (u.length + 1) (withBias (fun j => u.getD j 0))) (by rw [vec_length, hu])
  cases hc : x.isComposite with
  | false =>
    obtain ⟨k, c, a, h1, h2, _⟩ := C76_plain labels output x _ y hc hv hy hlen hne (fun a _ => ord_real a)
    exact ⟨c, h1, fun _ => List.mem_of_getElem? h2, fun h => by cases h⟩
  | true =>
    rw [C76_predict labels output x _ y hc hv hy]
    obtain ⟨p, ps, hps⟩ := List.exists_cons_of_ne_nil (hp hc)
    rw [hps]
    obtain ⟨b, hb, _, hcase⟩ := compositeScan (p :: ps) y labels (by
      intro i a hi _
      have hlt : i < y.length := by have := (List.getElem?_eq_some_iff.1 hi).1; omega
      exact ⟨y[i], List.getElem?_eq_getElem hlt, ord_real _⟩) labels.length le_rfl (p, Dbl.neg (Dbl.maxVal : ℝ)) (ord_real _)
    have htake : labels.zipIdx.take labels.length = labels.zipIdx := by
      rw [List.take_of_length_le]; simp
    rw [htake] at hb
    refine ⟨b.1, ?_, (fun h => by cases h), fun _ => ?_⟩
    · unfold predictWithComposite atR
      simp only [List.getElem?_cons_zero, res_bind_ok, hb, res_pure]
    · rcases hcase with ⟨rfl, _⟩ | ⟨k, _, _, h, _⟩
      · simp
      · exact h

theorem validationAccuracy_total {W : Type} (labels : List String) (hne : labels ≠ [])
    (output : W → List ℝ → Res (List ℝ)) (d : Nat) (w : W)
    (hout : ∀ v : List ℝ, v.length = d + 1 → ∃ y, output w v = .ok y ∧ y.length = labels.length)
    (t : IList ℝ) (ht : ∀ x ∈ t, NumericInst d x) : ∃ a, validationAccuracy labels output t w = .ok a := by
  classical
  refine ⟨_, AccuracyIs.validation ⟨fun x => if h : NumericInst d x then
    (netPredict_total labels hne (output w) d hout x h).choose else "", ?_, rfl⟩⟩
  intro x hx
  simp only [dif_pos (ht x hx)]
  exact (netPredict_total labels hne (output w) d hout x (ht x hx)).choose_spec.1

/-! ## training never fails -/

theorem mem_shuffle {l : IList ℝ} {σ : List Nat} {x : Inst ℝ} (h : x ∈ l.shuffle σ) : x ∈ l := by
  unfold IList.shuffle at h
  obtain ⟨i, _, hi⟩ := List.mem_filterMap.1 h
  exact List.mem_of_getElem? hi

theorem epochLoop_total {W : Type} (step : ℝ → W → Inst ℝ → Res W) (perf : W → Res ℝ) (better : ℝ → ℝ → Bool)
    (decrease : ℝ) (σ : List Nat) (data : IList ℝ) (I : W → Prop)
    (hstep : ∀ eta w, ∀ x ∈ data, I w → ∃ w', step eta w x = .ok w' ∧ I w')
    (hperf : ∀ w, I w → ∃ a, perf w = .ok a) : ∀ (n : Nat) (s : Epochs W ℝ), I s.cur → I s.best →
    (∀ x ∈ s.data, x ∈ data) →
    ∃ s', epochLoop step perf better decrease σ n s = .ok s' ∧ I s'.cur ∧ I s'.best ∧ ∀ x ∈ s'.data, x ∈ data := by
  intro n
  induction n with
  | zero => intro s h1 h2 h3; exact ⟨s, rfl, h1, h2, h3⟩
  | succ n ih =>
    intro s h1 h2 h3
    obtain ⟨s', h4, h5, h6, h7⟩ := ih s h1 h2 h3
    have hfold : ∀ (l : IList ℝ) w, (∀ x ∈ l, x ∈ data) → I w → ∃ w', l.foldlM (step s'.eta) w = .ok w' ∧ I w' := by
      intro l
      induction l with
      | nil => intro w _ hw; exact ⟨w, rfl, hw⟩
      | cons x l ihl =>
        intro w hl hw
        obtain ⟨w1, e1, i1⟩ := hstep s'.eta w x (hl x (by simp)) hw
        obtain ⟨w2, e2, i2⟩ := ihl w1 (fun y hy => hl y (by simp [hy])) i1
        refine ⟨w2, ?_, i2⟩
        rw [List.foldlM_cons, e1]
        exact e2
    obtain ⟨w, e1, i1⟩ := hfold (s'.data.shuffle σ) s'.cur (fun x hx => h7 x (mem_shuffle hx)) h5
    obtain ⟨a, e2⟩ := hperf w i1
    have hone : epochStep step perf better decrease σ s' = .ok ⟨w, if better a s'.bestPerf then w else s'.best,
        if better a s'.bestPerf then a else s'.bestPerf, s'.eta *. decrease, s'.data.shuffle σ⟩ := by
      unfold epochStep
      simp only [e1, e2, res_bind_ok]
      rfl
    refine ⟨⟨w, if better a s'.bestPerf then w else s'.best, if better a s'.bestPerf then a else s'.bestPerf,
      s'.eta *. decrease, s'.data.shuffle σ⟩, ?_, i1, ?_, fun x hx => h7 x (mem_shuffle hx)⟩
    · unfold epochLoop at h4 ⊢
      rw [List.range_succ, List.foldlM_append, h4]
      simp only [res_bind_ok, List.foldlM_cons, List.foldlM_nil, hone]
      rfl
    · show I (if better a s'.bestPerf then w else s'.best)
      split
      · exact i1
      · exact h6

theorem netInitialize_ok (trainSet : IList ℝ) (d : Nat) (hne : trainSet ≠ [])
    (hnum : ∀ x ∈ trainSet, NumericInst d x) :
    netInitialize trainSet = .ok (trainSet.getDistinctClassLabels, d) := by
  obtain ⟨x0, t, rfl⟩ := List.exists_cons_of_ne_nil hne
  obtain ⟨⟨u, hu, hattr⟩, _⟩ := hnum x0 (by simp)
  have hdc : discreteCheck x0 = true := by
    unfold discreteCheck
    rw [hattr]
    simp [Attr.isDiscrete]
  have hget : IList.get (x0 :: t) 0 = .ok x0 := rfl
  unfold netInitialize
  rw [hget]
  simp only [res_bind_ok, hdc, contSize_ok x0 u hattr, hu]
  rfl

theorem labels_ne_nil (trainSet : IList ℝ) (hne : trainSet ≠ []) : trainSet.getDistinctClassLabels ≠ [] := by
  obtain ⟨x0, t, rfl⟩ := List.exists_cons_of_ne_nil hne
  have := (C07_distinct_class_labels (x0 :: t)).mem_iff x0.label
  intro h
  rw [h] at this
  simp at this

theorem label_mem (trainSet : IList ℝ) (x : Inst ℝ) (h : x ∈ trainSet) : x.label ∈ trainSet.getDistinctClassLabels :=
  ((C07_distinct_class_labels trainSet).mem_iff x.label).2 (List.mem_map_of_mem h)

/-- the two parts hold only training instances -/
theorem split_parts (trainSet : IList ℝ) (r : ℝ) (σ : List Nat) (hσ : IsPermutation σ trainSet.length) :
    ∃ held grown, Parts.byRatioStratified trainSet r σ = .ok [held, grown] ∧ (∀ x ∈ held, x ∈ trainSet) ∧
      ∀ x ∈ grown, x ∈ trainSet := by
  obtain ⟨p0, p1, h1, h2, _⟩ := C25_stratified_split trainSet r σ hσ
  exact ⟨p0, p1, h1, fun x hx => h2.mem_iff.1 (by simp [hx]), fun x hx => h2.mem_iff.1 (by simp [hx])⟩

/-- **C119.** Training a perceptron on a non-empty list of numeric instances of one dimension
succeeds, and the trained model predicts for every numeric instance of that dimension: a label
of the training list for a plain instance, a possible label for a composite one. -/
theorem C119_perceptron (param : NetParam ℝ) (old : Net (Mat ℝ)) (trainSet : IList ℝ) (d : Nat) (hne : trainSet ≠ [])
    (hnum : ∀ x ∈ trainSet, NumericInst d x) (hσ : IsPermutation param.splitOrder trainSet.length)
    (hrand : ∀ r c, (param.random r c).rows = r ∧ (param.random r c).cols = c) :
    ∃ net, percTrain param old trainSet = .ok net ∧ ∀ x, NumericInst d x →
      ∃ c, netPredict net.labels (percOutput net.weights) x = .ok c ∧
        (x.isComposite = false → c ∈ trainSet.map Inst.label) ∧ (x.isComposite = true → c ∈ x.possibleLabels) := by
  obtain ⟨held, grown, hs, hheld, hgrown⟩ := split_parts trainSet param.ratio param.splitOrder hσ
  have hL := labels_ne_nil trainSet hne
  set labels := trainSet.getDistinctClassLabels with hlab
  have hout : ∀ W : Mat ℝ, (W.rows = labels.length ∧ W.cols = d + 1) → ∀ v : List ℝ, v.length = d + 1 →
      ∃ y, percOutput W v = .ok y ∧ y.length = labels.length := by
    intro W hW v hv
    exact ⟨_, C118_perceptron W v (by rw [hW.2, hv]), by simp [hW.1]⟩
  obtain ⟨s', h1, h2, h3, h4⟩ := epochLoop_total (percStep labels) (validationAccuracy labels percOutput held) moreAccurate
    param.etaDecrease param.shuffleOrder grown (fun W : Mat ℝ => W.rows = labels.length ∧ W.cols = d + 1) (by
      intro eta W x hx hW
      obtain ⟨⟨u, hu, hattr⟩, _⟩ := hnum x (hgrown x hx)
      obtain ⟨W', e1, e2, e3, _⟩ := C115_perceptron_gradient labels x u W eta hattr (label_mem trainSet x (hgrown x hx)) hW.1 (by rw [hW.2, hu])
      exact ⟨W', e1, by rw [e2, hW.1], by rw [e3, hW.2]⟩) (by
      intro W hW
      exact validationAccuracy_total labels hL percOutput d W (hout W hW) held (fun x hx => hnum x (hheld x hx)))
    param.epochs ⟨param.random labels.length (d + 1), param.random labels.length (d + 1), Dbl.zero, param.learningRate, grown⟩
    (hrand _ _) (hrand _ _) (fun x hx => hx)
  refine ⟨⟨labels, d, s'.best⟩, ?_, ?_⟩
  · unfold percTrain
    rw [netInitialize_ok trainSet d hne hnum]
    simp only [res_bind_ok, hs]
    have e1 : atR [held, grown] 1 = .ok grown := rfl
    have e0 : atR [held, grown] 0 = .ok held := rfl
    rw [e1, e0]
    simp only [res_bind_ok, ← hlab]
    rw [h1]
    rfl
  · intro x hx
    obtain ⟨c, h5, h6, h7⟩ := netPredict_total labels hL (percOutput s'.best) d (hout _ h3) x hx
    exact ⟨c, h5, fun h => ((C07_distinct_class_labels trainSet).mem_iff c).1 (h6 h), h7⟩

theorem mlpDerivative_ok (act : Activation) (n : Nat) (z : Nat → ℝ) :
    ∃ D, mlpDerivative act (vec n (fun i => actReal act (z i))) = .ok (vec n D) := by
  by_cases h : act = .tanh
  · subst h
    exact ⟨_, mlpDerivative_tanh n z⟩
  · rw [mlpDerivative_eq, vec_length]
    exact ⟨_, deepDerivative_vec act h _ _ _⟩

/-- **C119** for the multilayer perceptron -/
theorem C119_multilayer (param : NetParam ℝ) (H : Nat) (act : Activation) (old : Net (Two ℝ)) (trainSet : IList ℝ) (d : Nat)
    (hne : trainSet ≠ []) (hnum : ∀ x ∈ trainSet, NumericInst d x) (hσ : IsPermutation param.splitOrder trainSet.length)
    (hrand : ∀ r c, (param.random r c).rows = r ∧ (param.random r c).cols = c) :
    ∃ net, mlpTrain param H act old trainSet = .ok net ∧ ∀ x, NumericInst d x →
      ∃ c, netPredict net.labels (mlpOutput act net.weights) x = .ok c ∧
        (x.isComposite = false → c ∈ trainSet.map Inst.label) ∧ (x.isComposite = true → c ∈ x.possibleLabels) := by
  obtain ⟨held, grown, hs, hheld, hgrown⟩ := split_parts trainSet param.ratio param.splitOrder hσ
  have hL := labels_ne_nil trainSet hne
  set labels := trainSet.getDistinctClassLabels with hlab
  have hout : ∀ w : Two ℝ, Fits [w.W, w.V] (d + 1) labels.length → ∀ v : List ℝ, v.length = d + 1 →
      ∃ y, mlpOutput act w v = .ok y ∧ y.length = labels.length := by
    intro w hw v hv
    exact ⟨_, C118_multilayer act w v labels.length (by rw [hv]; exact hw), by simp⟩
  have hini : Fits [param.random H (d + 1), param.random labels.length (H + 1)] (d + 1) labels.length := by
    refine ⟨(hrand _ _).2, ?_, ?_⟩
    · rw [(hrand _ _).2, (hrand _ _).1]
    · rw [(hrand _ _).1]; rfl
  obtain ⟨s', h1, h2, h3, h4⟩ := epochLoop_total (mlpStep labels act) (validationAccuracy labels (mlpOutput act) held) moreAccurate
    param.etaDecrease param.shuffleOrder grown (fun w : Two ℝ => Fits [w.W, w.V] (d + 1) labels.length) (by
      intro eta w x hx hW
      obtain ⟨⟨u, hu, hattr⟩, _⟩ := hnum x (hgrown x hx)
      obtain ⟨D, hD⟩ := mlpDerivative_ok act w.W.rows (score w.W (withBias (fun j => u.getD j 0)))
      obtain ⟨w', e1, e2, e3, e4, e5, _⟩ := mlpStep_ok labels act x u w eta hattr (label_mem trainSet x (hgrown x hx))
        (by rw [hu]; exact hW) D hD
      refine ⟨w', e1, ?_, ?_, ?_⟩
      · rw [e3]; exact hW.1
      · rw [e5, e2]; exact hW.2.1
      · rw [e4]; exact hW.2.2) (by
      intro W hW
      exact validationAccuracy_total labels hL (mlpOutput act) d W (hout W hW) held (fun x hx => hnum x (hheld x hx)))
    param.epochs ⟨⟨param.random H (d + 1), param.random labels.length (H + 1)⟩,
      ⟨param.random H (d + 1), param.random labels.length (H + 1)⟩, Dbl.zero, param.learningRate, grown⟩
    hini hini (fun x hx => hx)
  refine ⟨⟨labels, d, s'.best⟩, ?_, ?_⟩
  · unfold mlpTrain
    rw [netInitialize_ok trainSet d hne hnum]
    simp only [res_bind_ok, hs]
    have e1 : atR [held, grown] 1 = .ok grown := rfl
    have e0 : atR [held, grown] 0 = .ok held := rfl
    rw [e1, e0]
    simp only [res_bind_ok, ← hlab]
    rw [h1]
    rfl
  · intro x hx
    obtain ⟨c, h5, h6, h7⟩ := netPredict_total labels hL (mlpOutput act s'.best) d (hout _ h3) x hx
    exact ⟨c, h5, fun h => ((C07_distinct_class_labels trainSet).mem_iff c).1 (h6 h), h7⟩

/-! ### deep networks -/

/-- sizes of the layers -/
def shape (ws : List (Mat ℝ)) : List (Nat × Nat) := ws.map (fun w => (w.rows, w.cols))

theorem fits_congr : ∀ (ws ws' : List (Mat ℝ)) (n K : Nat), shape ws' = shape ws → Fits ws n K → Fits ws' n K := by
  intro ws
  induction ws with
  | nil => intro ws' n K hl h; simp [shape] at hl; subst hl; exact h
  | cons w ws ih =>
    intro ws' n K hl h
    cases ws' with
    | nil => simp [shape] at hl
    | cons w' ws' =>
      simp only [shape, List.map_cons, List.cons.injEq, Prod.mk.injEq] at hl
      obtain ⟨⟨h2, h3⟩, h4⟩ := hl
      refine ⟨by rw [h3]; exact h.1, ?_⟩
      rw [h2]
      exact ih ws' _ K h4 h.2

theorem shape_length {ws ws' : List (Mat ℝ)} (h : shape ws' = shape ws) : ws'.length = ws.length := by
  have := congrArg List.length h
  simpa [shape] using this

theorem shape_rows {ws ws' : List (Mat ℝ)} (h : shape ws' = shape ws) (k : Nat) : (wAt ws' k).rows = (wAt ws k).rows := by
  have h1 : (shape ws')[k]? = (shape ws)[k]? := by rw [h]
  simp only [shape, List.getElem?_map] at h1
  unfold wAt
  rw [List.getD_eq_getElem?_getD, List.getD_eq_getElem?_getD]
  cases h2 : ws'[k]? with
  | none =>
    rw [h2] at h1
    cases h3 : ws[k]? with
    | none => rfl
    | some w => rw [h3] at h1; simp at h1
  | some w' =>
    rw [h2] at h1
    cases h3 : ws[k]? with
    | none => rw [h3] at h1; simp at h1
    | some w => rw [h3] at h1; simp at h1; exact h1.1

/-- the derivative is found or the sizes do not match -/
theorem deepDerivative_cases (act : Activation) (layers n : Nat) (z : Nat → ℝ) :
    (∃ D, deepDerivative act layers (vec n (fun i => actReal act (z i))) = .ok (vec n D)) ∨
      deepDerivative act layers (vec n (fun i => actReal act (z i))) = .error (.throw "VectorSizeMismatch") := by
  by_cases h : act = .tanh
  · subst h
    by_cases hl : layers = n
    · left
      subst hl
      have := mlpDerivative_tanh layers z
      rw [mlpDerivative_eq, vec_length] at this
      exact ⟨_, this⟩
    · right
      simp only [deepDerivative]
      rw [vec_map, elemR_vec]
      simp only [res_bind_ok]
      unfold diffR subChecked
      rw [if_neg (by simp [vec_length]; omega)]
  · exact Or.inl ⟨_, deepDerivative_vec act h _ _ _⟩

/-- the weight changes for the layers from `m` on have the right sizes -/
def DimsOk (ws ds : List (Mat ℝ)) (m : Nat) : Prop :=
  ds.length = ws.length - m ∧
    ∀ (k : Nat) dw, ds[k]? = some dw → dw.rows = (wAt ws (m + k)).rows ∧ dw.cols = (wAt ws (m + k)).cols

theorem backward_total (act : Activation) (ws : List (Mat ℝ)) (n : Nat) (u : Nat → ℝ)
    (hd : ∀ k < ws.length, (wAt ws k).cols = widthAt ws n k) (rMinusY : List ℝ)
    (hr : ∃ δ, rMinusY = vec (wAt ws (ws.length - 1)).rows δ) :
    ∀ m ≤ ws.length - 1, ∀ t ds, (m ≠ ws.length - 1 → ∃ δ, t = vec (wAt ws m).rows δ) → DimsOk ws ds m →
    (List.range m).reverse.foldlM (deepBackStep act ws (vec n u) rMinusY
        ((List.range (ws.length - 1)).map (fun k => vec (wAt ws k).rows (fun i => actReal act (score (wAt ws k) (inpAt act ws u k) i))))
        ((List.range (ws.length - 1)).map (fun k => vec (widthAt ws n (k + 1)) (inpAt act ws u (k + 1)))))
      (t, ds) = .error (.throw "VectorSizeMismatch") ∨
    ∃ t' ds', (List.range m).reverse.foldlM (deepBackStep act ws (vec n u) rMinusY
        ((List.range (ws.length - 1)).map (fun k => vec (wAt ws k).rows (fun i => actReal act (score (wAt ws k) (inpAt act ws u k) i))))
        ((List.range (ws.length - 1)).map (fun k => vec (widthAt ws n (k + 1)) (inpAt act ws u (k + 1)))))
      (t, ds) = .ok (t', ds') ∧ DimsOk ws ds' 0 := by
  intro m
  induction m with
  | zero => intro _ t ds _ h; exact Or.inr ⟨t, ds, rfl, h⟩
  | succ m ih =>
    intro hm t ds ht hds
    rw [List.range_succ (n := m), List.reverse_append, List.reverse_cons, List.reverse_nil, List.nil_append,
      List.singleton_append, List.foldlM_cons]
    obtain ⟨δ, hin⟩ : ∃ δ, (if m + 2 = ws.length then rMinusY else t) = vec (wAt ws (m + 1)).rows δ := by
      by_cases h : m + 2 = ws.length
      · rw [if_pos h]
        have : ws.length - 1 = m + 1 := by omega
        rwa [this] at hr
      · rw [if_neg h]
        exact ht (by omega)
    have hh : atR ((List.range (ws.length - 1)).map (fun k => vec (wAt ws k).rows
        (fun i => actReal act (score (wAt ws k) (inpAt act ws u k) i)))) m =
        .ok (vec (wAt ws m).rows (fun i => actReal act (score (wAt ws m) (inpAt act ws u m) i))) := by
      rw [atR_eq_ok, List.getElem?_map, List.getElem?_range (by omega)]
      rfl
    rcases deepDerivative_cases act ((List.range (ws.length - 1)).map (fun k => vec (wAt ws k).rows
        (fun i => actReal act (score (wAt ws k) (inpAt act ws u k) i)))).length (wAt ws m).rows
        (score (wAt ws m) (inpAt act ws u m)) with ⟨D, hD⟩ | hD
    · have hstep : ∃ δ', deepBackStep act ws (vec n u) rMinusY
          ((List.range (ws.length - 1)).map (fun k => vec (wAt ws k).rows (fun i => actReal act (score (wAt ws k) (inpAt act ws u k) i))))
          ((List.range (ws.length - 1)).map (fun k => vec (widthAt ws n (k + 1)) (inpAt act ws u (k + 1)))) (t, ds) m =
          .ok (vec (wAt ws m).rows δ', Mat.outer (vec (wAt ws m).rows δ') (vec (widthAt ws n m) (inpAt act ws u m)) :: ds) := by
        refine ⟨fun i => (∑ a ∈ Finset.range (wAt ws (m + 1)).rows, δ a * (wAt ws (m + 1)).e a (i + 1)) * D i, ?_⟩
        unfold deepBackStep
        rw [atR_wAt ws (m + 1) (by omega)]
        simp only [res_bind_ok]
        rw [hin, mulLeftR_vec, hd (m + 1) (by omega)]
        have hw1 : widthAt ws n (m + 1) = (wAt ws m).rows + 1 := rfl
        rw [hw1, vec_succ]
        simp only [removeFirst, res_bind_ok]
        rw [hh]
        simp only [res_bind_ok]
        rw [hD]
        simp only [res_bind_ok]
        rw [elemR_vec]
        simp only [res_bind_ok]
        rw [layerInput_vec act ws n u (ws.length - 1) m (by omega)]
        rfl
      obtain ⟨δ', hstep⟩ := hstep
      rw [hstep]
      simp only [res_bind_ok]
      refine ih (by omega) _ _ (fun _ => ⟨δ', rfl⟩) ?_
      obtain ⟨hl, hk⟩ := hds
      refine ⟨by rw [List.length_cons, hl]; omega, ?_⟩
      intro k dw hdw
      cases k with
      | zero =>
        simp only [List.getElem?_cons_zero, Option.some.injEq] at hdw
        subst hdw
        simp [Mat.outer, vec_length, hd m (by omega)]
      | succ k =>
        have := hk k dw (by simpa using hdw)
        have e : m + (k + 1) = m + 1 + k := by omega
        rw [e]
        exact this
    · left
      have hstep : deepBackStep act ws (vec n u) rMinusY
          ((List.range (ws.length - 1)).map (fun k => vec (wAt ws k).rows (fun i => actReal act (score (wAt ws k) (inpAt act ws u k) i))))
          ((List.range (ws.length - 1)).map (fun k => vec (widthAt ws n (k + 1)) (inpAt act ws u (k + 1)))) (t, ds) m =
          .error (.throw "VectorSizeMismatch") := by
        unfold deepBackStep
        rw [atR_wAt ws (m + 1) (by omega)]
        simp only [res_bind_ok]
        rw [hin, mulLeftR_vec, hd (m + 1) (by omega)]
        have hw1 : widthAt ws n (m + 1) = (wAt ws m).rows + 1 := rfl
        rw [hw1, vec_succ]
        simp only [removeFirst, res_bind_ok]
        rw [hh]
        simp only [res_bind_ok]
        rw [hD]
        rfl
      rw [hstep]
      rfl

theorem deepStep_total (labels : List String) (act : Activation) (x : Inst ℝ) (u : List ℝ) (ws : List (Mat ℝ)) (eta : ℝ)
    (hattr : x.attrs = u.map Attr.continuous) (hx : x.label ∈ labels)
    (hfit : Fits ws (u.length + 1) labels.length) (hlen : 2 ≤ ws.length) :
    ∃ ws', deepStep labels act (ws.length - 1) eta ws x = .ok ws' ∧ shape ws' = shape ws := by
  set inp := withBias (fun j => u.getD j 0) with hinp
  obtain ⟨hd, hlast⟩ := fits_dims ws _ labels.length hfit
  have hrows := hlast (by omega)
  have hdelta : deepDeltas labels act (ws.length - 1) x (vec (u.length + 1) inp) ws = .error (.throw "VectorSizeMismatch") ∨
      ∃ ds, deepDeltas labels act (ws.length - 1) x (vec (u.length + 1) inp) ws = .ok ds ∧ DimsOk ws ds 0 := by
    unfold deepDeltas
    rw [forward_ok act ws _ inp hd (ws.length - 1) (by omega)]
    simp only [res_bind_ok]
    rw [if_neg (by omega)]
    have htop : atR ((List.range (ws.length - 1)).map (fun k => vec (widthAt ws (u.length + 1) (k + 1)) (inpAt act ws inp (k + 1))))
        (ws.length - 1 - 1) = .ok (vec (widthAt ws (u.length + 1) (ws.length - 1)) (inpAt act ws inp (ws.length - 1))) := by
      rw [atR_eq_ok, List.getElem?_map, List.getElem?_range (by omega)]
      have : ws.length - 1 - 1 + 1 = ws.length - 1 := by omega
      simp only [Option.map_some, this]
    rw [htop, atR_wAt ws (ws.length - 1) (by omega)]
    simp only [res_bind_ok]
    rw [← hd (ws.length - 1) (by omega), rMinusY_vec labels x _ _ hx hrows]
    simp only [res_bind_ok]
    rcases backward_total act ws (u.length + 1) inp hd (vec labels.length (outError labels.length (labels.idxOf x.label)
      (score (wAt ws (ws.length - 1)) (inpAt act ws inp (ws.length - 1))))) ⟨_, by rw [hrows]⟩ (ws.length - 1) le_rfl []
      [Mat.outer (vec labels.length (outError labels.length (labels.idxOf x.label)
        (score (wAt ws (ws.length - 1)) (inpAt act ws inp (ws.length - 1)))))
        (vec (wAt ws (ws.length - 1)).cols (inpAt act ws inp (ws.length - 1)))] (fun h => absurd rfl h) (by
          refine ⟨by simp; omega, ?_⟩
          intro k dw hk
          cases k with
          | zero =>
            simp only [List.getElem?_cons_zero, Option.some.injEq] at hk
            subst hk
            simp [Mat.outer, vec_length, hrows]
          | succ k => simp at hk) with h | ⟨t', ds, h, h2⟩
    · left; rw [h]; rfl
    · right; rw [h]; exact ⟨ds, rfl, h2⟩
  unfold deepStep
  rw [inputVector_vec x u hattr, ← hinp]
  simp only [res_bind_ok]
  rcases hdelta with h | ⟨ds, h, hl, hk⟩
  · rw [h]
    exact ⟨ws, rfl, rfl⟩
  · rw [h]
    simp only [res_bind_ok]
    have hdim : ∀ (k : Nat) w dw, ws[k]? = some w → ds[k]? = some dw → w.rows = dw.rows ∧ w.cols = dw.cols := by
      intro k w dw hw hdw
      have hk' := (List.getElem?_eq_some_iff.1 hw).1
      rw [wAt_get? ws k hk', Option.some.injEq] at hw
      have := hk k dw hdw
      rw [Nat.zero_add] at this
      subst hw
      exact ⟨this.1.symm, this.2.symm⟩
    obtain ⟨ws', h1, h2, h3⟩ := deepApply_ok eta ws ds (by rw [hl]; rfl) hdim
    rw [h1]
    refine ⟨ws', rfl, ?_⟩
    apply List.ext_getElem?
    intro k
    simp only [shape, List.getElem?_map]
    by_cases hk' : k < ws.length
    · have hw := wAt_get? ws k hk'
      obtain ⟨dw, hdw⟩ : ∃ dw, ds[k]? = some dw := ⟨_, List.getElem?_eq_getElem (by rw [hl]; exact hk')⟩
      obtain ⟨w', h4, h5⟩ := h3 k _ dw hw hdw
      have := hdim k _ dw hw hdw
      unfold Mat.addR at h5
      have hc : (wAt ws k).rows = (dw.scale eta).rows ∧ (wAt ws k).cols = (dw.scale eta).cols := this
      rw [if_pos hc] at h5
      cases h5
      rw [h4, hw]
      rfl
    · rw [List.getElem?_eq_none (by omega), List.getElem?_eq_none (by omega)]

/-- the layers of a fresh network -/
def freshLayers (random : Nat → Nat → Mat ℝ) (K : Nat) : Nat → List Nat → List (Mat ℝ)
  | n, [] => [random K n]
  | n, h :: hs => random h n :: freshLayers random K (h + 1) hs

theorem freshLayers_length (random : Nat → Nat → Mat ℝ) (K : Nat) : ∀ (hs : List Nat) (n : Nat),
    (freshLayers random K n hs).length = hs.length + 1 := by
  intro hs
  induction hs with
  | nil => intro n; rfl
  | cons h hs ih => intro n; simp [freshLayers, ih]

theorem freshLayers_fits (random : Nat → Nat → Mat ℝ) (K : Nat)
    (hrand : ∀ r c, (random r c).rows = r ∧ (random r c).cols = c) : ∀ (hs : List Nat) (n : Nat),
    Fits (freshLayers random K n hs) n K := by
  intro hs
  induction hs with
  | nil => intro n; exact ⟨(hrand _ _).2, by rw [(hrand _ _).1]; rfl⟩
  | cons h hs ih => intro n; exact ⟨(hrand _ _).2, by rw [(hrand _ _).1]; exact ih _⟩

theorem freshLayers_eq (random : Nat → Nat → Mat ℝ) (K : Nat) : ∀ (hs : List Nat) (h n : Nat),
    random h n :: ((List.range hs.length).map (fun i => random ((h :: hs).getD (i + 1) 0) ((h :: hs).getD i 0 + 1)) ++
      [random K ((h :: hs).getD hs.length 0 + 1)]) = freshLayers random K n (h :: hs) := by
  intro hs
  induction hs with
  | nil => intro h n; rfl
  | cons h2 hs ih =>
    intro h n
    rw [freshLayers, ← ih h2 (h + 1)]
    congr 1
    rw [List.length_cons, List.range_succ_eq_map, List.map_cons, List.map_map]
    rfl

theorem deepAllocate_ok (random : Nat → Nat → Mat ℝ) (labels : List String) (d : Nat) (hidden : List Nat)
    (hne : hidden ≠ []) (old : List (Mat ℝ)) :
    deepAllocate random labels d hidden old = .ok (old ++ freshLayers random labels.length (d + 1) hidden) := by
  obtain ⟨h, hs, rfl⟩ := List.exists_cons_of_ne_nil hne
  have hget : ∀ i ≤ hs.length, atR (h :: hs) i = .ok ((h :: hs).getD i 0) := by
    intro i hi
    rw [atR_eq_ok, List.getD_eq_getElem?_getD, List.getElem?_eq_getElem (by simp; omega)]
    rfl
  unfold deepAllocate
  rw [hget 0 (by omega)]
  simp only [res_bind_ok, List.length_cons, Nat.add_sub_cancel]
  rw [mapM_ok (g := fun i => random ((h :: hs).getD (i + 1) 0) ((h :: hs).getD i 0 + 1)) (by
    intro i hi
    have := List.mem_range.1 hi
    rw [hget (i + 1) (by omega), hget i (by omega)]
    rfl), hget hs.length le_rfl, ← freshLayers_eq]
  simp

theorem deepTrain_fresh (param : NetParam ℝ) (hidden : List Nat) (act : Activation) (labels0 : List String) (d0 : Nat)
    (trainSet : IList ℝ) (d : Nat) (hhid : hidden ≠ [])
    (hne : trainSet ≠ []) (hnum : ∀ x ∈ trainSet, NumericInst d x) (hσ : IsPermutation param.splitOrder trainSet.length)
    (hrand : ∀ r c, (param.random r c).rows = r ∧ (param.random r c).cols = c) :
    ∃ net, deepTrain param hidden act ⟨labels0, d0, []⟩ trainSet = .ok net ∧
      shape net.weights = shape (freshLayers param.random trainSet.getDistinctClassLabels.length (d + 1) hidden) ∧
      ∀ x, NumericInst d x →
      ∃ c, netPredict net.labels (deepOutput act net.weights) x = .ok c ∧
        (x.isComposite = false → c ∈ trainSet.map Inst.label) ∧ (x.isComposite = true → c ∈ x.possibleLabels) := by
  obtain ⟨held, grown, hs, hheld, hgrown⟩ := split_parts trainSet param.ratio param.splitOrder hσ
  have hL := labels_ne_nil trainSet hne
  set labels := trainSet.getDistinctClassLabels with hlab
  have hpos : 0 < hidden.length := List.length_pos_iff.2 hhid
  have hout : ∀ ws : List (Mat ℝ), shape ws = shape (freshLayers param.random labels.length (d + 1) hidden) →
      ∀ v : List ℝ, v.length = d + 1 → ∃ y, deepOutput act ws v = .ok y ∧ y.length = labels.length := by
    intro w hw v hv
    have hl := shape_length hw
    rw [freshLayers_length] at hl
    exact ⟨_, C118_deep act w v labels.length (by rw [hv]; exact fits_congr _ _ _ _ hw (freshLayers_fits _ _ hrand _ _)) (by omega), by simp⟩
  obtain ⟨s', h1, h2, h3, h4⟩ := epochLoop_total (deepStep labels act hidden.length)
    (validationAccuracy labels (deepOutput act) held) moreAccurate
    param.etaDecrease param.shuffleOrder grown
    (fun ws : List (Mat ℝ) => shape ws = shape (freshLayers param.random labels.length (d + 1) hidden)) (by
      intro eta w x hx hW
      obtain ⟨⟨u, hu, hattr⟩, _⟩ := hnum x (hgrown x hx)
      have hl := shape_length hW
      rw [freshLayers_length] at hl
      obtain ⟨w', e1, e2⟩ := deepStep_total labels act x u w eta hattr (label_mem trainSet x (hgrown x hx))
        (by rw [hu]; exact fits_congr _ _ _ _ hW (freshLayers_fits _ _ hrand _ _)) (by omega)
      have hl : w.length - 1 = hidden.length := by omega
      rw [hl] at e1
      exact ⟨w', e1, e2.trans hW⟩) (by
      intro W hW
      exact validationAccuracy_total labels hL (deepOutput act) d W (hout W hW) held (fun x hx => hnum x (hheld x hx)))
    param.epochs ⟨freshLayers param.random labels.length (d + 1) hidden,
      freshLayers param.random labels.length (d + 1) hidden, Dbl.zero, param.learningRate, grown⟩
    rfl rfl (fun x hx => hx)
  refine ⟨⟨labels, d, s'.best⟩, ?_, h3, ?_⟩
  · unfold deepTrain
    rw [netInitialize_ok trainSet d hne hnum]
    simp only [res_bind_ok, hs]
    have e1 : atR [held, grown] 1 = .ok grown := rfl
    have e0 : atR [held, grown] 0 = .ok held := rfl
    rw [e1, e0]
    simp only [res_bind_ok, ← hlab]
    rw [deepAllocate_ok _ _ _ _ hhid, List.nil_append]
    simp only [res_bind_ok]
    rw [h1]
    rfl
  · intro x hx
    obtain ⟨c, h5, h6, h7⟩ := netPredict_total labels hL (deepOutput act s'.best) d (hout _ h3) x hx
    exact ⟨c, h5, fun h => ((C07_distinct_class_labels trainSet).mem_iff c).1 (h6 h), h7⟩

/-- **C119** for deep networks trained for the first time -/
theorem C119_deep (param : NetParam ℝ) (hidden : List Nat) (act : Activation) (labels0 : List String) (d0 : Nat)
    (trainSet : IList ℝ) (d : Nat) (hhid : hidden ≠ [])
    (hne : trainSet ≠ []) (hnum : ∀ x ∈ trainSet, NumericInst d x) (hσ : IsPermutation param.splitOrder trainSet.length)
    (hrand : ∀ r c, (param.random r c).rows = r ∧ (param.random r c).cols = c) :
    ∃ net, deepTrain param hidden act ⟨labels0, d0, []⟩ trainSet = .ok net ∧ ∀ x, NumericInst d x →
      ∃ c, netPredict net.labels (deepOutput act net.weights) x = .ok c ∧
        (x.isComposite = false → c ∈ trainSet.map Inst.label) ∧ (x.isComposite = true → c ∈ x.possibleLabels) := by
  obtain ⟨net, h1, _, h2⟩ := deepTrain_fresh param hidden act labels0 d0 trainSet d hhid hne hnum hσ hrand
  exact ⟨net, h1, h2⟩

theorem freshLayers_last (random : Nat → Nat → Mat ℝ) (K : Nat)
    (hrand : ∀ r c, (random r c).rows = r ∧ (random r c).cols = c) : ∀ (hs : List Nat) (n : Nat) (h : hs ≠ []),
    (wAt (freshLayers random K n hs) (hs.length - 1)).rows = hs.getLast h := by
  intro hs
  induction hs with
  | nil => intro n h; exact absurd rfl h
  | cons a hs ih =>
    intro n _
    cases hs with
    | nil => simp [freshLayers, wAt, (hrand a n).1]
    | cons b hs =>
      have := ih (a + 1) (by simp)
      simpa [freshLayers, wAt] using this

/-- **C116 is refuted for deep `tanh` networks, whole training.** Unless the last hidden layer is as
wide as there are hidden layers, training returns the random initial weights, whatever the data. -/
theorem C116_deep_tanh_training_refuted (param : NetParam ℝ) (hidden : List Nat) (labels0 : List String) (d0 : Nat)
    (trainSet : IList ℝ) (d : Nat) (hhid : hidden ≠ []) (hlast : hidden.getLast hhid ≠ hidden.length)
    (hne : trainSet ≠ []) (hnum : ∀ x ∈ trainSet, NumericInst d x) (hσ : IsPermutation param.splitOrder trainSet.length)
    (hrand : ∀ r c, (param.random r c).rows = r ∧ (param.random r c).cols = c) :
    ∃ net, deepTrain param hidden .tanh ⟨labels0, d0, []⟩ trainSet = .ok net ∧
      deepAllocate param.random trainSet.getDistinctClassLabels d hidden [] = .ok net.weights := by
  obtain ⟨held, grown, hs, hheld, hgrown⟩ := split_parts trainSet param.ratio param.splitOrder hσ
  have hL := labels_ne_nil trainSet hne
  set labels := trainSet.getDistinctClassLabels with hlab
  have hpos : 0 < hidden.length := List.length_pos_iff.2 hhid
  have hfit := freshLayers_fits param.random labels.length hrand hidden (d + 1)
  have hfl := freshLayers_length param.random labels.length hidden (d + 1)
  obtain ⟨s', h1, h2, h3, h4⟩ := epochLoop_total (deepStep labels .tanh hidden.length)
    (validationAccuracy labels (deepOutput .tanh) held) moreAccurate
    param.etaDecrease param.shuffleOrder grown
    (fun ws : List (Mat ℝ) => ws = freshLayers param.random labels.length (d + 1) hidden) (by
      intro eta w x hx hW
      obtain ⟨⟨u, hu, hattr⟩, _⟩ := hnum x (hgrown x hx)
      subst hW
      have := C116_deep_tanh_refuted labels x u (freshLayers param.random labels.length (d + 1) hidden) eta hattr
        (label_mem trainSet x (hgrown x hx)) (by rw [hu]; exact hfit) (by omega) (by
          intro w hw
          have hk : hidden.length + 1 - 2 = hidden.length - 1 := by omega
          rw [hfl, hk, wAt_get? _ _ (by omega), Option.some.injEq] at hw
          rw [← hw, freshLayers_last _ _ hrand _ _ hhid, hfl, Nat.add_sub_cancel]
          exact hlast)
      rw [hfl, Nat.add_sub_cancel] at this
      exact ⟨_, this, rfl⟩) (by
      intro W hW
      exact validationAccuracy_total labels hL (deepOutput .tanh) d W (fun v hv => by
        subst hW
        exact ⟨_, C118_deep .tanh _ v labels.length (by rw [hv]; exact hfit) (by omega), by simp⟩) held
        (fun x hx => hnum x (hheld x hx)))
    param.epochs ⟨freshLayers param.random labels.length (d + 1) hidden,
      freshLayers param.random labels.length (d + 1) hidden, Dbl.zero, param.learningRate, grown⟩
    rfl rfl (fun x hx => hx)
  refine ⟨⟨labels, d, s'.best⟩, ?_, ?_⟩
  · unfold deepTrain
    rw [netInitialize_ok trainSet d hne hnum]
    simp only [res_bind_ok, hs]
    have e1 : atR [held, grown] 1 = .ok grown := rfl
    have e0 : atR [held, grown] 0 = .ok held := rfl
    rw [e1, e0]
    simp only [res_bind_ok, ← hlab]
    rw [deepAllocate_ok _ _ _ _ hhid, List.nil_append]
    simp only [res_bind_ok]
    rw [h1]
    rfl
  · rw [deepAllocate_ok _ _ _ _ hhid, List.nil_append]
    show _ = Except.ok s'.best
    rw [h3]

/-! ## C55: training a deep network a second time -/

theorem wAt_left (A B : List (Mat ℝ)) (k : Nat) (h : k < A.length) : wAt (A ++ B) k = wAt A k := by
  unfold wAt
  rw [List.getD_eq_getElem?_getD, List.getD_eq_getElem?_getD, List.getElem?_append_left h]

theorem wAt_right (A B : List (Mat ℝ)) (k : Nat) : wAt (A ++ B) (A.length + k) = wAt B k := by
  unfold wAt
  rw [List.getD_eq_getElem?_getD, List.getD_eq_getElem?_getD, List.getElem?_append_right (by omega)]
  congr 2
  omega

theorem deepStep_twice (labels : List String) (act : Activation) (x : Inst ℝ) (u : List ℝ) (A B : List (Mat ℝ)) (eta : ℝ)
    (hattr : x.attrs = u.map Attr.continuous) (hx : x.label ∈ labels) (hs : shape A = shape B)
    (hfit : Fits B (u.length + 1) labels.length) (hlen : 2 ≤ B.length) :
    deepStep labels act (B.length - 1) eta (A ++ B) x = .error (.throw "out_of_range") := by
  set inp := withBias (fun j => u.getD j 0) with hinp
  have hlA := shape_length hs
  obtain ⟨m, hm⟩ : ∃ m, B.length = m + 2 := ⟨B.length - 2, by omega⟩
  have hm1 : B.length - 1 = m + 1 := by omega
  have hfitA := fits_congr _ _ _ _ hs hfit
  obtain ⟨hdA, _⟩ := fits_dims A _ labels.length hfitA
  obtain ⟨hdB, hlast⟩ := fits_dims B _ labels.length hfit
  have hrows := hlast (by omega)
  have hwl : ∀ k < m + 2, wAt (A ++ B) k = wAt A k := fun k hk => wAt_left A B k (by omega)
  have hlast2 : wAt (A ++ B) ((A ++ B).length - 1) = wAt B (m + 1) := by
    have : (A ++ B).length - 1 = A.length + (m + 1) := by rw [List.length_append]; omega
    rw [this, wAt_right]
  have hd : ∀ k < m + 1, (wAt (A ++ B) k).cols = widthAt (A ++ B) (u.length + 1) k := by
    intro k hk
    rw [hwl k (by omega), hdA k (by omega)]
    cases k with
    | zero => rfl
    | succ k => simp only [widthAt]; rw [hwl k (by omega)]
  have herr : deepDeltas labels act (B.length - 1) x (vec (u.length + 1) inp) (A ++ B) = .error (.throw "out_of_range") := by
    unfold deepDeltas
    rw [hm1, forward_ok' act (A ++ B) _ inp (m + 1) (by rw [List.length_append]; omega) hd]
    simp only [res_bind_ok]
    rw [if_neg (by omega)]
    have htop : atR ((List.range (m + 1)).map (fun k => vec (widthAt (A ++ B) (u.length + 1) (k + 1)) (inpAt act (A ++ B) inp (k + 1))))
        (m + 1 - 1) = .ok (vec (widthAt (A ++ B) (u.length + 1) (m + 1)) (inpAt act (A ++ B) inp (m + 1))) := by
      rw [atR_eq_ok, List.getElem?_map, List.getElem?_range (by omega)]
      rfl
    rw [htop, atR_wAt (A ++ B) _ (by rw [List.length_append]; omega), hlast2]
    simp only [res_bind_ok]
    have hw : widthAt (A ++ B) (u.length + 1) (m + 1) = (wAt B (m + 1)).cols := by
      rw [hdB (m + 1) (by omega)]
      simp only [widthAt]
      rw [hwl m (by omega), shape_rows hs]
    rw [hm1] at hrows
    rw [hw, rMinusY_vec labels x _ _ hx hrows]
    simp only [res_bind_ok]
    have hlen2 : (A ++ B).length - 1 = A.length + m + 1 := by rw [List.length_append]; omega
    rw [hlen2, List.range_succ (n := A.length + m), List.reverse_append, List.reverse_cons, List.reverse_nil, List.nil_append,
      List.singleton_append, List.foldlM_cons]
    have hstep : ∀ s hb δ, deepBackStep act (A ++ B) (vec (u.length + 1) inp) (vec labels.length δ)
        ((List.range (m + 1)).map (fun k => vec (wAt (A ++ B) k).rows (fun i => actReal act (score (wAt (A ++ B) k) (inpAt act (A ++ B) inp k) i))))
        hb s (A.length + m) = .error (.throw "out_of_range") := by
      intro s hb δ
      unfold deepBackStep
      rw [atR_wAt (A ++ B) _ (by rw [List.length_append]; omega), Nat.add_assoc A.length m 1, wAt_right]
      simp only [res_bind_ok]
      rw [if_pos (by rw [List.length_append]; omega), ← hrows, mulLeftR_vec, hdB (m + 1) (by omega)]
      simp only [res_bind_ok, widthAt]
      rw [vec_succ]
      simp only [removeFirst, res_bind_ok]
      have : atR ((List.range (m + 1)).map (fun k => vec (wAt (A ++ B) k).rows
          (fun i => actReal act (score (wAt (A ++ B) k) (inpAt act (A ++ B) inp k) i)))) (A.length + m) = .error (.throw "out_of_range") := by
        unfold atR
        rw [List.getElem?_eq_none (by simp; omega)]
      rw [this]
      rfl
    rw [hstep]
    rfl
  unfold deepStep
  rw [inputVector_vec x u hattr, ← hinp]
  simp only [res_bind_ok]
  rw [herr]
  rfl

theorem grown_ne_nil (trainSet : IList ℝ) (r : ℝ) (σ : List Nat) (hσ : IsPermutation σ trainSet.length) (c : String)
    (hc : ⌈r * (trainSet.map Inst.label).count c⌉₊ < (trainSet.map Inst.label).count c) (held grown : IList ℝ)
    (h : Parts.byRatioStratified trainSet r σ = .ok [held, grown]) : grown ≠ [] := by
  obtain ⟨p0, p1, h1, h2, h3⟩ := C25_stratified_split trainSet r σ hσ
  rw [h] at h1
  cases h1
  have h4 := (h3 c).2
  intro hnil
  subst hnil
  have hlen : ((trainSet.shuffle σ).filter (fun x => x.label == c)).length = (trainSet.map Inst.label).count c := by
    rw [← List.countP_eq_length_filter, (C15_shuffle_perm trainSet σ hσ).countP_eq, List.count, List.countP_map]
    rfl
  have h5 := congrArg List.length h4
  rw [List.length_drop, hlen] at h5
  simp at h5
  omega

theorem freshLayers_shape (r1 r2 : Nat → Nat → Mat ℝ) (K : Nat) (h1 : ∀ r c, (r1 r c).rows = r ∧ (r1 r c).cols = c)
    (h2 : ∀ r c, (r2 r c).rows = r ∧ (r2 r c).cols = c) : ∀ (hs : List Nat) (n : Nat),
    shape (freshLayers r1 K n hs) = shape (freshLayers r2 K n hs) := by
  intro hs
  induction hs with
  | nil => intro n; simp [shape, freshLayers, h1, h2]
  | cons a hs ih =>
    intro n
    have := ih (a + 1)
    unfold shape at this
    simp [shape, freshLayers, h1, h2, this]

/-- A deep network that was trained cannot be trained again with data of the same shape (same
number of attributes and of classes): the new weights are appended to the old ones and the first
presented instance ends in an uncaught `out_of_range`. (Assumed: at least one epoch, and a class of
which an instance is left for training.) -/
theorem C55_deep_again (param param' : NetParam ℝ) (hidden : List Nat) (act : Activation) (net : Net (List (Mat ℝ)))
    (first trainSet : IList ℝ) (d : Nat) (hhid : hidden ≠ []) (hfirst : first ≠ [])
    (hnum1 : ∀ x ∈ first, NumericInst d x) (hσ1 : IsPermutation param'.splitOrder first.length)
    (hrand1 : ∀ r c, (param'.random r c).rows = r ∧ (param'.random r c).cols = c)
    (hclasses : first.getDistinctClassLabels.length = trainSet.getDistinctClassLabels.length)
    (hnum : ∀ x ∈ trainSet, NumericInst d x) (hσ : IsPermutation param.splitOrder trainSet.length)
    (hrand : ∀ r c, (param.random r c).rows = r ∧ (param.random r c).cols = c)
    (hep : 0 < param.epochs) (h0 : 0 ∈ param.shuffleOrder) (c : String)
    (hc : ⌈param.ratio * (trainSet.map Inst.label).count c⌉₊ < (trainSet.map Inst.label).count c)
    (h : deepTrain param' hidden act ⟨[], 0, []⟩ first = .ok net) :
    deepTrain param hidden act net trainSet = .error (.throw "out_of_range") := by
  have hne : trainSet ≠ [] := by
    rintro rfl
    simp at hc
  obtain ⟨net', h1, h2, _⟩ := deepTrain_fresh param' hidden act [] 0 first d hhid hfirst hnum1 hσ1 hrand1
  rw [h] at h1
  cases h1
  obtain ⟨held, grown, hs, hheld, hgrown⟩ := split_parts trainSet param.ratio param.splitOrder hσ
  have hg := grown_ne_nil trainSet param.ratio param.splitOrder hσ c hc held grown hs
  have hpos : 0 < hidden.length := List.length_pos_iff.2 hhid
  set labels := trainSet.getDistinctClassLabels with hlab
  unfold deepTrain
  rw [netInitialize_ok trainSet d hne hnum]
  simp only [res_bind_ok, hs]
  have e1 : atR [held, grown] 1 = .ok grown := rfl
  have e0 : atR [held, grown] 0 = .ok held := rfl
  rw [e1, e0]
  simp only [res_bind_ok, ← hlab]
  rw [deepAllocate_ok _ _ _ _ hhid]
  simp only [res_bind_ok]
  obtain ⟨x, xs, hx⟩ : ∃ x xs, grown.shuffle param.shuffleOrder = x :: xs := by
    apply List.exists_cons_of_ne_nil
    obtain ⟨x0, g, rfl⟩ := List.exists_cons_of_ne_nil hg
    intro hnil
    have : x0 ∈ IList.shuffle (x0 :: g) param.shuffleOrder := List.mem_filterMap.2 ⟨0, h0, rfl⟩
    rw [hnil] at this
    simp at this
  have hxg : x ∈ trainSet := hgrown x (mem_shuffle (σ := param.shuffleOrder) (by rw [hx]; simp))
  obtain ⟨⟨u, hu, hattr⟩, _⟩ := hnum x hxg
  have h2 : shape net.weights = shape (freshLayers param.random labels.length (d + 1) hidden) := by
    rw [h2, hclasses]; exact freshLayers_shape _ _ _ hrand1 hrand _ _
  have hfl := freshLayers_length param.random labels.length hidden (d + 1)
  have hstep := deepStep_twice labels act x u net.weights (freshLayers param.random labels.length (d + 1) hidden)
    param.learningRate hattr (label_mem trainSet x hxg) h2 (by rw [hu]; exact freshLayers_fits _ _ hrand _ _) (by omega)
  rw [hfl, Nat.add_sub_cancel] at hstep
  obtain ⟨n, hn⟩ : ∃ n, param.epochs = n + 1 := ⟨param.epochs - 1, by omega⟩
  unfold epochLoop
  rw [hn, List.range_succ_eq_map, List.foldlM_cons]
  unfold epochStep
  simp only [hx, List.foldlM_cons, hstep]
  rfl

/-- **C55 is refuted for deep networks.** A deep network that was trained cannot be trained again,
not even with the same list: the new weights are appended to the old ones and the first presented
instance ends in an uncaught `out_of_range`. (Assumed: at least one epoch, and a class of which
an instance is left for training.) -/
theorem C55_deep_refuted (param : NetParam ℝ) (hidden : List Nat) (act : Activation) (net : Net (List (Mat ℝ)))
    (trainSet : IList ℝ) (d : Nat) (hhid : hidden ≠ [])
    (hnum : ∀ x ∈ trainSet, NumericInst d x) (hσ : IsPermutation param.splitOrder trainSet.length)
    (hrand : ∀ r c, (param.random r c).rows = r ∧ (param.random r c).cols = c)
    (hep : 0 < param.epochs) (h0 : 0 ∈ param.shuffleOrder) (c : String)
    (hc : ⌈param.ratio * (trainSet.map Inst.label).count c⌉₊ < (trainSet.map Inst.label).count c)
    (h : deepTrain param hidden act ⟨[], 0, []⟩ trainSet = .ok net) :
    deepTrain param hidden act net trainSet = .error (.throw "out_of_range") := by
  have hne : trainSet ≠ [] := by
    rintro rfl
    simp at hc
  exact C55_deep_again param param hidden act net trainSet trainSet d hhid hne hnum hσ hrand rfl hnum hσ hrand hep h0 c hc h

/-- the other networks forget everything: **C55** (partial: see `C55_deep_refuted` and the
classifiers in `Verif.Props.Retrain`) -/
theorem C55_networks_partial (param : NetParam ℝ) (H : Nat) (act : Activation) (old fresh : Net (Mat ℝ))
    (old2 fresh2 : Net (Two ℝ)) (trainSet : IList ℝ) :
    percTrain param old trainSet = percTrain param fresh trainSet ∧
    mlpTrain param H act old2 trainSet = mlpTrain param H act fresh2 trainSet ∧
    autoTrain param H old2 trainSet = autoTrain param H fresh2 trainSet := ⟨rfl, rfl, rfl⟩

/-! ## the autoencoder -/

theorem autoStep_total (x : Inst ℝ) (d : Nat) (hx : NumericInst d x) (w : Two ℝ) (eta : ℝ)
    (hfit : Fits [w.W, w.V] (d + 1) d) : ∃ w', autoStep eta w x = .ok w' ∧ Fits [w'.W, w'.V] (d + 1) d := by
  obtain ⟨⟨u, hu, hattr⟩, _⟩ := hx
  obtain ⟨w', h1, h2, h3, h4, h5, _⟩ := C117_autoencoder_gradient x u w eta hattr (by rw [hu]; exact hfit)
  refine ⟨w', h1, ?_, ?_, ?_⟩
  · rw [h3]; exact hfit.1
  · rw [h5, h2]; exact hfit.2.1
  · rw [h4]; exact hfit.2.2

theorem autoPredict_ok (x : Inst ℝ) (u : List ℝ) (hattr : x.attrs = u.map Attr.continuous) (w : Two ℝ) (K : Nat)
    (hfit : Fits [w.W, w.V] (u.length + 1) K) :
    autoPredictInput w x = .ok (vec K (netScores .sigmoid [w.W, w.V] (withBias (fun j => u.getD j 0)))) := by
  obtain ⟨hc, hc2, hr⟩ := hfit
  have hr' : w.V.rows = K := by simpa [Fits] using hr
  unfold autoPredictInput
  rw [inputVector_vec x u hattr]
  simp only [res_bind_ok]
  have : forwardSingleHidden (vec (u.length + 1) (withBias (fun j => u.getD j 0))) w.W w.V .sigmoid =
      .ok (vec K (netScores .sigmoid [w.W, w.V] (withBias (fun j => u.getD j 0)))) := by
    unfold forwardSingleHidden
    rw [← hc, calculateHidden_vec]
    simp only [res_bind_ok]
    rw [biased_vec, ← hc2, mulRightR_vec, hr']
    rfl
  rw [this]

/-- **C118** for the autoencoder: the reconstruction of an instance is the output of the network
of two layers -/
theorem C118_autoencoder (x : Inst ℝ) (u : List ℝ) (hattr : x.attrs = u.map Attr.continuous) (w : Two ℝ) (K : Nat)
    (hfit : Fits [w.W, w.V] (u.length + 1) K) :
    autoPredictInput w x = .ok ((List.range K).map (netScores .sigmoid [w.W, w.V] (withBias (fun j => u.getD j 0)))) :=
  autoPredict_ok x u hattr w K hfit

/-- **C118**: `testAutoEncoder` is the mean, over the instances, of the squared distance between
the instance and its reconstruction -/
theorem C118_autoencoder_error (t : IList ℝ) (w : Two ℝ) (d : Nat) (hfit : Fits [w.W, w.V] (d + 1) d)
    (hnum : ∀ x ∈ t, ∃ u : List ℝ, u.length = d ∧ x.attrs = u.map Attr.continuous) :
    autoError t w = .ok ((t.map (fun x => 2 * reconstructionError d (fun k => (numbersOf x).getD k 0)
      (netScores .sigmoid [w.W, w.V] (withBias (fun k => (numbersOf x).getD k 0))))).sum / t.length) := by
  have hstep : ∀ x ∈ t, ∀ e, autoErrorStep w e x = .ok (e + 2 * reconstructionError d (fun k => (numbersOf x).getD k 0)
      (netScores .sigmoid [w.W, w.V] (withBias (fun k => (numbersOf x).getD k 0)))) := by
    intro x hx e
    obtain ⟨u, hu, hattr⟩ := hnum x hx
    have hn : numbersOf x = u := by
      unfold numbersOf
      rw [hattr, List.filterMap_map]
      exact List.filterMap_some
    unfold autoErrorStep
    rw [autoPredict_ok x u hattr w u.length (by rw [hu]; exact hfit), toVector_ok x u hattr]
    simp only [res_bind_ok]
    have hdiff : diffR u (vec u.length (netScores .sigmoid [w.W, w.V] (withBias (fun j => u.getD j 0)))) =
        .ok (vec u.length (fun i => u.getD i 0 - netScores .sigmoid [w.W, w.V] (withBias (fun j => u.getD j 0)) i)) := by
      conv_lhs => arg 1; rw [eq_vec u]
      rw [diffR_vec]
    rw [hdiff, hn, ← hu]
    simp only [res_bind_ok, res_pure, catching, add_real]
    congr 2
    rw [dotV_eq u.length _ _ (vec_length _ _) (vec_length _ _)]
    unfold reconstructionError
    rw [mul_div_cancel₀ _ (two_ne_zero)]
    refine Finset.sum_congr rfl (fun i hi => ?_)
    rw [vec_getD _ _ _ (Finset.mem_range.1 hi)]
    ring
  have hloop : ∀ (l : IList ℝ), (∀ x ∈ l, x ∈ t) → ∀ e, l.foldlM (autoErrorStep w) e =
      .ok (e + (l.map (fun x => 2 * reconstructionError d (fun k => (numbersOf x).getD k 0)
      (netScores .sigmoid [w.W, w.V] (withBias (fun k => (numbersOf x).getD k 0))))).sum) := by
    intro l
    induction l with
    | nil => intro _ e; simp
    | cons x l ih =>
      intro hl e
      rw [List.foldlM_cons, hstep x (hl x (by simp)), res_bind_ok, ih (fun y hy => hl y (by simp [hy])),
        List.map_cons, List.sum_cons, add_assoc]
  unfold autoError
  rw [hloop t (fun x hx => hx)]
  simp

example : ∃ e, autoError [⟨"a", [.continuous 3, .continuous 4], none⟩, ⟨"b", [.continuous 1, .continuous 0], none⟩]
    (⟨⟨3, 3, fun _ _ => 1⟩, ⟨2, 4, fun i j => i - j⟩⟩ : Two ℝ) = .ok e :=
  ⟨_, C118_autoencoder_error _ _ 2 ⟨rfl, rfl, rfl⟩ (by
    intro x hx
    simp only [List.mem_cons, List.not_mem_nil, or_false] at hx
    rcases hx with rfl | rfl
    · exact ⟨[3, 4], rfl, rfl⟩
    · exact ⟨[1, 0], rfl, rfl⟩)⟩

/-- **C119** for the autoencoder: training succeeds when some class has at least two instances, and
the trained autoencoder reconstructs every numeric instance with as many numbers. -/
theorem C119_autoencoder (param : NetParam ℝ) (H : Nat) (old : Net (Two ℝ)) (trainSet : IList ℝ) (d : Nat)
    (hnum : ∀ x ∈ trainSet, NumericInst d x) (hσ : IsPermutation param.splitOrder trainSet.length)
    (hrand : ∀ r c, (param.random r c).rows = r ∧ (param.random r c).cols = c)
    (c : String) (hc : 2 ≤ (trainSet.map Inst.label).count c) :
    ∃ net, autoTrain param H old trainSet = .ok net ∧ ∀ x, NumericInst d x →
      ∃ y, autoPredictInput net.weights x = .ok y ∧ y.length = d := by
  have hne : trainSet ≠ [] := by
    rintro rfl
    simp at hc
  obtain ⟨held, grown, hs, hheld, hgrown⟩ := split_parts trainSet (Dbl.lit (1/5)) param.splitOrder hσ
  have hg := grown_ne_nil trainSet (Dbl.lit (1/5)) param.splitOrder hσ c (by
    have h2 : (2 : ℝ) ≤ ((trainSet.map Inst.label).count c : ℝ) := by exact_mod_cast hc
    have h3 : ⌈(Dbl.lit (1/5) : ℝ) * (trainSet.map Inst.label).count c⌉₊ ≤ (trainSet.map Inst.label).count c - 1 := by
      rw [Nat.ceil_le, Nat.cast_sub (by omega), lit_real]
      push_cast
      linarith
    omega) held grown hs
  obtain ⟨x0, g, hx0⟩ := List.exists_cons_of_ne_nil hg
  obtain ⟨⟨u0, hu0, hattr0⟩, _⟩ := hnum x0 (hgrown x0 (by rw [hx0]; simp))
  have hini : Fits [param.random H (d + 1), param.random d (H + 1)] (d + 1) d := by
    refine ⟨(hrand _ _).2, ?_, ?_⟩
    · rw [(hrand _ _).2, (hrand _ _).1]
    · rw [(hrand _ _).1]; rfl
  have herr : ∀ w : Two ℝ, Fits [w.W, w.V] (d + 1) d → ∃ a, autoError held w = .ok a := by
    intro w hw
    exact ⟨_, C118_autoencoder_error held w d hw (fun x hx => (hnum x (hheld x hx)).1)⟩
  obtain ⟨s', h1, h2, h3, h4⟩ := epochLoop_total autoStep (autoError held) lessError
    (Dbl.lit (19/20)) param.shuffleOrder grown (fun w : Two ℝ => Fits [w.W, w.V] (d + 1) d)
    (fun eta w x hx hW => autoStep_total x d (hnum x (hgrown x hx)) w eta hW) herr
    param.epochs ⟨⟨param.random H (d + 1), param.random d (H + 1)⟩,
      ⟨param.random H (d + 1), param.random d (H + 1)⟩, Dbl.maxVal, param.learningRate, grown⟩
    hini hini (fun x hx => hx)
  refine ⟨⟨trainSet.getDistinctClassLabels, d, s'.best⟩, ?_, ?_⟩
  · unfold autoTrain
    rw [netInitialize_ok trainSet d hne hnum]
    simp only [res_bind_ok, hs]
    have e1 : atR [held, grown] 1 = .ok grown := rfl
    have e0 : atR [held, grown] 0 = .ok held := rfl
    have e2 : grown.get 0 = .ok x0 := by rw [hx0]; rfl
    rw [e1, e0]
    simp only [res_bind_ok]
    rw [e2]
    simp only [res_bind_ok, contSize_ok x0 u0 hattr0, hu0, Int.toNat_natCast]
    rw [h1]
    rfl
  · intro x hx
    obtain ⟨⟨u, hu, hattr⟩, _⟩ := hx
    exact ⟨_, autoPredict_ok x u hattr s'.best d (by rw [hu]; exact h3), vec_length _ _⟩

/-! ## a training list to which the theorems apply -/

/-- four instances of two classes -/
noncomputable def fourPoints : IList ℝ :=
  [⟨"a", [.continuous 1], none⟩, ⟨"b", [.continuous 2], none⟩, ⟨"a", [.continuous 3], none⟩, ⟨"b", [.continuous 5], none⟩]

theorem fourPoints_numeric : ∀ x ∈ fourPoints, NumericInst 1 x := by
  intro x hx
  simp only [fourPoints, List.mem_cons, List.not_mem_nil, or_false] at hx
  rcases hx with rfl | rfl | rfl | rfl
  · exact ⟨⟨[1], rfl, rfl⟩, fun h => by cases h⟩
  · exact ⟨⟨[2], rfl, rfl⟩, fun h => by cases h⟩
  · exact ⟨⟨[3], rfl, rfl⟩, fun h => by cases h⟩
  · exact ⟨⟨[5], rfl, rfl⟩, fun h => by cases h⟩

noncomputable def fourParam : NetParam ℝ where
  ratio := 1 / 5
  splitOrder := [2, 0, 3, 1]
  shuffleOrder := [1, 0]
  random := fun r c => ⟨r, c, fun i j => i + j⟩
  epochs := 3
  learningRate := 1 / 10
  etaDecrease := 9 / 10

theorem fourParam_perm : IsPermutation fourParam.splitOrder fourPoints.length := by
  show [2, 0, 3, 1].Perm (List.range 4)
  decide

example : ∃ net, percTrain fourParam ⟨[], 0, Mat.zeros 0 0⟩ fourPoints = .ok net := by
  obtain ⟨net, h, _⟩ := C119_perceptron fourParam ⟨[], 0, Mat.zeros 0 0⟩ fourPoints 1 (by simp [fourPoints]) fourPoints_numeric
    fourParam_perm (fun _ _ => ⟨rfl, rfl⟩)
  exact ⟨net, h⟩

example : ∃ net, mlpTrain fourParam 5 .tanh ⟨[], 0, ⟨Mat.zeros 0 0, Mat.zeros 0 0⟩⟩ fourPoints = .ok net := by
  obtain ⟨net, h, _⟩ := C119_multilayer fourParam 5 .tanh ⟨[], 0, ⟨Mat.zeros 0 0, Mat.zeros 0 0⟩⟩ fourPoints 1
    (by simp [fourPoints]) fourPoints_numeric fourParam_perm (fun _ _ => ⟨rfl, rfl⟩)
  exact ⟨net, h⟩

/-- training once succeeds, training again throws -/
example : ∃ net, deepTrain fourParam [4, 3] .relu ⟨[], 0, []⟩ fourPoints = .ok net ∧
    deepTrain fourParam [4, 3] .relu net fourPoints = .error (.throw "out_of_range") := by
  obtain ⟨net, h, _⟩ := C119_deep fourParam [4, 3] .relu [] 0 fourPoints 1 (by simp) (by simp [fourPoints])
    fourPoints_numeric fourParam_perm (fun _ _ => ⟨rfl, rfl⟩)
  refine ⟨net, h, C55_deep_refuted fourParam [4, 3] .relu net fourPoints 1 (by simp) fourPoints_numeric fourParam_perm
    (fun _ _ => ⟨rfl, rfl⟩) (by simp [fourParam]) (by simp [fourParam]) "a" ?_ h⟩
  have hc : (fourPoints.map Inst.label).count "a" = 2 := by
    simp only [fourPoints, List.map_cons, List.map_nil]
    decide
  rw [hc]
  have : ⌈fourParam.ratio * ((2 : Nat) : ℝ)⌉₊ ≤ 1 := by
    rw [Nat.ceil_le]
    norm_num [fourParam]
  omega

example : ∃ net, deepTrain fourParam [4, 3] .tanh ⟨[], 0, []⟩ fourPoints = .ok net ∧
    deepAllocate fourParam.random fourPoints.getDistinctClassLabels 1 [4, 3] [] = .ok net.weights :=
  C116_deep_tanh_training_refuted fourParam [4, 3] [] 0 fourPoints 1 (by simp) (by decide) (by simp [fourPoints])
    fourPoints_numeric fourParam_perm (fun _ _ => ⟨rfl, rfl⟩)

example : ∃ net, autoTrain fourParam 5 ⟨[], 0, ⟨Mat.zeros 0 0, Mat.zeros 0 0⟩⟩ fourPoints = .ok net := by
  have hc : (fourPoints.map Inst.label).count "a" = 2 := by
    simp only [fourPoints, List.map_cons, List.map_nil]
    decide
  obtain ⟨net, h, _⟩ := C119_autoencoder fourParam 5 ⟨[], 0, ⟨Mat.zeros 0 0, Mat.zeros 0 0⟩⟩ fourPoints 1
    fourPoints_numeric fourParam_perm (fun _ _ => ⟨rfl, rfl⟩) "a" (by rw [hc])
  exact ⟨net, h⟩

end Verif
