import Verif.Props.SoftTree

/-! # C79, C120, C121: output, growth and training of soft decision trees -/

set_option linter.unusedSectionVars false
set_option linter.unusedVariables false

namespace Verif
open Dbl

/-! ## the output is a convex combination of the leaves -/

theorem gateF_real (w u : List ℝ) : gateF w u = gate w u := by
  unfold gateF gate sigmoidF biased
  simp only [neg_real, exp_real, one_real, add_real, div_real, mul_real, zero_real]
  rw [foldl_add_real]
  simp

theorem gate_pos (w u : List ℝ) : 0 < gate w u := by
  unfold gate
  positivity

theorem gate_lt_one (w u : List ℝ) : gate w u < 1 := by
  unfold gate
  have := Real.exp_pos (-(List.zipWith (fun a b => a * b) (1 :: u) w).sum)
  rw [div_lt_one (by linarith)]
  linarith

theorem softOut_leaves {K d : Nat} (u : List ℝ) : ∀ {t : SoftNode ℝ}, t.Sized K d → ∀ k < K,
    (softOut u t).getD k 0 = ((leafWeights u t).map (fun p => p.1 * p.2.getD k 0)).sum
  | .leaf e, h, k, hk => by simp [softOut, leafWeights]
  | .split e l r, h, k, hk => by
    have hl := softOut_leaves u h.2.1 k hk
    have hr := softOut_leaves u h.2.2 k hk
    have hlen : k < (softOut u (.split e l r)).length := by rw [softOut_length h]; exact hk
    have hlen' : k < e.outputs.length := by rw [h.1.2.1]; exact hk
    have hget : (softOut u (.split e l r)).getD k 0 = (softOut u (.split e l r))[k] := by simp [hlen]
    rw [hget]
    simp only [softOut, List.getElem_map, List.getElem_range, gateF_real, add_real, mul_real, sub_real, one_real, zero_real]
    rw [hl, hr]
    simp only [leafWeights, List.map_append, List.sum_append, List.map_map, Function.comp_def, mul_assoc]
    rw [List.sum_map_mul_left, List.sum_map_mul_left]

theorem leafWeights_pos (u : List ℝ) : ∀ (t : SoftNode ℝ), ∀ p ∈ leafWeights u t, 0 < p.1
  | .leaf e, p, hp => by
    simp only [leafWeights, List.mem_singleton] at hp
    subst hp
    exact one_pos
  | .split e l r, p, hp => by
    simp only [leafWeights, List.mem_append, List.mem_map] at hp
    rcases hp with ⟨q, hq, rfl⟩ | ⟨q, hq, rfl⟩
    · exact mul_pos (gate_pos _ _) (leafWeights_pos u l q hq)
    · exact mul_pos (by have := gate_lt_one e.w u; linarith) (leafWeights_pos u r q hq)

theorem leafWeights_sum (u : List ℝ) : ∀ (t : SoftNode ℝ), ((leafWeights u t).map Prod.fst).sum = 1
  | .leaf e => by simp [leafWeights]
  | .split e l r => by
    have hl := leafWeights_sum u l
    have hr := leafWeights_sum u r
    simp only [leafWeights, List.map_append, List.sum_append, List.map_map, Function.comp_def]
    rw [List.sum_map_mul_left, List.sum_map_mul_left]
    have h1 : (List.map (fun p : ℝ × List ℝ => p.1) (leafWeights u l)).sum = 1 := hl
    have h2 : (List.map (fun p : ℝ × List ℝ => p.1) (leafWeights u r)).sum = 1 := hr
    rw [h1, h2]
    ring

/-- a weighted mean lies between any bounds of the values -/
theorem weighted_mean_between (l : List (ℝ × ℝ)) (m M : ℝ) (hpos : ∀ p ∈ l, 0 ≤ p.1) (h : ∀ p ∈ l, m ≤ p.2 ∧ p.2 ≤ M) :
    m * (l.map Prod.fst).sum ≤ (l.map (fun p => p.1 * p.2)).sum ∧
      (l.map (fun p => p.1 * p.2)).sum ≤ M * (l.map Prod.fst).sum := by
  induction l with
  | nil => simp
  | cons p l ih =>
    obtain ⟨h1, h2⟩ := ih (fun q hq => hpos q (by simp [hq])) (fun q hq => h q (by simp [hq]))
    have hp := hpos p (by simp)
    obtain ⟨h3, h4⟩ := h p (by simp)
    simp only [List.map_cons, List.sum_cons]
    constructor
    · nlinarith [mul_le_mul_of_nonneg_left h3 hp]
    · nlinarith [mul_le_mul_of_nonneg_left h4 hp]

/-- **C79.** The output of a soft decision tree for an instance with the numbers `u` is the
combination of the vectors of its leaves with weights that are positive and sum to 1; so each
component lies between any bounds of that component over the leaves. -/
theorem C79_convex_combination {K d : Nat} (t : SoftNode ℝ) (ht : t.Sized K d) (x : Inst ℝ) (u : List ℝ) (hx : NumbersAre x u d) :
    ∃ o t', calcOutput x t = .ok (o, t') ∧ o.length = K ∧
      (∀ k < K, o.getD k 0 = ((leafWeights u t).map (fun p => p.1 * p.2.getD k 0)).sum) ∧
      (∀ p ∈ leafWeights u t, 0 < p.1) ∧ ((leafWeights u t).map Prod.fst).sum = 1 ∧
      ∀ k < K, ∀ m M : ℝ, (∀ p ∈ leafWeights u t, m ≤ p.2.getD k 0 ∧ p.2.getD k 0 ≤ M) → m ≤ o.getD k 0 ∧ o.getD k 0 ≤ M := by
  refine ⟨softOut u t, mark u t, calcOutput_ok hx ht, softOut_length ht, softOut_leaves u ht, leafWeights_pos u t,
    leafWeights_sum u t, ?_⟩
  intro k hk m M h
  rw [softOut_leaves u ht k hk]
  have := weighted_mean_between ((leafWeights u t).map (fun p => (p.1, p.2.getD k 0))) m M (by
    intro p hp
    obtain ⟨q, hq, rfl⟩ := List.mem_map.1 hp
    exact (leafWeights_pos u t q hq).le) (by
    intro p hp
    obtain ⟨q, hq, rfl⟩ := List.mem_map.1 hp
    exact h q hq)
  simp only [List.map_map, Function.comp_def] at this
  have hs : (List.map (fun p : ℝ × List ℝ => p.1) (leafWeights u t)).sum = 1 := leafWeights_sum u t
  rw [hs, mul_one, mul_one] at this
  exact this

/-- a tree with three leaves meets the hypotheses -/
example : (SoftNode.split (⟨[0, 0], [1, 2], [0, 0], 0⟩ : SoftData ℝ) (.leaf ⟨[1, 5], [0, 0], [0, 0], 0⟩)
    (.split ⟨[0, 0], [3, 4], [0, 0], 0⟩ (.leaf ⟨[2, 7], [0, 0], [0, 0], 0⟩) (.leaf ⟨[3, 1], [0, 0], [0, 0], 0⟩))).Sized 2 1 := by
  simp [SoftNode.Sized, SoftData.Sized]

/-! ## growth -/

section
variable {F : Type} [Dbl F]

theorem get_of_at : ∀ (t : SoftNode F) (p : List Bool) (n : SoftNode F) (ws : List F), t.at p = .ok (n, ws) →
    t.skel.get p = some n.skel
  | .leaf e, [], n, ws, h => by cases h; rfl
  | .split e l r, [], n, ws, h => by cases h; rfl
  | .leaf e, _ :: _, n, ws, h => by cases h
  | .split e l r, false :: p, n, ws, h => by
    simp only [SoftNode.at, bind_ok_iff] at h
    obtain ⟨⟨n', ws'⟩, h1, h2⟩ := h
    cases h2
    simpa [SoftNode.skel, Skel.get] using get_of_at l p n' ws' h1
  | .split e l r, true :: p, n, ws, h => by
    simp only [SoftNode.at, bind_ok_iff] at h
    obtain ⟨⟨n', ws'⟩, h1, h2⟩ := h
    cases h2
    simpa [SoftNode.skel, Skel.get] using get_of_at r p n' ws' h1

/-- **C120.** Splitting a leaf of a soft decision tree succeeds; either the split is kept and the
tree makes fewer wrong predictions on the validation part than before, or it is undone and the
tree predicts for every instance what it predicted before. (For any arithmetic, any random
numbers and any learning parameters.) -/
theorem C120_split (labels : List String) (d : Nat) (param : SoftParam F) (hσ : ∀ n, IsPermutation (param.shuffleOrder n) n)
    (cv : IList F) (hcv : SoftSetting labels d cv) (hint : cv.length ≤ 2147483647) (s : SoftState F)
    (hD : SoftSetting labels d s.data) (hne : s.data ≠ []) (hK : s.data.getDistinctClassLabels.length = labels.length)
    (hs : s.root.Sized labels.length d) (p : List Bool) (e : SoftData F) (ws : List F) (hleaf : s.root.at p = .ok (.leaf e, ws)) :
    ∃ kept s', softSplit labels param cv p s = .ok (kept, s') ∧ s'.root.Sized labels.length d ∧
      (kept = true → wrongPredictions labels s'.root cv < wrongPredictions labels s.root cv ∧ s'.root.splits = s.root.splits + 1) ∧
      (kept = false → s'.root.splits = s.root.splits ∧
        ∀ x, AllNumbers d x → softPredict ⟨labels, s'.root⟩ x = softPredict ⟨labels, s.root⟩ x) := by
  have hg := get_of_at _ _ _ _ hleaf
  obtain ⟨b, s', h1, h2, h3, h4⟩ := softSplit_ok param hσ hcv hint hD hne hK hs hg (List.Perm.refl _)
  refine ⟨b, s', h1, h2, ?_, ?_⟩
  · intro hb
    rcases h4 with ⟨rfl, _⟩ | ⟨_, h5, w, l, r, h6⟩
    · cases hb
    · refine ⟨h5, ?_⟩
      have := Skel.splits_put _ _ _ (.split w (.leaf l) (.leaf r)) hg
      rw [← h6] at this
      simpa [Skel.splits, SoftNode.skel, skel_splits] using this
  · intro hb
    rcases h4 with ⟨_, h5⟩ | ⟨rfl, _⟩
    · exact ⟨by rw [← skel_splits, h5, skel_splits], fun x hx => softPredict_skel h2 hs h5 hx⟩
    · cases hb

theorem softGrow_mono (labels : List String) (param : SoftParam F) (cv : IList F) : ∀ (fuel : Nat) (p : List Bool) (s s' : SoftState F),
    softGrow labels param cv fuel p s = .ok s' → ∀ more, fuel ≤ more → softGrow labels param cv more p s = .ok s' := by
  intro fuel
  induction fuel with
  | zero => intro p s s' h; cases h
  | succ fuel ih =>
    intro p s s' h more hm
    obtain ⟨more, rfl⟩ : ∃ k, more = k + 1 := ⟨more - 1, by omega⟩
    simp only [softGrow, bind_ok_iff] at h ⊢
    obtain ⟨⟨b, s1⟩, h1, h2⟩ := h
    refine ⟨(b, s1), h1, ?_⟩
    cases b with
    | false => exact h2
    | true =>
      simp only [if_true, bind_ok_iff] at h2 ⊢
      obtain ⟨s2, h3, h4⟩ := h2
      exact ⟨s2, ih _ _ _ h3 more (by omega), ih _ _ _ h4 more (by omega)⟩

/-- **C120, the whole growth.** Growing a leaf of a soft decision tree ends after a recursion no
deeper than the number of wrong predictions the tree makes on the validation part, and every
split added to the tree makes up for one wrong prediction: so growth never makes the tree worse on
the validation part and never adds more splits than there are validation instances. If it adds no split, the
tree gives every instance the output it gave before. -/
theorem C120_growth (labels : List String) (d : Nat) (param : SoftParam F) (hσ : ∀ n, IsPermutation (param.shuffleOrder n) n)
    (cv : IList F) (hcv : SoftSetting labels d cv) (hint : cv.length ≤ 2147483647) (s : SoftState F)
    (hD : SoftSetting labels d s.data) (hne : s.data ≠ []) (hK : s.data.getDistinctClassLabels.length = labels.length)
    (hs : s.root.Sized labels.length d) (p : List Bool) (e : SoftData F) (ws : List F) (hleaf : s.root.at p = .ok (.leaf e, ws)) :
    ∃ s', (∀ fuel, wrongPredictions labels s.root cv < fuel → softGrow labels param cv fuel p s = .ok s') ∧
      s'.root.Sized labels.length d ∧
      wrongPredictions labels s'.root cv + s'.root.splits ≤ wrongPredictions labels s.root cv + s.root.splits ∧
      (s'.root.splits = s.root.splits → ∀ x, AllNumbers d x →
        (calcOutput x s'.root).map Prod.fst = (calcOutput x s.root).map Prod.fst) := by
  have hg := get_of_at _ _ _ _ hleaf
  obtain ⟨s', m, h1, h2, h3, h4, h5, h6, _⟩ := softGrow_ok param hσ hcv hint hD hne hK (wrongPredictions labels s.root cv + 1) hs hg
    (List.Perm.refl _) (by omega)
  refine ⟨s', fun fuel hf => softGrow_mono _ _ _ _ _ _ _ h1 fuel hf, h2, ?_⟩
  have := Skel.splits_put _ _ _ m hg
  rw [← h4, skel_splits, skel_splits, skel_splits] at this
  have h7 : (SoftNode.leaf e).splits = 0 := rfl
  rw [h7] at this
  refine ⟨by omega, fun h8 x hx => ?_⟩
  obtain ⟨u, hu⟩ := hx
  have h9 : s'.root.skel = s.root.skel := by
    rw [h4, h6 (by omega)]
    exact Skel.put_get _ _ _ hg
  rw [calcOutput_ok hu h2, calcOutput_ok hu hs]
  exact congrArg Except.ok (softOut_skel u h2 hs h9)

end

/-! ## training -/

theorem grown_labels (trainSet : IList ℝ) (r : ℝ) (σ : List Nat) (hσ : IsPermutation σ trainSet.length)
    (hc : ∀ c ∈ trainSet.map Inst.label, ⌈r * (trainSet.map Inst.label).count c⌉₊ < (trainSet.map Inst.label).count c)
    (held grown : IList ℝ) (h : Parts.byRatioStratified trainSet r σ = .ok [held, grown]) :
    ∀ c ∈ trainSet.map Inst.label, c ∈ grown.map Inst.label := by
  intro c hcm
  obtain ⟨p0, p1, h1, h2, h3⟩ := C25_stratified_split trainSet r σ hσ
  rw [h] at h1
  cases h1
  have h4 := (h3 c).2
  have hlen : ((trainSet.shuffle σ).filter (fun x => x.label == c)).length = (trainSet.map Inst.label).count c := by
    rw [← List.countP_eq_length_filter, (C15_shuffle_perm trainSet σ hσ).countP_eq, List.count, List.countP_map]
    rfl
  have h5 := congrArg List.length h4
  rw [List.length_drop, hlen] at h5
  have h6 : grown.filter (fun x => x.label == c) ≠ [] := by
    intro h
    rw [h] at h5
    have := hc c hcm
    simp at h5
    omega
  obtain ⟨x, hx⟩ := List.exists_mem_of_ne_nil _ h6
  simp only [List.mem_filter, beq_iff_eq] at hx
  exact List.mem_map.2 ⟨x, hx.1, hx.2⟩

theorem softTrain_eq {F : Type} [Dbl F] (param : SoftParam F) (fuel : Nat) (trainSet : IList F) (x0 : Inst F) (l0 : IList F) (d : Nat)
    (held grown : IList F) (hx0 : trainSet = x0 :: l0) (hd : x0.attrs.length = d)
    (hparts : Parts.byRatioStratified trainSet param.ratio param.splitOrder = .ok [held, grown]) (s' : SoftState F)
    (hrun : softGrow trainSet.getDistinctClassLabels param held fuel []
      ⟨.leaf (SoftData.fresh param.rand 0 trainSet.getDistinctClassLabels.length d), grown,
        freshDraws trainSet.getDistinctClassLabels.length d⟩ = .ok s') :
    softTrain param fuel trainSet = .ok ⟨trainSet.getDistinctClassLabels, s'.root⟩ := by
  have a0 : atR [held, grown] 0 = .ok held := rfl
  have a1 : atR [held, grown] 1 = .ok grown := rfl
  have a2 : trainSet.get 0 = .ok x0 := by rw [hx0]; rfl
  unfold softTrain
  simp only [a2, res_bind_ok]
  rw [hparts, res_bind_ok, a0, res_bind_ok, a1, res_bind_ok, hd, hrun]
  rfl

theorem softTrain_ok (param : SoftParam ℝ) (trainSet : IList ℝ) (d : Nat) (hne : trainSet ≠ [])
    (hnum : ∀ x ∈ trainSet, AllNumbers d x) (hint : trainSet.length ≤ 2147483647)
    (hσ : IsPermutation param.splitOrder trainSet.length) (hshuffle : ∀ n, IsPermutation (param.shuffleOrder n) n)
    (hc : ∀ c ∈ trainSet.map Inst.label,
      ⌈param.ratio * (trainSet.map Inst.label).count c⌉₊ < (trainSet.map Inst.label).count c) :
    ∃ held grown t, Parts.byRatioStratified trainSet param.ratio param.splitOrder = .ok [held, grown] ∧
      (∀ fuel, held.length < fuel → softTrain param fuel trainSet = .ok t) ∧
      wrongPredictions t.labels t.root held + t.root.splits ≤ held.length ∧
      (∀ x, AllNumbers d x → ∃ c, softPredict t x = .ok c ∧ c ∈ trainSet.map Inst.label) ∧
      t.labels = trainSet.getDistinctClassLabels ∧
      (t.root.splits = 0 → ∀ x, AllNumbers d x → (calcOutput x t.root).map Prod.fst =
        .ok (SoftData.fresh param.rand 0 trainSet.getDistinctClassLabels.length d).w0s) := by
  obtain ⟨held, grown, hparts, hheld, hgrown⟩ := split_parts trainSet param.ratio param.splitOrder hσ
  have hfo := C07_distinct_class_labels trainSet
  have hL := labels_ne_nil trainSet hne
  have hgl := grown_labels trainSet param.ratio param.splitOrder hσ hc held grown hparts
  obtain ⟨x0, l0, hx0⟩ := List.exists_cons_of_ne_nil hne
  have hgne : grown ≠ [] := by
    rintro rfl
    simpa using hgl x0.label (by rw [hx0]; simp)
  have hd : x0.attrs.length = d := by
    obtain ⟨u, hu⟩ := hnum x0 (by rw [hx0]; simp)
    rw [hu.2, List.length_map, hu.1]
  set labels := trainSet.getDistinctClassLabels with hlab
  have hsetting : ∀ l : IList ℝ, (∀ x ∈ l, x ∈ trainSet) → SoftSetting labels d l := fun l hl =>
    ⟨hfo.nodup, hL, fun x hx => hnum x (hl x hx), fun x hx => label_mem trainSet x (hl x hx)⟩
  have hK : grown.getDistinctClassLabels.length = labels.length := by
    have h2 := C07_distinct_class_labels grown
    refine ((List.perm_ext_iff_of_nodup h2.nodup hfo.nodup).2 ?_).length_eq
    intro c
    rw [h2.mem_iff, hfo.mem_iff]
    constructor
    · intro h
      obtain ⟨x, hx, rfl⟩ := List.mem_map.1 h
      exact List.mem_map_of_mem (hgrown x hx)
    · exact hgl c
  have hlen : held.length ≤ trainSet.length := by
    obtain ⟨p0, p1, h1, h2, _⟩ := C25_stratified_split trainSet param.ratio param.splitOrder hσ
    rw [hparts] at h1
    cases h1
    have := h2.length_eq
    rw [List.length_append] at this
    omega
  have hint' : held.length ≤ 2147483647 := hlen.trans hint
  have hsz : (SoftNode.leaf (SoftData.fresh param.rand 0 labels.length d)).Sized labels.length d := fresh_sized _ _ _ _
  have hat : (SoftNode.leaf (SoftData.fresh param.rand 0 labels.length d)).at [] =
      .ok (.leaf (SoftData.fresh param.rand 0 labels.length d), []) := rfl
  obtain ⟨s', h1, h2, h3, h8⟩ := C120_growth labels d param hshuffle held (hsetting held hheld) hint'
    ⟨.leaf (SoftData.fresh param.rand 0 labels.length d), grown, freshDraws labels.length d⟩
    (hsetting grown hgrown) hgne hK hsz [] _ [] hat
  refine ⟨held, grown, ⟨labels, s'.root⟩, hparts, ?_, ?_, ?_, rfl, ?_⟩
  · intro fuel hf
    have hw := wrong_le labels (.leaf (SoftData.fresh param.rand 0 labels.length d)) held
    have hrun := h1 fuel (lt_of_le_of_lt hw hf)
    exact softTrain_eq param fuel trainSet x0 l0 d held grown hx0 hd hparts s' hrun
  · have hw := wrong_le labels (.leaf (SoftData.fresh param.rand 0 labels.length d)) held
    dsimp only at h3
    rw [show (SoftNode.leaf (SoftData.fresh param.rand 0 labels.length d)).splits = 0 from rfl, Nat.add_zero] at h3
    show wrongPredictions labels s'.root held + s'.root.splits ≤ held.length
    omega
  · intro x hx
    obtain ⟨u, hu⟩ := hx
    obtain ⟨i, _, h5, h6⟩ := softPredict_ok hL h2 hu
    refine ⟨_, h6, ?_⟩
    have hget : labels.getD i "" = labels[i] := by simp [h5]
    rw [hget]
    exact (hfo.mem_iff _).1 (List.getElem_mem h5)
  · intro h x hx
    exact h8 h x hx

/-- **C121.** Training a soft decision tree on numeric data succeeds whenever the split leaves an
instance of each class to learn from; then every numeric instance gets a label of the training
list, and the number of splits and of wrong validation predictions together do not exceed the
number of validation instances. -/
theorem C121_train_partial (param : SoftParam ℝ) (trainSet : IList ℝ) (d : Nat) (hne : trainSet ≠ [])
    (hnum : ∀ x ∈ trainSet, AllNumbers d x) (hint : trainSet.length ≤ 2147483647)
    (hσ : IsPermutation param.splitOrder trainSet.length) (hshuffle : ∀ n, IsPermutation (param.shuffleOrder n) n)
    (hc : ∀ c ∈ trainSet.map Inst.label,
      ⌈param.ratio * (trainSet.map Inst.label).count c⌉₊ < (trainSet.map Inst.label).count c) :
    ∃ held grown t, Parts.byRatioStratified trainSet param.ratio param.splitOrder = .ok [held, grown] ∧
      (∀ fuel, held.length < fuel → softTrain param fuel trainSet = .ok t) ∧
      wrongPredictions t.labels t.root held + t.root.splits ≤ held.length ∧
      ∀ x, AllNumbers d x → ∃ c, softPredict t x = .ok c ∧ c ∈ trainSet.map Inst.label := by
  obtain ⟨held, grown, t, h1, h2, h3, h4, _⟩ := softTrain_ok param trainSet d hne hnum hint hσ hshuffle hc
  exact ⟨held, grown, t, h1, h2, h3, h4⟩

/-! ## a class without an instance to learn from -/

theorem mapM_error {α β : Type} {f : α → Res β} {e : Err} (pre : List α) (a : α) (post : List α)
    (h : ∀ b ∈ pre, ∃ c, f b = .ok c) (ha : f a = .error e) : (pre ++ a :: post).mapM f = .error e := by
  induction pre with
  | nil => rw [List.nil_append, List.mapM_cons, ha]; rfl
  | cons b pre ih =>
    obtain ⟨c, hc⟩ := h b (by simp)
    rw [List.cons_append, List.mapM_cons, hc, res_bind_ok, ih (fun b hb => h b (by simp [hb]))]
    rfl

theorem idxR_ub {α : Type} {l : List α} {i : Nat} (h : l.length ≤ i) : idxR l i = .error (.ub "operator[]") := by
  unfold idxR
  rw [List.getElem?_eq_none h]

/-- leaves with fewer entries than the split expects are read past their end -/
theorem calcOutput_ub {F : Type} [Dbl F] {K K' d : Nat} (hK : K' < K) {x : Inst F} {u : List F} (hx : NumbersAre x u d) {e l r : SoftData F}
    (he : e.Sized K d) (hl : l.Sized K' d) (hr : r.Sized K' d) :
    calcOutput x (.split e (.leaf l) (.leaf r)) = .error (.ub "operator[]") := by
  have hdot : dotProduct (biased u) e.w =
      .ok ((List.zipWith (fun a b => a *. b) (biased u) e.w).foldl (fun s p => s +. p) Dbl.zero) := by
    unfold dotProduct
    rw [if_neg]
    simp only [biased, List.length_cons, ne_eq, not_not]
    rw [hx.1, he.2.2]
  simp only [calcOutput, toVector_numbers x u hx.2, hdot, res_bind_ok, res_pure]
  have hrange : List.range e.outputs.length = List.range K' ++ K' :: (List.range (K - K' - 1)).map (fun i => K' + (i + 1)) := by
    rw [he.2.1, show K = K' + ((K - K' - 1) + 1) by omega, List.range_add, List.range_succ_eq_map]
    simp [Function.comp_def]
  rw [hrange, mapM_error (e := .ub "operator[]")]
  · rfl
  · intro i hi
    have hi' : i < K' := by simpa using hi
    unfold mixStep
    rw [idxR_getD (by rw [hl.1]; exact hi'), idxR_getD (by rw [hr.1]; exact hi')]
    exact ⟨_, rfl⟩
  · unfold mixStep
    rw [idxR_ub (by rw [hl.1])]
    rfl

/-- **C121 is refuted when a class has no instance to learn from.** If the split puts every
instance of some class into the validation part (such as a class with a single instance) but
leaves instances of another class, training reads past the end of a vector. -/
theorem C121_refuted (param : SoftParam ℝ) (trainSet : IList ℝ) (d : Nat)
    (hnum : ∀ x ∈ trainSet, AllNumbers d x)
    (hσ : IsPermutation param.splitOrder trainSet.length) (hshuffle : ∀ n, IsPermutation (param.shuffleOrder n) n)
    (hepochs : 0 < param.epochs) (c c' : String) (hcm : c ∈ trainSet.map Inst.label)
    (hc : (trainSet.map Inst.label).count c ≤ ⌈param.ratio * (trainSet.map Inst.label).count c⌉₊)
    (hc' : ⌈param.ratio * (trainSet.map Inst.label).count c'⌉₊ < (trainSet.map Inst.label).count c') (fuel : Nat) :
    softTrain param (fuel + 1) trainSet = .error (.ub "operator[]") := by
  obtain ⟨held, grown, hparts, hheld, hgrown⟩ := split_parts trainSet param.ratio param.splitOrder hσ
  have hgne := grown_ne_nil trainSet param.ratio param.splitOrder hσ c' hc' held grown hparts
  have hne : trainSet ≠ [] := by
    rintro rfl
    simp at hcm
  have hfo := C07_distinct_class_labels trainSet
  have hL := labels_ne_nil trainSet hne
  obtain ⟨x0, l0, hx0⟩ := List.exists_cons_of_ne_nil hne
  have hd : x0.attrs.length = d := by
    obtain ⟨u, hu⟩ := hnum x0 (by rw [hx0]; simp)
    rw [hu.2, List.length_map, hu.1]
  -- the class is missing in the growing part
  have hmiss : c ∉ grown.map Inst.label := by
    obtain ⟨p0, p1, h1, h2, h3⟩ := C25_stratified_split trainSet param.ratio param.splitOrder hσ
    rw [hparts] at h1
    cases h1
    have h4 := (h3 c).2
    have hlen : ((trainSet.shuffle param.splitOrder).filter (fun x => x.label == c)).length = (trainSet.map Inst.label).count c := by
      rw [← List.countP_eq_length_filter, (C15_shuffle_perm trainSet _ hσ).countP_eq, List.count, List.countP_map]
      rfl
    rw [List.drop_eq_nil_of_le (by rw [hlen]; exact hc)] at h4
    intro hm
    obtain ⟨x, hx, rfl⟩ := List.mem_map.1 hm
    have : x ∈ grown.filter (fun y => y.label == x.label) := by simp [hx]
    rw [h4] at this
    simp at this
  have hfg := C07_distinct_class_labels grown
  set labels := trainSet.getDistinctClassLabels with hlab
  set K' := grown.getDistinctClassLabels.length with hK'
  have hK : K' < labels.length := by
    have hsub : (c :: grown.getDistinctClassLabels).Subperm labels := by
      refine (List.subperm_of_subset ?_ ?_)
      · exact List.nodup_cons.2 ⟨fun h => hmiss ((hfg.mem_iff c).1 h), hfg.nodup⟩
      · intro a ha
        rcases List.mem_cons.1 ha with rfl | ha
        · exact (hfo.mem_iff _).2 hcm
        · obtain ⟨x, hx, rfl⟩ := List.mem_map.1 ((hfg.mem_iff a).1 ha)
          exact label_mem trainSet x (hgrown x hx)
    have := hsub.length_le
    simpa using this
  have hset : SoftSetting labels d held :=
    ⟨hfo.nodup, hL, fun x hx => hnum x (hheld x hx), fun x hx => label_mem trainSet x (hheld x hx)⟩
  have hsz : (SoftNode.leaf (SoftData.fresh param.rand 0 labels.length d)).Sized labels.length d := fresh_sized _ _ _ _
  obtain ⟨t0, h1, h2, h3⟩ := softErrors_ok hset hsz
  obtain ⟨a, ha⟩ : ∃ a, t0 = .leaf a := by
    cases t0 with
    | leaf a => exact ⟨a, rfl⟩
    | split _ _ _ => simp [SoftNode.skel] at h3
  subst ha
  obtain ⟨g0, gs, hg0⟩ := List.exists_cons_of_ne_nil hgne
  have hgd : g0.attrs.length = d := by
    obtain ⟨u, hu⟩ := hnum g0 (hgrown g0 (by rw [hg0]; simp))
    rw [hu.2, List.length_map, hu.1]
  have hsh : (grown.shuffle (param.shuffleOrder grown.length)).Perm grown := C15_shuffle_perm grown _ (hshuffle _)
  obtain ⟨y, ys, hy⟩ := List.exists_cons_of_ne_nil (show grown.shuffle (param.shuffleOrder grown.length) ≠ [] from fun h => hgne (by
    rw [h] at hsh; exact hsh.symm.eq_nil))
  obtain ⟨u, hu⟩ := hnum y (hgrown y (hsh.mem_iff.1 (by rw [hy]; simp)))
  -- the first presentation fails
  have hpres : ∀ (alpha eta : ℝ) (prev : SoftPrev ℝ) (pos1 pos2 : Nat), softPresent labels alpha eta []
      (.split a (.leaf (SoftData.fresh param.rand pos1 K' d)) (.leaf (SoftData.fresh param.rand pos2 K' d)), prev) y =
      .error (.ub "operator[]") := by
    intro alpha eta prev pos1 pos2
    unfold softPresent
    simp only [calcOutput_ub hK hu h2 (fresh_sized _ _ _ _) (fresh_sized _ _ _ _)]
    rfl
  have hdesc : ∀ (eta : ℝ) (pos1 pos2 : Nat), softDescend labels param [] eta
      (.split a (.leaf (SoftData.fresh param.rand pos1 K' d)) (.leaf (SoftData.fresh param.rand pos2 K' d))) grown =
      .error (.ub "operator[]") := by
    intro eta pos1 pos2
    obtain ⟨n, hn⟩ : ∃ n, param.epochs = n + 1 := ⟨param.epochs - 1, by omega⟩
    have hget : grown.get 0 = .ok g0 := by rw [hg0]; rfl
    unfold softDescend
    rw [hget, res_bind_ok, hn, List.range_succ_eq_map]
    simp only [List.foldlM_cons]
    have hep : ∀ prev : SoftPrev ℝ, softEpoch labels param [] ⟨.split a (.leaf (SoftData.fresh param.rand pos1 K' d))
        (.leaf (SoftData.fresh param.rand pos2 K' d)), prev, eta, grown⟩ = .error (.ub "operator[]") := by
      intro prev
      unfold softEpoch
      simp only [hy, List.foldlM_cons, hpres]
      rfl
    rw [hep]
    rfl
  have hsplit : softSplit labels param held [] ⟨.leaf (SoftData.fresh param.rand 0 labels.length d), grown,
      freshDraws labels.length d⟩ = .error (.ub "operator[]") := by
    have hget : grown.get 0 = .ok g0 := by rw [hg0]; rfl
    unfold softSplit
    simp only [h1, res_bind_ok, SoftNode.at, res_pure, hget, hgd, SoftNode.readCopy, SoftNode.data, SoftNode.put]
    rw [List.range_succ_eq_map, List.foldlM_cons]
    unfold softTry
    simp only [← hK', hdesc]
    rfl
  have a0 : atR [held, grown] 0 = .ok held := rfl
  have a1 : atR [held, grown] 1 = .ok grown := rfl
  have a2 : trainSet.get 0 = .ok x0 := by rw [hx0]; rfl
  unfold softTrain
  simp only [a2, res_bind_ok]
  rw [hparts, res_bind_ok, a0, res_bind_ok, a1, res_bind_ok, hd]
  simp only [softGrow]
  rw [← hlab, hsplit]
  rfl

/-! ## the hypotheses can be met -/

noncomputable def softParam : SoftParam ℝ where
  ratio := 1 / 5
  splitOrder := [2, 0, 3, 1]
  shuffleOrder := fun n => List.range n
  epochs := 3
  etaDecrease := 9 / 10
  alpha := 1 / 10
  rand := fun n => 1 / (n + 1)

theorem fourPoints_numbers : ∀ x ∈ fourPoints, AllNumbers 1 x := by
  intro x hx
  obtain ⟨⟨u, hu, hattr⟩, _⟩ := fourPoints_numeric x hx
  exact ⟨u, hu, hattr⟩

example : ∃ t, (∀ fuel, 4 < fuel → softTrain softParam fuel fourPoints = .ok t) ∧
    ∀ x, AllNumbers 1 x → ∃ c, softPredict t x = .ok c ∧ (c = "a" ∨ c = "b") := by
  have hcount : ∀ c ∈ fourPoints.map Inst.label, (fourPoints.map Inst.label).count c = 2 := by
    intro c hc
    simp only [fourPoints, List.map_cons, List.map_nil, List.mem_cons, List.not_mem_nil, or_false] at hc ⊢
    rcases hc with rfl | rfl | rfl | rfl <;> decide
  obtain ⟨held, grown, t, h1, h2, h3, h4⟩ := C121_train_partial softParam fourPoints 1 (by simp [fourPoints]) fourPoints_numbers
    (by simp [fourPoints]) fourParam_perm (fun n => List.Perm.refl _) (by
      intro c hc
      rw [hcount c hc]
      have : ⌈softParam.ratio * ((2 : Nat) : ℝ)⌉₊ ≤ 1 := by
        rw [Nat.ceil_le]
        norm_num [softParam]
      omega)
  have hlen : held.length ≤ 4 := by
    obtain ⟨p0, p1, e1, e2, _⟩ := C25_stratified_split fourPoints softParam.ratio softParam.splitOrder fourParam_perm
    rw [h1] at e1
    cases e1
    have := e2.length_eq
    rw [List.length_append] at this
    have h4 : fourPoints.length = 4 := rfl
    omega
  refine ⟨t, fun fuel hf => h2 fuel (by omega), fun x hx => ?_⟩
  obtain ⟨c, e1, e2⟩ := h4 x hx
  refine ⟨c, e1, ?_⟩
  simp only [fourPoints, List.map_cons, List.map_nil, List.mem_cons, List.not_mem_nil, or_false] at e2
  rcases e2 with h | h | h | h
  · exact Or.inl h
  · exact Or.inr h
  · exact Or.inl h
  · exact Or.inr h

/-- three instances, one class with a single one: training is undefined -/
example : ∀ fuel, softTrain { softParam with splitOrder := [0, 1, 2] } (fuel + 1)
    [⟨"a", [.continuous 1], none⟩, ⟨"a", [.continuous 2], none⟩, ⟨"b", [.continuous 3], none⟩] = .error (.ub "operator[]") := by
  intro fuel
  have hb : (([⟨"a", [.continuous 1], none⟩, ⟨"a", [.continuous 2], none⟩, ⟨"b", [.continuous 3], none⟩] : IList ℝ).map Inst.label).count "b" = 1 := by
    simp only [List.map_cons, List.map_nil]
    decide
  have ha : (([⟨"a", [.continuous 1], none⟩, ⟨"a", [.continuous 2], none⟩, ⟨"b", [.continuous 3], none⟩] : IList ℝ).map Inst.label).count "a" = 2 := by
    simp only [List.map_cons, List.map_nil]
    decide
  refine C121_refuted { softParam with splitOrder := [0, 1, 2] } _ 1 ?_ ?_ (fun n => List.Perm.refl _) (by simp [softParam]) "b" "a" (by simp) ?_ ?_ fuel
  · intro x hx
    simp only [List.mem_cons, List.not_mem_nil, or_false] at hx
    rcases hx with rfl | rfl | rfl
    · exact ⟨[1], rfl, rfl⟩
    · exact ⟨[2], rfl, rfl⟩
    · exact ⟨[3], rfl, rfl⟩
  · show [0, 1, 2].Perm (List.range 3)
    decide
  · rw [hb]
    rw [Nat.one_le_ceil_iff]
    norm_num [softParam]
  · rw [ha]
    have : ⌈({ softParam with splitOrder := [0, 1, 2] } : SoftParam ℝ).ratio * ((2 : Nat) : ℝ)⌉₊ ≤ 1 := by
      rw [Nat.ceil_le]
      norm_num [softParam]
    omega

end Verif
