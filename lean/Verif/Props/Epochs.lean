import Verif.Spec.Epochs
import Verif.Props.NeuralNetwork
import Verif.Props.NetTrain
import Mathlib.GroupTheory.OrderOfElement
import Mathlib.GroupTheory.Perm.Basic
import Mathlib.Data.Fintype.Perm

/-! # C212, C213: more epochs, and the order of the instances in the epochs -/

namespace Verif
open Dbl

set_option linter.unusedSectionVars false

variable {F : Type} [Dbl F]

/-! ## the orders -/

theorem shuffle_get (l : IList F) {σ : List Nat} (hσ : IsPermutation σ l.length) (i : Nat) (hi : i < σ.length) :
    (IList.shuffle l σ)[i]? = l[σ[i]]? := by
  have hall : ∀ k ∈ σ, k < l.length := by
    intro k hk
    exact List.mem_range.1 (hσ.mem_iff.1 hk)
  unfold IList.shuffle
  clear hσ
  induction σ generalizing i with
  | nil => simp at hi
  | cons a σ ih =>
    have ha : a < l.length := hall a (by simp)
    rw [List.filterMap_cons, List.getElem?_eq_getElem ha]
    cases i with
    | zero => simp [ha]
    | succ i =>
      simp only [List.getElem?_cons_succ, List.getElem_cons_succ]
      exact ih i (by simpa using hi) (fun k hk => hall k (by simp [hk]))

/-- a shuffle as a permutation of the positions -/
theorem perm_of_order {σ : List Nat} {n : Nat} (hσ : IsPermutation σ n) :
    ∃ π : Equiv.Perm (Fin n), ∀ i : Fin n, σ[i.1]? = some (π i).1 := by
  have hlen : σ.length = n := by rw [hσ.length_eq, List.length_range]
  have hnd : σ.Nodup := hσ.nodup_iff.2 List.nodup_range
  have hlt : ∀ i : Fin n, σ[i.1]'(by omega) < n := fun i => List.mem_range.1 (hσ.mem_iff.1 (List.getElem_mem _))
  have hinj : Function.Injective (fun i : Fin n => (⟨σ[i.1]'(by omega), hlt i⟩ : Fin n)) := by
    intro i j h
    simp only [Fin.mk.injEq] at h
    exact Fin.ext ((hnd.getElem_inj_iff).1 h)
  refine ⟨Equiv.ofBijective _ (Finite.injective_iff_bijective.1 hinj), fun i => ?_⟩
  rw [Equiv.ofBijective_apply, List.getElem?_eq_getElem (by omega)]

theorem orderAt_length (data : IList F) {σ : List Nat} (hσ : IsPermutation σ data.length) (j : Nat) :
    (orderAt data σ j).Perm data := by
  induction j with
  | zero => exact List.Perm.refl _
  | succ j ih => exact (C15_shuffle_perm _ σ (by rw [ih.length_eq]; exact hσ)).trans ih

theorem orderAt_get (data : IList F) {σ : List Nat} (hσ : IsPermutation σ data.length) {π : Equiv.Perm (Fin data.length)}
    (hπ : ∀ i : Fin data.length, σ[i.1]? = some (π i).1) (j : Nat) (i : Fin data.length) :
    (orderAt data σ j)[i.1]? = data[((π ^ j) i).1]? := by
  induction j generalizing i with
  | zero => rfl
  | succ j ih =>
    have hl := (orderAt_length data hσ j).length_eq
    have hs : σ.length = data.length := by rw [hσ.length_eq, List.length_range]
    have hi := i.2
    have hg := hπ i
    rw [List.getElem?_eq_getElem (by omega), Option.some.injEq] at hg
    rw [orderAt, shuffle_get _ (by rw [hl]; exact hσ) i.1 (by omega), hg, ih, pow_succ, Equiv.Perm.mul_apply]

theorem list_ext_fin {l k : IList F} {n : Nat} (hl : l.length = n) (hk : k.length = n) (h : ∀ i : Fin n, l[i.1]? = k[i.1]?) : l = k := by
  apply List.ext_getElem?
  intro i
  by_cases hi : i < n
  · exact h ⟨i, hi⟩
  · rw [List.getElem?_eq_none (by omega), List.getElem?_eq_none (by omega)]

theorem orders_again (data : IList F) {σ : List Nat} (hσ : IsPermutation σ data.length) :
    ∃ P, 0 < P ∧ ∀ j, orderAt data σ (j + P) = orderAt data σ j := by
  obtain ⟨π, hπ⟩ := perm_of_order hσ
  refine ⟨orderOf π, orderOf_pos π, fun j => ?_⟩
  refine list_ext_fin (orderAt_length data hσ _).length_eq (orderAt_length data hσ _).length_eq (fun i => ?_)
  rw [orderAt_get data hσ hπ, orderAt_get data hσ hπ, pow_add, pow_orderOf_eq_one, mul_one]

theorem orders_never (data : IList F) {σ : List Nat} (hσ : IsPermutation σ data.length) (h3 : 3 ≤ data.length)
    (hnd : data.Nodup) : ∃ t : IList F, t.Perm data ∧ ∀ j, orderAt data σ j ≠ t := by
  obtain ⟨π, hπ⟩ := perm_of_order hσ
  set a : Fin data.length := ⟨0, by omega⟩
  set b : Fin data.length := ⟨1, by omega⟩
  set c : Fin data.length := ⟨2, by omega⟩
  let arr : Equiv.Perm (Fin data.length) → IList F := fun τ => List.ofFn (fun i => data[(τ i).1])
  have harr : ∀ τ, (arr τ).Perm data := by
    intro τ
    have h1 : (arr τ) = (List.ofFn τ).map (fun i => data[i.1]) := by
      rw [List.map_ofFn]; rfl
    have h2 : data = (List.finRange data.length).map (fun i => data[i.1]) := by
      conv_lhs => rw [← List.ofFn_getElem (xs := data)]
      rw [List.ofFn_eq_map]
    rw [h1]
    conv_rhs => rw [h2]
    exact (Equiv.Perm.ofFn_comp_perm τ id).map _ |>.trans (by rw [List.ofFn_id])
  have hall : ∀ τ j, orderAt data σ j = arr τ → π ^ j = τ := by
    intro τ j h
    ext i
    have h1 := orderAt_get data hσ hπ j i
    rw [h] at h1
    have h2 : (arr τ)[i.1]? = some data[(τ i).1] := by simp [arr]
    rw [h2, List.getElem?_eq_getElem (by omega), Option.some.injEq] at h1
    exact ((hnd.getElem_inj_iff).1 h1).symm
  by_cases hab : ∃ j, orderAt data σ j = arr (Equiv.swap a b)
  · by_cases hbc : ∃ j, orderAt data σ j = arr (Equiv.swap b c)
    · exfalso
      obtain ⟨j, hj⟩ := hab
      obtain ⟨k, hk⟩ := hbc
      have e1 := hall _ j hj
      have e2 := hall _ k hk
      have hc : Equiv.swap a b * Equiv.swap b c = Equiv.swap b c * Equiv.swap a b := by
        rw [← e1, ← e2, ← pow_add, ← pow_add, Nat.add_comm]
      have hva := congrArg (fun τ : Equiv.Perm (Fin data.length) => τ a) hc
      have hne1 : a ≠ b := by simp [a, b]
      have hne2 : a ≠ c := by simp [a, c]
      have hne3 : b ≠ c := by simp [b, c]
      simp only [Equiv.Perm.mul_apply, Equiv.swap_apply_left, Equiv.swap_apply_of_ne_of_ne hne1 hne2] at hva
      exact hne3 hva
    · exact ⟨_, harr _, fun j hj => hbc ⟨j, hj⟩⟩
  · exact ⟨_, harr _, fun j hj => hab ⟨j, hj⟩⟩

/-- **C213.** In every epoch of the training of a network (perceptron, multi-layer perceptron, deep network, auto-encoder) every
instance of the learning part is presented exactly once, whatever permutation the seed stands for; after some number of epochs
the orders start again from the beginning. The orders do not depend on the kind of network nor on the number of epochs. -/
theorem C213_once [LawfulOrd F] (param : NetParam F) (l data : IList F) (hσ : IsPermutation param.shuffleOrder data.length) :
    ∃ order, OnceAndAgain data order ∧ ∀ n,
    (LearningPart l param.ratio param.splitOrder data →
      (∀ old net, percTrain { param with epochs := n } old l = .ok net →
        ∃ w, Presented (percStep net.labels) param.learningRate param.etaDecrease n order w) ∧
      (∀ H act old net, mlpTrain { param with epochs := n } H act old l = .ok net →
        ∃ w, Presented (mlpStep net.labels act) param.learningRate param.etaDecrease n order w) ∧
      (∀ hidden act old net, deepTrain { param with epochs := n } hidden act old l = .ok net →
        ∃ w, Presented (deepStep net.labels act hidden.length) param.learningRate param.etaDecrease n order w)) ∧
    (LearningPart l (Dbl.lit (1/5)) param.splitOrder data →
      ∀ H old net, autoTrain { param with epochs := n } H old l = .ok net →
        ∃ w, Presented autoStep param.learningRate (Dbl.lit (19/20)) n order w) := by
  have hord : OnceAndAgain data (fun j => orderAt data param.shuffleOrder (j + 1)) := by
    refine ⟨fun j => orderAt_length data hσ _, ?_⟩
    obtain ⟨P, h0, h⟩ := orders_again data hσ
    exact ⟨P, h0, fun j => by
      show orderAt data param.shuffleOrder (j + P + 1) = _
      rw [show j + P + 1 = j + 1 + P by omega]; exact h _⟩
  refine ⟨_, hord, fun n => ⟨?_, ?_⟩⟩
  · rintro ⟨parts, hp, hd⟩
    refine ⟨?_, ?_, ?_⟩
    · intro old net h
      obtain ⟨parts', held, grown, w, acc, e1, _, e3, _, _, e6, _⟩ := C77_perceptron _ old net l h
      cases hp.symm.trans e1
      cases hd.symm.trans e3
      exact ⟨w, e6⟩
    · intro H act old net h
      obtain ⟨parts', held, grown, w, acc, e1, _, e3, _, _, e6, _⟩ := C77_multilayer _ H act old net l h
      cases hp.symm.trans e1
      cases hd.symm.trans e3
      exact ⟨w, e6⟩
    · intro hidden act old net h
      obtain ⟨parts', held, grown, w, acc, e1, _, e3, _, _, e6, _⟩ := C77_deep _ hidden act old net l h
      cases hp.symm.trans e1
      cases hd.symm.trans e3
      exact ⟨w, e6⟩
  · rintro ⟨parts, hp, hd⟩ H old net h
    obtain ⟨parts', held, grown, x0, w, acc, e1, _, e3, _, _, e6, _⟩ := C78_autoencoder _ H old net l h
    cases hp.symm.trans e1
    cases hd.symm.trans e3
    exact ⟨w, e6⟩

/-- **C213, refuted.** The orders are not drawn anew: for every seed, if the learning part consists of three or more different
instances, there is an order that no epoch uses, however many epochs there are. (The same permutation is applied again in
every epoch.) -/
theorem C213_refuted [LawfulOrd F] (param : NetParam F) (l data : IList F) (hσ : IsPermutation param.shuffleOrder data.length)
    (h3 : 3 ≤ data.length) (hnd : data.Nodup) :
    ∃ order, SomeOrderNever data order ∧ ∀ n,
    (LearningPart l param.ratio param.splitOrder data →
      (∀ old net, percTrain { param with epochs := n } old l = .ok net →
        ∃ w, Presented (percStep net.labels) param.learningRate param.etaDecrease n order w) ∧
      (∀ H act old net, mlpTrain { param with epochs := n } H act old l = .ok net →
        ∃ w, Presented (mlpStep net.labels act) param.learningRate param.etaDecrease n order w) ∧
      (∀ hidden act old net, deepTrain { param with epochs := n } hidden act old l = .ok net →
        ∃ w, Presented (deepStep net.labels act hidden.length) param.learningRate param.etaDecrease n order w)) ∧
    (LearningPart l (Dbl.lit (1/5)) param.splitOrder data →
      ∀ H old net, autoTrain { param with epochs := n } H old l = .ok net →
        ∃ w, Presented autoStep param.learningRate (Dbl.lit (19/20)) n order w) := by
  have hord : SomeOrderNever data (fun j => orderAt data param.shuffleOrder (j + 1)) := by
    obtain ⟨t, h1, h2⟩ := orders_never data hσ h3 hnd
    exact ⟨t, h1, fun j => h2 _⟩
  refine ⟨_, hord, fun n => ⟨?_, ?_⟩⟩
  · rintro ⟨parts, hp, hd⟩
    refine ⟨?_, ?_, ?_⟩
    · intro old net h
      obtain ⟨parts', held, grown, w, acc, e1, _, e3, _, _, e6, _⟩ := C77_perceptron _ old net l h
      cases hp.symm.trans e1
      cases hd.symm.trans e3
      exact ⟨w, e6⟩
    · intro H act old net h
      obtain ⟨parts', held, grown, w, acc, e1, _, e3, _, _, e6, _⟩ := C77_multilayer _ H act old net l h
      cases hp.symm.trans e1
      cases hd.symm.trans e3
      exact ⟨w, e6⟩
    · intro hidden act old net h
      obtain ⟨parts', held, grown, w, acc, e1, _, e3, _, _, e6, _⟩ := C77_deep _ hidden act old net l h
      cases hp.symm.trans e1
      cases hd.symm.trans e3
      exact ⟨w, e6⟩
  · rintro ⟨parts, hp, hd⟩ H old net h
    obtain ⟨parts', held, grown, x0, w, acc, e1, _, e3, _, _, e6, _⟩ := C78_autoencoder _ H old net l h
    cases hp.symm.trans e1
    cases hd.symm.trans e3
    exact ⟨w, e6⟩

/-! ## more epochs -/

theorem epochLoop_split {W : Type} (step : F → W → Inst F → Res W) (perf : W → Res F) (better : F → F → Bool) (decrease : F)
    (σ : List Nat) (n m : Nat) (s0 s' : Epochs W F) (h : epochLoop step perf better decrease σ (n + m) s0 = .ok s') :
    ∃ s, epochLoop step perf better decrease σ n s0 = .ok s ∧ epochLoop step perf better decrease σ m s = .ok s' := by
  unfold epochLoop at h ⊢
  rw [List.range_add, List.foldlM_append] at h
  obtain ⟨s, h1, h2⟩ := bind_ok_iff.1 h
  rw [List.foldlM_map] at h2
  exact ⟨s, h1, h2⟩

/-- further epochs keep the best weights or find better ones -/
theorem epochLoop_better {W : Type} (step : F → W → Inst F → Res W) (perf : W → Res F) (better : F → F → Bool)
    (lt le : F → F → Bool) (C : Comparison lt le) (hbetter : ∀ p b, better p b = lt b p) (decrease : F) (σ : List Nat) :
    ∀ (m : Nat) (s s' : Epochs W F), epochLoop step perf better decrease σ m s = .ok s' →
      (s'.best = s.best ∧ s'.bestPerf = s.bestPerf) ∨ (lt s.bestPerf s'.bestPerf = true ∧ perf s'.best = .ok s'.bestPerf) := by
  intro m
  induction m with
  | zero =>
    intro s s' h
    unfold epochLoop at h
    simp only [List.range_zero, List.foldlM_nil] at h
    cases h
    exact Or.inl ⟨rfl, rfl⟩
  | succ m ih =>
    intro s s' h
    obtain ⟨s1, h1, h2⟩ := epochLoop_split _ _ _ _ _ m 1 _ _ h
    have h3 : epochStep step perf better decrease σ s1 = .ok s' := by
      unfold epochLoop at h2
      simp only [List.range_one, List.foldlM_cons, List.foldlM_nil] at h2
      obtain ⟨s2, h4, h5⟩ := bind_ok_iff.1 h2
      cases h5; exact h4
    unfold epochStep at h3
    obtain ⟨w, h4, h5⟩ := bind_ok_iff.1 h3
    obtain ⟨p, h6, h7⟩ := bind_ok_iff.1 h5
    cases h7
    by_cases hb : better p s1.bestPerf = true
    · simp only [hb, if_true]
      rw [hbetter] at hb
      refine Or.inr ⟨?_, h6⟩
      rcases ih s s1 h1 with ⟨_, e2⟩ | ⟨e1, _⟩
      · rw [← e2]; exact hb
      · exact C.mixed _ _ _ e1 (C.weak _ _ hb)
    · simp only [Bool.eq_false_iff.2 hb, Bool.false_eq_true, if_false]
      exact ih s s1 h1

/-- running for `n + m` instead of `n` epochs -/
theorem epochLoop_longer {W : Type} (step : F → W → Inst F → Res W) (perf : W → Res F) (better : F → F → Bool)
    (lt le : F → F → Bool) (C : Comparison lt le) (hbetter : ∀ p b, better p b = lt b p) (decrease : F) (σ : List Nat)
    (w0 : W) (start eta : F) (data : IList F) (n m : Nat) (s' : Epochs W F)
    (h : epochLoop step perf better decrease σ (n + m) ⟨w0, w0, start, eta, data⟩ = .ok s') :
    ∃ s, epochLoop step perf better decrease σ n ⟨w0, w0, start, eta, data⟩ = .ok s ∧
      (s'.best = s.best ∨ s.best = w0 ∨ ∃ a a', perf s.best = .ok a ∧ perf s'.best = .ok a' ∧ lt a a' = true) := by
  obtain ⟨s, h1, h2⟩ := epochLoop_split _ _ _ _ _ n m _ _ h
  refine ⟨s, h1, ?_⟩
  rcases epochLoop_better _ _ _ lt le C hbetter _ _ _ _ _ h2 with ⟨e, _⟩ | ⟨e1, e2⟩
  · exact Or.inl e
  · rcases epochLoop_better _ _ _ lt le C hbetter _ _ _ _ _ h1 with ⟨e, _⟩ | ⟨_, e4⟩
    · exact Or.inr (Or.inl e)
    · exact Or.inr (Or.inr ⟨_, _, e4, e2, e1⟩)

/-- **C212**, perceptron. If training for `n + m` epochs succeeds, so does training for `n`, and the longer training gives the
same network or one with a greater accuracy on the validation part — unless the shorter training gave the initial weights.
What is missing: the initial weights (C212_refuted). -/
theorem C212_perceptron_partial [LawfulOrd F] (param : NetParam F) (old net' : Net (Mat F)) (l : IList F) (n m : Nat)
    (h : percTrain { param with epochs := n + m } old l = .ok net') :
    ∃ net, percTrain { param with epochs := n } old l = .ok net ∧ (net' = net ∨
      net.weights = param.random net.labels.length (net.d + 1) ∨
      ∃ held a a', ValidationPart l param.ratio param.splitOrder held ∧ AccuracyIs net.labels percOutput held net.weights a ∧
        AccuracyIs net'.labels percOutput held net'.weights a' ∧ (a <. a') = true) := by
  unfold percTrain at h
  obtain ⟨ini, h1, h⟩ := bind_ok_iff.1 h
  obtain ⟨parts, h2, h⟩ := bind_ok_iff.1 h
  obtain ⟨data, h3, h⟩ := bind_ok_iff.1 h
  obtain ⟨val, h4, h⟩ := bind_ok_iff.1 h
  obtain ⟨s', h5, h⟩ := bind_ok_iff.1 h
  cases h
  obtain ⟨s, h6, h7⟩ := epochLoop_longer _ _ moreAccurate _ _ comparison_up (fun p b => rfl) _ _ _ _ _ _ _ _ _ h5
  refine ⟨⟨ini.1, ini.2, s.best⟩, ?_, ?_⟩
  · unfold percTrain
    rw [h1, res_bind_ok]
    simp only
    rw [h2, res_bind_ok, h3, res_bind_ok, h4, res_bind_ok]
    refine bind_ok_iff.2 ?_
    exact ⟨s, h6, rfl⟩
  · rcases h7 with e | e | ⟨a, a', e1, e2, e3⟩
    · left; rw [e]
    · exact Or.inr (Or.inl e)
    · exact Or.inr (Or.inr ⟨val, a, a', ⟨parts, h2, atR_eq_ok.1 h4⟩, validationAccuracy_spec _ _ _ _ _ e1,
        validationAccuracy_spec _ _ _ _ _ e2, e3⟩)

/-- **C212**, multi-layer perceptron. -/
theorem C212_multilayer_partial [LawfulOrd F] (param : NetParam F) (H : Nat) (act : Activation) (old net' : Net (Two F))
    (l : IList F) (n m : Nat) (h : mlpTrain { param with epochs := n + m } H act old l = .ok net') :
    ∃ net, mlpTrain { param with epochs := n } H act old l = .ok net ∧ (net' = net ∨
      net.weights = ⟨param.random H (net.d + 1), param.random net.labels.length (H + 1)⟩ ∨
      ∃ held a a', ValidationPart l param.ratio param.splitOrder held ∧ AccuracyIs net.labels (mlpOutput act) held net.weights a ∧
        AccuracyIs net'.labels (mlpOutput act) held net'.weights a' ∧ (a <. a') = true) := by
  unfold mlpTrain at h
  obtain ⟨ini, h1, h⟩ := bind_ok_iff.1 h
  obtain ⟨parts, h2, h⟩ := bind_ok_iff.1 h
  obtain ⟨data, h3, h⟩ := bind_ok_iff.1 h
  obtain ⟨val, h4, h⟩ := bind_ok_iff.1 h
  obtain ⟨s', h5, h⟩ := bind_ok_iff.1 h
  cases h
  obtain ⟨s, h6, h7⟩ := epochLoop_longer _ _ moreAccurate _ _ comparison_up (fun p b => rfl) _ _ _ _ _ _ _ _ _ h5
  refine ⟨⟨ini.1, ini.2, s.best⟩, ?_, ?_⟩
  · unfold mlpTrain
    rw [h1, res_bind_ok]
    simp only
    rw [h2, res_bind_ok, h3, res_bind_ok, h4, res_bind_ok]
    refine bind_ok_iff.2 ?_
    exact ⟨s, h6, rfl⟩
  · rcases h7 with e | e | ⟨a, a', e1, e2, e3⟩
    · left; rw [e]
    · exact Or.inr (Or.inl e)
    · exact Or.inr (Or.inr ⟨val, a, a', ⟨parts, h2, atR_eq_ok.1 h4⟩, validationAccuracy_spec _ _ _ _ _ e1,
        validationAccuracy_spec _ _ _ _ _ e2, e3⟩)

/-- **C212**, deep network. -/
theorem C212_deep_partial [LawfulOrd F] (param : NetParam F) (hidden : List Nat) (act : Activation)
    (old net' : Net (List (Mat F))) (l : IList F) (n m : Nat)
    (h : deepTrain { param with epochs := n + m } hidden act old l = .ok net') :
    ∃ net, deepTrain { param with epochs := n } hidden act old l = .ok net ∧ (net' = net ∨
      deepAllocate param.random net.labels net.d hidden old.weights = .ok net.weights ∨
      ∃ held a a', ValidationPart l param.ratio param.splitOrder held ∧ AccuracyIs net.labels (deepOutput act) held net.weights a ∧
        AccuracyIs net'.labels (deepOutput act) held net'.weights a' ∧ (a <. a') = true) := by
  unfold deepTrain at h
  obtain ⟨ini, h1, h⟩ := bind_ok_iff.1 h
  obtain ⟨parts, h2, h⟩ := bind_ok_iff.1 h
  obtain ⟨data, h3, h⟩ := bind_ok_iff.1 h
  obtain ⟨val, h4, h⟩ := bind_ok_iff.1 h
  obtain ⟨ws, h8, h⟩ := bind_ok_iff.1 h
  obtain ⟨s', h5, h⟩ := bind_ok_iff.1 h
  cases h
  obtain ⟨s, h6, h7⟩ := epochLoop_longer _ _ moreAccurate _ _ comparison_up (fun p b => rfl) _ _ _ _ _ _ _ _ _ h5
  refine ⟨⟨ini.1, ini.2, s.best⟩, ?_, ?_⟩
  · unfold deepTrain
    rw [h1, res_bind_ok]
    simp only
    rw [h2, res_bind_ok, h3, res_bind_ok, h4, res_bind_ok, h8, res_bind_ok]
    refine bind_ok_iff.2 ?_
    exact ⟨s, h6, rfl⟩
  · rcases h7 with e | e | ⟨a, a', e1, e2, e3⟩
    · left; rw [e]
    · right; left; rw [e]; exact h8
    · exact Or.inr (Or.inr ⟨val, a, a', ⟨parts, h2, atR_eq_ok.1 h4⟩, validationAccuracy_spec _ _ _ _ _ e1,
        validationAccuracy_spec _ _ _ _ _ e2, e3⟩)

/-- **C212**, auto-encoder: the same network or one with a smaller validation error, unless the shorter training gave the initial
weights. -/
theorem C212_autoencoder_partial [LawfulOrd F] (param : NetParam F) (H : Nat) (old net' : Net (Two F))
    (l : IList F) (n m : Nat) (h : autoTrain { param with epochs := n + m } H old l = .ok net') :
    ∃ net, autoTrain { param with epochs := n } H old l = .ok net ∧ (net' = net ∨
      (∃ data x0, LearningPart l (Dbl.lit (1/5)) param.splitOrder data ∧ data[0]? = some x0 ∧
        net.weights = ⟨param.random H (net.d + 1), param.random x0.continuousAttributeSize.toNat (H + 1)⟩) ∨
      ∃ held a a', ValidationPart l (Dbl.lit (1/5)) param.splitOrder held ∧ autoError held net.weights = .ok a ∧
        autoError held net'.weights = .ok a' ∧ (a' <. a) = true) := by
  unfold autoTrain at h
  obtain ⟨ini, h1, h⟩ := bind_ok_iff.1 h
  obtain ⟨parts, h2, h⟩ := bind_ok_iff.1 h
  obtain ⟨data, h3, h⟩ := bind_ok_iff.1 h
  obtain ⟨val, h4, h⟩ := bind_ok_iff.1 h
  obtain ⟨x0, h8, h⟩ := bind_ok_iff.1 h
  obtain ⟨s', h5, h⟩ := bind_ok_iff.1 h
  cases h
  obtain ⟨s, h6, h7⟩ := epochLoop_longer _ _ lessError _ _ comparison_down (fun p b => rfl) _ _ _ _ _ _ _ _ _ h5
  refine ⟨⟨ini.1, ini.2, s.best⟩, ?_, ?_⟩
  · unfold autoTrain
    rw [h1, res_bind_ok]
    simp only
    rw [h2, res_bind_ok, h3, res_bind_ok, h4, res_bind_ok, h8, res_bind_ok]
    refine bind_ok_iff.2 ?_
    exact ⟨s, h6, rfl⟩
  · rcases h7 with e | e | ⟨a, a', e1, e2, e3⟩
    · left; rw [e]
    · exact Or.inr (Or.inl ⟨data, x0, ⟨parts, h2, atR_eq_ok.1 h3⟩, atR_eq_ok.1 h8, e⟩)
    · exact Or.inr (Or.inr ⟨val, a, a', ⟨parts, h2, atR_eq_ok.1 h4⟩, e1, e2, e3⟩)

/-! ## a network that gets worse by learning -/

/-- three instances of one class, one of the other -/
noncomputable def flipPoints : IList ℝ :=
  [⟨"a", [.continuous 1], none⟩, ⟨"a", [.continuous (-1)], none⟩, ⟨"b", [.continuous (-1)], none⟩, ⟨"a", [.continuous (-5)], none⟩]

noncomputable def flipParam : NetParam ℝ where
  ratio := 1 / 2
  splitOrder := [0, 1, 2, 3]
  shuffleOrder := [0]
  random := fun r c => ⟨r, c, fun i j => if j = 0 then 0 else if i = 0 then 1 else -1⟩
  epochs := 0
  learningRate := 1
  etaDecrease := 1

noncomputable def flipHeld : IList ℝ :=
  [⟨"a", [.continuous 1], none⟩, ⟨"a", [.continuous (-1)], none⟩, ⟨"b", [.continuous (-1)], none⟩]

theorem flip_parts : Parts.byRatioStratified flipPoints (1/2) [0, 1, 2, 3] = .ok [flipHeld, [⟨"a", [.continuous (-5)], none⟩]] := by
  have ha : (flipPoints.classDistribution.getProbability "a" : ℝ) = 3 / 4 := by
    have : (flipPoints.classDistribution.getProbability "a" : ℝ) = Dbl.ofNat 3 /. Dbl.ofNat 4 := rfl
    rw [this]; simp
  have hb : (flipPoints.classDistribution.getProbability "b" : ℝ) = 1 / 4 := by
    have : (flipPoints.classDistribution.getProbability "b" : ℝ) = Dbl.ofNat 1 /. Dbl.ofNat 4 := rfl
    rw [this]; simp
  have ka0 : ((Dbl.ofNat 0 : ℝ) <. (Dbl.ofNat 4 *. (1/2) *. (flipPoints.classDistribution.getProbability "a" : ℝ))) = true := by
    rw [ha]; simp
  have ka1 : ((Dbl.ofNat 1 : ℝ) <. (Dbl.ofNat 4 *. (1/2) *. (flipPoints.classDistribution.getProbability "a" : ℝ))) = true := by
    rw [ha]; simp; norm_num
  have ka2 : ((Dbl.ofNat 2 : ℝ) <. (Dbl.ofNat 4 *. (1/2) *. (flipPoints.classDistribution.getProbability "a" : ℝ))) = false := by
    rw [ha]; simp; norm_num
  have kb0 : ((Dbl.ofNat 0 : ℝ) <. (Dbl.ofNat 4 *. (1/2) *. (flipPoints.classDistribution.getProbability "b" : ℝ))) = true := by
    rw [hb]; simp
  unfold Parts.byRatioStratified
  have hl : List.range (List.length flipPoints) = [0, 1, 2, 3] := rfl
  have hn : List.length flipPoints = 4 := rfl
  rw [hl, hn]
  simp only [List.foldlM_cons, List.foldlM_nil]
  have g0 : ∀ {i} {x : Inst ℝ}, flipPoints[i]? = some x → flipPoints.get i = .ok x := by
    intro i x h; exact atR_eq_ok.2 h
  simp only [atR, List.getElem?_cons_zero, List.getElem?_cons_succ, res_bind_ok, g0 (i := 0) rfl, g0 (i := 1) rfl, g0 (i := 2) rfl, g0 (i := 3) rfl]
  have c0 : Counter.count ([] : Counter) "a" = 0 := rfl
  have c1 : Counter.count (Counter.put [] "a") "a" = 1 := by decide
  have c2 : Counter.count (Counter.put (Counter.put [] "a") "a") "b" = 0 := by decide
  have c3 : Counter.count (Counter.put (Counter.put (Counter.put [] "a") "a") "b") "a" = 2 := by decide
  have p0 : ∀ (A B : List (Inst ℝ)) x, Parts.addTo [A, B] 0 x = .ok [A ++ [x], B] := fun _ _ _ => rfl
  have p1 : ∀ (A B : List (Inst ℝ)) x, Parts.addTo [A, B] 1 x = .ok [A, B ++ [x]] := fun _ _ _ => rfl
  simp only [c0, c1, c2, c3, ka0, ka1, ka2, kb0, if_true, Bool.false_eq_true, if_false, p0, p1, res_bind_ok, res_pure]
  rfl

/-- a perceptron with two outputs answers by the sign of the difference of its outputs -/
theorem two_answer (W : Mat ℝ) (hr : W.rows = 2) (hc : W.cols = 2) (lab : String) (v : ℝ) :
    netPredict ["a", "b"] (percOutput W) ⟨lab, [.continuous v], none⟩ =
      .ok (if W.e 0 0 + W.e 0 1 * v < W.e 1 0 + W.e 1 1 * v then "b" else "a") := by
  obtain ⟨r, c, e⟩ := W
  cases hr; cases hc
  have hi : inputVector (⟨lab, [.continuous v], none⟩ : Inst ℝ) = .ok [1, v] := by
    have : inputVector (⟨lab, [.continuous v], none⟩ : Inst ℝ) = .ok [Dbl.one, v] := rfl
    rw [this, one_real]
  have ho : percOutput (⟨2, 2, e⟩ : Mat ℝ) [1, v] = .ok [e 0 0 + e 0 1 * v, e 1 0 + e 1 1 * v] := by
    simp [percOutput, Mat.mulRightR, Mat.mulRight, Mat.row, dotV, List.range_succ]
  have hcomp : (⟨lab, [.continuous v], none⟩ : Inst ℝ).isComposite = false := rfl
  unfold netPredict
  rw [hi, res_bind_ok, ho, res_bind_ok, hcomp]
  simp only [Bool.false_eq_true, if_false, maxIndex, res_bind_ok, List.zipIdx_cons, List.zipIdx_nil, List.foldl_cons, List.foldl_nil,
    lt_real, decide_eq_true_eq]
  split <;> rfl

theorem flip_step (W : Mat ℝ) (h : percStep ["a", "b"] 1 (flipParam.random 2 2) ⟨"a", [.continuous (-5)], none⟩ = .ok W) :
    W.rows = 2 ∧ W.cols = 2 ∧ ∃ δ : ℝ, 1/2 < δ ∧ W.e 0 0 = δ ∧ W.e 0 1 = 1 - 5 * δ ∧ W.e 1 0 = -δ ∧ W.e 1 1 = -1 + 5 * δ := by
  have hi : inputVector (⟨"a", [.continuous (-5)], none⟩ : Inst ℝ) = .ok [1, -5] := by
    have : inputVector (⟨"a", [.continuous (-5)], none⟩ : Inst ℝ) = .ok [Dbl.one, -5] := rfl
    rw [this, one_real]
  obtain ⟨o, h1, h2, h3⟩ := rMinusY_ok ["a", "b"] (⟨"a", [.continuous (-5)], none⟩ : Inst ℝ) [1, -5] (flipParam.random 2 2)
    (by simp) rfl rfl
  have ho : o = [-5, 5] := by
    have : (flipParam.random 2 2).mulRight [1, -5] = some [-5, 5] := by
      simp [flipParam, Mat.mulRight, Mat.row, dotV, List.range_succ]
    rw [this] at h1; cases h1; rfl
  subst ho
  set δ : ℝ := 1 - Real.exp (-5) / (Real.exp (-5) + Real.exp 5) with hδ
  have h3' : calculateRMinusY ["a", "b"] (⟨"a", [.continuous (-5)], none⟩ : Inst ℝ) [1, -5] (flipParam.random 2 2) = .ok [δ, -δ] := by
    rw [h3]
    have hp : Real.exp (-5) + Real.exp 5 ≠ 0 := by positivity
    have e1 : List.idxOf "a" ["a", "b"] = 0 := by decide
    simp only [e1]
    simp [hδ]
    field_simp
    ring
  unfold percStep percUpdate at h
  rw [hi, res_bind_ok, h3', res_bind_ok] at h
  have hm : ∃ M, (flipParam.random 2 2).addR ((Mat.outer [δ, -δ] [1, -5]).scale 1) = .ok M ∧ M.rows = 2 ∧ M.cols = 2 ∧
      M.e 0 0 = δ ∧ M.e 0 1 = 1 - 5 * δ ∧ M.e 1 0 = -δ ∧ M.e 1 1 = -1 + 5 * δ := by
    refine ⟨_, if_pos ⟨rfl, rfl⟩, rfl, rfl, ?_, ?_, ?_, ?_⟩ <;> simp [flipParam, Mat.outer, Mat.scale] <;> ring
  obtain ⟨M, hM, m1, m2, m3, m4, m5, m6⟩ := hm
  rw [hM] at h
  cases h
  refine ⟨m1, m2, δ, ?_, m3, m4, m5, m6⟩
  have h5 : Real.exp (-5) < Real.exp 5 := Real.exp_lt_exp.2 (by norm_num)
  have hp : 0 < Real.exp (-5) + Real.exp 5 := by positivity
  have : Real.exp (-5) / (Real.exp (-5) + Real.exp 5) < 1 / 2 := by
    rw [div_lt_iff₀ hp]; linarith
  rw [hδ]; linarith

theorem flip_numeric : ∀ x ∈ flipPoints, NumericInst 1 x := by
  intro x hx
  simp only [flipPoints, List.mem_cons, List.not_mem_nil, or_false] at hx
  rcases hx with rfl | rfl | rfl | rfl
  · exact ⟨⟨[1], rfl, rfl⟩, fun h => by cases h⟩
  · exact ⟨⟨[-1], rfl, rfl⟩, fun h => by cases h⟩
  · exact ⟨⟨[-1], rfl, rfl⟩, fun h => by cases h⟩
  · exact ⟨⟨[-5], rfl, rfl⟩, fun h => by cases h⟩

theorem flip_labels : flipPoints.getDistinctClassLabels = ["a", "b"] := by
  simp [flipPoints, IList.getDistinctClassLabels]

theorem flip_trains (n : Nat) (old : Net (Mat ℝ)) : ∃ net, percTrain { flipParam with epochs := n } old flipPoints = .ok net := by
  obtain ⟨net, h, _⟩ := C119_perceptron { flipParam with epochs := n } old flipPoints 1 (by simp [flipPoints]) flip_numeric
    (by show [0, 1, 2, 3].Perm (List.range 4); decide) (fun _ _ => ⟨rfl, rfl⟩)
  exact ⟨net, h⟩

/-- the answers to the three instances of the validation part -/
theorem flip_accuracy (W : Mat ℝ) (hr : W.rows = 2) (hc : W.cols = 2) :
    (W.e 1 0 + W.e 1 1 < W.e 0 0 + W.e 0 1 → W.e 0 0 - W.e 0 1 < W.e 1 0 - W.e 1 1 →
      AccuracyIs ["a", "b"] percOutput flipHeld W (2 / 3)) ∧
    (W.e 0 0 + W.e 0 1 < W.e 1 0 + W.e 1 1 → W.e 1 0 - W.e 1 1 < W.e 0 0 - W.e 0 1 →
      AccuracyIs ["a", "b"] percOutput flipHeld W (1 / 3)) := by
  refine ⟨fun h1 h2 => ?_, fun h1 h2 => ?_⟩
  · refine ⟨fun x => if x.attrs = [.continuous 1] then "a" else "b", ?_, ?_⟩
    · intro x hx
      simp only [flipHeld, List.mem_cons, List.not_mem_nil, or_false] at hx
      rcases hx with rfl | rfl | rfl <;> rw [two_answer W hr hc]
      · rw [if_neg (by linarith)]; simp
      · rw [if_pos (by linarith)]; norm_num
      · rw [if_pos (by linarith)]; norm_num
    · have : (-1 : ℝ) ≠ 1 := by norm_num
      simp [flipHeld, this]
  · refine ⟨fun x => if x.attrs = [.continuous 1] then "b" else "a", ?_, ?_⟩
    · intro x hx
      simp only [flipHeld, List.mem_cons, List.not_mem_nil, or_false] at hx
      rcases hx with rfl | rfl | rfl <;> rw [two_answer W hr hc]
      · rw [if_pos (by linarith)]; simp
      · rw [if_neg (by linarith)]; norm_num
      · rw [if_neg (by linarith)]; norm_num
    · have : (-1 : ℝ) ≠ 1 := by norm_num
      simp [flipHeld, this]

theorem flip_net {n : Nat} {old net : Net (Mat ℝ)} (h : percTrain { flipParam with epochs := n } old flipPoints = .ok net) :
    net.labels = ["a", "b"] ∧ net.d = 1 := by
  unfold percTrain at h
  obtain ⟨ini, h1, h⟩ := bind_ok_iff.1 h
  obtain ⟨parts, h2, h⟩ := bind_ok_iff.1 h
  obtain ⟨data, h3, h⟩ := bind_ok_iff.1 h
  obtain ⟨val, h4, h⟩ := bind_ok_iff.1 h
  obtain ⟨s', h5, h⟩ := bind_ok_iff.1 h
  cases h
  unfold netInitialize at h1
  obtain ⟨x0, e, h1⟩ := bind_ok_iff.1 h1
  have e' : flipPoints[0]? = some x0 := atR_eq_ok.1 e
  cases e'
  split at h1
  · cases h1
  · cases h1
    exact ⟨flip_labels, rfl⟩

/-- **C212, refuted.** A perceptron trained for no epoch at all can be better on the validation part than the one trained for one
epoch: the initial weights are never compared with the others. -/
theorem C212_refuted (old : Net (Mat ℝ)) : ∃ net net' held,
    percTrain { flipParam with epochs := 0 } old flipPoints = .ok net ∧
    percTrain { flipParam with epochs := 1 } old flipPoints = .ok net' ∧
    ValidationPart flipPoints flipParam.ratio flipParam.splitOrder held ∧
    AccuracyIs net.labels percOutput held net.weights (2 / 3) ∧ AccuracyIs net'.labels percOutput held net'.weights (1 / 3) := by
  obtain ⟨net, h⟩ := flip_trains 0 old
  obtain ⟨net', h'⟩ := flip_trains 1 old
  refine ⟨net, net', flipHeld, h, h', ⟨_, flip_parts, rfl⟩, ?_, ?_⟩
  · obtain ⟨l1, l2⟩ := flip_net h
    obtain ⟨parts, held, grown, w, acc, e1, e2, e3, e4, e5, e6, e7, e8⟩ := C77_perceptron _ _ _ _ h
    have hw : net.weights = flipParam.random 2 2 := by
      rcases e8 with ⟨e, _⟩ | ⟨_, hlt, _⟩
      · rw [e, e5, l1, l2]; rfl
      · exact absurd hlt (Nat.not_lt_zero _)
    rw [l1, hw]
    refine (flip_accuracy _ rfl rfl).1 ?_ ?_ <;> simp [flipParam]
  · obtain ⟨l1, l2⟩ := flip_net h'
    obtain ⟨parts, held, grown, w, acc, e1, e2, e3, e4, e5, e6, e7, e8⟩ := C77_perceptron _ _ _ _ h'
    rw [l1] at e5 e6 e7
    rw [l2] at e5
    have e0 := flip_parts.symm.trans e1
    cases e0
    cases e2
    cases e3
    have hs : List.foldlM (percStep ["a", "b"] 1) (flipParam.random 2 2) ([⟨"a", [.continuous (-5)], none⟩] : List (Inst ℝ)) =
        .ok (w (0 + 1)) := by
      have hs := e6 0 (by simp)
      rw [e5] at hs
      exact hs
    simp only [List.foldlM_cons, List.foldlM_nil] at hs
    obtain ⟨W, hW, hs⟩ := bind_ok_iff.1 hs
    obtain ⟨r1, r2, δ, d0, d1, d2, d3, d4⟩ := flip_step W hW
    have hWe : W = w (0 + 1) := by cases hs; rfl
    have hacc := (flip_accuracy W r1 r2).2 (by rw [d1, d2, d3, d4]; linarith) (by rw [d1, d2, d3, d4]; linarith)
    have hacc' := e7 0 (by simp)
    have heq : acc 0 = 1 / 3 := by
      have q1 := hacc'.validation
      have q2 := hacc.validation
      rw [← hWe, q2] at q1
      exact (Except.ok.inj q1).symm
    rw [l1]
    rcases e8 with ⟨_, e⟩ | ⟨e, he, hk, _⟩
    · have := e 0 (by simp)
      rw [heq] at this
      simp at this
    · have : e = 0 := by
        have : e < 1 := he
        omega
      subst this
      rw [hk, ← hWe]
      exact hacc

/-! ## the hypotheses are met -/

/-- five instances, of which three are learned from -/
noncomputable def fivePoints : IList ℝ :=
  [⟨"a", [.continuous 1], none⟩, ⟨"b", [.continuous 2], none⟩, ⟨"a", [.continuous 3], none⟩, ⟨"b", [.continuous 4], none⟩,
   ⟨"a", [.continuous 5], none⟩]

noncomputable def fiveParam : NetParam ℝ := { flipParam with
  ratio := 1 / 5, splitOrder := [0, 1, 2, 3, 4], shuffleOrder := [2, 0, 1], epochs := 7 }

noncomputable def fiveLearned : IList ℝ := [⟨"a", [.continuous 3], none⟩, ⟨"b", [.continuous 4], none⟩, ⟨"a", [.continuous 5], none⟩]

theorem five_parts : LearningPart fivePoints (1/5) [0, 1, 2, 3, 4] fiveLearned := by
  have ha : (fivePoints.classDistribution.getProbability "a" : ℝ) = 3 / 5 := by
    have : (fivePoints.classDistribution.getProbability "a" : ℝ) = Dbl.ofNat 3 /. Dbl.ofNat 5 := rfl
    rw [this]; simp
  have hb : (fivePoints.classDistribution.getProbability "b" : ℝ) = 2 / 5 := by
    have : (fivePoints.classDistribution.getProbability "b" : ℝ) = Dbl.ofNat 2 /. Dbl.ofNat 5 := rfl
    rw [this]; simp
  have ka0 : ((Dbl.ofNat 0 : ℝ) <. (Dbl.ofNat 5 *. (1/5) *. (fivePoints.classDistribution.getProbability "a" : ℝ))) = true := by
    rw [ha]; simp
  have ka1 : ((Dbl.ofNat 1 : ℝ) <. (Dbl.ofNat 5 *. (1/5) *. (fivePoints.classDistribution.getProbability "a" : ℝ))) = false := by
    rw [ha]; simp; norm_num
  have ka2 : ((Dbl.ofNat 2 : ℝ) <. (Dbl.ofNat 5 *. (1/5) *. (fivePoints.classDistribution.getProbability "a" : ℝ))) = false := by
    rw [ha]; simp; norm_num
  have kb0 : ((Dbl.ofNat 0 : ℝ) <. (Dbl.ofNat 5 *. (1/5) *. (fivePoints.classDistribution.getProbability "b" : ℝ))) = true := by
    rw [hb]; simp
  have kb1 : ((Dbl.ofNat 1 : ℝ) <. (Dbl.ofNat 5 *. (1/5) *. (fivePoints.classDistribution.getProbability "b" : ℝ))) = false := by
    rw [hb]; simp; norm_num
  refine ⟨[[⟨"a", [.continuous 1], none⟩, ⟨"b", [.continuous 2], none⟩], fiveLearned], ?_, rfl⟩
  unfold Parts.byRatioStratified
  have hl : List.range (List.length fivePoints) = [0, 1, 2, 3, 4] := rfl
  have hn : List.length fivePoints = 5 := rfl
  rw [hl, hn]
  simp only [List.foldlM_cons, List.foldlM_nil]
  have g0 : ∀ {i} {x : Inst ℝ}, fivePoints[i]? = some x → fivePoints.get i = .ok x := by
    intro i x h; exact atR_eq_ok.2 h
  simp only [atR, List.getElem?_cons_zero, List.getElem?_cons_succ, res_bind_ok, g0 (i := 0) rfl, g0 (i := 1) rfl, g0 (i := 2) rfl,
    g0 (i := 3) rfl, g0 (i := 4) rfl]
  have c0 : Counter.count ([] : Counter) "a" = 0 := rfl
  have c1 : Counter.count (Counter.put [] "a") "b" = 0 := by decide
  have c2 : Counter.count (Counter.put (Counter.put [] "a") "b") "a" = 1 := by decide
  have c3 : Counter.count (Counter.put (Counter.put (Counter.put [] "a") "b") "a") "b" = 1 := by decide
  have c4 : Counter.count (Counter.put (Counter.put (Counter.put (Counter.put [] "a") "b") "a") "b") "a" = 2 := by decide
  have p0 : ∀ (A B : List (Inst ℝ)) x, Parts.addTo [A, B] 0 x = .ok [A ++ [x], B] := fun _ _ _ => rfl
  have p1 : ∀ (A B : List (Inst ℝ)) x, Parts.addTo [A, B] 1 x = .ok [A, B ++ [x]] := fun _ _ _ => rfl
  simp only [c0, c1, c2, c3, c4, ka0, ka1, ka2, kb0, kb1, if_true, Bool.false_eq_true, if_false, p0, p1, res_bind_ok, res_pure]
  rfl

theorem five_trains : ∃ net, percTrain fiveParam ⟨[], 0, Mat.zeros 0 0⟩ fivePoints = .ok net := by
  have hnum : ∀ x ∈ fivePoints, NumericInst 1 x := by
    intro x hx
    simp only [fivePoints, List.mem_cons, List.not_mem_nil, or_false] at hx
    rcases hx with rfl | rfl | rfl | rfl | rfl
    · exact ⟨⟨[1], rfl, rfl⟩, fun h => by cases h⟩
    · exact ⟨⟨[2], rfl, rfl⟩, fun h => by cases h⟩
    · exact ⟨⟨[3], rfl, rfl⟩, fun h => by cases h⟩
    · exact ⟨⟨[4], rfl, rfl⟩, fun h => by cases h⟩
    · exact ⟨⟨[5], rfl, rfl⟩, fun h => by cases h⟩
  obtain ⟨net, h, _⟩ := C119_perceptron fiveParam ⟨[], 0, Mat.zeros 0 0⟩ fivePoints 1 (by simp [fivePoints]) hnum
    (by show [0, 1, 2, 3, 4].Perm (List.range 5); decide) (fun _ _ => ⟨rfl, rfl⟩)
  exact ⟨net, h⟩

/-- seven epochs with three instances -/
example : ∃ net, percTrain { fiveParam with epochs := 7 } ⟨[], 0, Mat.zeros 0 0⟩ fivePoints = .ok net ∧
    (∃ order, OnceAndAgain fiveLearned order ∧ ∃ w, Presented (percStep net.labels) 1 1 7 order w) ∧
    ∃ order, SomeOrderNever fiveLearned order ∧ ∃ w, Presented (percStep net.labels) 1 1 7 order w := by
  obtain ⟨net, h⟩ := five_trains
  have hσ : IsPermutation fiveParam.shuffleOrder fiveLearned.length := by
    show [2, 0, 1].Perm (List.range 3); decide
  obtain ⟨o, h1, h2⟩ := C213_once fiveParam fivePoints fiveLearned hσ
  obtain ⟨o', h1', h2'⟩ := C213_refuted fiveParam fivePoints fiveLearned hσ (by simp [fiveLearned]) (by simp [fiveLearned])
  exact ⟨net, h, ⟨o, h1, ((h2 7).1 five_parts).1 _ _ h⟩, ⟨o', h1', ((h2' 7).1 five_parts).1 _ _ h⟩⟩

/-- three epochs and seven epochs -/
example : ∃ net net', percTrain { fiveParam with epochs := 3 } ⟨[], 0, Mat.zeros 0 0⟩ fivePoints = .ok net ∧
    percTrain fiveParam ⟨[], 0, Mat.zeros 0 0⟩ fivePoints = .ok net' := by
  obtain ⟨net', h⟩ := five_trains
  obtain ⟨net, h1, _⟩ := C212_perceptron_partial fiveParam _ net' fivePoints 3 4 h
  exact ⟨net, net', h1, h⟩

end Verif
