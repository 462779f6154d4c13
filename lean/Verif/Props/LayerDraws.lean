import Verif.Props.NetTrain

/-!
# Do the layers of a network start from their own random numbers? (C191)
-/

namespace Verif
open Dbl

section
variable {F : Type} [Dbl F]

/-- the library fills a matrix row by row with the numbers an engine gives, one after the other -/
def RowByRow (draw : Nat → F) (random : Nat → Nat → Mat F) : Prop :=
  ∀ r c, (random r c).rows = r ∧ (random r c).cols = c ∧ ∀ i < r, ∀ j < c, (random r c).e i j = draw (i * c + j)

/-- the weights at the same place of the two matrices, counted row by row, are the same number -/
def SameDraws (m m' : Mat F) : Prop :=
  ∀ i < m.rows, ∀ j < m.cols, ∀ i' < m'.rows, ∀ j' < m'.cols, i * m.cols + j = i' * m'.cols + j' → m.e i j = m'.e i' j'

omit [Dbl F] in
theorem sameDraws_random {draw : Nat → F} {random : Nat → Nat → Mat F} (h : RowByRow draw random) (r c r' c' : Nat) :
    SameDraws (random r c) (random r' c') := by
  intro i hi j hj i' hi' j' hj' he
  obtain ⟨h1, h2, h3⟩ := h r c
  obtain ⟨g1, g2, g3⟩ := h r' c'
  rw [h1] at hi; rw [h2] at hj; rw [g1] at hi'; rw [g2] at hj'
  rw [h2, g2] at he
  rw [h3 i hi j hj, g3 i' hi' j' hj', he]

/-- **C191** refuted for the multi-layer perceptron: the two layers start from the same random numbers, and with as many
inputs, hidden nodes and classes from the same matrix -/
theorem C191_multilayer_refuted (draw : Nat → F) (param : NetParam F) (hdraw : RowByRow draw param.random)
    (H : Nat) (act : Activation) (old net : Net (Two F)) (trainSet : IList F) (hep : param.epochs = 0)
    (h : mlpTrain param H act old trainSet = .ok net) :
    SameDraws net.weights.W net.weights.V ∧
    (net.d = H → trainSet.getDistinctClassLabels.length = H → net.weights.W = net.weights.V) := by
  unfold mlpTrain at h
  obtain ⟨ini, h1, h⟩ := bind_ok_iff.1 h
  obtain ⟨parts, h2, h⟩ := bind_ok_iff.1 h
  obtain ⟨data, h3, h⟩ := bind_ok_iff.1 h
  obtain ⟨val, h4, h⟩ := bind_ok_iff.1 h
  obtain ⟨s, h5, h⟩ := bind_ok_iff.1 h
  have hlab : ini.1 = trainSet.getDistinctClassLabels := by
    unfold netInitialize at h1
    obtain ⟨x0, _, h1⟩ := bind_ok_iff.1 h1
    split at h1
    · cases h1
    · cases h1; rfl
  cases h
  rw [hep] at h5
  cases h5
  refine ⟨sameDraws_random hdraw _ _ _ _, fun a b => ?_⟩
  dsimp only at a ⊢
  rw [a, hlab, b]

/-- **C191** refuted for the autoencoder -/
theorem C191_autoencoder_refuted (draw : Nat → F) (param : NetParam F) (hdraw : RowByRow draw param.random)
    (H : Nat) (old net : Net (Two F)) (trainSet : IList F) (hep : param.epochs = 0)
    (h : autoTrain param H old trainSet = .ok net) : SameDraws net.weights.W net.weights.V := by
  unfold autoTrain at h
  obtain ⟨ini, h1, h⟩ := bind_ok_iff.1 h
  obtain ⟨parts, h2, h⟩ := bind_ok_iff.1 h
  obtain ⟨data, h3, h⟩ := bind_ok_iff.1 h
  obtain ⟨val, h4, h⟩ := bind_ok_iff.1 h
  obtain ⟨x0, h6, h⟩ := bind_ok_iff.1 h
  obtain ⟨s, h5, h⟩ := bind_ok_iff.1 h
  cases h
  rw [hep] at h5
  cases h5
  exact sameDraws_random hdraw _ _ _ _

omit [Dbl F] in
theorem deepAllocate_random (random : Nat → Nat → Mat F) (labels : List String) (d : Nat) (hidden : List Nat)
    (ws : List (Mat F)) (h : deepAllocate random labels d hidden [] = .ok ws) :
    ws.length = hidden.length + 1 ∧ ∀ m ∈ ws, ∃ r c, m = random r c := by
  unfold deepAllocate at h
  obtain ⟨h0, e0, h⟩ := bind_ok_iff.1 h
  obtain ⟨mid, hm, h⟩ := bind_ok_iff.1 h
  obtain ⟨last, hl, h⟩ := bind_ok_iff.1 h
  cases h
  have hf := mapM_ok_inv hm
  have hpos : 0 < hidden.length := by
    have := atR_eq_ok.1 e0
    cases hidden with
    | nil => simp at this
    | cons => simp
  constructor
  · have := hf.length_eq
    simp at this ⊢
    omega
  · intro m hmm
    simp only [List.nil_append, List.mem_append, List.mem_singleton] at hmm
    rcases hmm with (rfl | hmm) | rfl
    · exact ⟨_, _, rfl⟩
    · obtain ⟨k, rfl⟩ := List.mem_iff_get.1 hmm
      obtain ⟨hlen, hall⟩ := List.forall₂_iff_get.1 hf
      have he := hall k (by rw [hlen]; exact k.2) k.2
      obtain ⟨a, _, he⟩ := bind_ok_iff.1 he
      obtain ⟨b, _, he⟩ := bind_ok_iff.1 he
      exact ⟨a, b + 1, (Except.ok.inj he).symm⟩
    · exact ⟨_, _, rfl⟩

/-- **C191** refuted for the deep network: all the layers start from the same random numbers -/
theorem C191_deep_refuted (draw : Nat → F) (param : NetParam F) (hdraw : RowByRow draw param.random)
    (hidden : List Nat) (act : Activation) (old net : Net (List (Mat F))) (hold : old.weights = []) (trainSet : IList F)
    (hep : param.epochs = 0) (h : deepTrain param hidden act old trainSet = .ok net) :
    net.weights.length = hidden.length + 1 ∧ ∀ m ∈ net.weights, ∀ m' ∈ net.weights, SameDraws m m' := by
  unfold deepTrain at h
  obtain ⟨ini, h1, h⟩ := bind_ok_iff.1 h
  obtain ⟨parts, h2, h⟩ := bind_ok_iff.1 h
  obtain ⟨data, h3, h⟩ := bind_ok_iff.1 h
  obtain ⟨val, h4, h⟩ := bind_ok_iff.1 h
  obtain ⟨ws, h6, h⟩ := bind_ok_iff.1 h
  obtain ⟨s, h5, h⟩ := bind_ok_iff.1 h
  cases h
  rw [hep] at h5
  cases h5
  rw [hold] at h6
  obtain ⟨g1, g2⟩ := deepAllocate_random _ _ _ _ _ h6
  refine ⟨g1, fun m hm m' hm' => ?_⟩
  obtain ⟨r, c, rfl⟩ := g2 m hm
  obtain ⟨r', c', rfl⟩ := g2 m' hm'
  exact sameDraws_random hdraw _ _ _ _

/-- **C191** what does hold: within the one layer of a perceptron every weight starts from a random number of its own -/
theorem C191_perceptron_partial (draw : Nat → F) (hinj : Function.Injective draw) (param : NetParam F)
    (hdraw : RowByRow draw param.random) (old net : Net (Mat F)) (trainSet : IList F) (hep : param.epochs = 0)
    (h : percTrain param old trainSet = .ok net) :
    net.weights.rows = trainSet.getDistinctClassLabels.length ∧ net.weights.cols = net.d + 1 ∧
    ∀ i < net.weights.rows, ∀ j < net.weights.cols, ∀ i' < net.weights.rows, ∀ j' < net.weights.cols,
      net.weights.e i j = net.weights.e i' j' → i = i' ∧ j = j' := by
  unfold percTrain at h
  obtain ⟨ini, h1, h⟩ := bind_ok_iff.1 h
  obtain ⟨parts, h2, h⟩ := bind_ok_iff.1 h
  obtain ⟨data, h3, h⟩ := bind_ok_iff.1 h
  obtain ⟨val, h4, h⟩ := bind_ok_iff.1 h
  obtain ⟨s, h5, h⟩ := bind_ok_iff.1 h
  have hlab : ini.1 = trainSet.getDistinctClassLabels := by
    unfold netInitialize at h1
    obtain ⟨x0, _, h1⟩ := bind_ok_iff.1 h1
    split at h1
    · cases h1
    · cases h1; rfl
  cases h
  rw [hep] at h5
  cases h5
  obtain ⟨g1, g2, g3⟩ := hdraw ini.1.length (ini.2 + 1)
  dsimp only
  refine ⟨by rw [g1, hlab], g2, ?_⟩
  rw [g1, g2]
  intro i hi j hj i' hi' j' hj' he
  rw [g3 i hi j hj, g3 i' hi' j' hj'] at he
  have he := hinj he
  have hj1 : j = j' := by
    have := congrArg (· % (ini.2 + 1)) he
    simpa [Nat.mul_add_mod', Nat.mod_eq_of_lt hj, Nat.mod_eq_of_lt hj'] using this
  subst hj1
  refine ⟨?_, rfl⟩
  have : i * (ini.2 + 1) = i' * (ini.2 + 1) := by omega
  exact Nat.eq_of_mul_eq_mul_right (Nat.succ_pos _) this

end

/-- **C191** refuted for the deep network with `tanh`, however long it is trained: if the last hidden layer does
not have as many nodes as there are hidden layers, the weights are never changed (C116), so all the layers keep the same random numbers -/
theorem C191_deep_tanh_refuted (draw : Nat → ℝ) (param : NetParam ℝ) (hdraw : RowByRow draw param.random)
    (hidden : List Nat) (hhid : hidden ≠ []) (hlast : hidden.getLast hhid ≠ hidden.length) (labels0 : List String) (d0 : Nat) (trainSet : IList ℝ) (d : Nat)
    (hne : trainSet ≠ []) (hnum : ∀ x ∈ trainSet, NumericInst d x) (hσ : IsPermutation param.splitOrder trainSet.length) :
    ∃ net, deepTrain param hidden .tanh ⟨labels0, d0, []⟩ trainSet = .ok net ∧
      net.weights.length = hidden.length + 1 ∧ ∀ m ∈ net.weights, ∀ m' ∈ net.weights, SameDraws m m' := by
  obtain ⟨net, h1, h2⟩ := C116_deep_tanh_training_refuted param hidden labels0 d0 trainSet d hhid hlast
    hne hnum hσ (fun r c => ⟨(hdraw r c).1, (hdraw r c).2.1⟩)
  obtain ⟨g1, g2⟩ := deepAllocate_random _ _ _ _ _ h2
  refine ⟨net, h1, g1, fun m hm m' hm' => ?_⟩
  obtain ⟨r, c, rfl⟩ := g2 m hm
  obtain ⟨r', c', rfl⟩ := g2 m' hm'
  exact sameDraws_random hdraw _ _ _ _

/-! ### the hypotheses can be met -/

/-- the engine gives 0, 1, 2, ... -/
noncomputable def countingParam : NetParam ℝ where
  ratio := 1 / 5
  splitOrder := [2, 0, 3, 1]
  shuffleOrder := [1, 0]
  random := fun r c => ⟨r, c, fun i j => ((i * c + j : Nat) : ℝ)⟩
  epochs := 0
  learningRate := 1 / 10
  etaDecrease := 9 / 10

theorem counting_rowByRow : RowByRow (fun n : Nat => (n : ℝ)) countingParam.random :=
  fun _ _ => ⟨rfl, rfl, fun _ _ _ _ => rfl⟩

theorem counting_perm : IsPermutation countingParam.splitOrder fourPoints.length := by
  show [2, 0, 3, 1].Perm (List.range 4)
  decide

example : ∃ net, mlpTrain countingParam 5 .tanh ⟨[], 0, ⟨Mat.zeros 0 0, Mat.zeros 0 0⟩⟩ fourPoints = .ok net ∧
    SameDraws net.weights.W net.weights.V := by
  obtain ⟨net, h, _⟩ := C119_multilayer countingParam 5 .tanh ⟨[], 0, ⟨Mat.zeros 0 0, Mat.zeros 0 0⟩⟩ fourPoints 1
    (by simp [fourPoints]) fourPoints_numeric counting_perm (fun _ _ => ⟨rfl, rfl⟩)
  exact ⟨net, h, (C191_multilayer_refuted _ countingParam counting_rowByRow 5 .tanh _ net fourPoints rfl h).1⟩

example : ∃ net, deepTrain countingParam [4, 4, 4] .relu ⟨[], 0, []⟩ fourPoints = .ok net ∧
    net.weights.length = 4 ∧ ∀ m ∈ net.weights, ∀ m' ∈ net.weights, SameDraws m m' := by
  obtain ⟨net, h, _⟩ := C119_deep countingParam [4, 4, 4] .relu [] 0 fourPoints 1 (by simp) (by simp [fourPoints])
    fourPoints_numeric counting_perm (fun _ _ => ⟨rfl, rfl⟩)
  exact ⟨net, h, C191_deep_refuted _ countingParam counting_rowByRow [4, 4, 4] .relu _ net rfl fourPoints rfl h⟩

example : ∃ net, deepTrain { countingParam with epochs := 1000 } [4, 4, 4] .tanh ⟨[], 0, []⟩ fourPoints = .ok net ∧
    net.weights.length = 4 ∧ ∀ m ∈ net.weights, ∀ m' ∈ net.weights, SameDraws m m' :=
  C191_deep_tanh_refuted (fun n : Nat => (n : ℝ)) { countingParam with epochs := 1000 } counting_rowByRow [4, 4, 4]
    (by simp) (by decide) [] 0 fourPoints 1 (by simp [fourPoints]) fourPoints_numeric counting_perm

example : ∃ net, autoTrain countingParam 5 ⟨[], 0, ⟨Mat.zeros 0 0, Mat.zeros 0 0⟩⟩ fourPoints = .ok net ∧
    SameDraws net.weights.W net.weights.V := by
  have hc : (fourPoints.map Inst.label).count "a" = 2 := by
    simp only [fourPoints, List.map_cons, List.map_nil]
    decide
  obtain ⟨net, h, _⟩ := C119_autoencoder countingParam 5 ⟨[], 0, ⟨Mat.zeros 0 0, Mat.zeros 0 0⟩⟩ fourPoints 1
    fourPoints_numeric counting_perm (fun _ _ => ⟨rfl, rfl⟩) "a" (by rw [hc])
  exact ⟨net, h, C191_autoencoder_refuted _ countingParam counting_rowByRow 5 _ net fourPoints rfl h⟩

example : ∃ net, percTrain countingParam ⟨[], 0, Mat.zeros 0 0⟩ fourPoints = .ok net ∧
    net.weights.rows = fourPoints.getDistinctClassLabels.length := by
  obtain ⟨net, h, _⟩ := C119_perceptron countingParam ⟨[], 0, Mat.zeros 0 0⟩ fourPoints 1 (by simp [fourPoints])
    fourPoints_numeric counting_perm (fun _ _ => ⟨rfl, rfl⟩)
  exact ⟨net, h, (C191_perceptron_partial _ Nat.cast_injective countingParam counting_rowByRow _ net fourPoints rfl h).1⟩

end Verif
