import Verif.Props.NetState
import Verif.Props.Instance

/-! # Property C186: networks and instances with another number of inputs -/

set_option linter.unusedSectionVars false

namespace Verif
open Dbl

variable {F : Type} [Dbl F]

/-- the instances with `d` inputs -/
def onlyWith (d : Nat) (l : IList F) : IList F := l.filter (fun x => decide (x.continuousAttributeSize = d))

/-! ## one pass over the training instances -/

theorem foldlM_skip {S : Type} (P : S → Prop) (fits : Inst F → Bool) (step : S → Inst F → Res S) :
    ∀ (l : IList F) (s : S), P s → (∀ x ∈ l, ∀ s s', P s → step s x = .ok s' → P s') →
      (∀ x ∈ l, ∀ s, P s → fits x = false → step s x = .ok s) → l.foldlM step s = (l.filter fits).foldlM step s
  | [], _, _, _, _ => rfl
  | x :: l, s, hs, hk, hskip => by
    have hl := foldlM_skip P fits step l
    rw [List.foldlM_cons]
    cases hf : fits x with
    | false =>
      rw [hskip x (by simp) s hs hf, res_bind_ok, List.filter_cons_of_neg (by simp [hf])]
      exact hl s hs (fun y hy => hk y (by simp [hy])) (fun y hy => hskip y (by simp [hy]))
    | true =>
      rw [List.filter_cons_of_pos (by simp [hf]), List.foldlM_cons]
      cases h : step s x with
      | error e => rfl
      | ok s' =>
        rw [res_bind_ok, res_bind_ok]
        exact hl s' (hk x (by simp) s s' hs h) (fun y hy => hk y (by simp [hy])) (fun y hy => hskip y (by simp [hy]))

theorem input_length (x : Inst F) (h : ∀ a ∈ x.attrs, NonNegMax a) :
    ∃ v u, inputVector x = .ok v ∧ x.toVector = .ok u ∧ (v.length : Int) = x.continuousAttributeSize + 1 := by
  obtain ⟨_, h2, h3⟩ := C02_continuous_view x h
  refine ⟨_, _, by unfold inputVector; rw [h2]; rfl, h2, ?_⟩
  rw [h3]
  simp

theorem mulRightR_mismatch (W : Mat F) (v : List F) (h : W.cols ≠ v.length) :
    W.mulRightR v = .error (.throw "MatrixColumnMismatch") := by
  unfold Mat.mulRightR Mat.mulRight
  rw [if_neg h]

theorem addR_cols {m n r : Mat F} (h : m.addR n = .ok r) : r.cols = m.cols ∧ r.rows = m.rows := by
  unfold Mat.addR at h
  split at h
  · cases h; exact ⟨rfl, rfl⟩
  · cases h

theorem catching_keeps {α : Type} {c : List String} {a b : α} {r : Res α} (P : α → Prop) (ha : P a) (hr : ∀ b, r = .ok b → P b)
    (h : catching c a r = .ok b) : P b := by
  unfold catching at h
  split at h
  · cases h; exact hr _ rfl
  · split at h
    · cases h; exact ha
    · cases h
  · cases h

theorem percStep_cols {labels : List String} {eta : F} {W W' : Mat F} {x : Inst F} (h : percStep labels eta W x = .ok W') :
    W'.cols = W.cols := by
  unfold percStep at h
  rw [bind_ok_iff] at h
  obtain ⟨v, _, h⟩ := h
  refine catching_keeps (fun M : Mat F => M.cols = W.cols) rfl (fun b hb => ?_) h
  unfold percUpdate at hb
  rw [bind_ok_iff] at hb
  obtain ⟨_, _, hb⟩ := hb
  exact (addR_cols hb).1

theorem applyTwo_cols {c : List String} {w w' : Two F} {eta : F} {d : Mat F × Mat F} (h : applyTwo c w eta d = .ok w') :
    w'.W.cols = w.W.cols := by
  unfold applyTwo at h
  rw [bind_ok_iff] at h
  obtain ⟨V', _, h⟩ := h
  unfold addW at h
  refine catching_keeps (a := ({ w with V := V' } : Two F)) (fun t : Two F => t.W.cols = w.W.cols) rfl (fun b hb => ?_) h
  rw [bind_ok_iff] at hb
  obtain ⟨W', h1, hb⟩ := hb
  cases hb
  exact (addR_cols h1).1

theorem mlpStep_cols {labels : List String} {act : Activation} {eta : F} {w w' : Two F} {x : Inst F}
    (h : mlpStep labels act eta w x = .ok w') : w'.W.cols = w.W.cols := by
  unfold mlpStep at h
  rw [bind_ok_iff] at h
  obtain ⟨v, _, h⟩ := h
  refine catching_keeps (fun t : Two F => t.W.cols = w.W.cols) rfl (fun b hb => ?_) h
  rw [bind_ok_iff] at hb
  obtain ⟨_, _, hb⟩ := hb
  exact applyTwo_cols hb

theorem autoStep_cols {eta : F} {w w' : Two F} {x : Inst F} (h : autoStep eta w x = .ok w') : w'.W.cols = w.W.cols := by
  unfold autoStep at h
  rw [bind_ok_iff] at h
  obtain ⟨v, _, h⟩ := h
  rw [bind_ok_iff] at h
  obtain ⟨r, _, h⟩ := h
  refine catching_keeps (fun t : Two F => t.W.cols = w.W.cols) rfl (fun b hb => ?_) h
  rw [bind_ok_iff] at hb
  obtain ⟨_, _, hb⟩ := hb
  exact applyTwo_cols hb

/-- number of inputs of the first layer, bias included -/
def firstCols (ws : List (Mat F)) : Option Nat := ws.head?.map Mat.cols

theorem deepApply_cols {eta : F} {ws ds ws' : List (Mat F)} (h : deepApply eta ws ds = .ok ws') : firstCols ws' = firstCols ws := by
  cases ws with
  | nil => unfold deepApply at h; cases h; rfl
  | cons w ws =>
    cases ds with
    | nil => unfold deepApply at h; cases h
    | cons d ds =>
      unfold deepApply at h
      split at h
      · rename_i w1 h1
        cases h2 : deepApply eta ws ds with
        | error e => rw [h2] at h; cases h
        | ok r =>
          rw [h2] at h
          cases h
          simp [firstCols, (addR_cols h1).1]
      · cases h; rfl

theorem deepStep_cols {labels : List String} {act : Activation} {L : Nat} {eta : F} {ws ws' : List (Mat F)} {x : Inst F}
    (h : deepStep labels act L eta ws x = .ok ws') : firstCols ws' = firstCols ws := by
  unfold deepStep at h
  rw [bind_ok_iff] at h
  obtain ⟨v, _, h⟩ := h
  refine catching_keeps (fun t : List (Mat F) => firstCols t = firstCols ws) rfl (fun b hb => ?_) h
  rw [bind_ok_iff] at hb
  obtain ⟨_, _, hb⟩ := hb
  exact deepApply_cols hb

/-- **C186** (part) One pass over the training instances changes the weights of a network with `d` inputs as the
pass over its instances with `d` inputs alone would: the others are skipped. For all four networks, all
weights whose first layer has `d` inputs (and the bias), and all data. -/
theorem C186_skipped_partial (labels : List String) (act : Activation) (L : Nat) (eta : F) (d : Nat) (data : IList F)
    (hlab : ∀ x ∈ data, x.label ∈ labels) (hmax : ∀ x ∈ data, ∀ a ∈ x.attrs, NonNegMax a)
    (W : Mat F) (w : Two F) (ws : List (Mat F)) (hW : W.cols = d + 1) (hw : w.W.cols = d + 1) (hws : firstCols ws = some (d + 1)) :
    data.foldlM (percStep labels eta) W = (onlyWith d data).foldlM (percStep labels eta) W ∧
    data.foldlM (mlpStep labels act eta) w = (onlyWith d data).foldlM (mlpStep labels act eta) w ∧
    data.foldlM (deepStep labels act (L + 1) eta) ws = (onlyWith d data).foldlM (deepStep labels act (L + 1) eta) ws ∧
    data.foldlM (autoStep eta) w = (onlyWith d data).foldlM (autoStep eta) w := by
  have hlen : ∀ x ∈ data, decide (x.continuousAttributeSize = d) = false → ∃ v u, inputVector x = .ok v ∧ x.toVector = .ok u ∧
      d + 1 ≠ v.length := by
    intro x hx h
    obtain ⟨v, u, h1, h2, h3⟩ := input_length x (hmax x hx)
    refine ⟨v, u, h1, h2, fun h4 => ?_⟩
    simp only [decide_eq_false_iff_not] at h
    apply h
    omega
  refine ⟨?_, ?_, ?_, ?_⟩
  · refine foldlM_skip (fun M : Mat F => M.cols = d + 1) _ _ data W hW (fun x _ s s' hs h => (percStep_cols h).trans hs)
      (fun x hx s hs hf => ?_)
    obtain ⟨v, u, h1, _, h3⟩ := hlen x hx hf
    unfold percStep percUpdate calculateRMinusY unitVec
    rw [h1, res_bind_ok, if_pos (List.idxOf_lt_length_iff.2 (hlab x hx)), res_bind_ok,
      mulRightR_mismatch _ _ (by rw [hs]; exact h3)]
    rfl
  · refine foldlM_skip (fun t : Two F => t.W.cols = d + 1) _ _ data w hw (fun x _ s s' hs h => (mlpStep_cols h).trans hs)
      (fun x hx s hs hf => ?_)
    obtain ⟨v, u, h1, _, h3⟩ := hlen x hx hf
    unfold mlpStep mlpDeltas calculateHidden
    rw [h1, res_bind_ok, mulRightR_mismatch _ _ (by rw [hs]; exact h3)]
    rfl
  · refine foldlM_skip (fun t : List (Mat F) => firstCols t = some (d + 1)) _ _ data ws hws
      (fun x _ s s' hs h => (deepStep_cols h).trans hs) (fun x hx s hs hf => ?_)
    obtain ⟨v, u, h1, _, h3⟩ := hlen x hx hf
    cases s with
    | nil => cases hs
    | cons w1 s =>
      simp only [firstCols, List.head?_cons, Option.map_some, Option.some.injEq] at hs
      have hstep : deepForwardStep act (w1 :: s) v ([], []) 0 = .error (.throw "MatrixColumnMismatch") := by
        unfold deepForwardStep layerInput atR calculateHidden
        simp only [if_true, res_pure, res_bind_ok, List.getElem?_cons_zero]
        rw [mulRightR_mismatch _ _ (by rw [hs]; exact h3)]
        rfl
      unfold deepStep deepDeltas
      rw [h1, res_bind_ok, List.range_succ_eq_map, List.foldlM_cons, hstep]
      rfl
  · refine foldlM_skip (fun t : Two F => t.W.cols = d + 1) _ _ data w hw (fun x _ s s' hs h => (autoStep_cols h).trans hs)
      (fun x hx s hs hf => ?_)
    obtain ⟨v, u, h1, h2, h3⟩ := hlen x hx hf
    unfold autoStep autoDeltas calculateHidden
    rw [h1, res_bind_ok, h2, res_bind_ok, mulRightR_mismatch _ _ (by rw [hs]; exact h3)]
    rfl

/-! ## training with the members `x` and `y` in view -/

theorem predict_of_stateless (labels : List String) (output : List F → Res (List F)) (x : Inst F) (c : String)
    (h : netPredict labels output x = .ok c) (s : NetMem F) : (s.predict labels output x).1 = .ok c := by
  have h' := h
  rw [netPredict_answer, bind_ok_iff] at h'
  obtain ⟨y, h1, _⟩ := h'
  rw [bind_ok_iff] at h1
  obtain ⟨v, hv, hy⟩ := h1
  rw [← h, ← (C163_networks_partial labels output s [] x v y hv hy).1]
  rfl

theorem testMem_of_stateless (labels : List String) (output : List F → Res (List F)) : ∀ (l : IList F) (n k : Nat) (s : NetMem F),
    l.foldlM (fun (n : Nat) x => do
      let p ← netPredict labels output x
      pure (if x.label = p then n + 1 else n)) n = (.ok k : Res Nat) →
    ∃ s', l.foldlM (testMemStep labels output) (n, s) = .ok (k, s')
  | [], n, k, s, h => by cases h; exact ⟨s, rfl⟩
  | x :: l, n, k, s, h => by
    rw [List.foldlM_cons] at h
    cases hp : netPredict labels output x with
    | error e => rw [hp] at h; cases h
    | ok c =>
      rw [hp] at h
      obtain ⟨s', hs'⟩ := testMem_of_stateless labels output l _ k (s.predict labels output x).2 h
      refine ⟨s', ?_⟩
      have hone : testMemStep labels output (n, s) x = .ok (if x.label = c then n + 1 else n, (s.predict labels output x).2) := by
        unfold testMemStep
        simp only [predict_of_stateless labels output x c hp s, res_bind_ok]
        rfl
      rw [List.foldlM_cons, hone]
      exact hs'

theorem validationMem_of_stateless {W : Type} (labels : List String) (output : W → List F → Res (List F)) (l : IList F)
    (w : W) (a : F) (h : validationAccuracy labels output l w = .ok a) (m : NetMem F) :
    ∃ m', validationMem labels output l m w = .ok (a, m') := by
  unfold validationAccuracy testClassifier at h
  rw [bind_ok_iff] at h
  obtain ⟨p, h1, h2⟩ := h
  rw [bind_ok_iff] at h1
  obtain ⟨k, h1, h3⟩ := h1
  cases h3
  unfold Perf.ofAccuracy Perf.getAccuracy at h2
  cases h2
  obtain ⟨m', hm⟩ := testMem_of_stateless labels (output w) l 0 k m h1
  refine ⟨m', ?_⟩
  unfold validationMem
  rw [hm]
  rfl

theorem epochs_of_stateless {W : Type} (labels : List String) (step : F → W → Inst F → Res W) (output : W → List F → Res (List F))
    (l : IList F) (decrease : F) (σ : List Nat) : ∀ (ks : List Nat) (s t : Epochs W F) (m : NetMem F),
    ks.foldlM (fun s _ => epochStep step (validationAccuracy labels output l) moreAccurate decrease σ s) s = .ok t →
    ∃ m', ks.foldlM (fun s _ => epochStepMem step (validationMem labels output l) decrease σ s) (s, m) = .ok (t, m')
  | [], s, t, m, h => by cases h; exact ⟨m, rfl⟩
  | k :: ks, s, t, m, h => by
    rw [List.foldlM_cons, bind_ok_iff] at h
    obtain ⟨s1, h1, h2⟩ := h
    unfold epochStep at h1
    rw [bind_ok_iff] at h1
    obtain ⟨w, h3, h1⟩ := h1
    rw [bind_ok_iff] at h1
    obtain ⟨a, h4, h1⟩ := h1
    cases h1
    obtain ⟨m1, hm1⟩ := validationMem_of_stateless labels output l w a h4 m
    obtain ⟨m', hm'⟩ := epochs_of_stateless labels step output l decrease σ ks _ t m1 h2
    refine ⟨m', ?_⟩
    rw [List.foldlM_cons]
    have hone : epochStepMem step (validationMem labels output l) decrease σ (s, m) = .ok (⟨w, if moreAccurate a s.bestPerf then w else s.best,
        if moreAccurate a s.bestPerf then a else s.bestPerf, s.eta *. decrease, s.data.shuffle σ⟩, m1) := by
      unfold epochStepMem
      simp only [h3, res_bind_ok, hm1]
      rfl
    rw [hone]
    exact hm'

theorem trainMem_of_stateless {W : Type} (param : NetParam F) (ini : List String × Nat) (weights : Res W)
    (step : F → W → Inst F → Res W) (output : W → List F → Res (List F)) (m : NetMem F) (l : IList F) (net : Net W)
    (h : (do
      let parts ← Parts.byRatioStratified l param.ratio param.splitOrder
      let data ← atR parts 1
      let validationSet ← atR parts 0
      let w ← weights
      let s ← epochLoop step (validationAccuracy ini.1 output validationSet) moreAccurate param.etaDecrease param.shuffleOrder
        param.epochs ⟨w, w, Dbl.zero, param.learningRate, data⟩
      pure ⟨ini.1, ini.2, s.best⟩) = (.ok net : Res (Net W))) :
    ∃ m', trainMem param ini weights step output m l = .ok (net, m') := by
  rw [bind_ok_iff] at h
  obtain ⟨parts, h1, h⟩ := h
  rw [bind_ok_iff] at h
  obtain ⟨data, h2, h⟩ := h
  rw [bind_ok_iff] at h
  obtain ⟨vs, h3, h⟩ := h
  rw [bind_ok_iff] at h
  obtain ⟨w, h4, h⟩ := h
  rw [bind_ok_iff] at h
  obtain ⟨s, h5, h⟩ := h
  cases h
  obtain ⟨m', hm⟩ := epochs_of_stateless ini.1 step output vs param.etaDecrease param.shuffleOrder (List.range param.epochs) _ s m h5
  refine ⟨m', ?_⟩
  unfold trainMem
  simp only [h1, h2, h3, h4, res_bind_ok, hm]
  rfl

/-- **C186** (part) Whenever training succeeds with the validation predictions taken from the current weights alone, the
training of the object gives the same network, whatever its members `x` and `y` held before (left by
earlier questions or an earlier training). This is what all theorems about `percTrain`, `mlpTrain` and
`deepTrain` rest on. -/
theorem C186_regular_partial (param : NetParam F) (H : Nat) (hidden : List Nat) (act : Activation) (l : IList F) (m : NetMem F)
    (old : Net (Mat F)) (old2 : Net (Two F)) (oldd : Net (List (Mat F))) :
    (∀ net, percTrain param old l = .ok net → ∃ m', percTrainMem param m l = .ok (net, m')) ∧
    (∀ net, mlpTrain param H act old2 l = .ok net → ∃ m', mlpTrainMem param H act m l = .ok (net, m')) ∧
    (∀ net, deepTrain param hidden act oldd l = .ok net → ∃ m', deepTrainMem param hidden act oldd m l = .ok (net, m')) := by
  refine ⟨fun net h => ?_, fun net h => ?_, fun net h => ?_⟩
  · unfold percTrain at h
    rw [bind_ok_iff] at h
    obtain ⟨ini, h1, h⟩ := h
    obtain ⟨m', hm⟩ := trainMem_of_stateless param ini (pure (param.random ini.1.length (ini.2 + 1))) (percStep ini.1) percOutput m l net h
    refine ⟨m', ?_⟩
    unfold percTrainMem
    rw [h1]
    exact hm
  · unfold mlpTrain at h
    rw [bind_ok_iff] at h
    obtain ⟨ini, h1, h⟩ := h
    obtain ⟨m', hm⟩ := trainMem_of_stateless param ini (pure ⟨param.random H (ini.2 + 1), param.random ini.1.length (H + 1)⟩)
      (mlpStep ini.1 act) (mlpOutput act) m l net h
    refine ⟨m', ?_⟩
    unfold mlpTrainMem
    rw [h1]
    exact hm
  · unfold deepTrain at h
    rw [bind_ok_iff] at h
    obtain ⟨ini, h1, h⟩ := h
    obtain ⟨m', hm⟩ := trainMem_of_stateless param ini (deepAllocate param.random ini.1 ini.2 hidden oldd.weights)
      (deepStep ini.1 act hidden.length) (deepOutput act) m l net h
    refine ⟨m', ?_⟩
    unfold deepTrainMem
    rw [h1]
    exact hm

/-- **C186** What the validation of an epoch does on a new object when its first instance has another number of inputs
than the network: it reads the largest of no outputs, which is undefined. -/
theorem C186_first_validation (labels : List String) (x : Inst F) (rest : IList F) (W : Mat F) (d : Nat) (hW : W.cols = d + 1)
    (hx : x.continuousAttributeSize ≠ d) (hmax : ∀ a ∈ x.attrs, NonNegMax a) (hc : x.isComposite = false) :
    validationMem labels percOutput (x :: rest) NetMem.new W = .error (.ub "operator[]") := by
  obtain ⟨v, u, h1, _, h3⟩ := input_length x hmax
  have hne : W.cols ≠ v.length := by omega
  have hp : ((NetMem.new : NetMem F).predict labels (percOutput W) x).1 = .error (.ub "operator[]") := by
    rw [(C163_stale labels (percOutput W) NetMem.new x v h1 (mulRightR_mismatch W v hne)).1]
    unfold netAnswer
    rw [hc]
    rfl
  have hone : testMemStep labels (percOutput W) (0, NetMem.new) x = .error (.ub "operator[]") := by
    unfold testMemStep
    simp only [hp]
    rfl
  unfold validationMem
  rw [List.foldlM_cons, hone]
  rfl

/-- **C186** The reconstruction by an autoencoder of an instance with another number of inputs is undefined. -/
theorem C186_reconstruction (w : Two F) (x : Inst F) (d : Nat) (hW : w.W.cols = d + 1)
    (hx : x.continuousAttributeSize ≠ d) (hmax : ∀ a ∈ x.attrs, NonNegMax a) :
    autoPredictInput w x = .error (.ub "missing return") := by
  obtain ⟨v, u, h1, _, h3⟩ := input_length x hmax
  have hne : w.W.cols ≠ v.length := by omega
  unfold autoPredictInput forwardSingleHidden calculateHidden
  rw [h1, res_bind_ok, mulRightR_mismatch _ _ hne]
  rfl

/-- two instances, of one and of two numbers -/
def raggedTwo : IList XR := [⟨"a", [.continuous (.fin 1)], none⟩, ⟨"a", [.continuous (.fin 1), .continuous (.fin 2)], none⟩]

/-- one epoch; the first half of the list in the order given is for validation -/
def raggedParam (order : List Nat) : NetParam XR :=
  ⟨.fin (1 / 2), order, [0], fun r c => ⟨r, c, fun _ _ => .fin 0⟩, 1, .fin 1, .fin 1⟩

/-- **C186 fails.** Training a new perceptron on instances with different numbers of inputs is undefined behaviour for one
order of the instances and succeeds for the other; after a question with an answer it succeeds for both. -/
theorem C186_refuted :
    percTrainMem (raggedParam [1, 0]) NetMem.new raggedTwo = .error (.ub "operator[]") ∧
    (∃ r, percTrainMem (raggedParam [0, 1]) NetMem.new raggedTwo = .ok r) ∧
    (∃ r, percTrainMem (raggedParam [1, 0]) ⟨[], [.fin 0]⟩ raggedTwo = .ok r) := by
  have hub : ∀ {α : Type} (r : Res α), (match r with
      | .error (.ub e) => e == "operator[]"
      | _ => false) = true → r = .error (.ub "operator[]") := by
    intro α r h
    match r, h with
    | .error (.ub e), h => rw [beq_iff_eq.1 h]
  have hok : ∀ {α : Type} (r : Res α), (match r with
      | .ok _ => true
      | _ => false) = true → ∃ a, r = .ok a := by
    intro α r h
    match r, h with
    | .ok a, _ => exact ⟨a, rfl⟩
  exact ⟨hub _ (by decide +kernel), hok _ (by decide +kernel), hok _ (by decide +kernel)⟩

example : onlyWith 1 raggedTwo = [⟨"a", [.continuous (.fin 1)], none⟩] ∧
    (∀ x ∈ raggedTwo, x.label ∈ ["a"]) ∧ (∀ x ∈ raggedTwo, ∀ a ∈ x.attrs, NonNegMax a) := by
  refine ⟨by decide +kernel, by decide, ?_⟩
  intro x hx a ha
  simp only [raggedTwo, List.mem_cons, List.not_mem_nil, or_false] at hx
  rcases hx with rfl | rfl <;> simp only [List.mem_cons, List.not_mem_nil, or_false] at ha
  · subst ha; trivial
  · rcases ha with rfl | rfl <;> trivial

end Verif
