import Verif.Props.SvmColumns
import Verif.Props.TreeAlike
import Verif.Props.NetTrain
import Verif.Props.BinaryTrees
import Verif.Props.ModelFiles
import Verif.Spec.Inner

/-! # Property C225: a network sees its inputs only through inner products -/

set_option linter.unusedSectionVars false

namespace Verif
open Dbl

theorem ResRel.caught {α β : Type} {R : α → β → Prop} {c : List String} {a : α} {b : β} {r : Res α} {r' : Res β} (h : R a b)
    (hr : ResRel R r r') : ResRel R (catching c a r) (catching c b r') := by
  cases r with
  | ok x =>
    cases r' with
    | ok y => exact hr
    | error e => exact hr.elim
  | error e =>
    cases r' with
    | ok y => exact hr.elim
    | error e' =>
      have he : e = e' := hr
      subst he
      cases e with
      | ub s => exact rfl
      | throw s =>
        unfold catching
        by_cases hs : s ∈ c
        · simp only [if_pos hs]; exact h
        · simp only [if_neg hs]; exact rfl

theorem ResRel.map_of {α β γ δ : Type} {R : α → β → Prop} {S : γ → δ → Prop} {m : Res α} {m' : Res β} {f : α → γ} {f' : β → δ}
    (h : ResRel R m m') (hf : ∀ a b, R a b → S (f a) (f' b)) : ResRel S (m.map f) (m'.map f') := by
  cases m <;> cases m'
  · exact h
  · exact h.elim
  · exact h.elim
  · exact hf _ _ h

theorem ResRel.rfl_of {α : Type} {R : α → α → Prop} (hR : ∀ a, R a a) (m : Res α) : ResRel R m m :=
  ResRel.of_eq rfl (fun a _ => hR a)

theorem atR_in {α : Type} {l : List α} {i : Nat} {a : α} (h : atR l i = .ok a) : a ∈ l := by
  unfold atR at h
  cases hk : l[i]? with
  | none => rw [hk] at h; cases h
  | some y => rw [hk] at h; cases h; exact List.mem_of_getElem? hk

theorem foldlM_congr_on {α β : Type} {f f' : β → α → Res β} : ∀ (l : List α) (b : β), (∀ b, ∀ a ∈ l, f b a = f' b a) →
    l.foldlM f b = l.foldlM f' b
  | [], _, _ => rfl
  | a :: l, b, h => by
    rw [List.foldlM_cons, List.foldlM_cons, h b a (by simp)]
    exact bind_congr_res (fun c _ => foldlM_congr_on l c (fun b a ha => h b a (by simp [ha])))

section
variable {n n' : Nat} {g : Inst ℝ → Inst ℝ} {xs : List (Inst ℝ)}

/-- the inputs of the first layer -/
noncomputable def inputsOf (n : Nat) (x : Inst ℝ) : List ℝ := vec (n + 1) (withBias (fun j => (numbersOf x).getD j 0))

theorem numbersOf_size {x : Inst ℝ} (hx : Numeric n x) : (numbersOf x).length = n := by
  rw [numbersOf_values hx]; exact (numeric_values hx).2

theorem inputVector_numeric {x : Inst ℝ} (hx : Numeric n x) : inputVector x = .ok (inputsOf n x) := by
  rw [inputVector_vec x (numbersOf x) (numeric_attrs hx), numbersOf_size hx]
  rfl

theorem sum_bias {m : Nat} (f h : Nat → ℝ) :
    ∑ j ∈ Finset.range (m + 1), withBias f j * withBias h j = 1 + ∑ j ∈ Finset.range m, f j * h j := by
  rw [Finset.sum_range_succ']
  simp only [withBias]
  ring

/-- the inner product of the inputs -/
theorem inner_inputs (h : InnerKept n n' g xs) {x y : Inst ℝ} (hx : x ∈ xs) (hy : y ∈ xs) :
    ∑ j ∈ Finset.range (n' + 1), withBias (fun j => (numbersOf (g x)).getD j 0) j * withBias (fun j => (numbersOf (g y)).getD j 0) j =
      ∑ j ∈ Finset.range (n + 1), withBias (fun j => (numbersOf x).getD j 0) j * withBias (fun j => (numbersOf y).getD j 0) j := by
  rw [sum_bias, sum_bias]
  have := h.inner x hx y hy
  unfold denseDot at this
  rw [numbersOf_size (h.before x hx), numbersOf_size (h.before y hy), numbersOf_size (h.after x hx), numbersOf_size (h.after y hy),
    max_self, max_self] at this
  rw [this]

/-- the sums of the first layer -/
theorem SumsKept.product {A A' : Mat ℝ} (hA : SumsKept n n' g xs A A') {x : Inst ℝ} (hx : x ∈ xs) :
    A'.mulRightR (inputsOf n' (g x)) = A.mulRightR (inputsOf n x) := by
  unfold inputsOf
  rw [← hA.before, ← hA.after, mulRightR_vec, mulRightR_vec, hA.rows]
  congr 1
  exact vec_congr (fun i hi => hA.sums x hx i hi)

/-- one change of the weights of the first layer -/
theorem SumsKept.changed (h : InnerKept n n' g xs) {A A' : Mat ℝ} (hA : SumsKept n n' g xs A A') {x : Inst ℝ} (hx : x ∈ xs) (d : List ℝ)
    (eta : ℝ) : ResRel (SumsKept n n' g xs) (A.addR ((Mat.outer d (inputsOf n x)).scale eta))
      (A'.addR ((Mat.outer d (inputsOf n' (g x))).scale eta)) := by
  by_cases hd : d.length = A.rows
  · have e : d = vec A.rows (fun i => d.getD i 0) := by rw [← hd]; exact eq_vec d
    have e' : d = vec A'.rows (fun i => d.getD i 0) := by rw [hA.rows]; exact e
    obtain ⟨B, b1, b2, b3, b4⟩ := outer_vec_scale_add A (fun i => d.getD i 0) (withBias (fun j => (numbersOf x).getD j 0)) eta
    obtain ⟨B', c1, c2, c3, c4⟩ := outer_vec_scale_add A' (fun i => d.getD i 0) (withBias (fun j => (numbersOf (g x)).getD j 0)) eta
    rw [← e, hA.before] at b1
    rw [← e', hA.after] at c1
    unfold inputsOf
    rw [b1, c1]
    refine ⟨by rw [c2, b2, hA.rows], by rw [b3, hA.before], by rw [c3, hA.after], fun y hy i hi => ?_⟩
    rw [b2] at hi
    have key : ∀ (M M' : Mat ℝ) (u v : Nat → ℝ), i < M.rows → M'.cols = M.cols →
        (∀ i, i < M.rows → ∀ j, j < M.cols → M'.e i j = M.e i j + eta * (d.getD i 0 * u j)) →
        score M' v i = score M v i + eta * d.getD i 0 * ∑ j ∈ Finset.range M.cols, u j * v j := by
      intro M M' u v hi hc hM
      unfold score
      rw [hc, Finset.mul_sum, ← Finset.sum_add_distrib]
      refine Finset.sum_congr rfl (fun j hj => ?_)
      rw [hM i hi j (Finset.mem_range.1 hj)]
      ring
    rw [key A' B' _ _ (by rw [hA.rows]; exact hi) c3 c4, key A B _ _ hi b3 b4, hA.sums y hy i hi, hA.before, hA.after,
      inner_inputs h hx hy]
  · unfold Mat.addR
    have h1 : ¬ (A.rows = ((Mat.outer d (inputsOf n x)).scale eta).rows ∧ A.cols = ((Mat.outer d (inputsOf n x)).scale eta).cols) :=
      fun hc => hd hc.1.symm
    have h2 : ¬ (A'.rows = ((Mat.outer d (inputsOf n' (g x))).scale eta).rows ∧
        A'.cols = ((Mat.outer d (inputsOf n' (g x))).scale eta).cols) :=
      fun hc => hd (by rw [← hA.rows]; exact hc.1.symm)
    rw [if_neg h1, if_neg h2]
    exact rfl

/-! ## the epochs -/

section
variable {W : Type} {R : W → W → Prop}

theorem shuffle_map (l : IList ℝ) (σ : List Nat) : IList.shuffle (l.map g) σ = (IList.shuffle l σ).map g := by
  unfold IList.shuffle
  rw [List.map_filterMap]
  congr 1
  funext i
  rw [List.getElem?_map]

/-- two states of the epochs -/
structure EpochsAlike (R : W → W → Prop) (g : Inst ℝ → Inst ℝ) (xs : List (Inst ℝ)) (s s' : Epochs W ℝ) : Prop where
  cur : R s.cur s'.cur
  best : R s.best s'.best
  perf : s'.bestPerf = s.bestPerf
  eta : s'.eta = s.eta
  data : s'.data = s.data.map g
  mem : ∀ x ∈ s.data, x ∈ xs

theorem fold_map_alike {step : W → Inst ℝ → Res W} (hs : ∀ w w' x, x ∈ xs → R w w' → ResRel R (step w x) (step w' (g x))) :
    ∀ (l : IList ℝ) (w w' : W), (∀ x ∈ l, x ∈ xs) → R w w' → ResRel R (l.foldlM step w) ((l.map g).foldlM step w')
  | [], _, _, _, h => h
  | x :: l, w, w', hm, h => by
    rw [List.map_cons, List.foldlM_cons, List.foldlM_cons]
    exact (hs w w' x (hm x (by simp)) h).bind (fun a b hab => fold_map_alike hs l a b (fun y hy => hm y (by simp [hy])) hab)

theorem epochs_alike {step : ℝ → W → Inst ℝ → Res W} {perf perf' : W → Res ℝ} {better : ℝ → ℝ → Bool}
    (hs : ∀ eta w w' x, x ∈ xs → R w w' → ResRel R (step eta w x) (step eta w' (g x)))
    (hp : ∀ w w', R w w' → perf' w' = perf w) (dec : ℝ) (σ : List Nat) (k : Nat) {s s' : Epochs W ℝ} (h : EpochsAlike R g xs s s') :
    ResRel (EpochsAlike R g xs) (epochLoop step perf better dec σ k s) (epochLoop step perf' better dec σ k s') := by
  unfold epochLoop
  refine ResRel.fold _ (fun s s' _ h => ?_) h
  unfold epochStep
  have hmem : ∀ x ∈ IList.shuffle s.data σ, x ∈ xs := fun x hx => h.mem x (mem_shuffle hx)
  simp only [h.data, shuffle_map, h.eta, h.perf]
  refine (fold_map_alike (hs s.eta) _ _ _ hmem h.cur).bind (fun w w' hw => ?_)
  rw [hp w w' hw]
  refine ResRel.same _ (fun p _ => ?_)
  refine ⟨hw, ?_, rfl, rfl, rfl, hmem⟩
  show R (if better p s.bestPerf then w else s.best) (if better p s.bestPerf then w' else s'.best)
  split
  · exact hw
  · exact h.best

/-- the part common to the classifying networks: training and then asking -/
theorem netTrain_alike (hk : InnerKept n n' g xs) {T : IList ℝ} (hT : ∀ x ∈ T, x ∈ xs) (p p' : NetParam ℝ)
    (hpar : p'.ratio = p.ratio ∧ p'.splitOrder = p.splitOrder ∧ p'.shuffleOrder = p.shuffleOrder ∧ p'.epochs = p.epochs ∧
      p'.learningRate = p.learningRate ∧ p'.etaDecrease = p.etaDecrease)
    (init init' : List String → Nat → Res W)
    (hi : T ≠ [] → ResRel R (init T.getDistinctClassLabels n) (init' T.getDistinctClassLabels n'))
    (step : List String → ℝ → W → Inst ℝ → Res W) (out : W → List ℝ → Res (List ℝ))
    (hs : ∀ ls eta w w' x, x ∈ xs → R w w' → ResRel R (step ls eta w x) (step ls eta w' (g x)))
    (ho : ∀ w w' x, x ∈ xs → R w w' → out w' (inputsOf n' (g x)) = out w (inputsOf n x)) :
    ResRel (fun m m' : Net W => m'.labels = m.labels ∧ R m.weights m'.weights)
      (do let ini ← netInitialize T
          let parts ← Parts.byRatioStratified T p.ratio p.splitOrder
          let data ← atR parts 1
          let validationSet ← atR parts 0
          let w ← init ini.1 ini.2
          let s ← epochLoop (step ini.1) (validationAccuracy ini.1 out validationSet) moreAccurate
            p.etaDecrease p.shuffleOrder p.epochs ⟨w, w, Dbl.zero, p.learningRate, data⟩
          pure (⟨ini.1, ini.2, s.best⟩ : Net W))
      (do let ini ← netInitialize (T.map g)
          let parts ← Parts.byRatioStratified (T.map g) p'.ratio p'.splitOrder
          let data ← atR parts 1
          let validationSet ← atR parts 0
          let w ← init' ini.1 ini.2
          let s ← epochLoop (step ini.1) (validationAccuracy ini.1 out validationSet) moreAccurate
            p'.etaDecrease p'.shuffleOrder p'.epochs ⟨w, w, Dbl.zero, p'.learningRate, data⟩
          pure (⟨ini.1, ini.2, s.best⟩ : Net W)) := by
  obtain ⟨p1, p2, p3, p4, p5, p6⟩ := hpar
  rw [p1, p2, p3, p4, p5, p6]
  by_cases hne : T = []
  · subst hne; exact rfl
  have hdist : IList.getDistinctClassLabels (T.map g) = T.getDistinctClassLabels := by
    have : (T.map g).map Inst.label = T.map Inst.label := by
      rw [List.map_map]
      exact List.map_congr_left (fun x _ => (hk.classes x).1)
    unfold IList.getDistinctClassLabels
    rw [List.foldl_map]
    simp only [(hk.classes _).1]
  have ini : ∀ (d : Nat) (l : IList ℝ), l ≠ [] → (∀ x ∈ l, Numeric d x) →
      netInitialize l = .ok (l.getDistinctClassLabels, d) := by
    intro d l hl hn
    obtain ⟨x0, t, rfl⟩ := List.exists_cons_of_ne_nil hl
    obtain ⟨u, hattr, hu⟩ := hn x0 (by simp)
    have hdc : discreteCheck x0 = true := by
      unfold discreteCheck
      rw [hattr]
      simp [Attr.isDiscrete]
    have hget : IList.get (x0 :: t) 0 = .ok x0 := rfl
    unfold netInitialize
    rw [hget]
    simp only [res_bind_ok, hdc, contSize_ok x0 u hattr, hu]
    rfl
  rw [ini n T hne (fun x hx => hk.before x (hT x hx)),
    ini n' (T.map g) (by simpa using hne) (fun x hx => by
      obtain ⟨y, hy, rfl⟩ := List.mem_map.1 hx
      exact hk.after y (hT y hy)), hdist]
  simp only [res_bind_ok]
  rw [stratified_map (fun x => (hk.classes x).1), bind_map_res]
  refine ResRel.same _ (fun parts hparts => ?_)
  simp only [keeps_atR, bind_map_res]
  refine ResRel.same _ (fun data hdata => ResRel.same _ (fun val hval => ?_))
  refine (hi hne).bind (fun w w' hw => ?_)
  have hmem : ∀ {i : Nat} {l : IList ℝ}, atR parts i = .ok l → ∀ x ∈ l, x ∈ xs := fun hl x hx =>
    hT x (stratified_mem hparts _ (atR_in hl) x hx)
  have h0 : EpochsAlike R g xs ⟨w, w, Dbl.zero, p.learningRate, data⟩ ⟨w', w', Dbl.zero, p.learningRate, data.map g⟩ :=
    ⟨hw, hw, rfl, rfl, rfl, hmem hdata⟩
  refine (epochs_alike (hs T.getDistinctClassLabels) (fun w w' hw => ?_) _ _ _ h0).bind (fun s s' h => ?_)
  swap
  · exact ⟨rfl, h.best⟩
  unfold validationAccuracy
  have : testClassifier (netPredict T.getDistinctClassLabels (out w')) (val.map g) =
      testClassifier (netPredict T.getDistinctClassLabels (out w)) val := by
    unfold testClassifier
    rw [List.foldlM_map, List.length_map]
    congr 1
    refine foldlM_congr_on _ _ (fun b x hx => ?_)
    have hxs := hmem hval x hx
    unfold netPredict
    rw [inputVector_numeric (hk.before x hxs), inputVector_numeric (hk.after x hxs)]
    simp only [res_bind_ok, ho w w' x hxs hw, (hk.classes x).1, Inst.isComposite, Inst.possibleLabels, (hk.classes x).2]
    rfl
  rw [this]

theorem predict_alike (hk : InnerKept n n' g xs) {out : W → List ℝ → Res (List ℝ)}
    (ho : ∀ w w' x, x ∈ xs → R w w' → out w' (inputsOf n' (g x)) = out w (inputsOf n x)) {m m' : Res (Net W)}
    (h : ResRel (fun m m' : Net W => m'.labels = m.labels ∧ R m.weights m'.weights) m m') {x : Inst ℝ} (hx : x ∈ xs) :
    (m' >>= fun m => netPredict m.labels (out m.weights) (g x)) = (m >>= fun m => netPredict m.labels (out m.weights) x) ∧
    (m' >>= fun m => netProbability m.labels (out m.weights) (g x)) = (m >>= fun m => netProbability m.labels (out m.weights) x) := by
  cases m with
  | error e =>
    cases m' with
    | error e' =>
      have he : e = e' := h
      subst he
      exact ⟨rfl, rfl⟩
    | ok b => exact h.elim
  | ok a =>
    cases m' with
    | error e' => exact h.elim
    | ok b =>
      obtain ⟨h1, h2⟩ := h
      simp only [res_bind_ok, h1]
      unfold netPredict netProbability
      rw [inputVector_numeric (hk.before x hx), inputVector_numeric (hk.after x hx)]
      simp only [res_bind_ok, ho _ _ x hx h2, Inst.isComposite, Inst.possibleLabels, (hk.classes x).1, (hk.classes x).2]
      exact ⟨rfl, trivial⟩

end

/-! ## the networks -/

/-- the same training parameters, apart from the random matrices -/
def NetParam.startingFrom (p : NetParam ℝ) (random : Nat → Nat → Mat ℝ) : NetParam ℝ := { p with random := random }

theorem perc_step_alike (hk : InnerKept n n' g xs) (ls : List String) (eta : ℝ) (A A' : Mat ℝ) (x : Inst ℝ) (hx : x ∈ xs)
    (hA : SumsKept n n' g xs A A') : ResRel (SumsKept n n' g xs) (percStep ls eta A x) (percStep ls eta A' (g x)) := by
  unfold percStep
  rw [inputVector_numeric (hk.before x hx), inputVector_numeric (hk.after x hx)]
  simp only [res_bind_ok]
  refine ResRel.caught hA ?_
  unfold percUpdate calculateRMinusY
  rw [hA.product hx, (hk.classes x).1]
  exact ResRel.same _ (fun d _ => hA.changed hk hx d eta)

/-- **C225.** A linear perceptron sees its inputs only through inner products: when the instances are replaced by others with the same
classes and the same inner products (of any two of the training instances and the instance asked about), and training starts from weights that
give the same weighted sums, every prediction and every probability is the same, and so is every error. -/
theorem C225_perceptron (p : NetParam ℝ) (random' : Nat → Nat → Mat ℝ) (old : Net (Mat ℝ)) (T : IList ℝ) (x : Inst ℝ)
    (hk : InnerKept n n' g (x :: T))
    (hW : SumsKept n n' g (x :: T) (p.random T.getDistinctClassLabels.length (n + 1))
      (random' T.getDistinctClassLabels.length (n' + 1))) :
    (percTrain (p.startingFrom random') old (T.map g) >>= fun m => netPredict m.labels (percOutput m.weights) (g x)) =
      (percTrain p old T >>= fun m => netPredict m.labels (percOutput m.weights) x) ∧
    (percTrain (p.startingFrom random') old (T.map g) >>= fun m => netProbability m.labels (percOutput m.weights) (g x)) =
      (percTrain p old T >>= fun m => netProbability m.labels (percOutput m.weights) x) := by
  have ho : ∀ w w' y, y ∈ x :: T → SumsKept n n' g (x :: T) w w' →
      percOutput w' (inputsOf n' (g y)) = percOutput w (inputsOf n y) := fun w w' y hy hA => hA.product hy
  refine predict_alike hk ho ?_ (List.mem_cons_self ..)
  exact netTrain_alike hk (fun y hy => List.mem_cons_of_mem _ hy) p (p.startingFrom random') ⟨rfl, rfl, rfl, rfl, rfl, rfl⟩
    (fun ls d => pure (p.random ls.length (d + 1))) (fun ls d => pure (random' ls.length (d + 1))) (fun _ => hW)
    percStep percOutput (fun ls eta w w' y hy h => perc_step_alike hk ls eta w w' y hy h) ho

/-- the weights of two multi-layer perceptrons -/
def TwoAlike (n n' : Nat) (g : Inst ℝ → Inst ℝ) (xs : List (Inst ℝ)) (w w' : Two ℝ) : Prop := SumsKept n n' g xs w.W w'.W ∧ w'.V = w.V

theorem mlp_step_alike (hk : InnerKept n n' g xs) (act : Activation) (ls : List String) (eta : ℝ) (w w' : Two ℝ) (x : Inst ℝ) (hx : x ∈ xs)
    (hA : TwoAlike n n' g xs w w') : ResRel (TwoAlike n n' g xs) (mlpStep ls act eta w x) (mlpStep ls act eta w' (g x)) := by
  unfold mlpStep
  rw [inputVector_numeric (hk.before x hx), inputVector_numeric (hk.after x hx)]
  simp only [res_bind_ok]
  refine ResRel.caught hA ?_
  unfold mlpDeltas calculateHidden calculateRMinusY
  rw [hA.1.product hx, hA.2, (hk.classes x).1]
  simp only [bind_assoc]
  refine ResRel.same _ (fun z _ => ResRel.same _ (fun a _ => ResRel.same _ (fun r _ => ResRel.same _ (fun b _ => ResRel.same _ (fun t _ =>
    ResRel.same _ (fun t' _ => ResRel.same _ (fun dv _ => ResRel.same _ (fun th _ => ResRel.same _ (fun th' _ => ?_)))))))))
  show ResRel (TwoAlike n n' g xs) (applyTwo fourMismatches w eta (Mat.outer th' (inputsOf n x), _))
    (applyTwo fourMismatches w' eta (Mat.outer th' (inputsOf n' (g x)), _))
  unfold applyTwo
  rw [hA.2]
  refine ResRel.same _ (fun V' _ => ?_)
  unfold addW
  refine ResRel.caught ⟨hA.1, rfl⟩ ?_
  exact (hA.1.changed hk hx th' eta).bind (fun a b hab => ⟨hab, rfl⟩)

theorem mlp_out_alike (act : Activation) {w w' : Two ℝ} {x : Inst ℝ} (hx : x ∈ xs) (hA : TwoAlike n n' g xs w w') :
    mlpOutput act w' (inputsOf n' (g x)) = mlpOutput act w (inputsOf n x) := by
  unfold mlpOutput forwardSingleHidden calculateHidden
  rw [hA.1.product hx, hA.2]

/-- **C225** for the multi-layer perceptron: here the first matrix has to give the same weighted sums, and the second to be the same. -/
theorem C225_mlp (p : NetParam ℝ) (random' : Nat → Nat → Mat ℝ) (H : Nat) (act : Activation) (old : Net (Two ℝ)) (T : IList ℝ) (x : Inst ℝ)
    (hk : InnerKept n n' g (x :: T))
    (hW : SumsKept n n' g (x :: T) (p.random H (n + 1)) (random' H (n' + 1)))
    (hV : random' T.getDistinctClassLabels.length (H + 1) = p.random T.getDistinctClassLabels.length (H + 1)) :
    (mlpTrain (p.startingFrom random') H act old (T.map g) >>= fun m => netPredict m.labels (mlpOutput act m.weights) (g x)) =
      (mlpTrain p H act old T >>= fun m => netPredict m.labels (mlpOutput act m.weights) x) ∧
    (mlpTrain (p.startingFrom random') H act old (T.map g) >>= fun m => netProbability m.labels (mlpOutput act m.weights) (g x)) =
      (mlpTrain p H act old T >>= fun m => netProbability m.labels (mlpOutput act m.weights) x) := by
  have ho : ∀ w w' y, y ∈ x :: T → TwoAlike n n' g (x :: T) w w' →
      mlpOutput act w' (inputsOf n' (g y)) = mlpOutput act w (inputsOf n y) := fun w w' y hy hA => mlp_out_alike act hy hA
  refine predict_alike hk ho ?_ (List.mem_cons_self ..)
  refine netTrain_alike (R := TwoAlike n n' g (x :: T)) hk (fun y hy => List.mem_cons_of_mem _ hy) p (p.startingFrom random')
    ⟨rfl, rfl, rfl, rfl, rfl, rfl⟩
    (fun ls d => pure ⟨p.random H (d + 1), p.random ls.length (H + 1)⟩)
    (fun ls d => pure ⟨random' H (d + 1), random' ls.length (H + 1)⟩) (fun _ => ?_)
    (fun ls => mlpStep ls act) (mlpOutput act) (fun ls eta w w' y hy h => mlp_step_alike hk act ls eta w w' y hy h) ho
  exact ⟨hW, hV⟩

/-- the weights of two deep networks -/
def DeepAlike (n n' : Nat) (g : Inst ℝ → Inst ℝ) (xs : List (Inst ℝ)) (ws ws' : List (Mat ℝ)) : Prop :=
  ∃ A A' B rest, ws = A :: B :: rest ∧ ws' = A' :: B :: rest ∧ SumsKept n n' g xs A A'

theorem deep_out_alike (act : Activation) {ws ws' : List (Mat ℝ)} {x : Inst ℝ} (hx : x ∈ xs) (hA : DeepAlike n n' g xs ws ws') :
    deepOutput act ws' (inputsOf n' (g x)) = deepOutput act ws (inputsOf n x) := by
  obtain ⟨A, A', B, rest, rfl, rfl, h⟩ := hA
  unfold deepOutput
  have e : ∀ b k, deepOutputStep act (A' :: B :: rest) (inputsOf n' (g x)) b k = deepOutputStep act (A :: B :: rest) (inputsOf n x) b k := by
    intro b k
    unfold deepOutputStep calculateHidden
    cases k with
    | zero =>
      show (A'.mulRightR _ >>= _) >>= _ = (A.mulRightR _ >>= _) >>= _
      rw [if_pos rfl, if_pos rfl, h.product hx]
    | succ k => rfl
  rw [show deepOutputStep act (A' :: B :: rest) (inputsOf n' (g x)) = deepOutputStep act (A :: B :: rest) (inputsOf n x) from
    funext (fun b => funext (fun k => e b k))]
  rfl

theorem deep_step_alike (hk : InnerKept n n' g xs) (act : Activation) (L : Nat) (ls : List String) (eta : ℝ) (ws ws' : List (Mat ℝ)) (x : Inst ℝ)
    (hx : x ∈ xs) (hA : DeepAlike n n' g xs ws ws') : ResRel (DeepAlike n n' g xs) (deepStep ls act L eta ws x) (deepStep ls act L eta ws' (g x)) := by
  unfold deepStep
  rw [inputVector_numeric (hk.before x hx), inputVector_numeric (hk.after x hx)]
  simp only [res_bind_ok]
  refine ResRel.caught hA ?_
  obtain ⟨A, A', B, rest, rfl, rfl, h⟩ := hA
  have fw : deepForwardStep act (A' :: B :: rest) (inputsOf n' (g x)) = deepForwardStep act (A :: B :: rest) (inputsOf n x) := by
    funext s k
    unfold deepForwardStep calculateHidden layerInput
    cases k with
    | zero =>
      show (A'.mulRightR _ >>= _) >>= _ = (A.mulRightR _ >>= _) >>= _
      rw [h.product hx]
    | succ k => rfl
  unfold deepDeltas
  rw [fw]
  by_cases hL : L = 0
  · simp only [if_pos hL, bind_assoc]
    exact ResRel.same _ (fun f _ => rfl)
  simp only [if_neg hL, bind_assoc]
  refine ResRel.same _ (fun f _ => ResRel.same _ (fun top _ => ?_))
  have el : (A' :: B :: rest).length = (A :: B :: rest).length := rfl
  rw [show atR (A' :: B :: rest) ((A' :: B :: rest).length - 1) = atR (A :: B :: rest) ((A :: B :: rest).length - 1) from rfl]
  refine ResRel.same _ (fun wl _ => ?_)
  rw [show calculateRMinusY ls (g x) top wl = calculateRMinusY ls x top wl by unfold calculateRMinusY; rw [(hk.classes x).1]]
  refine ResRel.same _ (fun r _ => ?_)
  have hr : ∀ m : Nat, (List.range (m + 1)).reverse = ((List.range m).map Nat.succ).reverse ++ [0] := by
    intro m
    rw [List.range_succ_eq_map, List.reverse_cons]
  rw [show (A' :: B :: rest).length - 1 = rest.length + 1 from rfl, show (A :: B :: rest).length - 1 = rest.length + 1 from rfl, hr,
    List.foldlM_append, List.foldlM_append]
  rw [foldlM_congr_on (f := deepBackStep act (A' :: B :: rest) (inputsOf n' (g x)) r f.1 f.2)
    (f' := deepBackStep act (A :: B :: rest) (inputsOf n x) r f.1 f.2) ((List.range rest.length).map Nat.succ).reverse _ (by
      intro b k hk'
      rw [List.mem_reverse, List.mem_map] at hk'
      obtain ⟨j, _, rfl⟩ := hk'
      rfl)]
  simp only [bind_assoc]
  refine ResRel.same _ (fun s _ => ?_)
  simp only [List.foldlM_cons, List.foldlM_nil, bind_pure]
  unfold deepBackStep layerInput
  simp only [bind_assoc]
  rw [show atR (A' :: B :: rest) (0 + 1) = atR (A :: B :: rest) (0 + 1) from rfl]
  refine ResRel.same _ (fun w _ => ResRel.same _ (fun t _ => ResRel.same _ (fun t' _ => ResRel.same _ (fun hh _ => ResRel.same _ (fun dv _ =>
    ResRel.same _ (fun d _ => ?_))))))
  have hadd := h.changed hk hx d eta
  show ResRel (DeepAlike n n' g xs) (deepApply eta (A :: B :: rest) (Mat.outer d (inputsOf n x) :: s.2))
    (deepApply eta (A' :: B :: rest) (Mat.outer d (inputsOf n' (g x)) :: s.2))
  rw [deepApply, deepApply]
  generalize hm : A.addR ((Mat.outer d (inputsOf n x)).scale eta) = m at hadd ⊢
  generalize hm' : A'.addR ((Mat.outer d (inputsOf n' (g x))).scale eta) = m' at hadd ⊢
  cases m with
  | error e =>
    cases m' with
    | error e' => exact ⟨A, A', B, rest, rfl, rfl, h⟩
    | ok b => exact hadd.elim
  | ok a =>
    cases m' with
    | error e' => exact hadd.elim
    | ok b =>
      simp only
      refine ResRel.map_of (R := fun r r' => r = r' ∧ ∃ B' rest', r = B' :: rest') (ResRel.of_eq rfl (fun r hr => ⟨rfl, ?_⟩)) ?_
      · cases hs : s.2 with
        | nil => rw [hs] at hr; cases hr
        | cons dd ds =>
          rw [hs, deepApply] at hr
          cases hb : B.addR (dd.scale eta) with
          | error e => rw [hb] at hr; cases hr; exact ⟨_, _, rfl⟩
          | ok B' =>
            rw [hb] at hr
            simp only at hr
            cases hq : deepApply eta rest ds with
            | error e => rw [hq] at hr; cases hr
            | ok q => rw [hq] at hr; cases hr; exact ⟨_, _, rfl⟩
      · rintro r r' ⟨rfl, B', rest', rfl⟩
        exact ⟨a, b, B', rest', rfl, rfl, hadd⟩

/-- **C225** for the deep network, created new: the first matrix has to give the same weighted sums, and the others to be the same. -/
theorem C225_deep (p : NetParam ℝ) (random' : Nat → Nat → Mat ℝ) (hidden : List Nat) (act : Activation) (old : Net (List (Mat ℝ)))
    (hold : old.weights = []) (T : IList ℝ) (x : Inst ℝ) (hk : InnerKept n n' g (x :: T))
    (hW : ∀ h0, hidden[0]? = some h0 → SumsKept n n' g (x :: T) (p.random h0 (n + 1)) (random' h0 (n' + 1)))
    (hmid : ∀ (i : Nat) a b, hidden[i + 1]? = some a → hidden[i]? = some b → random' a (b + 1) = p.random a (b + 1))
    (hlast : ∀ b, hidden.getLast? = some b →
      random' T.getDistinctClassLabels.length (b + 1) = p.random T.getDistinctClassLabels.length (b + 1)) :
    (deepTrain (p.startingFrom random') hidden act old (T.map g) >>= fun m => netPredict m.labels (deepOutput act m.weights) (g x)) =
      (deepTrain p hidden act old T >>= fun m => netPredict m.labels (deepOutput act m.weights) x) ∧
    (deepTrain (p.startingFrom random') hidden act old (T.map g) >>= fun m => netProbability m.labels (deepOutput act m.weights) (g x)) =
      (deepTrain p hidden act old T >>= fun m => netProbability m.labels (deepOutput act m.weights) x) := by
  have ho : ∀ w w' y, y ∈ x :: T → DeepAlike n n' g (x :: T) w w' →
      deepOutput act w' (inputsOf n' (g y)) = deepOutput act w (inputsOf n y) := fun w w' y hy hA => deep_out_alike act hy hA
  refine predict_alike hk ho ?_ (List.mem_cons_self ..)
  refine netTrain_alike hk (fun y hy => List.mem_cons_of_mem _ hy) p (p.startingFrom random') ⟨rfl, rfl, rfl, rfl, rfl, rfl⟩
    (fun ls d => deepAllocate p.random ls d hidden old.weights)
    (fun ls d => deepAllocate random' ls d hidden old.weights) (fun _ => ?_)
    (fun ls => deepStep ls act hidden.length) (deepOutput act) (fun ls eta w w' y hy h => deep_step_alike hk act _ ls eta w w' y hy h) ho
  unfold deepAllocate
  refine ResRel.same _ (fun h0 e0 => ?_)
  have get : ∀ {i : Nat} {a : Nat}, atR hidden i = .ok a → hidden[i]? = some a := by
    intro i a h
    unfold atR at h
    cases hq : hidden[i]? with
    | none => rw [hq] at h; cases h
    | some b => rw [hq] at h; cases h; rfl
  have em : ((List.range (hidden.length - 1)).mapM (fun (i : Nat) => do
      let a ← atR hidden (i + 1)
      let b ← atR hidden i
      pure (random' a (b + 1))) : Res (List (Mat ℝ))) = (List.range (hidden.length - 1)).mapM (fun (i : Nat) => do
      let a ← atR hidden (i + 1)
      let b ← atR hidden i
      pure (p.random a (b + 1))) := by
    congr 1
    funext i
    refine bind_congr_res (fun a ha => bind_congr_res (fun b hb => ?_))
    rw [hmid i a b (get ha) (get hb)]
  rw [em]
  refine ResRel.same _ (fun mid _ => ResRel.same _ (fun last el => ?_))
  have hl := hlast last (by rw [List.getLast?_eq_getElem?]; exact get el)
  rw [hl, hold]
  cases mid with
  | nil => exact ⟨_, _, _, _, rfl, rfl, hW h0 (get e0)⟩
  | cons m mid => exact ⟨_, _, _, _, rfl, rfl, hW h0 (get e0)⟩

/-! ## the order of the columns -/

theorem innerKept_reorder {σ : List Nat} (hσ : IsPermutation σ n) (hx : ∀ x ∈ xs, Numeric n x) : InnerKept n n (reorder σ) xs :=
  ⟨fun _ => ⟨rfl, rfl⟩, hx, fun x h => numeric_reorder hσ (hx x h), fun x h y h' => (dense_reorder hσ (hx x h) (hx y h')).1⟩

/-- the weights of the inputs reordered like the columns (the weight of the constant input stays in front) -/
def Mat.columnsReordered (σ : List Nat) (A : Mat ℝ) : Mat ℝ :=
  { A with e := fun i j => match j with
      | 0 => A.e i 0
      | j + 1 => A.e i (σ.getD j 0 + 1) }

theorem sumsKept_reorder {σ : List Nat} (hσ : IsPermutation σ n) (hx : ∀ x ∈ xs, Numeric n x) {A : Mat ℝ} (hA : A.cols = n + 1) :
    SumsKept n n (reorder σ) xs A (A.columnsReordered σ) := by
  refine ⟨rfl, hA, hA, fun x h i _ => ?_⟩
  unfold score
  rw [show (A.columnsReordered σ).cols = A.cols from rfl, hA, Finset.sum_range_succ', Finset.sum_range_succ',
    ← sum_columns hσ (fun j => A.e i (j + 1) * withBias (fun j => (numbersOf x).getD j 0) (j + 1))]
  congr 1
  refine Finset.sum_congr rfl (fun j hj => ?_)
  show A.e i (σ.getD j 0 + 1) * (numbersOf (reorder σ x)).getD j 0 = _
  rw [reorder_getD hσ (hx x h) (Finset.mem_range.1 hj)]
  rfl

/-- **C166** (part) The linear perceptron, when the random initial weights are reordered like the columns. -/
theorem C166_perceptron_partial {σ : List Nat} (hσ : IsPermutation σ n) (p : NetParam ℝ) (random' : Nat → Nat → Mat ℝ)
    (old : Net (Mat ℝ)) (T : IList ℝ) (hT : ∀ y ∈ T, Numeric n y) (x : Inst ℝ) (hx : Numeric n x)
    (hc : (p.random T.getDistinctClassLabels.length (n + 1)).cols = n + 1)
    (hW : random' T.getDistinctClassLabels.length (n + 1) =
      (p.random T.getDistinctClassLabels.length (n + 1)).columnsReordered σ) :
    (percTrain (p.startingFrom random') old (T.map (reorder σ)) >>= fun m =>
        netPredict m.labels (percOutput m.weights) (reorder σ x)) =
      (percTrain p old T >>= fun m => netPredict m.labels (percOutput m.weights) x) := by
  have num : ∀ z ∈ x :: T, Numeric n z := by
    intro z hz
    rcases List.mem_cons.1 hz with rfl | hz
    · exact hx
    · exact hT z hz
  exact (C225_perceptron p random' old T x (innerKept_reorder hσ num) (by rw [hW]; exact sumsKept_reorder hσ num hc)).1

/-- **C166** (part) The multi-layer perceptron, when the random initial weights of the first layer are reordered like the columns. -/
theorem C166_mlp_partial {σ : List Nat} (hσ : IsPermutation σ n) (p : NetParam ℝ) (random' : Nat → Nat → Mat ℝ) (H : Nat) (act : Activation)
    (old : Net (Two ℝ)) (T : IList ℝ) (hT : ∀ y ∈ T, Numeric n y) (x : Inst ℝ) (hx : Numeric n x)
    (hc : (p.random H (n + 1)).cols = n + 1) (hW : random' H (n + 1) = (p.random H (n + 1)).columnsReordered σ)
    (hV : random' T.getDistinctClassLabels.length (H + 1) = p.random T.getDistinctClassLabels.length (H + 1)) :
    (mlpTrain (p.startingFrom random') H act old (T.map (reorder σ)) >>= fun m =>
        netPredict m.labels (mlpOutput act m.weights) (reorder σ x)) =
      (mlpTrain p H act old T >>= fun m => netPredict m.labels (mlpOutput act m.weights) x) := by
  have num : ∀ z ∈ x :: T, Numeric n z := by
    intro z hz
    rcases List.mem_cons.1 hz with rfl | hz
    · exact hx
    · exact hT z hz
  exact (C225_mlp p random' H act old T x (innerKept_reorder hσ num) (by rw [hW]; exact sumsKept_reorder hσ num hc) hV).1

/-- **C166** for a deep network whose first matrix of random numbers has its columns in the new order. -/
theorem C166_deep_partial {σ : List Nat} (hσ : IsPermutation σ n) (p : NetParam ℝ) (random' : Nat → Nat → Mat ℝ) (hidden : List Nat)
    (act : Activation) (old : Net (List (Mat ℝ))) (hold : old.weights = []) (T : IList ℝ) (hT : ∀ y ∈ T, Numeric n y) (x : Inst ℝ)
    (hx : Numeric n x)
    (hW : ∀ h0, hidden[0]? = some h0 →
      (p.random h0 (n + 1)).cols = n + 1 ∧ random' h0 (n + 1) = (p.random h0 (n + 1)).columnsReordered σ)
    (hmid : ∀ (i : Nat) a b, hidden[i + 1]? = some a → hidden[i]? = some b → random' a (b + 1) = p.random a (b + 1))
    (hlast : ∀ b, hidden.getLast? = some b →
      random' T.getDistinctClassLabels.length (b + 1) = p.random T.getDistinctClassLabels.length (b + 1)) :
    (deepTrain (p.startingFrom random') hidden act old (T.map (reorder σ)) >>= fun m =>
        netPredict m.labels (deepOutput act m.weights) (reorder σ x)) =
      (deepTrain p hidden act old T >>= fun m => netPredict m.labels (deepOutput act m.weights) x) := by
  have num : ∀ z ∈ x :: T, Numeric n z := by
    intro z hz
    rcases List.mem_cons.1 hz with rfl | hz
    · exact hx
    · exact hT z hz
  exact (C225_deep p random' hidden act old hold T x (innerKept_reorder hσ num)
    (fun h0 e => by rw [(hW h0 e).2]; exact sumsKept_reorder hσ num (hW h0 e).1) hmid hlast).1

/-! ## a column of zeros -/

/-- the instance with a further number 0 -/
def withZero (x : Inst ℝ) : Inst ℝ := { x with attrs := x.attrs ++ [.continuous 0] }

theorem withZero_numbers {x : Inst ℝ} (hx : Numeric n x) : Numeric (n + 1) (withZero x) ∧ ∀ j, (numbersOf (withZero x)).getD j 0 =
    (numbersOf x).getD j 0 := by
  obtain ⟨u, h1, h2⟩ := hx
  refine ⟨⟨u ++ [0], by unfold withZero; rw [h1, List.map_append]; rfl, by simp [h2]⟩, fun j => ?_⟩
  have e : numbersOf (withZero x) = numbersOf x ++ [0] := by
    unfold numbersOf withZero
    simp
  rw [e, List.getD_eq_getElem?_getD, List.getD_eq_getElem?_getD]
  by_cases hj : j < (numbersOf x).length
  · rw [List.getElem?_append_left hj]
  · rw [List.getElem?_append_right (by omega), List.getElem?_eq_none (l := numbersOf x) (by omega)]
    cases j - (numbersOf x).length <;> rfl

theorem innerKept_zero (hx : ∀ x ∈ xs, Numeric n x) : InnerKept n (n + 1) withZero xs := by
  refine ⟨fun _ => ⟨rfl, rfl⟩, hx, fun x h => (withZero_numbers (hx x h)).1, fun x h y h' => ?_⟩
  obtain ⟨a, a'⟩ := withZero_numbers (hx x h)
  obtain ⟨b, b'⟩ := withZero_numbers (hx y h')
  unfold denseDot
  rw [numbersOf_size a, numbersOf_size b, numbersOf_size (hx x h), numbersOf_size (hx y h'), max_self, max_self, Finset.sum_range_succ]
  simp only [a', b']
  have : (numbersOf x).getD n 0 = 0 := by
    rw [List.getD_eq_getElem?_getD, List.getElem?_eq_none (by rw [numbersOf_size (hx x h)])]; rfl
  rw [this, zero_mul, add_zero]

theorem sumsKept_zero (hx : ∀ x ∈ xs, Numeric n x) {A A' : Mat ℝ} (hr : A'.rows = A.rows) (hA : A.cols = n + 1) (hA' : A'.cols = n + 2)
    (he : ∀ i, ∀ j ≤ n, A'.e i j = A.e i j) : SumsKept n (n + 1) withZero xs A A' := by
  refine ⟨hr, hA, hA', fun x h i _ => ?_⟩
  unfold score
  rw [hA, hA', Finset.sum_range_succ]
  simp only [(withZero_numbers (hx x h)).2]
  have : withBias (fun j => (numbersOf x).getD j 0) (n + 1) = 0 := by
    show (numbersOf x).getD n 0 = 0
    rw [List.getD_eq_getElem?_getD, List.getElem?_eq_none (by rw [numbersOf_size (hx x h)])]; rfl
  rw [this, mul_zero, add_zero]
  refine Finset.sum_congr rfl (fun j hj => ?_)
  rw [he i j (by have := Finset.mem_range.1 hj; omega)]

/-- **C225**, an instance of it: a further column that is 0 everywhere changes no prediction of a multi-layer perceptron, whatever its initial
weights are, when the other initial weights stay. -/
theorem C225_zero_column (p : NetParam ℝ) (random' : Nat → Nat → Mat ℝ) (H : Nat) (act : Activation) (old : Net (Two ℝ)) (T : IList ℝ)
    (hT : ∀ y ∈ T, Numeric n y) (x : Inst ℝ) (hx : Numeric n x) (hc : (p.random H (n + 1)).cols = n + 1)
    (hr' : (random' H (n + 2)).rows = (p.random H (n + 1)).rows) (hc' : (random' H (n + 2)).cols = n + 2)
    (hW : ∀ i, ∀ j ≤ n, (random' H (n + 2)).e i j = (p.random H (n + 1)).e i j)
    (hV : random' T.getDistinctClassLabels.length (H + 1) = p.random T.getDistinctClassLabels.length (H + 1)) :
    (mlpTrain (p.startingFrom random') H act old (T.map withZero) >>= fun m =>
        netPredict m.labels (mlpOutput act m.weights) (withZero x)) =
      (mlpTrain p H act old T >>= fun m => netPredict m.labels (mlpOutput act m.weights) x) := by
  have num : ∀ z ∈ x :: T, Numeric n z := by
    intro z hz
    rcases List.mem_cons.1 hz with rfl | hz
    · exact hx
    · exact hT z hz
  exact (C225_mlp p random' H act old T x (innerKept_zero num) (sumsKept_zero num hr' hc hc' hW) hV).1

end

/-! ## the hypotheses are met -/

/-- two training instances and a question, two columns -/
noncomputable def turnedData : List (Inst ℝ) :=
  [⟨"?", [.continuous 2, .continuous 7], none⟩, ⟨"a", [.continuous 1, .continuous 0], none⟩, ⟨"b", [.continuous 0, .continuous 1], none⟩]

/-- the plane turned by an angle that is not a right one -/
noncomputable def turn (x : Inst ℝ) : Inst ℝ :=
  { x with attrs := [.continuous (3 / 5 * (numbersOf x).getD 0 0 - 4 / 5 * (numbersOf x).getD 1 0),
      .continuous (4 / 5 * (numbersOf x).getD 0 0 + 3 / 5 * (numbersOf x).getD 1 0)] }

/-- initial weights before and after the turn -/
noncomputable def turnedStart (turned : Bool) (r c : Nat) : Mat ℝ :=
  ⟨r, c, fun i j => if turned then (if j = 1 then 3 / 5 * i else if j = 2 then 4 / 5 * i else 1) else (if j = 1 then i else if j = 2 then 0 else 1)⟩

/-- turning the plane keeps the inner products, and turning the weights the weighted sums -/
example : InnerKept 2 2 turn turnedData ∧ SumsKept 2 2 turn turnedData (turnedStart false 2 3) (turnedStart true 2 3) := by
  refine ⟨⟨fun _ => ⟨rfl, rfl⟩, ?_, ?_, ?_⟩, rfl, rfl, rfl, ?_⟩
  · intro x hx
    simp only [turnedData, List.mem_cons, List.not_mem_nil, or_false] at hx
    rcases hx with rfl | rfl | rfl <;> exact ⟨[_, _], rfl, rfl⟩
  · intro x _
    exact ⟨[_, _], rfl, rfl⟩
  · intro x hx y hy
    simp only [turnedData, List.mem_cons, List.not_mem_nil, or_false] at hx hy
    rcases hx with rfl | rfl | rfl <;> rcases hy with rfl | rfl | rfl <;>
      simp [denseDot, numbersOf, turn, Finset.sum_range_succ] <;> norm_num
  · intro x hx i _
    simp only [turnedData, List.mem_cons, List.not_mem_nil, or_false] at hx
    rcases hx with rfl | rfl | rfl <;>
      simp [score, numbersOf, turn, turnedStart, withBias, Finset.sum_range_succ] <;> ring

/-- three columns in another order, and weights reordered like them -/
example : IsPermutation [2, 0, 1] 3 ∧ Numeric 3 ⟨"a", [.continuous 1, .continuous 5, .continuous 7], none⟩ ∧
    (turnedStart false 2 4).cols = 3 + 1 :=
  ⟨by unfold IsPermutation; decide, ⟨[1, 5, 7], rfl, rfl⟩, rfl⟩

/-! ## unchanged initial weights -/

/-- the numbers of two columns -/
def crossed : IList XR :=
  [⟨"a", [.continuous (.fin 1), .continuous (.fin 0)], none⟩, ⟨"b", [.continuous (.fin 0), .continuous (.fin 1)], none⟩]

/-- parameters of a training without epochs, starting from weights that prefer the class "a" for a large first number -/
def noEpochs : NetParam XR where
  ratio := .fin 0
  splitOrder := [0, 1]
  shuffleOrder := [0, 1]
  random := fun r c => ⟨r, c, fun i j => if i = 0 ∧ j = 1 then .fin 1 else .fin 0⟩
  epochs := 0
  learningRate := .fin 1
  etaDecrease := .fin 1

/-- **C166 is false** of networks whose initial weights stay: with the columns of the training data and of the instance exchanged, and the
random initial weights as they were, the prediction may be another one (already before the first epoch). -/
theorem C166_network_refuted : ∃ (p : NetParam XR) (old : Net (Mat XR)) (T : IList XR) (x : Inst XR),
    IsPermutation [1, 0] 2 ∧ (∀ y ∈ x :: T, y.attrs.length = 2) ∧
    (percTrain p old T >>= fun m => netPredict m.labels (percOutput m.weights) x) = .ok "a" ∧
    (percTrain p old (T.map (reorder [1, 0])) >>= fun m => netPredict m.labels (percOutput m.weights) (reorder [1, 0] x)) = .ok "b" := by
  refine ⟨noEpochs, ⟨[], 0, ⟨0, 0, fun _ _ => .fin 0⟩⟩, crossed, ⟨"?", [.continuous (.fin 1), .continuous (.fin (-1))], none⟩, by unfold IsPermutation; decide,
    by decide, by decide +kernel, by decide +kernel⟩

end Verif
