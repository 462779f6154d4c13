import Verif.Model.Svm
import Verif.Model.Parametric
import Verif.Model.NeuralNetwork
import Verif.Props.SimpleModels

/-! # Property C45: discrete features are refused, and nothing else is refused with that exception -/

set_option linter.unusedSectionVars false

namespace Verif
open Dbl

variable {F : Type} [Dbl F]

/-- the call does not end with the exception `DiscreteFeaturesNotAllowed` -/
structure Quiet {α : Type} (r : Res α) : Prop where
  ne : r ≠ .error (.throw "DiscreteFeaturesNotAllowed")

namespace Quiet
variable {α β : Type}

theorem ok (a : α) : Quiet (.ok a : Res α) := ⟨by intro h; cases h⟩

theorem pure (a : α) : Quiet (Pure.pure a : Res α) := ⟨by intro h; cases h⟩

theorem ub (s : String) : Quiet (.error (.ub s) : Res α) := ⟨by intro h; cases h⟩

theorem throw (s : String) (h : s ≠ "DiscreteFeaturesNotAllowed") : Quiet (.error (.throw s) : Res α) :=
  ⟨by intro h'; cases h'; exact h rfl⟩

theorem bind {r : Res α} {f : α → Res β} (h : Quiet r) (hf : ∀ a, Quiet (f a)) : Quiet (r >>= f) := by
  cases r with
  | ok a => exact hf a
  | error e => exact ⟨by intro h'; apply h.ne; cases h'; rfl⟩

theorem foldlM {f : β → α → Res β} : ∀ (l : List α) (b : β), (∀ b a, Quiet (f b a)) → Quiet (l.foldlM f b)
  | [], b, _ => pure b
  | a :: l, b, h => by
    rw [List.foldlM_cons]
    exact bind (h b a) (fun c => foldlM l c h)

theorem mapM {f : α → Res β} : ∀ (l : List α), (∀ a, Quiet (f a)) → Quiet (l.mapM f)
  | [], _ => by rw [List.mapM_nil]; exact pure _
  | a :: l, h => by
    rw [List.mapM_cons]
    exact bind (h a) (fun c => bind (mapM l h) (fun d => pure _))

theorem atR (l : List α) (i : Nat) : Quiet (Verif.atR l i) := by
  unfold Verif.atR
  split
  · exact ok _
  · exact throw _ (by decide)

theorem idxR (l : List α) (i : Nat) : Quiet (Verif.idxR l i) := by
  unfold Verif.idxR
  split
  · exact ok _
  · exact ub _

theorem catching (c : List String) (a : α) {r : Res α} (h : Quiet r) : Quiet (Verif.catching c a r) := by
  unfold Verif.catching
  split
  · exact ok _
  · split
    · exact ok _
    · exact ⟨by intro h'; apply h.ne; cases h'; rfl⟩
  · exact ub _

end Quiet

/-- one step of the argument that a call is `Quiet` -/
macro "quiet" : tactic => `(tactic| repeat' (first
  | assumption
  | intro _
  | exact Quiet.ok _
  | exact Quiet.pure _
  | exact Quiet.ub _
  | exact Quiet.throw _ (by decide)
  | exact Quiet.atR _ _
  | exact Quiet.idxR _ _
  | apply Quiet.bind
  | apply Quiet.foldlM
  | apply Quiet.mapM
  | apply Quiet.catching
  | split
  | (dsimp only; split)))

/-! ## instances and lists -/

theorem quiet_attr (a : Attr F) : Quiet a.continuousAttributes := by
  unfold Attr.continuousAttributes; quiet

theorem quiet_toVector (x : Inst F) : Quiet x.toVector := by
  unfold Inst.toVector
  quiet; exact quiet_attr _

theorem quiet_contAttrs (x : Inst F) : Quiet x.continuousAttributes := by
  unfold Inst.continuousAttributes
  quiet; exact quiet_attr _

theorem quiet_getAttribute (x : Inst F) (i : Nat) : Quiet (x.getAttribute i) := by
  unfold Inst.getAttribute; quiet

theorem quiet_indexAt (x : Inst F) (i : Nat) : Quiet (x.indexAt i) := by
  unfold Inst.indexAt Attr.getIndex
  refine Quiet.bind (quiet_getAttribute x i) ?_
  quiet

theorem quiet_contAt (x : Inst F) (i : Nat) : Quiet (x.contAt i) := by
  unfold Inst.contAt Attr.contVal
  refine Quiet.bind (quiet_getAttribute x i) ?_
  quiet

theorem quiet_average (l : IList F) : Quiet l.continuousAttributeAverage := by
  unfold IList.continuousAttributeAverage
  refine Quiet.bind (Quiet.atR _ _) (fun x => Quiet.foldlM _ _ (fun r i => Quiet.bind ?_ (fun _ => Quiet.pure _)))
  unfold IList.continuousAttributeAverageAt
  refine Quiet.bind (Quiet.atR _ _) (fun x => Quiet.bind (quiet_getAttribute x i) (fun a => ?_))
  split
  · refine Quiet.bind ?_ (fun m => ?_)
    · unfold Attr.getMaxIndex; quiet
    · unfold IList.indexedFrequencies
      split
      · quiet
      · refine Quiet.bind (Quiet.foldlM _ _ (fun v x => Quiet.bind (quiet_indexAt x i) (fun k => ?_))) (fun _ => Quiet.pure _)
        unfold IList.incrAt; quiet
  · split
    · exact Quiet.bind (Quiet.foldlM _ _ (fun s x => Quiet.bind (quiet_contAt x i) (fun _ => Quiet.pure _))) (fun _ => Quiet.pure _)
    · quiet

theorem quiet_covariance (l : IList F) (avg : List F) : Quiet (l.covariance avg) := by
  unfold IList.covariance
  refine Quiet.bind (Quiet.atR _ _) (fun x => Quiet.bind (Quiet.foldlM _ _ (fun m x => Quiet.bind (quiet_contAttrs x) ?_)) ?_)
  · quiet
  · quiet

theorem quiet_addTo (ps : Parts F) (k : Nat) (x : Inst F) : Quiet (ps.addTo k x) := by
  unfold Parts.addTo; quiet

theorem quiet_byClass (l : IList F) : Quiet (Parts.byClass l) := by
  unfold Parts.byClass
  exact Quiet.foldlM _ _ (fun _ _ => quiet_addTo _ _ _)

theorem quiet_stratified (l : IList F) (ratio : F) (order : List Nat) : Quiet (Parts.byRatioStratified l ratio order) := by
  unfold Parts.byRatioStratified
  refine Quiet.bind (Quiet.foldlM _ _ (fun st i => Quiet.bind (Quiet.atR _ _) (fun r => Quiet.bind (Quiet.atR _ _) (fun x =>
    ?_)))) (fun _ => Quiet.pure _)
  dsimp only
  split <;> exact Quiet.bind (quiet_addTo _ _ _) (fun _ => Quiet.pure _)

/-! ## LDA and QDA -/

theorem quiet_lda (inverse : Mat F → Mat F) (old : Lda F) (l : IList F) (x : Inst F) (hx : l.head? = some x)
    (hc : discreteCheck x = true) : Quiet (Lda.train inverse old l) := by
  cases l with
  | nil => cases hx
  | cons y l =>
    cases hx
    unfold Lda.train
    simp only [atR, List.getElem?_cons_zero, res_bind_ok, hc, Bool.true_eq_false, if_false]
    refine Quiet.bind (quiet_byClass _) (fun parts => Quiet.bind ?_ (fun cov => Quiet.foldlM _ _ (fun m p => ?_)))
    · unfold Lda.pooledCovariance
      refine Quiet.bind (Quiet.foldlM _ _ (fun c p => Quiet.bind ?_ (fun _ => Quiet.pure _))) (fun _ => Quiet.pure _)
      unfold Lda.classCovariance
      exact Quiet.bind (quiet_average _) (fun _ => Quiet.bind (quiet_covariance _ _) (fun _ => Quiet.pure _))
    · unfold Lda.classWeights
      refine Quiet.bind (quiet_average _) (fun _ => ?_)
      quiet

theorem quiet_qda (inverse : Mat F → Mat F) (det : Mat F → F) (old : Qda F) (l : IList F) (x : Inst F) (hx : l.head? = some x)
    (hc : discreteCheck x = true) : Quiet (Qda.train inverse det old l) := by
  cases l with
  | nil => cases hx
  | cons y l =>
    cases hx
    unfold Qda.train
    simp only [atR, List.getElem?_cons_zero, res_bind_ok, hc, Bool.true_eq_false, if_false]
    refine Quiet.bind (quiet_byClass _) (fun parts => Quiet.foldlM _ _ (fun m p => ?_))
    unfold Qda.classWeights
    refine Quiet.bind (quiet_average _) (fun _ => Quiet.bind (quiet_covariance _ _) (fun _ => ?_))
    quiet

/-! ## networks -/

theorem quiet_mulRightR (m : Mat F) (v : List F) : Quiet (m.mulRightR v) := by
  unfold Mat.mulRightR; quiet

theorem quiet_mulLeftR (m : Mat F) (v : List F) : Quiet (m.mulLeftR v) := by
  unfold Mat.mulLeftR; quiet

theorem quiet_diffR (v w : List F) : Quiet (diffR v w) := by
  unfold diffR; quiet

theorem quiet_elemR (v w : List F) : Quiet (elemR v w) := by
  unfold elemR; quiet

theorem quiet_addR (m n : Mat F) : Quiet (m.addR n) := by
  unfold Mat.addR; quiet

theorem quiet_unitVec (n i : Nat) (x : F) : Quiet (unitVec n i x) := by
  unfold unitVec; quiet

theorem quiet_maxIndex (v : List F) : Quiet (maxIndex v) := by
  unfold maxIndex; quiet

theorem quiet_inputVector (x : Inst F) : Quiet (inputVector x) := by
  unfold inputVector
  exact Quiet.bind (quiet_toVector x) (fun _ => Quiet.pure _)

theorem quiet_hidden (v : List F) (W : Mat F) (act : Activation) : Quiet (calculateHidden v W act) := by
  unfold calculateHidden
  exact Quiet.bind (quiet_mulRightR _ _) (fun _ => Quiet.pure _)

theorem quiet_oneMinus (v : List F) : Quiet (oneMinusHidden v) := by
  unfold oneMinusHidden
  exact quiet_diffR _ _

theorem quiet_forward (v : List F) (W V : Mat F) (act : Activation) : Quiet (forwardSingleHidden v W V act) := by
  unfold forwardSingleHidden
  exact Quiet.bind (quiet_hidden _ _ _) (fun _ => quiet_mulRightR _ _)

theorem quiet_rMinusY (labels : List String) (x : Inst F) (v : List F) (W : Mat F) : Quiet (calculateRMinusY labels x v W) := by
  unfold calculateRMinusY
  exact Quiet.bind (quiet_unitVec _ _ _) (fun _ => Quiet.bind (quiet_mulRightR _ _) (fun _ => quiet_diffR _ _))

theorem quiet_netPredict (labels : List String) (output : List F → Res (List F)) (h : ∀ v, Quiet (output v)) (x : Inst F) :
    Quiet (netPredict labels output x) := by
  unfold netPredict
  refine Quiet.bind (quiet_inputVector x) (fun v => Quiet.bind (h v) (fun y => ?_))
  split
  · unfold predictWithComposite
    refine Quiet.bind (Quiet.atR _ _) (fun _ => Quiet.bind (Quiet.foldlM _ _ (fun b p => ?_)) (fun _ => Quiet.pure _))
    unfold compositeStep
    quiet
  · exact Quiet.bind (quiet_maxIndex _) (fun _ => Quiet.atR _ _)

theorem quiet_accuracy {W : Type} (labels : List String) (output : W → List F → Res (List F)) (h : ∀ w v, Quiet (output w v))
    (l : IList F) (w : W) : Quiet (validationAccuracy labels output l w) := by
  unfold validationAccuracy testClassifier
  refine Quiet.bind (Quiet.bind (Quiet.foldlM _ _ (fun n x => Quiet.bind (quiet_netPredict labels _ (h w) x) (fun _ => Quiet.pure _)))
    (fun _ => Quiet.pure _)) (fun p => ?_)
  unfold Perf.getAccuracy
  quiet

theorem quiet_epochs {W : Type} (step : F → W → Inst F → Res W) (perf : W → Res F) (better : F → F → Bool)
    (decrease : F) (σ : List Nat) (epochs : Nat) (s : Epochs W F) (h1 : ∀ e w x, Quiet (step e w x)) (h2 : ∀ w, Quiet (perf w)) :
    Quiet (epochLoop step perf better decrease σ epochs s) := by
  unfold epochLoop
  refine Quiet.foldlM _ _ (fun s _ => ?_)
  unfold epochStep
  exact Quiet.bind (Quiet.foldlM _ _ (fun w x => h1 _ w x)) (fun w => Quiet.bind (h2 w) (fun _ => Quiet.pure _))

theorem quiet_percStep (labels : List String) (eta : F) (W : Mat F) (x : Inst F) : Quiet (percStep labels eta W x) := by
  unfold percStep
  refine Quiet.bind (quiet_inputVector x) (fun v => Quiet.catching _ _ ?_)
  unfold percUpdate
  exact Quiet.bind (quiet_rMinusY _ _ _ _) (fun _ => quiet_addR _ _)

theorem quiet_removeFirst (v : List F) : Quiet (removeFirst v) := by
  unfold removeFirst; quiet

theorem quiet_mlpDerivative (act : Activation) (h : List F) : Quiet (mlpDerivative act h) := by
  unfold mlpDerivative
  split
  · exact Quiet.bind (quiet_oneMinus _) (fun _ => quiet_elemR _ _)
  · exact Quiet.bind (quiet_elemR _ _) (fun _ => quiet_diffR _ _)
  · exact Quiet.pure _

theorem quiet_applyTwo (c : List String) (w : Two F) (eta : F) (d : Mat F × Mat F) : Quiet (applyTwo c w eta d) := by
  unfold applyTwo addW
  exact Quiet.bind (quiet_addR _ _) (fun _ => Quiet.catching _ _ (Quiet.bind (quiet_addR _ _) (fun _ => Quiet.pure _)))

theorem quiet_mlpStep (labels : List String) (act : Activation) (eta : F) (w : Two F) (x : Inst F) :
    Quiet (mlpStep labels act eta w x) := by
  unfold mlpStep
  refine Quiet.bind (quiet_inputVector x) (fun v => Quiet.catching _ _ (Quiet.bind ?_ (fun d => quiet_applyTwo _ _ _ _)))
  unfold mlpDeltas
  exact Quiet.bind (quiet_hidden _ _ _) (fun _ => Quiet.bind (quiet_rMinusY _ _ _ _) (fun _ => Quiet.bind (quiet_mulLeftR _ _)
    (fun _ => Quiet.bind (quiet_removeFirst _) (fun _ => Quiet.bind (quiet_mlpDerivative _ _) (fun _ => Quiet.bind (quiet_elemR _ _)
    (fun _ => Quiet.pure _))))))

theorem quiet_autoStep (eta : F) (w : Two F) (x : Inst F) : Quiet (autoStep eta w x) := by
  unfold autoStep
  refine Quiet.bind (quiet_inputVector x) (fun v => Quiet.bind (quiet_toVector x) (fun r => Quiet.catching _ _ (Quiet.bind ?_
    (fun d => quiet_applyTwo _ _ _ _))))
  unfold autoDeltas
  exact Quiet.bind (quiet_hidden _ _ _) (fun _ => Quiet.bind (quiet_mulRightR _ _) (fun _ => Quiet.bind (quiet_diffR _ _)
    (fun _ => Quiet.bind (quiet_oneMinus _) (fun _ => Quiet.bind (quiet_mulLeftR _ _) (fun _ => Quiet.bind (quiet_removeFirst _)
    (fun _ => Quiet.bind (quiet_elemR _ _) (fun _ => Quiet.bind (quiet_elemR _ _) (fun _ => Quiet.pure _))))))))

theorem quiet_autoError (l : IList F) (w : Two F) : Quiet (autoError l w) := by
  unfold autoError
  refine Quiet.bind (Quiet.foldlM _ _ (fun e x => ?_)) (fun _ => Quiet.pure _)
  unfold autoErrorStep
  refine Quiet.bind ?_ (fun y => Quiet.bind (quiet_toVector x) (fun r => Quiet.catching _ _ (Quiet.bind (quiet_diffR _ _) (fun _ => Quiet.pure _))))
  unfold autoPredictInput
  refine Quiet.bind (quiet_inputVector x) (fun v => ?_)
  have h := quiet_forward v w.W w.V .sigmoid
  split
  · exact Quiet.ok _
  · exact Quiet.ub _
  · rename_i e _ he
    rw [he] at h
    exact ⟨fun h' => h.ne (by cases h'; rfl)⟩

theorem quiet_deepOutput (act : Activation) (ws : List (Mat F)) (v : List F) : Quiet (deepOutput act ws v) := by
  unfold deepOutput
  refine Quiet.bind (Quiet.foldlM _ _ (fun b i => ?_)) (fun _ => Quiet.bind (Quiet.atR _ _) (fun _ => quiet_mulRightR _ _))
  unfold deepOutputStep
  exact Quiet.bind (Quiet.atR _ _) (fun _ => Quiet.bind (quiet_hidden _ _ _) (fun _ => Quiet.pure _))

theorem quiet_layerInput (v : List F) (h : List (List F)) (k : Nat) : Quiet (layerInput v h k) := by
  unfold layerInput; quiet

theorem quiet_deepApply (eta : F) : ∀ (ws ds : List (Mat F)), Quiet (deepApply eta ws ds)
  | [], _ => by unfold deepApply; exact Quiet.ok _
  | _ :: _, [] => by unfold deepApply; exact Quiet.throw _ (by decide)
  | w :: ws, d :: ds => by
    unfold deepApply
    have ih := quiet_deepApply eta ws ds
    split
    · cases h : deepApply eta ws ds with
      | ok r => exact Quiet.ok _
      | error e =>
        rw [h] at ih
        exact ⟨fun h' => ih.ne (by cases h'; rfl)⟩
    · exact Quiet.ok _

theorem quiet_deepStep (labels : List String) (act : Activation) (L : Nat) (eta : F) (ws : List (Mat F)) (x : Inst F) :
    Quiet (deepStep labels act L eta ws x) := by
  unfold deepStep
  refine Quiet.bind (quiet_inputVector x) (fun v => Quiet.catching _ _ (Quiet.bind ?_ (fun d => quiet_deepApply _ _ _)))
  unfold deepDeltas
  refine Quiet.bind (Quiet.foldlM _ _ (fun s k => ?_)) (fun f => ?_)
  · unfold deepForwardStep
    exact Quiet.bind (quiet_layerInput _ _ _) (fun _ => Quiet.bind (Quiet.atR _ _) (fun _ => Quiet.bind (quiet_hidden _ _ _)
      (fun _ => Quiet.pure _)))
  · have rest : ∀ top : List F, Quiet (do
        let wl ← atR ws (ws.length - 1)
        let rMinusY ← calculateRMinusY labels x top wl
        let b ← (List.range (ws.length - 1)).reverse.foldlM (deepBackStep act ws v rMinusY f.1 f.2) ([], [Mat.outer rMinusY top])
        pure b.2) := by
      intro top
      refine Quiet.bind (Quiet.atR _ _) (fun _ => Quiet.bind (quiet_rMinusY _ _ _ _) (fun _ => Quiet.bind
        (Quiet.foldlM _ _ (fun s k => ?_)) (fun _ => Quiet.pure _)))
      unfold deepBackStep
      refine Quiet.bind (Quiet.atR _ _) (fun _ => Quiet.bind (quiet_mulLeftR _ _) (fun _ => Quiet.bind (quiet_removeFirst _)
        (fun _ => Quiet.bind (Quiet.atR _ _) (fun h => Quiet.bind ?_ (fun _ => Quiet.bind (quiet_elemR _ _) (fun _ =>
        Quiet.bind (quiet_layerInput _ _ _) (fun _ => Quiet.pure _)))))))
      unfold deepDerivative
      split
      · exact Quiet.bind (quiet_oneMinus _) (fun _ => quiet_elemR _ _)
      · exact Quiet.bind (quiet_elemR _ _) (fun _ => quiet_diffR _ _)
      · exact Quiet.pure _
    dsimp only
    split
    · exact Quiet.bind (Quiet.throw _ (by decide)) rest
    · exact Quiet.bind (Quiet.atR _ _) rest

theorem quiet_initialize (l : IList F) (x : Inst F) (hx : l.head? = some x) (hc : discreteCheck x = true) :
    Quiet (netInitialize l) := by
  cases l with
  | nil => cases hx
  | cons y l =>
    cases hx
    unfold netInitialize IList.get
    simp only [atR, List.getElem?_cons_zero, res_bind_ok, hc, Bool.true_eq_false, if_false]
    exact Quiet.pure _

theorem initialize_refuses (x : Inst F) (l : IList F) (h : discreteCheck x = false) :
    netInitialize (x :: l) = .error (.throw "DiscreteFeaturesNotAllowed") := by
  unfold netInitialize IList.get
  simp only [atR, List.getElem?_cons_zero, res_bind_ok, h, if_true]

theorem refused_iff {α : Type} {r : Res α} {b : Bool} (h1 : b = false → r = .error (.throw "DiscreteFeaturesNotAllowed"))
    (h2 : b = true → Quiet r) : r = .error (.throw "DiscreteFeaturesNotAllowed") ↔ b = false := by
  constructor
  · intro h
    cases b with
    | false => rfl
    | true => exact absurd h (h2 rfl).ne
  · exact h1

/-! ## the SVM -/

theorem quiet_swapR {α : Type} (v : List α) (i j : Nat) : Quiet (swapR v i j) := by
  unfold swapR; quiet

theorem quiet_entry (q : QMat F) (i j : Nat) : Quiet (q.entry i j) := by
  unfold QMat.entry Kern.function; quiet

theorem quiet_getQ (q : QMat F) (i n : Nat) : Quiet (q.getQ i n) := by
  unfold QMat.getQ
  exact Quiet.mapM _ (fun _ => quiet_entry _ _ _)

theorem quiet_updateAll (v : List F) (ks : List Nat) (f : Nat → F → Res F) (h : ∀ k a, Quiet (f k a)) : Quiet (updateAll v ks f) := by
  unfold updateAll
  refine Quiet.foldlM _ _ (fun v k => ?_)
  unfold updateAt
  exact Quiet.bind (Quiet.idxR _ _) (fun a => Quiet.bind (h k a) (fun _ => Quiet.pure _))

namespace Smo

theorem quiet_add (c : F) (q : List F) (j : Nat) (old : F) : Quiet (addScaled c q j old) := by
  unfold addScaled; quiet

theorem quiet_sub (c : F) (q : List F) (j : Nat) (old : F) : Quiet (subScaled c q j old) := by
  unfold subScaled; quiet

theorem quiet_isUpper (s : Smo F) (i : Nat) : Quiet (s.isUpper i) := by
  unfold isUpper; quiet

theorem quiet_swapIndex (s : Smo F) (i j : Nat) : Quiet (s.swapIndex i j) := by
  unfold swapIndex
  refine Quiet.bind ?_ (fun _ => Quiet.bind (quiet_swapR _ _ _) (fun _ => Quiet.bind (quiet_swapR _ _ _) (fun _ =>
    Quiet.bind (quiet_swapR _ _ _) (fun _ => Quiet.bind (quiet_swapR _ _ _) (fun _ => Quiet.bind (quiet_swapR _ _ _) (fun _ =>
    Quiet.bind (quiet_swapR _ _ _) (fun _ => Quiet.bind (quiet_swapR _ _ _) (fun _ => Quiet.pure _))))))))
  unfold QMat.swapIndex
  refine Quiet.bind ?_ (fun _ => Quiet.bind (quiet_swapR _ _ _) (fun _ => Quiet.pure _))
  unfold Kern.swapIndex
  refine Quiet.bind (quiet_swapR _ _ _) (fun _ => ?_)
  dsimp only
  split
  · exact Quiet.bind (Quiet.pure _) (fun _ => Quiet.pure _)
  · exact Quiet.bind (quiet_swapR _ _ _) (fun _ => Quiet.pure _)

theorem quiet_reconstruct (s : Smo F) : Quiet s.reconstructGradient := by
  unfold reconstructGradient
  split
  · exact Quiet.pure _
  · refine Quiet.bind (quiet_updateAll _ _ _ (fun k a => ?_)) (fun G => Quiet.bind (Quiet.foldlM _ _ (fun G i => ?_)) (fun _ => Quiet.pure _))
    · unfold resetEntry; quiet
    · unfold freeContribution isFree
      refine Quiet.bind (Quiet.bind (Quiet.idxR _ _) (fun _ => Quiet.pure _)) (fun b => ?_)
      split
      · exact Quiet.bind (quiet_getQ _ _ _) (fun _ => Quiet.bind (Quiet.idxR _ _) (fun _ => quiet_updateAll _ _ _ (fun _ _ => quiet_add _ _ _ _)))
      · exact Quiet.pure _

theorem quiet_select (s : Smo F) (out : WorkSet) : Quiet (s.selectWorkingSet out) := by
  unfold selectWorkingSet selStep; quiet

theorem quiet_readOut (o : Option Nat) : Quiet (readOut o) := by
  unfold readOut; quiet

theorem quiet_shrinkLoop (gm0 gm1 : F) : ∀ (n k : Nat) (s : Smo F), Quiet (shrinkLoop gm0 gm1 n k s)
  | 0, _, _ => by unfold shrinkLoop; exact Quiet.pure _
  | n + 1, k, s => by
    unfold shrinkLoop
    refine Quiet.bind (by unfold staysActive; quiet) (fun b => ?_)
    split
    · exact quiet_shrinkLoop _ _ _ _ _
    · exact Quiet.bind (quiet_swapIndex _ _ _) (fun _ => quiet_shrinkLoop _ _ _ _ _)

theorem quiet_unshrinkLoop (gm0 gm1 : F) : ∀ (n : Nat) (s : Smo F), Quiet (unshrinkLoop gm0 gm1 n s)
  | 0, _ => by unfold unshrinkLoop; exact Quiet.pure _
  | n + 1, s => by
    unfold unshrinkLoop
    refine Quiet.bind (by unfold staysInactive; quiet) (fun b => ?_)
    split
    · exact quiet_unshrinkLoop _ _ _ _
    · exact Quiet.bind (quiet_swapIndex _ _ _) (fun _ => quiet_unshrinkLoop _ _ _ _)

theorem quiet_doShrinking (s : Smo F) : Quiet s.doShrinking := by
  unfold doShrinking
  refine Quiet.bind (quiet_select _ _) (fun w => ?_)
  split
  · exact Quiet.pure _
  · refine Quiet.bind (quiet_readOut _) (fun _ => Quiet.bind (quiet_readOut _) (fun _ => Quiet.bind (Quiet.idxR _ _) (fun _ =>
      Quiet.bind (Quiet.idxR _ _) (fun _ => Quiet.bind (Quiet.idxR _ _) (fun _ => Quiet.bind (Quiet.idxR _ _) (fun _ =>
      Quiet.bind (quiet_shrinkLoop _ _ _ _ _) (fun _ => ?_)))))))
    split
    · exact Quiet.pure _
    · exact Quiet.bind (quiet_reconstruct _) (fun _ => quiet_unshrinkLoop _ _ _ _)

theorem quiet_choose (s : Smo F) : Quiet s.choose := by
  unfold choose
  refine Quiet.bind ?_ (fun s => Quiet.bind (quiet_select _ _) (fun w => ?_))
  · unfold countDown
    split
    · dsimp only
      split
      · exact quiet_doShrinking _
      · exact Quiet.pure _
    · exact Quiet.pure _
  · split
    · refine Quiet.bind (quiet_reconstruct _) (fun _ => Quiet.bind (quiet_select _ _) (fun _ => ?_))
      split
      · exact Quiet.pure _
      · exact Quiet.bind (quiet_readOut _) (fun _ => Quiet.bind (quiet_readOut _) (fun _ => Quiet.pure _))
    · exact Quiet.bind (quiet_readOut _) (fun _ => Quiet.bind (quiet_readOut _) (fun _ => Quiet.pure _))

theorem quiet_status (s : Smo F) (i : Nat) : Quiet (s.updateAlphaStatus i) := by
  unfold updateAlphaStatus; quiet

theorem quiet_bar (s : Smo F) (i : Nat) (before after : Bool) (G : List F) : Quiet (s.barUpdate i before after G) := by
  unfold barUpdate
  split
  · refine Quiet.bind (quiet_getQ _ _ _) (fun _ => ?_)
    split
    · exact quiet_updateAll _ _ _ (fun _ _ => quiet_sub _ _ _ _)
    · exact quiet_updateAll _ _ _ (fun _ _ => quiet_add _ _ _ _)
  · exact Quiet.pure _

theorem quiet_move (s : Smo F) (i j : Nat) : Quiet (s.move i j) := by
  unfold move
  refine Quiet.bind (quiet_getQ _ _ _) (fun _ => Quiet.bind (quiet_getQ _ _ _) (fun _ => Quiet.bind (by unfold moveAlpha; quiet)
    (fun _ => Quiet.bind (quiet_updateAll _ _ _ (fun _ _ => by unfold gradEntry; quiet)) (fun _ => ?_))))
  exact Quiet.bind (quiet_isUpper _ _) (fun _ => Quiet.bind (quiet_isUpper _ _) (fun _ => Quiet.bind (quiet_status _ _) (fun _ =>
    Quiet.bind (quiet_status _ _) (fun _ => Quiet.bind (quiet_isUpper _ _) (fun _ => Quiet.bind (quiet_bar _ _ _ _ _) (fun _ =>
    Quiet.bind (quiet_isUpper _ _) (fun _ => Quiet.bind (quiet_bar _ _ _ _ _) (fun _ => Quiet.pure _))))))))

theorem quiet_run : ∀ (n : Nat) (s : Smo F), Quiet (run n s)
  | 0, _ => by unfold run; exact Quiet.pure _
  | n + 1, s => by
    unfold run iterate
    refine Quiet.bind (Quiet.bind (quiet_choose _) (fun c => ?_)) (fun r => ?_)
    · split
      · exact Quiet.pure _
      · exact Quiet.bind (quiet_move _ _ _) (fun _ => Quiet.pure _)
    · split
      · exact Quiet.pure _
      · exact quiet_run n _

theorem quiet_start (l : Nat) (x : List (NodeL F)) (y b : List F) (p : SvmParam F) : Quiet (start l x y b p) := by
  unfold start
  refine Quiet.bind ?_ (fun _ => Quiet.bind (Quiet.mapM _ (fun _ => Quiet.idxR _ _)) (fun _ => Quiet.foldlM _ _ (fun s i => ?_)))
  · unfold QMat.make Kern.make
    quiet
  · unfold initialRow isLower
    refine Quiet.bind (Quiet.bind (Quiet.idxR _ _) (fun _ => Quiet.pure _)) (fun low => ?_)
    split
    · exact Quiet.pure _
    · refine Quiet.bind (quiet_getQ _ _ _) (fun _ => Quiet.bind (Quiet.idxR _ _) (fun _ =>
        Quiet.bind (quiet_updateAll _ _ _ (fun _ _ => quiet_add _ _ _ _)) (fun _ => Quiet.bind (quiet_isUpper _ _) (fun _ => ?_))))
      split
      · exact Quiet.bind (quiet_updateAll _ _ _ (fun _ _ => quiet_add _ _ _ _)) (fun _ => Quiet.pure _)
      · exact Quiet.pure _

theorem quiet_solve (n l : Nat) (x : List (NodeL F)) (y b : List F) (p : SvmParam F) : Quiet (solve n l x y b p) := by
  unfold solve
  refine Quiet.bind (quiet_start _ _ _ _ _) (fun _ => Quiet.bind (quiet_run _ _) (fun r => ?_))
  split
  · refine Quiet.bind ?_ (fun _ => Quiet.pure _)
    unfold finish calculateRho writeBack rhoStep
    quiet
  · exact Quiet.pure _

end Smo

namespace Svm

theorem quiet_classCount (d : DD) (i : Nat) : Quiet (classCount d i) := by
  unfold classCount; quiet

theorem quiet_startsOf (count : Nat → Res Nat) (h : ∀ i, Quiet (count i)) (n : Nat) : Quiet (startsOf count n) := by
  unfold startsOf
  refine Quiet.foldlM _ _ (fun s i => ?_)
  unfold nextStart
  exact Quiet.bind (Quiet.idxR _ _) (fun _ => Quiet.bind (h _) (fun _ => Quiet.pure _))

theorem quiet_block {α : Type} (x : List α) (s c : Nat) : Quiet (block x s c) := by
  unfold block; quiet

theorem quiet_markRow (alpha : List F) (s off : Nat) (z : List Bool) (k : Nat) : Quiet (markRow alpha s off z k) := by
  unfold markRow; quiet

theorem quiet_fillRow (alpha : List F) (z : List Bool) (s off row : Nat) (st : List (List F) × Nat) (k : Nat) :
    Quiet (fillRow alpha z s off row st k) := by
  unfold fillRow; quiet

theorem quiet_trainSorted (solve : List (NodeL F) → List F → List F → Res (F × List F)) (h : ∀ x y b, Quiet (solve x y b))
    (old : Svm F) (sorted : IList F) (p : SvmParam F) : Quiet (trainSorted solve old sorted p) := by
  unfold trainSorted
  refine Quiet.bind (Quiet.mapM _ (fun x => ?_)) (fun x => Quiet.bind (quiet_startsOf _ (quiet_classCount _) _) (fun start =>
    Quiet.bind (Quiet.foldlM _ _ (fun acc p => ?_)) (fun acc => Quiet.bind (Quiet.mapM _ (fun i => ?_)) (fun counts =>
    Quiet.bind (quiet_startsOf _ (Quiet.idxR _) _) (fun nz => Quiet.bind (Quiet.foldlM _ _ (fun st p => ?_)) (fun _ => Quiet.pure _))))))
  · unfold Inst.toNodeList
    exact Quiet.bind (quiet_contAttrs _) (fun _ => Quiet.pure _)
  · unfold trainPair
    refine Quiet.bind (Quiet.idxR _ _) (fun _ => Quiet.bind (Quiet.idxR _ _) (fun _ => Quiet.bind (quiet_classCount _ _) (fun _ =>
      Quiet.bind (quiet_classCount _ _) (fun _ => Quiet.bind (quiet_block _ _ _) (fun _ => Quiet.bind (quiet_block _ _ _) (fun _ =>
      Quiet.bind ?_ (fun _ => Quiet.bind (Quiet.foldlM _ _ (fun _ _ => quiet_markRow _ _ _ _ _)) (fun _ =>
      Quiet.bind (Quiet.foldlM _ _ (fun _ _ => quiet_markRow _ _ _ _ _)) (fun _ => Quiet.pure _)))))))))
    unfold solveSingle
    refine Quiet.bind (h _ _ _) (fun _ => Quiet.bind (Quiet.mapM _ (fun i => ?_)) (fun _ => Quiet.pure _))
    unfold signAlpha; quiet
  · unfold countMarked
    exact Quiet.bind (quiet_classCount _ _) (fun _ => Quiet.bind (Quiet.idxR _ _) (fun _ => Quiet.bind (quiet_block _ _ _) (fun _ => Quiet.pure _)))
  · unfold fillPair
    exact Quiet.bind (Quiet.idxR _ _) (fun _ => Quiet.bind (Quiet.idxR _ _) (fun _ => Quiet.bind (quiet_classCount _ _) (fun _ =>
      Quiet.bind (quiet_classCount _ _) (fun _ => Quiet.bind (Quiet.idxR _ _) (fun _ => Quiet.bind (Quiet.idxR _ _) (fun _ =>
      Quiet.bind (Quiet.foldlM _ _ (fun _ _ => quiet_fillRow _ _ _ _ _ _ _)) (fun _ => Quiet.bind (Quiet.idxR _ _) (fun _ =>
      Quiet.bind (Quiet.foldlM _ _ (fun _ _ => quiet_fillRow _ _ _ _ _ _ _)) (fun _ => Quiet.pure _)))))))))

end Svm

/-! ## C45 -/

/-- **C45.** Training of LDA, QDA, the SVM, the perceptron, the multilayer perceptron, the deep network and
the autoencoder ends with `DiscreteFeaturesNotAllowed` exactly when the first training instance has a
plain discrete attribute, whatever the other instances, the parameters, the random numbers and the
former state of the object are. (`rounds` bounds the loop of the solver of the SVM.) -/
theorem C45_exactly (x : Inst F) (l : IList F) (inverse : Mat F → Mat F) (det : Mat F → F) (lda : Lda F) (qda : Qda F)
    (svm : Svm F) (svmParam : SvmParam F) (rounds : Nat) (param : NetParam F) (H : Nat) (hidden : List Nat) (act : Activation)
    (perc : Net (Mat F)) (multi auto : Net (Two F)) (deep : Net (List (Mat F))) :
    (Lda.train inverse lda (x :: l) = .error (.throw "DiscreteFeaturesNotAllowed") ↔ ∃ v, Attr.discrete v ∈ x.attrs) ∧
    (Qda.train inverse det qda (x :: l) = .error (.throw "DiscreteFeaturesNotAllowed") ↔ ∃ v, Attr.discrete v ∈ x.attrs) ∧
    (svm.train (Svm.boundedSolver rounds svmParam) (x :: l) svmParam = .error (.throw "DiscreteFeaturesNotAllowed") ↔
      ∃ v, Attr.discrete v ∈ x.attrs) ∧
    (percTrain param perc (x :: l) = .error (.throw "DiscreteFeaturesNotAllowed") ↔ ∃ v, Attr.discrete v ∈ x.attrs) ∧
    (mlpTrain param H act multi (x :: l) = .error (.throw "DiscreteFeaturesNotAllowed") ↔ ∃ v, Attr.discrete v ∈ x.attrs) ∧
    (deepTrain param hidden act deep (x :: l) = .error (.throw "DiscreteFeaturesNotAllowed") ↔ ∃ v, Attr.discrete v ∈ x.attrs) ∧
    (autoTrain param H auto (x :: l) = .error (.throw "DiscreteFeaturesNotAllowed") ↔ ∃ v, Attr.discrete v ∈ x.attrs) := by
  rw [← C45_discrete_check]
  refine ⟨refused_iff (fun h => ?_) (quiet_lda _ _ _ _ rfl), refused_iff (fun h => ?_) (quiet_qda _ _ _ _ _ rfl),
    refused_iff (fun h => ?_) (fun h => ?_), refused_iff (fun h => ?_) (fun h => ?_), refused_iff (fun h => ?_) (fun h => ?_),
    refused_iff (fun h => ?_) (fun h => ?_), refused_iff (fun h => ?_) (fun h => ?_)⟩
  · unfold Lda.train
    simp only [atR, List.getElem?_cons_zero, res_bind_ok, h, if_true]
  · unfold Qda.train
    simp only [atR, List.getElem?_cons_zero, res_bind_ok, h, if_true]
  · unfold Svm.train IList.get
    simp only [atR, List.getElem?_cons_zero, res_bind_ok, h, Bool.false_eq_true, if_false]
  · unfold Svm.train IList.get
    simp only [atR, List.getElem?_cons_zero, res_bind_ok, h, if_true]
    refine Quiet.bind (Svm.quiet_trainSorted _ (fun x y b => ?_) _ _ _) (fun _ => Quiet.pure _)
    unfold Svm.boundedSolver
    refine Quiet.bind (Smo.quiet_solve _ _ _ _ _ _) (fun r => ?_)
    quiet
  · unfold percTrain
    rw [initialize_refuses x l h]; rfl
  · unfold percTrain
    exact Quiet.bind (quiet_initialize _ x rfl h) (fun _ => Quiet.bind (quiet_stratified _ _ _) (fun _ => Quiet.bind (Quiet.atR _ _)
      (fun _ => Quiet.bind (Quiet.atR _ _) (fun _ => Quiet.bind (quiet_epochs _ _ _ _ _ _ _ (quiet_percStep _)
      (quiet_accuracy _ _ (fun _ _ => quiet_mulRightR _ _) _)) (fun _ => Quiet.pure _)))))
  · unfold mlpTrain
    rw [initialize_refuses x l h]; rfl
  · unfold mlpTrain
    exact Quiet.bind (quiet_initialize _ x rfl h) (fun _ => Quiet.bind (quiet_stratified _ _ _) (fun _ => Quiet.bind (Quiet.atR _ _)
      (fun _ => Quiet.bind (Quiet.atR _ _) (fun _ => Quiet.bind (quiet_epochs _ _ _ _ _ _ _ (quiet_mlpStep _ _)
      (quiet_accuracy _ _ (fun _ _ => quiet_forward _ _ _ _) _)) (fun _ => Quiet.pure _)))))
  · unfold deepTrain
    rw [initialize_refuses x l h]; rfl
  · unfold deepTrain
    refine Quiet.bind (quiet_initialize _ x rfl h) (fun _ => Quiet.bind (quiet_stratified _ _ _) (fun _ => Quiet.bind (Quiet.atR _ _)
      (fun _ => Quiet.bind (Quiet.atR _ _) (fun _ => Quiet.bind ?_ (fun _ => Quiet.bind (quiet_epochs _ _ _ _ _ _ _ (quiet_deepStep _ _ _)
      (quiet_accuracy _ _ (fun _ _ => quiet_deepOutput _ _ _) _)) (fun _ => Quiet.pure _))))))
    unfold deepAllocate
    quiet
  · unfold autoTrain
    rw [initialize_refuses x l h]; rfl
  · unfold autoTrain
    exact Quiet.bind (quiet_initialize _ x rfl h) (fun _ => Quiet.bind (quiet_stratified _ _ _) (fun _ => Quiet.bind (Quiet.atR _ _)
      (fun _ => Quiet.bind (Quiet.atR _ _) (fun _ => Quiet.bind (Quiet.atR _ _) (fun _ => Quiet.bind (quiet_epochs _ _ _ _ _ _ _ quiet_autoStep
      (quiet_autoError _)) (fun _ => Quiet.pure _))))))

example : (∃ v, Attr.discrete v ∈ (⟨"a", [.continuous (.fin 1), .discrete "red"], none⟩ : Inst XR).attrs) ∧
    ¬ (∃ v, Attr.discrete v ∈ (⟨"a", [.continuous (.fin 1), .indexed "red" 0 2, .binary "true"], none⟩ : Inst XR).attrs) :=
  ⟨⟨"red", by decide⟩, by rintro ⟨v, h⟩; simp at h⟩

end Verif
