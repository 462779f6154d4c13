import Verif.Spec.NetState
import Verif.Props.NetTrain

/-! # Property C163: answers do not depend on earlier questions -/

set_option linter.unusedSectionVars false

namespace Verif
open Dbl

variable {F : Type} [Dbl F]

theorem netPredict_answer (labels : List String) (output : List F → Res (List F)) (x : Inst F) :
    netPredict labels output x = (inputVector x >>= output >>= fun y => netAnswer labels y x) := by
  unfold netPredict
  cases inputVector x with
  | error e => rfl
  | ok v => cases h : output v <;> simp only [res_bind_ok, h] <;> rfl

theorem compute_fits (output : List F → Res (List F)) (s : NetMem F) (x : Inst F) (v y : List F) (hv : inputVector x = .ok v)
    (hy : output v = .ok y) : s.compute output x = (.ok (), ⟨v, y⟩) := by
  unfold NetMem.compute
  simp only [hv, hy]

/-- **C163** (part) An instance that fits the network gets the same answers after every history of
questions, namely those of the stateless functions `netPredict` and `netProbability`. -/
theorem C163_networks_partial (labels : List String) (output : List F → Res (List F)) (s : NetMem F)
    (history : List (Question F)) (x : Inst F) (v y : List F) (hv : inputVector x = .ok v) (hy : output v = .ok y) :
    ((afterQuestions labels output s history).predict labels output x).1 = netPredict labels output x ∧
    ((afterQuestions labels output s history).probability labels output x).1 = netProbability labels output x := by
  generalize afterQuestions labels output s history = s'
  constructor
  · unfold NetMem.predict
    rw [compute_fits output s' x v y hv hy, netPredict_answer, hv]
    simp only [res_bind_ok, hy]
  · unfold NetMem.probability netProbability
    rw [compute_fits output s' x v y hv hy, hv]
    simp only [res_bind_ok, hy]

/-- **C163** (part) Trained networks: with data of `d` numeric attributes, every instance with `d`
numeric attributes gets one and the same class after every history of questions. -/
theorem C163_trained_partial (param : NetParam ℝ) (H : Nat) (hidden : List Nat) (act : Activation) (old : Net (Mat ℝ))
    (old2 : Net (Two ℝ)) (trainSet : IList ℝ) (d : Nat) (hhid : hidden ≠ [])
    (hne : trainSet ≠ []) (hnum : ∀ x ∈ trainSet, NumericInst d x) (hσ : IsPermutation param.splitOrder trainSet.length)
    (hrand : ∀ r c, (param.random r c).rows = r ∧ (param.random r c).cols = c) :
    ∃ perc mlp deep, percTrain param old trainSet = .ok perc ∧ mlpTrain param H act old2 trainSet = .ok mlp ∧
      deepTrain param hidden act ⟨[], 0, []⟩ trainSet = .ok deep ∧
      ∀ x, NumericInst d x → ∃ a b c, ∀ (s : NetMem ℝ) (history : List (Question ℝ)),
        ((afterQuestions perc.labels (percOutput perc.weights) s history).predict perc.labels (percOutput perc.weights) x).1 = .ok a ∧
        ((afterQuestions mlp.labels (mlpOutput act mlp.weights) s history).predict mlp.labels (mlpOutput act mlp.weights) x).1 = .ok b ∧
        ((afterQuestions deep.labels (deepOutput act deep.weights) s history).predict deep.labels (deepOutput act deep.weights) x).1 =
          .ok c := by
  have key : ∀ (labels : List String) (output : List ℝ → Res (List ℝ)) (x : Inst ℝ) (c : String),
      netPredict labels output x = .ok c → ∀ (s : NetMem ℝ) (history : List (Question ℝ)),
      ((afterQuestions labels output s history).predict labels output x).1 = .ok c := by
    intro labels output x c h s history
    have h' := h
    rw [netPredict_answer, bind_ok_iff] at h'
    obtain ⟨y, h1, _⟩ := h'
    rw [bind_ok_iff] at h1
    obtain ⟨v, hv, hy⟩ := h1
    rw [(C163_networks_partial labels output s history x v y hv hy).1, h]
  obtain ⟨perc, p1, p2⟩ := C119_perceptron param old trainSet d hne hnum hσ hrand
  obtain ⟨mlp, m1, m2⟩ := C119_multilayer param H act old2 trainSet d hne hnum hσ hrand
  obtain ⟨deep, d1, d2⟩ := C119_deep param hidden act [] 0 trainSet d hhid hne hnum hσ hrand
  refine ⟨perc, mlp, deep, p1, m1, d1, fun x hx => ?_⟩
  obtain ⟨a, ha, _⟩ := p2 x hx
  obtain ⟨b, hb, _⟩ := m2 x hx
  obtain ⟨c, hc, _⟩ := d2 x hx
  exact ⟨a, b, c, fun s history => ⟨key _ _ x a ha s history, key _ _ x b hb s history, key _ _ x c hc s history⟩⟩

/-- **C163** What happens to an instance that does not fit: it gets the answer read off the output
of the last question that did fit. -/
theorem C163_stale (labels : List String) (output : List F → Res (List F)) (s : NetMem F) (x : Inst F) (v : List F)
    (hv : inputVector x = .ok v) (hy : output v = .error (.throw "MatrixColumnMismatch")) :
    (s.predict labels output x).1 = netAnswer labels s.y x ∧ (s.predict labels output x).2.y = s.y ∧
    (s.probability labels output x).1 = labels.zipIdx.foldlM (probabilityStep s.y) [] ∧
    (s.probability labels output x).2.y = s.y := by
  have h : s.compute output x = (.ok (), ⟨v, s.y⟩) := by
    unfold NetMem.compute
    simp only [hv, hy, if_true]
  unfold NetMem.predict NetMem.probability
  rw [h]
  exact ⟨rfl, rfl, rfl, rfl⟩

/-- weights of a perceptron for one attribute -/
def staleW : Mat XR := ⟨2, 2, fun i j => if i = j then .fin 1 else .fin 0⟩

/-- **C163 fails** for an instance that does not fit: one with two attributes, asked of a perceptron for
one attribute, is of class `a` after one question and of class `b` after another. -/
theorem C163_refuted :
    let labels := ["a", "b"]
    let x : Inst XR := ⟨"?", [.continuous (.fin 0), .continuous (.fin 0)], none⟩
    let small : Inst XR := ⟨"?", [.continuous (.fin 0)], none⟩
    let large : Inst XR := ⟨"?", [.continuous (.fin 5)], none⟩
    ((afterQuestions labels (percOutput staleW) NetMem.new [.predict small]).predict labels (percOutput staleW) x).1 = .ok "a" ∧
    ((afterQuestions labels (percOutput staleW) NetMem.new [.predict large]).predict labels (percOutput staleW) x).1 = .ok "b" := by
  decide +kernel

/-! ## soft decision trees -/

/-- equal up to the members `weight` and the values in `outputs` -/
def SoftNode.Alike : SoftNode F → SoftNode F → Prop
  | .leaf d, .leaf d' => d.w0s = d'.w0s
  | .split d l r, .split d' l' r' => d.w = d'.w ∧ d.outputs.length = d'.outputs.length ∧ l.Alike l' ∧ r.Alike r'
  | _, _ => False

theorem SoftNode.Alike.refl : ∀ t : SoftNode F, t.Alike t
  | .leaf _ => rfl
  | .split _ l r => ⟨rfl, rfl, Alike.refl l, Alike.refl r⟩

theorem SoftNode.Alike.trans : ∀ {a b c : SoftNode F}, a.Alike b → b.Alike c → a.Alike c
  | .leaf _, .leaf _, .leaf _, h1, h2 => Eq.trans (α := List F) h1 h2
  | .split _ _ _, .split _ _ _, .split _ _ _, h1, h2 =>
    ⟨h1.1.trans h2.1, h1.2.1.trans h2.2.1, Alike.trans h1.2.2.1 h2.2.2.1, Alike.trans h1.2.2.2 h2.2.2.2⟩
  | .leaf _, .leaf _, .split _ _ _, _, h2 => h2.elim
  | .leaf _, .split _ _ _, _, h1, _ => h1.elim
  | .split _ _ _, .leaf _, _, h1, _ => h1.elim
  | .split _ _ _, .split _ _ _, .leaf _, _, h2 => h2.elim

theorem SoftNode.Alike.setWeight {a b : SoftNode F} (v : F) (h : a.Alike b) : a.Alike (b.setWeight v) := by
  cases a <;> cases b <;> exact h

theorem map_fst_cases {α β : Type} {a b : Res (α × β)} (h : a.map Prod.fst = b.map Prod.fst) :
    (∃ e, a = .error e ∧ b = .error e) ∨ ∃ p q, a = .ok p ∧ b = .ok q ∧ p.1 = q.1 := by
  cases a with
  | error e => cases b with
    | error e' => simp only [Except.map, Except.error.injEq] at h; subst h; exact .inl ⟨e, rfl, rfl⟩
    | ok q => cases h
  | ok p => cases b with
    | error e' => cases h
    | ok q => simp only [Except.map, Except.ok.injEq] at h; exact .inr ⟨p, q, rfl, rfl, h⟩

theorem calcOutput_alike (x : Inst F) : ∀ {a b : SoftNode F}, a.Alike b →
    (calcOutput x a).map Prod.fst = (calcOutput x b).map Prod.fst
  | .leaf d, .leaf d', h => by
    have h : d.w0s = d'.w0s := h
    show Except.ok d.w0s = Except.ok d'.w0s
    rw [h]
  | .split d l r, .split d' l' r', h => by
    obtain ⟨h1, h2, h3, h4⟩ := h
    unfold calcOutput
    rw [h1, h2]
    cases x.toVector with
    | error e => rfl
    | ok u =>
      simp only [res_bind_ok]
      cases dotProduct (biased u) d'.w with
      | error e => rfl
      | ok s =>
        simp only [res_bind_ok]
        rcases map_fst_cases (calcOutput_alike x h3) with ⟨e, ha, hb⟩ | ⟨p, q, ha, hb, hpq⟩
        · rw [ha, hb]; rfl
        · rw [ha, hb]
          simp only [res_bind_ok]
          rcases map_fst_cases (calcOutput_alike x h4) with ⟨e, hc, hd⟩ | ⟨p', q', hc, hd, hpq'⟩
          · rw [hc, hd]; rfl
          · rw [hc, hd]
            simp only [res_bind_ok, hpq, hpq']
            cases (List.range d'.outputs.length).mapM (mixStep (sigmoidF s) q.1 q'.1) <;> rfl
  | .leaf _, .split _ _ _, h => h.elim
  | .split _ _ _, .leaf _, h => h.elim

theorem calcOutput_keeps (x : Inst F) : ∀ {a b : SoftNode F} {o : List F}, calcOutput x a = .ok (o, b) → a.Alike b
  | .leaf d, b, o, h => by cases h; rfl
  | .split d l r, b, o, h => by
    unfold calcOutput at h
    simp only [bind_ok_iff, res_pure] at h
    obtain ⟨u, _, s, _, lo, hl, ro, hr, out, hout, e⟩ := h
    cases e
    have hlen : d.outputs.length = List.length o := by
      have := (mapM_ok_inv hout).length_eq
      simpa using this
    exact ⟨rfl, hlen, (calcOutput_keeps x (o := lo.1) hl).setWeight _, (calcOutput_keeps x (o := ro.1) hr).setWeight _⟩

/-- **C163** A soft decision tree answers as if it had never been asked before, although every
prediction rewrites members of its nodes. -/
theorem C163_soft_trees {t t' : SoftTree F} (h : SoftAsked t t') (x : Inst F) :
    softPredict t' x = softPredict t x ∧ (softPredictState t' x).map Prod.fst = softPredict t x := by
  have hk : t'.labels = t.labels ∧ t.root.Alike t'.root := by
    induction h with
    | none => exact ⟨rfl, SoftNode.Alike.refl _⟩
    | @more t1 t2 x c _ hs ih =>
      unfold softPredictState at hs
      simp only [bind_ok_iff, res_pure] at hs
      obtain ⟨o, ho, i, _, e⟩ := hs
      cases e
      exact ⟨ih.1, ih.2.trans (calcOutput_keeps x (o := o.1) ho)⟩
  have e1 : softPredict t' x = softPredict t x := by
    unfold softPredict
    rw [hk.1]
    rcases map_fst_cases (calcOutput_alike x hk.2) with ⟨e, ha, hb⟩ | ⟨p, q, ha, hb, hpq⟩
    · rw [ha, hb]
    · rw [ha, hb]; simp only [res_bind_ok, hpq]
  refine ⟨e1, ?_⟩
  rw [← e1]
  unfold softPredictState softPredict
  cases calcOutput x t'.root with
  | error e => rfl
  | ok o => simp only [res_bind_ok]; cases maxIndex o.1 <;> rfl

/-- a soft tree with one split -/
def exSoft : SoftTree XR := ⟨["a", "b"], .split ⟨[], [.fin 0, .fin 0], [.fin 0, .fin 0], .fin 0⟩
  (.leaf ⟨[.fin 1, .fin 0], [], [], .fin 0⟩) (.leaf ⟨[.fin 0, .fin 3], [], [], .fin 0⟩)⟩

/-- it can be asked twice, and the first question changes it -/
example : ∃ t', SoftAsked exSoft t' ∧ t'.root ≠ exSoft.root ∧ (softPredict t' ⟨"?", [.continuous (.fin 4)], none⟩).isOk = true := by
  have h : ((softPredictState exSoft ⟨"?", [.continuous (.fin 4)], none⟩).map (fun r =>
      decide (r.2.root ≠ exSoft.root) && (softPredict r.2 ⟨"?", [.continuous (.fin 4)], none⟩).isOk)) = .ok true := by
    decide +kernel
  cases hs : softPredictState exSoft ⟨"?", [.continuous (.fin 4)], none⟩ with
  | error e => rw [hs] at h; cases h
  | ok r =>
    rw [hs] at h
    simp only [Except.map, Except.ok.injEq, Bool.and_eq_true, decide_eq_true_eq] at h
    exact ⟨r.2, .more .none hs, h.1, h.2⟩

end Verif
