import Verif.Props.Kernel
import Verif.Props.Solver
import Verif.Props.Svm
import Verif.Lemmas.Rename

/-! # Two runs of the solver with proportional kernel values -/

set_option linter.unusedSectionVars false

namespace Verif
open Dbl

/-- two outcomes are alike: the same error, or results related by `R` -/
def ResRel {α β : Type} (R : α → β → Prop) : Res α → Res β → Prop
  | .ok a, .ok b => R a b
  | .error e, .error e' => e = e'
  | _, _ => False

section
variable {α β γ δ : Type}

theorem ResRel.bind {R : α → β → Prop} {S : γ → δ → Prop} {m : Res α} {m' : Res β} {f : α → Res γ} {f' : β → Res δ}
    (h : ResRel R m m') (hf : ∀ a b, R a b → ResRel S (f a) (f' b)) : ResRel S (m >>= f) (m' >>= f') := by
  cases m <;> cases m'
  · exact h
  · exact h.elim
  · exact h.elim
  · exact hf _ _ h

theorem ResRel.of_eq {R : α → α → Prop} {m m' : Res α} (h : m = m') (hr : ∀ a, m = .ok a → R a a) : ResRel R m m' := by
  subst h
  cases m
  · exact rfl
  · exact hr _ rfl

/-- a computation that both runs share -/
theorem ResRel.same {S : γ → δ → Prop} (m : Res α) {f : α → Res γ} {f' : α → Res δ}
    (hf : ∀ a, m = .ok a → ResRel S (f a) (f' a)) : ResRel S (m >>= f) (m >>= f') := by
  cases m
  · exact rfl
  · exact hf _ rfl

theorem ResRel.eq {m m' : Res α} (h : ResRel (fun a b => a = b) m m') : m = m' := by
  cases m <;> cases m'
  · exact congrArg _ h
  · exact h.elim
  · exact h.elim
  · exact congrArg _ h

theorem ResRel.fold {R : α → β → Prop} {f : α → γ → Res α} {f' : β → γ → Res β} (l : List γ)
    (hf : ∀ a b c, R a b → ResRel R (f a c) (f' b c)) {a : α} {b : β} (h : R a b) :
    ResRel R (l.foldlM f a) (l.foldlM f' b) := by
  induction l generalizing a b with
  | nil => exact h
  | cons c l ih => exact (hf a b c h).bind (fun a b h => ih h)

end

theorem swapR_out {α : Type} (v : List α) (i j : Nat) (h : ¬ (i < v.length ∧ j < v.length)) :
    swapR v i j = .error (.ub "operator[]") := by
  unfold swapR
  have e : ∀ k, ¬ k < v.length → idxR v k = .error (.ub "operator[]") := by
    intro k hk
    unfold idxR
    rw [List.getElem?_eq_none (by omega)]
  by_cases hi : i < v.length
  · rw [idxR_ok_of_lt hi, res_bind_ok, e j (fun hj => h ⟨hi, hj⟩)]; rfl
  · rw [e i hi]; rfl

theorem swapR_mem {α : Type} {v v' : List α} {i j : Nat} (h : swapR v i j = .ok v') : ∀ a ∈ v', a ∈ v := by
  intro a ha
  by_cases hr : i < v.length ∧ j < v.length
  · obtain ⟨w, e, _, hk⟩ := swapR_ok v i j hr.1 hr.2
    rw [e] at h
    cases h
    obtain ⟨k, hk'⟩ := List.mem_iff_getElem?.1 ha
    rw [hk] at hk'
    exact List.mem_iff_getElem?.2 ⟨_, hk'⟩
  · rw [swapR_out v i j hr] at h; cases h

theorem swapR_alike {α β : Type} (f : α → β) {v v' : List α} {i j : Nat} (h : swapR v i j = .ok v') :
    swapR (v.map f) i j = .ok (v'.map f) := by
  by_cases hr : i < v.length ∧ j < v.length
  · obtain ⟨w, e, _, hk⟩ := swapR_ok v i j hr.1 hr.2
    obtain ⟨w', e', _, hk'⟩ := swapR_ok (v.map f) i j (by simpa using hr.1) (by simpa using hr.2)
    rw [e] at h
    cases h
    rw [e']
    congr 1
    apply List.ext_getElem?
    intro m
    rw [hk', List.getElem?_map, List.getElem?_map, hk]
  · rw [swapR_out v i j hr] at h; cases h

theorem idxR_mapped {α β : Type} (f : α → β) (l : List α) (i : Nat) : idxR (l.map f) i = (idxR l i).map f := by
  unfold idxR
  rw [List.getElem?_map]
  cases l[i]? <;> rfl

theorem swapR_mapped {α β : Type} (f : α → β) (v : List α) (i j : Nat) : swapR (v.map f) i j = (swapR v i j).map (List.map f) := by
  unfold swapR
  rw [idxR_mapped, idxR_mapped, bind_map_res, map_bind_res]
  refine bind_congr_res (fun a _ => ?_)
  rw [bind_map_res, map_bind_res]
  refine bind_congr_res (fun b _ => ?_)
  rw [map_pure_res, List.map_set, List.map_set]

/-! ## kernels -/

/-- the pairs `(u, u')` of vectors give kernel values that are `t` times as large -/
def PairsAlike (t : ℝ) (p p' : SvmParam ℝ) (ps : List (List ℝ × List ℝ)) : Prop :=
  ∀ a ∈ ps, ∀ b ∈ ps, kernelFormula p' a.2 b.2 = t * kernelFormula p a.1 b.1

/-- two kernel objects with such values -/
def KernAlike (t : ℝ) (p p' : SvmParam ℝ) (k k' : Kern ℝ) : Prop :=
  ∃ ps : List (List ℝ × List ℝ), PairsAlike t p p' ps ∧ KernelOver p (ps.map Prod.fst) k ∧ KernelOver p' (ps.map Prod.snd) k'

section
variable {t : ℝ} {p p' : SvmParam ℝ}

theorem kernelOver_out {vs : List (List ℝ)} {k : Kern ℝ} (h : KernelOver p vs k) {i j : Nat}
    (hr : ¬ (i < vs.length ∧ j < vs.length)) : k.swapIndex i j = .error (.ub "operator[]") ∧
      k.function i j = .error (.ub "operator[]") := by
  constructor
  · unfold Kern.swapIndex
    rw [h.rows, swapR_out _ i j (by simpa using hr)]; rfl
  · unfold Kern.function
    have e : ∀ q, ¬ q < vs.length → idxR (vs.map nodeList) q = (.error (.ub "operator[]") : Res (NodeL ℝ)) := by
      intro q hq
      unfold idxR
      rw [List.getElem?_eq_none (by simpa using hq)]
    rw [h.rows]
    by_cases hi : i < vs.length
    · rw [idxR_ok_of_lt (show i < (vs.map nodeList).length by simpa using hi), res_bind_ok, e j (fun hj => hr ⟨hi, hj⟩)]; rfl
    · rw [e i hi]; rfl

theorem KernAlike.swap {k k' : Kern ℝ} (h : KernAlike t p p' k k') (i j : Nat) :
    ResRel (KernAlike t p p') (k.swapIndex i j) (k'.swapIndex i j) := by
  obtain ⟨ps, ha, h1, h2⟩ := h
  by_cases hr : i < ps.length ∧ j < ps.length
  · obtain ⟨qs, e, _, _⟩ := swapR_ok ps i j hr.1 hr.2
    obtain ⟨k1, v1, e1, s1, o1⟩ := swapIndex_over p _ k h1 i j (by simpa using hr.1) (by simpa using hr.2)
    obtain ⟨k2, v2, e2, s2, o2⟩ := swapIndex_over p' _ k' h2 i j (by simpa using hr.1) (by simpa using hr.2)
    rw [swapR_mapped, e] at s1 s2
    cases s1; cases s2
    rw [e1, e2]
    exact ⟨qs, fun a ha' b hb' => ha a (swapR_mem e a ha') b (swapR_mem e b hb'), o1, o2⟩
  · rw [(kernelOver_out h1 (by simpa using hr)).1, (kernelOver_out h2 (by simpa using hr)).1]
    exact rfl

theorem KernAlike.function {k k' : Kern ℝ} (h : KernAlike t p p' k k') (i j : Nat) :
    k'.function i j = (k.function i j).map (t * ·) := by
  obtain ⟨ps, ha, h1, h2⟩ := h
  by_cases hr : i < ps.length ∧ j < ps.length
  · rw [function_over p _ k h1 i j (by simpa using hr.1) (by simpa using hr.2),
      function_over p' _ k' h2 i j (by simpa using hr.1) (by simpa using hr.2), map_ok_res]
    simp only [List.getElem_map]
    rw [ha _ (List.getElem_mem hr.1) _ (List.getElem_mem hr.2)]
  · rw [(kernelOver_out h1 (by simpa using hr)).2, (kernelOver_out h2 (by simpa using hr)).2]; rfl

/-- two matrices, the entries of the second `t` times as large -/
def QAlike (t : ℝ) (p p' : SvmParam ℝ) (q q' : QMat ℝ) : Prop := q'.y = q.y ∧ KernAlike t p p' q.kernel q'.kernel

theorem mapM_map_res {α β γ : Type} (f : γ → Res α) (V : α → β) (l : List γ) :
    l.mapM (fun c => (f c).map V) = (l.mapM f).map (List.map V) := by
  induction l with
  | nil => rfl
  | cons c l ih =>
    rw [List.mapM_cons, List.mapM_cons, ih]
    cases f c with
    | error e => rfl
    | ok a => cases l.mapM f <;> rfl

theorem QAlike.getQ {q q' : QMat ℝ} (h : QAlike t p p' q q') (i n : Nat) : q'.getQ i n = (q.getQ i n).map (List.map (t * ·)) := by
  unfold QMat.getQ
  rw [← mapM_map_res]
  congr 1
  funext j
  unfold QMat.entry
  rw [h.1, h.2.function, map_bind_res]
  refine bind_congr_res (fun a _ => ?_)
  rw [map_bind_res]
  refine bind_congr_res (fun b _ => ?_)
  rw [map_bind_res, bind_map_res]
  refine bind_congr_res (fun v _ => ?_)
  rw [map_pure_res]
  simp only [mul_real]
  congr 1; ring

theorem QAlike.swap {q q' : QMat ℝ} (h : QAlike t p p' q q') (i j : Nat) :
    ResRel (QAlike t p p') (q.swapIndex i j) (q'.swapIndex i j) := by
  unfold QMat.swapIndex
  rw [h.1]
  refine (h.2.swap i j).bind (fun k k' hk => ResRel.same _ (fun y _ => ?_))
  exact ⟨rfl, hk⟩

/-! ## the solver -/

/-- all numbers divided by `t` -/
noncomputable def downBy (t : ℝ) (v : List ℝ) : List ℝ := v.map (· / t)

/-- two states that differ only in the vectors, in the multipliers and in the penalty; the latter are `t` times as small in the
second -/
def SmoAlike (t : ℝ) (p p' : SvmParam ℝ) (s s' : Smo ℝ) : Prop :=
  ∃ Q', s' = { s with Q := Q', alpha := downBy t s.alpha, C := s.C / t } ∧ QAlike t p p' s.Q Q'

theorem ResRel.mapped {α β γ δ : Type} {S : γ → δ → Prop} (m : Res α) (V : α → β) {f : α → Res γ} {f' : β → Res δ}
    (hf : ∀ a, m = .ok a → ResRel S (f a) (f' (V a))) : ResRel S (m >>= f) (m.map V >>= f') := by
  cases m
  · exact rfl
  · exact hf _ rfl

theorem idxR_down (t : ℝ) (v : List ℝ) (i : Nat) : idxR (downBy t v) i = (idxR v i).map (· / t) := idxR_mapped _ _ _

theorem SmoAlike.swap {s s' : Smo ℝ} (h : SmoAlike t p p' s s') (i j : Nat) :
    ResRel (SmoAlike t p p') (s.swapIndex i j) (s'.swapIndex i j) := by
  obtain ⟨Q', rfl, hQ⟩ := h
  unfold Smo.swapIndex
  refine (hQ.swap i j).bind (fun Q Q'' hq => ?_)
  iterate 2 refine ResRel.same _ (fun _ _ => ?_)
  rw [downBy, swapR_mapped]
  refine ResRel.mapped _ _ (fun al _ => ?_)
  iterate 4 refine ResRel.same _ (fun _ _ => ?_)
  exact ⟨Q'', rfl, hq⟩

section
variable (ht : 0 < t)
include ht

theorem addScaled_alike (c : ℝ) (q : List ℝ) : Smo.addScaled (c / t) (q.map (t * ·)) = Smo.addScaled c q := by
  funext j old
  unfold Smo.addScaled
  rw [idxR_mapped, bind_map_res]
  refine bind_congr_res (fun a _ => ?_)
  simp only [add_real, mul_real]
  congr 2
  field_simp

theorem subScaled_alike (c : ℝ) (q : List ℝ) : Smo.subScaled (c / t) (q.map (t * ·)) = Smo.subScaled c q := by
  funext j old
  unfold Smo.subScaled
  rw [idxR_mapped, bind_map_res]
  refine bind_congr_res (fun a _ => ?_)
  simp only [sub_real, mul_real]
  congr 2
  field_simp

theorem SmoAlike.free {s s' : Smo ℝ} (h : SmoAlike t p p' s s') : s'.freeContribution = s.freeContribution := by
  obtain ⟨Q', rfl, hQ⟩ := h
  funext G i
  unfold Smo.freeContribution
  simp only [hQ.getQ, bind_map_res, idxR_down, addScaled_alike ht]
  rfl

theorem SmoAlike.reconstruct {s s' : Smo ℝ} (h : SmoAlike t p p' s s') :
    ResRel (SmoAlike t p p') s.reconstructGradient s'.reconstructGradient := by
  have hf := h.free ht
  obtain ⟨Q', rfl, hQ⟩ := h
  unfold Smo.reconstructGradient
  rw [hf]
  change ResRel _ (if s.activeSize = s.l then _ else _) (if s.activeSize = s.l then _ else _)
  by_cases e : s.activeSize = s.l
  · rw [if_pos e, if_pos e]
    exact ⟨Q', rfl, hQ⟩
  · rw [if_neg e, if_neg e]
    refine ResRel.same _ (fun G _ => ResRel.same _ (fun G _ => ?_))
    exact ⟨Q', rfl, hQ⟩

end

theorem SmoAlike.active {s s' : Smo ℝ} (h : SmoAlike t p p' s s') (n : Nat) :
    SmoAlike t p p' { s with activeSize := n } { s' with activeSize := n } := by
  obtain ⟨Q', rfl, hQ⟩ := h
  exact ⟨Q', rfl, hQ⟩

theorem SmoAlike.size {s s' : Smo ℝ} (h : SmoAlike t p p' s s') : s'.activeSize = s.activeSize := by
  obtain ⟨Q', rfl, _⟩ := h
  rfl

theorem SmoAlike.shrink (gm0 gm1 : ℝ) (n : Nat) : ∀ (k : Nat) {s s' : Smo ℝ}, SmoAlike t p p' s s' →
    ResRel (SmoAlike t p p') (Smo.shrinkLoop gm0 gm1 n k s) (Smo.shrinkLoop gm0 gm1 n k s') := by
  induction n with
  | zero => intro k s s' h; exact h
  | succ n ih =>
    intro k s s' h
    have he : s'.staysActive gm0 gm1 k = s.staysActive gm0 gm1 k := by
      obtain ⟨Q', rfl, _⟩ := h
      rfl
    unfold Smo.shrinkLoop
    rw [he]
    refine ResRel.same _ (fun stay _ => ?_)
    cases stay
    · simp only [Bool.false_eq_true, if_false]
      rw [h.size]
      exact ((h.active _).swap k _).bind (fun a b hab => ih k hab)
    · exact ih (k + 1) h

theorem SmoAlike.unshrink (gm0 gm1 : ℝ) (n : Nat) : ∀ {s s' : Smo ℝ}, SmoAlike t p p' s s' →
    ResRel (SmoAlike t p p') (Smo.unshrinkLoop gm0 gm1 n s) (Smo.unshrinkLoop gm0 gm1 n s') := by
  induction n with
  | zero => intro s s' h; exact h
  | succ n ih =>
    intro s s' h
    have he : s'.staysInactive gm0 gm1 = s.staysInactive gm0 gm1 := by
      obtain ⟨Q', rfl, _⟩ := h
      rfl
    unfold Smo.unshrinkLoop
    rw [he, h.size]
    refine ResRel.same _ (fun stay _ => ?_)
    cases stay
    · simp only [Bool.false_eq_true, if_false]
      exact (h.swap _ _).bind (fun a b hab => ih (hab.active _))
    · exact ih h

theorem SmoAlike.select {s s' : Smo ℝ} (h : SmoAlike t p p' s s') (o : WorkSet) :
    s'.selectWorkingSet o = s.selectWorkingSet o := by
  obtain ⟨Q', rfl, _⟩ := h
  rfl

section
variable (ht : 0 < t)
include ht

theorem SmoAlike.doShrinking {s s' : Smo ℝ} (h : SmoAlike t p p' s s') :
    ResRel (SmoAlike t p p') s.doShrinking s'.doShrinking := by
  have hsel := h.select ⟨none, none⟩
  have hy : s'.y = s.y := by obtain ⟨Q', rfl, _⟩ := h; rfl
  have hG : s'.G = s.G := by obtain ⟨Q', rfl, _⟩ := h; rfl
  unfold Smo.doShrinking
  rw [hsel, hy, hG, h.size]
  refine ResRel.same _ (fun w _ => ?_)
  by_cases hw : w.1 = true
  · rw [if_pos hw, if_pos hw]; exact h
  · rw [if_neg hw, if_neg hw]
    iterate 6 refine ResRel.same _ (fun _ _ => ?_)
    refine (SmoAlike.shrink _ _ _ _ h).bind (fun a b hab => ?_)
    have hu : b.unshrinked = a.unshrinked := by obtain ⟨Q', rfl, _⟩ := hab; rfl
    rw [hu]
    split
    · exact hab
    · have hab' : SmoAlike t p p' { a with unshrinked := true } { b with unshrinked := true } := by
        obtain ⟨Q', rfl, hQ⟩ := hab
        exact ⟨Q', rfl, hQ⟩
      refine (hab'.reconstruct ht).bind (fun a b hab => ?_)
      have hl : b.l = a.l := by obtain ⟨Q', rfl, _⟩ := hab; rfl
      rw [hl, hab.size]
      exact SmoAlike.unshrink _ _ _ hab

theorem SmoAlike.countDown {s s' : Smo ℝ} (h : SmoAlike t p p' s s') : ResRel (SmoAlike t p p') s.countDown s'.countDown := by
  obtain ⟨Q', rfl, hQ⟩ := h
  have hset : ∀ c, SmoAlike t p p' { s with counter := c }
      { s with Q := Q', alpha := downBy t s.alpha, C := s.C / t, counter := c } := fun c => ⟨Q', rfl, hQ⟩
  unfold Smo.countDown
  change ResRel _ _ (if s.counter - 1 = 0 then _ else _)
  by_cases e : s.counter - 1 = 0
  · rw [if_pos e, if_pos e]
    change ResRel _ (if s.shrinking = true then _ else _) (if s.shrinking = true then _ else _)
    by_cases e' : s.shrinking = true
    · rw [if_pos e', if_pos e']; exact (hset _).doShrinking ht
    · rw [if_neg e', if_neg e']; exact hset _
  · rw [if_neg e, if_neg e]; exact hset _

end

/-- the choices of two runs are alike -/
def ChoiceAlike (t : ℝ) (p p' : SvmParam ℝ) (c c' : Smo ℝ × Option (Nat × Nat)) : Prop := SmoAlike t p p' c.1 c'.1 ∧ c'.2 = c.2

section
variable (ht : 0 < t)
include ht

theorem SmoAlike.choose {s s' : Smo ℝ} (h : SmoAlike t p p' s s') : ResRel (ChoiceAlike t p p') s.choose s'.choose := by
  unfold Smo.choose
  refine (h.countDown ht).bind (fun a b hab => ?_)
  rw [hab.select]
  refine ResRel.same _ (fun w _ => ?_)
  by_cases hw : w.1 = true
  · rw [if_pos hw, if_pos hw]
    refine (hab.reconstruct ht).bind (fun a b hab => ?_)
    have hab' : SmoAlike t p p' { a with activeSize := a.l } { b with activeSize := b.l } := by
      obtain ⟨Q', rfl, hQ⟩ := hab
      exact ⟨Q', rfl, hQ⟩
    simp only
    rw [hab'.select]
    refine ResRel.same _ (fun w' _ => ?_)
    by_cases hw' : w'.1 = true
    · rw [if_pos hw', if_pos hw']; exact ⟨hab', rfl⟩
    · rw [if_neg hw', if_neg hw']
      refine ResRel.same _ (fun i _ => ResRel.same _ (fun j _ => ?_))
      refine ⟨?_, rfl⟩
      obtain ⟨Q', rfl, hQ⟩ := hab
      exact ⟨Q', rfl, hQ⟩
  · rw [if_neg hw, if_neg hw]
    refine ResRel.same _ (fun i _ => ResRel.same _ (fun j _ => ?_))
    exact ⟨hab, rfl⟩

theorem SmoAlike.bar {s s' : Smo ℝ} (h : SmoAlike t p p' s s') : s'.barUpdate = s.barUpdate := by
  obtain ⟨Q', rfl, hQ⟩ := h
  funext i u v G
  unfold Smo.barUpdate
  simp only [hQ.getQ, bind_map_res, addScaled_alike ht, subScaled_alike ht]

theorem statusOf_down (C a : ℝ) : statusOf (C / t) (a / t) = statusOf C a := by
  unfold statusOf
  have h1 : C / t ≤ a / t ↔ C ≤ a := div_le_div_iff_of_pos_right ht
  have h2 : a / t ≤ 0 ↔ a ≤ 0 := by rw [div_le_iff₀ ht, zero_mul]
  simp only [le_real, decide_eq_true_eq, zero_real, h1, h2]

theorem SmoAlike.status {s s' : Smo ℝ} (h : SmoAlike t p p' s s') (i : Nat) :
    ResRel (SmoAlike t p p') (s.updateAlphaStatus i) (s'.updateAlphaStatus i) := by
  obtain ⟨Q', rfl, hQ⟩ := h
  unfold Smo.updateAlphaStatus
  rw [idxR_down]
  refine ResRel.mapped _ _ (fun a _ => ResRel.same _ (fun _ _ => ?_))
  rw [statusOf_down ht]
  exact ⟨Q', rfl, hQ⟩

theorem fmaxD_up (a : ℝ) : fmaxD (t * a) (0 : ℝ) = t * fmaxD a 0 := by
  unfold fmaxD
  have h1 : (0 ≤ t * a) ↔ 0 ≤ a := by
    constructor
    · intro h; by_contra h'; push Not at h'; nlinarith
    · intro h; positivity
  simp only [le_real, decide_eq_true_eq, h1]
  split <;> simp

/-- both numbers divided by `t` -/
theorem clips_alike (C d : ℝ) (a : ℝ × ℝ) :
    clipDiff (C / t) (d / t) (a.1 / t, a.2 / t) = ((clipDiff C d a).1 / t, (clipDiff C d a).2 / t) ∧
    clipDiffNeg (C / t) (d / t) (a.1 / t, a.2 / t) = ((clipDiffNeg C d a).1 / t, (clipDiffNeg C d a).2 / t) ∧
    clipSumHigh (C / t) (d / t) (a.1 / t, a.2 / t) = ((clipSumHigh C d a).1 / t, (clipSumHigh C d a).2 / t) ∧
    clipSumLow (d / t) (a.1 / t, a.2 / t) = ((clipSumLow d a).1 / t, (clipSumLow d a).2 / t) := by
  have hlt : ∀ a b : ℝ, a / t < b / t ↔ a < b := fun a b => div_lt_div_iff_of_pos_right ht
  have hneg : ∀ a : ℝ, a / t < 0 ↔ a < 0 := fun a => by rw [div_lt_iff₀ ht, zero_mul]
  have e : ∀ (c : Prop) [Decidable c] (u v : ℝ × ℝ), (if c then (u.1 / t, u.2 / t) else (v.1 / t, v.2 / t)) =
      ((if c then u else v).1 / t, (if c then u else v).2 / t) := by
    intro c _ u v; split <;> rfl
  refine ⟨?_, ?_, ?_, ?_⟩
  · unfold clipDiff
    simp only [sub_real, zero_real, lt_real, decide_eq_true_eq, hneg]
    have h1 := e (a.2 < 0) (d, 0) a
    simp only [zero_div] at h1
    rw [h1]
    simp only [hlt]
    have h2 := e (C < (if a.2 < 0 then (d, 0) else a).1) (C, C - d) (if a.2 < 0 then (d, 0) else a)
    simp only [sub_div] at h2 ⊢
    exact h2
  · unfold clipDiffNeg
    simp only [add_real, neg_real, zero_real, lt_real, decide_eq_true_eq, hneg]
    have h1 := e (a.1 < 0) (0, -d) a
    simp only [zero_div, neg_div] at h1
    rw [h1]
    simp only [hlt]
    have h2 := e (C < (if a.1 < 0 then (0, -d) else a).2) (C + d, C) (if a.1 < 0 then (0, -d) else a)
    simp only [add_div] at h2 ⊢
    exact h2
  · unfold clipSumHigh
    simp only [sub_real, lt_real, decide_eq_true_eq, hlt]
    have h1 := e (C < a.1) (C, d - C) a
    simp only [sub_div] at h1
    rw [h1]
    simp only [hlt]
    have h2 := e (C < (if C < a.1 then (C, d - C) else a).2) (d - C, C) (if C < a.1 then (C, d - C) else a)
    simp only [sub_div] at h2 ⊢
    exact h2
  · unfold clipSumLow
    simp only [zero_real, lt_real, decide_eq_true_eq, hneg]
    have h1 := e (a.2 < 0) (d, 0) a
    simp only [zero_div] at h1
    rw [h1]
    simp only [hneg]
    have h2 := e ((if a.2 < 0 then (d, 0) else a).1 < 0) (0, d) (if a.2 < 0 then (d, 0) else a)
    simp only [zero_div] at h2
    exact h2

/-- the step of two multipliers -/
theorem movePair_alike (C yi yj gi gj ai aj qii qjj qij : ℝ) :
    movePair (C / t) yi yj gi gj (ai / t) (aj / t) (t * qii) (t * qjj) (t * qij) =
      ((movePair C yi yj gi gj ai aj qii qjj qij).1 / t, (movePair C yi yj gi gj ai aj qii qjj qij).2 / t) := by
  have hlt : ∀ a b : ℝ, a / t < b / t ↔ a < b := fun a b => div_lt_div_iff_of_pos_right ht
  have hpos : ∀ a : ℝ, 0 < a / t ↔ 0 < a := fun a => by rw [lt_div_iff₀ ht, zero_mul]
  have d1 : fmaxD (t * qii + t * qjj + 2 * (t * qij)) (0 : ℝ) = t * fmaxD (qii + qjj + 2 * qij) 0 := by
    rw [← fmaxD_up ht]; congr 1; ring
  have d2 : fmaxD (t * qii + t * qjj - 2 * (t * qij)) (0 : ℝ) = t * fmaxD (qii + qjj - 2 * qij) 0 := by
    rw [← fmaxD_up ht]; congr 1; ring
  have dd : ∀ a d : ℝ, a / (t * d) = a / d / t := fun a d => by rw [mul_comm, div_mul_eq_div_div]
  unfold movePair
  simp only [add_real, sub_real, mul_real, div_real, neg_real, zero_real, ofInt_real, Int.cast_ofNat, d1, d2, dd,
    ← add_div, ← sub_div, lt_real, decide_eq_true_eq, hlt, hpos]
  by_cases hy : (yi ==. yj) = false
  · simp only [hy, if_true]
    generalize (-gi - gj) / fmaxD (qii + qjj + 2 * qij) 0 = δ
    split
    · exact (clips_alike ht C (ai - aj) (ai + δ, aj + δ)).1
    · exact (clips_alike ht C (ai - aj) (ai + δ, aj + δ)).2.1
  · rw [if_neg hy, if_neg hy]
    generalize (gi - gj) / fmaxD (qii + qjj - 2 * qij) 0 = δ
    split
    · exact (clips_alike ht C (ai + aj) (ai - δ, aj + δ)).2.2.1
    · exact (clips_alike ht C (ai + aj) (ai - δ, aj + δ)).2.2.2

theorem SmoAlike.moveAlpha {s s' : Smo ℝ} (h : SmoAlike t p p' s s') (i j : Nat) (Qi Qj : List ℝ) :
    s'.moveAlpha i j (Qi.map (t * ·)) (Qj.map (t * ·)) =
      (s.moveAlpha i j Qi Qj).map (fun m => (downBy t m.1, m.2.1 / t, m.2.2 / t)) := by
  obtain ⟨Q', rfl, hQ⟩ := h
  unfold Smo.moveAlpha
  simp only [idxR_down, idxR_mapped, bind_map_res, map_bind_res, map_pure_res]
  iterate 9 refine bind_congr_res (fun _ _ => ?_)
  rw [movePair_alike ht]
  simp only [downBy, List.map_set, sub_real, sub_div]

theorem gradEntry_alike (Qi Qj : List ℝ) (di dj : ℝ) :
    Smo.gradEntry (Qi.map (t * ·)) (Qj.map (t * ·)) (di / t) (dj / t) = Smo.gradEntry Qi Qj di dj := by
  funext k old
  unfold Smo.gradEntry
  simp only [idxR_mapped, bind_map_res]
  refine bind_congr_res (fun a _ => bind_congr_res (fun b _ => ?_))
  simp only [add_real, mul_real]
  congr 2
  field_simp

theorem SmoAlike.move {s s' : Smo ℝ} (h : SmoAlike t p p' s s') (i j : Nat) :
    ResRel (SmoAlike t p p') (s.move i j) (s'.move i j) := by
  have hup : ∀ {a b : Smo ℝ}, SmoAlike t p p' a b → ∀ i, b.isUpper i = a.isUpper i := by
    rintro a _ ⟨Q', rfl, _⟩ i; rfl
  have hma := h.moveAlpha ht i j
  obtain ⟨Q', rfl, hQ⟩ := h
  have hset : ∀ al G, SmoAlike t p p' { s with alpha := al, G := G }
      { s with Q := Q', alpha := downBy t al, C := s.C / t, G := G } := fun al G => ⟨Q', rfl, hQ⟩
  unfold Smo.move
  simp only [hQ.getQ, bind_map_res]
  refine ResRel.same _ (fun Qi _ => ResRel.same _ (fun Qj _ => ?_))
  rw [hma]
  refine ResRel.mapped _ _ (fun m _ => ?_)
  rw [gradEntry_alike ht]
  refine ResRel.same _ (fun G _ => ?_)
  refine ResRel.same (s.isUpper i) (fun ui _ => ResRel.same (s.isUpper j) (fun uj _ => ?_))
  refine ((hset _ _).status ht i).bind (fun a b hab => (hab.status ht j).bind (fun a b hab => ?_))
  have hGB : b.GBar = a.GBar := by obtain ⟨Q', rfl, _⟩ := hab; rfl
  rw [hab.bar ht, hup hab, hup hab, hGB]
  iterate 4 refine ResRel.same _ (fun _ _ => ?_)
  obtain ⟨Q', rfl, hQ⟩ := hab
  exact ⟨Q', rfl, hQ⟩

end

/-- two runs are at the same point -/
def RunAlike (t : ℝ) (p p' : SvmParam ℝ) (r r' : Smo ℝ × Bool) : Prop := SmoAlike t p p' r.1 r'.1 ∧ r'.2 = r.2

section
variable (ht : 0 < t)
include ht

theorem SmoAlike.iterate {s s' : Smo ℝ} (h : SmoAlike t p p' s s') : ResRel (RunAlike t p p') s.iterate s'.iterate := by
  unfold Smo.iterate
  refine (h.choose ht).bind (fun c c' hc => ?_)
  rw [hc.2]
  obtain ⟨a, o⟩ := c
  cases o with
  | none => exact ⟨hc.1, rfl⟩
  | some ij => exact (hc.1.move ht ij.1 ij.2).bind (fun a b hab => ⟨hab, rfl⟩)

theorem SmoAlike.run (n : Nat) : ∀ {s s' : Smo ℝ}, SmoAlike t p p' s s' →
    ResRel (RunAlike t p p') (Smo.run n s) (Smo.run n s') := by
  induction n with
  | zero => intro s s' h; exact ⟨h, rfl⟩
  | succ n ih =>
    intro s s' h
    unfold Smo.run
    refine (h.iterate ht).bind (fun r r' hr => ?_)
    rw [hr.2]
    by_cases e : r.2 = true
    · rw [if_pos e, if_pos e]; exact hr
    · rw [if_neg e, if_neg e]; exact ih hr.1

theorem SmoAlike.initial {s s' : Smo ℝ} (h : SmoAlike t p p' s s') (i : Nat) :
    ResRel (SmoAlike t p p') (s.initialRow i) (s'.initialRow i) := by
  obtain ⟨Q', rfl, hQ⟩ := h
  unfold Smo.initialRow
  refine ResRel.same (s.isLower i) (fun low _ => ?_)
  cases low
  · simp only [Bool.false_eq_true, if_false, hQ.getQ, bind_map_res, idxR_down, addScaled_alike ht]
    refine ResRel.same _ (fun Qi _ => ResRel.same _ (fun a _ => ResRel.same _ (fun G _ => ResRel.same (s.isUpper i) (fun up _ => ?_))))
    cases up
    · exact ⟨Q', rfl, hQ⟩
    · exact ResRel.same _ (fun GB _ => ⟨Q', rfl, hQ⟩)
  · exact ⟨Q', rfl, hQ⟩

omit ht in
theorem writeBack_down (set : List Nat) (ks : List Nat) (alpha : List ℝ) :
    ks.foldlM (Smo.writeBack set) (downBy t alpha) = (ks.foldlM (Smo.writeBack set) alpha).map (downBy t) := by
  induction ks generalizing alpha with
  | nil => rfl
  | cons k ks ih =>
    rw [List.foldlM_cons, List.foldlM_cons, map_bind_res]
    have : Smo.writeBack set (downBy t alpha) k = (Smo.writeBack set alpha k).map (downBy t) := by
      unfold Smo.writeBack
      simp only [idxR_down, bind_map_res, map_bind_res, map_pure_res]
      iterate 3 refine bind_congr_res (fun _ _ => ?_)
      rw [downBy, downBy, List.map_set]
    rw [this, bind_map_res]
    exact bind_congr_res (fun a _ => ih a)

/-- the solver, given pairs of vectors with kernel values `t` times as large and a penalty `t` times as small, returns the same threshold,
and multipliers `t` times as small -/
theorem solve_alike (n : Nat) {ps : List (List ℝ × List ℝ)} (ha : PairsAlike t p p' ps) (hC : p'.C = p.C / t)
    (hs : p'.shrinking = p.shrinking) (y b : List ℝ) :
    Smo.solve n ps.length (ps.map (fun a => nodeList a.2)) y b p' =
      (Smo.solve n ps.length (ps.map (fun a => nodeList a.1)) y b p).map (Option.map (fun o => (o.1, downBy t o.2))) := by
  obtain ⟨k, e, o⟩ := make_over p (ps.map Prod.fst)
  obtain ⟨k', e', o'⟩ := make_over p' (ps.map Prod.snd)
  simp only [List.length_map, List.map_map] at e e'
  have hk : KernAlike t p p' k k' := ⟨ps, ha, o, o'⟩
  have hst0 : statusOf p'.C (Dbl.zero : ℝ) = statusOf p.C Dbl.zero := by
    have := statusOf_down ht p.C 0
    rw [zero_div] at this
    rw [hC, zero_real]; exact this
  suffices h : ResRel (fun o o' => o' = Option.map (fun o : ℝ × List ℝ => (o.1, downBy t o.2)) o)
      (Smo.solve n ps.length (ps.map (fun a => nodeList a.1)) y b p)
      (Smo.solve n ps.length (ps.map (fun a => nodeList a.2)) y b p') by
    revert h
    cases Smo.solve n ps.length (ps.map (fun a => nodeList a.1)) y b p <;>
      cases Smo.solve n ps.length (ps.map (fun a => nodeList a.2)) y b p' <;> intro h
    · exact congrArg _ (Eq.symm h)
    · exact h.elim
    · exact h.elim
    · exact congrArg _ h
  unfold Smo.solve Smo.start QMat.make
  rw [show ps.map (fun a => nodeList a.1) = ps.map (nodeList ∘ Prod.fst) from rfl,
    show ps.map (fun a => nodeList a.2) = ps.map (nodeList ∘ Prod.snd) from rfl, e, e', hst0, hC, hs]
  refine ResRel.bind (R := SmoAlike t p p') ?_ (fun s s' h => ?_)
  · refine ResRel.bind (R := QAlike t p p') ?_ (fun q q' hq => ?_)
    · rw [res_bind_ok, res_bind_ok]
      exact ResRel.same _ (fun c _ => ⟨rfl, hk⟩)
    · refine ResRel.same _ (fun G _ => ?_)
      refine ResRel.fold _ (fun a b i hab => hab.initial ht i) ?_
      exact ⟨q', by simp [downBy], hq⟩
  · refine (SmoAlike.run ht n h).bind (fun r r' hr => ?_)
    rw [hr.2]
    by_cases e : r.2 = true
    · rw [if_pos e, if_pos e]
      have : r'.1.finish = r.1.finish.map (fun o => (o.1, downBy t o.2)) := by
        obtain ⟨Q', h', _⟩ := hr.1
        rw [h']
        unfold Smo.finish
        simp only
        rw [writeBack_down, bind_map_res, map_bind_res]
        refine bind_congr_res (fun al _ => ?_)
        rw [map_bind_res]
        exact bind_congr_res (fun rho _ => rfl)
      rw [this]
      exact ResRel.mapped _ _ (fun o _ => rfl)
    · rw [if_neg e, if_neg e]; exact rfl

end

end

end Verif
