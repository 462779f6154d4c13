import Verif.Props.SoftTrain
import Verif.Props.NeuralNetwork

/-! # C187: the random numbers a soft decision tree starts with, and trees without a split -/

set_option linter.unusedSectionVars false
set_option linter.unusedVariables false

namespace Verif
open Dbl

theorem smallRandom_real (a : ℝ) : smallRandom a = a / 50 - 1 / 100 := by
  simp only [smallRandom, mul_real, sub_real, lit_real]
  push_cast
  ring

/-- **C187, the start**: a new node gets its output vector, the vector of its last outputs and its weights, in this order,
from consecutive random numbers `v` as `v / 50 - 1 / 100`, and uses exactly these; so with random numbers
from `[0, 1]` all of them are between `-0.01` and `0.01`. -/
theorem C187_start (rand : Nat → ℝ) (pos K d : Nat) :
    let e := SoftData.fresh rand pos K d
    e.w0s.length = K ∧ e.outputs.length = K ∧ e.w.length = d + 1 ∧
      e.w0s ++ e.outputs ++ e.w = (List.range' pos (freshDraws K d)).map (fun i => rand i / 50 - 1 / 100) ∧
      ((∀ i, 0 ≤ rand i ∧ rand i ≤ 1) → ∀ v ∈ e.w0s ++ e.outputs ++ e.w, -(1 / 100) ≤ v ∧ v ≤ 1 / 100) := by
  intro e
  have hall : e.w0s ++ e.outputs ++ e.w = (List.range' pos (freshDraws K d)).map (fun i => rand i / 50 - 1 / 100) := by
    have h1 : ∀ p n, (List.range n).map (fun i => smallRandom (rand (p + i))) =
        (List.range' p n).map (fun i => rand i / 50 - 1 / 100) := by
      intro p n
      rw [List.range'_eq_map_range, List.map_map]
      exact List.map_congr_left (fun i _ => smallRandom_real _)
    show (List.range K).map (fun i => smallRandom (rand (pos + i))) ++
      (List.range K).map (fun i => smallRandom (rand (pos + K + i))) ++
      (List.range (d + 1)).map (fun i => smallRandom (rand (pos + 2 * K + i))) = _
    rw [h1, h1, h1, ← List.map_append, ← List.map_append, List.range'_append_1,
      show pos + 2 * K = pos + (K + K) by omega, List.range'_append_1]
    congr 2
    unfold freshDraws
    omega
  refine ⟨by simp [e, SoftData.fresh], by simp [e, SoftData.fresh], by simp [e, SoftData.fresh], hall, ?_⟩
  intro hr v hv
  rw [hall] at hv
  obtain ⟨i, _, rfl⟩ := List.mem_map.1 hv
  obtain ⟨h1, h2⟩ := hr i
  constructor <;> linarith

/-- **C187, how many numbers are used**: a split, kept or not, uses as many random numbers as the six nodes it creates
need (`C187_start`), so that the next split starts with numbers that were not used before. -/
theorem C187_draws {F : Type} [Dbl F] (labels : List String) (param : SoftParam F) (cv : IList F) (path : List Bool)
    (s s' : SoftState F) (b : Bool) (x0 : Inst F) (hx : s.data[0]? = some x0)
    (h : softSplit labels param cv path s = .ok (b, s')) :
    s'.pos = s.pos + 6 * freshDraws s.data.getDistinctClassLabels.length x0.attrs.length := by
  have hg : s.data.get 0 = .ok x0 := by
    cases hd : s.data with
    | nil => rw [hd] at hx; cases hx
    | cons a l =>
      rw [hd] at hx
      cases hx
      rfl
  unfold softSplit at h
  simp only [bind_ok_iff] at h
  obtain ⟨before, _, n, _, x, ex, start, _, t, _, m, _, h⟩ := h
  rw [hg] at ex
  cases ex
  split at h
  · rw [res_pure] at h
    cases h
    rfl
  · simp only [bind_ok_iff, res_pure] at h
    obtain ⟨c, _, h⟩ := h
    cases h
    rfl

/-- **C187, trees without a split**: when training ends without a split, nothing has been learned: for every
instance the scores are the first random numbers (scaled), and the prediction is always the same label,
that of the largest of the first `K` random numbers (the first of them), whatever the training data. -/
theorem C187_unsplit (param : SoftParam ℝ) (trainSet : IList ℝ) (d : Nat) (hne : trainSet ≠ [])
    (hnum : ∀ x ∈ trainSet, AllNumbers d x) (hint : trainSet.length ≤ 2147483647)
    (hσ : IsPermutation param.splitOrder trainSet.length) (hshuffle : ∀ n, IsPermutation (param.shuffleOrder n) n)
    (hc : ∀ c ∈ trainSet.map Inst.label,
      ⌈param.ratio * (trainSet.map Inst.label).count c⌉₊ < (trainSet.map Inst.label).count c) :
    ∃ held grown t, Parts.byRatioStratified trainSet param.ratio param.splitOrder = .ok [held, grown] ∧
      (∀ fuel, held.length < fuel → softTrain param fuel trainSet = .ok t) ∧
      (held = [] → t.root.splits = 0) ∧
      (t.root.splits = 0 → ∃ k, k < trainSet.getDistinctClassLabels.length ∧
        (∀ j, j < trainSet.getDistinctClassLabels.length → param.rand j ≤ param.rand k) ∧
        (∀ j, j < k → param.rand j < param.rand k) ∧
        ∀ x, AllNumbers d x → softPredict t x = .ok (trainSet.getDistinctClassLabels.getD k "") ∧
          (calcOutput x t.root).map Prod.fst =
            .ok ((List.range trainSet.getDistinctClassLabels.length).map (fun i => param.rand i / 50 - 1 / 100))) := by
  obtain ⟨held, grown, t, h1, h2, h3, h4, h5, h6⟩ := softTrain_ok param trainSet d hne hnum hint hσ hshuffle hc
  refine ⟨held, grown, t, h1, h2, ?_, ?_⟩
  · rintro rfl
    simp only [List.length_nil] at h3
    omega
  · intro h0
    have hL := labels_ne_nil trainSet hne
    set labels := trainSet.getDistinctClassLabels with hlab
    have hw : (SoftData.fresh param.rand 0 labels.length d).w0s =
        (List.range labels.length).map (fun i => param.rand i / 50 - 1 / 100) := by
      show (List.range labels.length).map (fun i => smallRandom (param.rand (0 + i))) = _
      exact List.map_congr_left (fun i _ => by rw [smallRandom_real, Nat.zero_add])
    rw [hw] at h6
    have hpos : 0 < labels.length := List.length_pos_iff.2 hL
    obtain ⟨k, v, e1, e2, e3, e4⟩ := maxIndex_spec
      ((List.range labels.length).map (fun i => param.rand i / 50 - 1 / 100)) (by
        intro h
        have := congrArg List.length h
        rw [List.length_map, List.length_range] at this
        simp at this
        exact hL this) (fun v _ => by simp [Dbl.Ord])
    have hk : k < labels.length := by
      by_contra hk
      rw [List.getElem?_eq_none (by simpa using hk)] at e2
      cases e2
    have hv : v = param.rand k / 50 - 1 / 100 := by
      rw [List.getElem?_map, List.getElem?_range hk] at e2
      simpa using e2.symm
    refine ⟨k, hk, ?_, ?_, ?_⟩
    · intro j hj
      have := e3 (param.rand j / 50 - 1 / 100) (List.mem_map.2 ⟨j, List.mem_range.2 hj, rfl⟩)
      rw [le_real, decide_eq_true_eq, hv] at this
      linarith
    · intro j hj
      have := e4 j (param.rand j / 50 - 1 / 100) hj (by
        rw [List.getElem?_map, List.getElem?_range (by omega)]
        rfl)
      rw [lt_real, decide_eq_true_eq, hv] at this
      linarith
    · intro x hx
      have h7 := h6 h0 x hx
      refine ⟨?_, h7⟩
      cases hco : calcOutput x t.root with
      | error er => rw [hco] at h7; cases h7
      | ok o =>
        rw [hco] at h7
        have h8 : o.1 = _ := Except.ok.inj h7
        unfold softPredict
        rw [hco, res_bind_ok, h8, e1, res_bind_ok, h5]
        rfl

/-- with a ratio of zero there is no validation part, so the tree never learns anything: on four points of two
classes, with random numbers `1, 1/2, 1/3, …`, it predicts `a` for every number -/
example : ∃ t, (∀ fuel, 0 < fuel → softTrain { softParam with ratio := 0 } fuel fourPoints = .ok t) ∧
    ∀ x, AllNumbers 1 x → softPredict t x = .ok "a" := by
  have hcount : ∀ c ∈ fourPoints.map Inst.label, (fourPoints.map Inst.label).count c = 2 := by
    intro c hc
    simp only [fourPoints, List.map_cons, List.map_nil, List.mem_cons, List.not_mem_nil, or_false] at hc ⊢
    rcases hc with rfl | rfl | rfl | rfl <;> decide
  obtain ⟨held, grown, t, h1, h2, h3, h4⟩ := C187_unsplit { softParam with ratio := 0 } fourPoints 1 (by simp [fourPoints]) fourPoints_numbers
    (by simp [fourPoints]) fourParam_perm (fun n => List.Perm.refl _) (by
      intro c hc
      rw [hcount c hc]
      simp)
  have hheld : held = [] := by
    obtain ⟨p0, p1, e1, _, e3⟩ := C25_stratified_split fourPoints 0 softParam.splitOrder fourParam_perm
    have e1' : Parts.byRatioStratified fourPoints 0 softParam.splitOrder = .ok [held, grown] := h1
    rw [e1'] at e1
    cases e1
    rw [List.eq_nil_iff_forall_not_mem]
    intro x hx
    have : x ∈ held.filter (fun y => y.label == x.label) := by simp [hx]
    rw [(e3 x.label).1] at this
    simp at this
  obtain ⟨k, hk, k1, k2, k3⟩ := h4 (h3 hheld)
  have hl : fourPoints.getDistinctClassLabels = ["a", "b"] := by decide +kernel
  rw [hl] at hk k1 k3
  have hk0 : k = 0 := by
    by_contra hne
    have : k = 1 := by simp at hk; omega
    subst this
    have := k2 0 (by omega)
    norm_num [softParam] at this
  subst hk0
  exact ⟨t, fun fuel hf => h2 fuel (by rw [hheld]; exact hf), fun x hx => (k3 x hx).1⟩

end Verif
