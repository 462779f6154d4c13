import Verif.Props.SvmMargin

/-! # Support vector machine: cases that meet the hypotheses, and retraining -/

set_option linter.unusedSectionVars false
set_option linter.unusedVariables false

namespace Verif
open Dbl

/-! ## the points 1 and -1 over the reals -/

noncomputable def pairQ : QMat ℝ := ⟨⟨[nodeList [1], nodeList [-1]], [], .linear, 1, 0, 0⟩, [1, -1]⟩

theorem pair_nodes : (nodeList [1] : NodeL ℝ) = [⟨0, 1⟩] ∧ (nodeList [-1] : NodeL ℝ) = [⟨0, -1⟩] := by
  simp [nodeList, nodesFrom]

noncomputable def pairStart : Smo ℝ := ⟨2, 2, [1, -1], [0, 0], [-1, -1], [.lower, .lower], pairQ, 2, [-1, -1], [0, 1], [0, 0],
    false, true, 3⟩

theorem pair_start : Smo.start 2 [nodeList [1], nodeList [-1]] [1, -1] [-1, -1] ⟨.linear, 1, 0, 0, 2, true⟩ = .ok pairStart := by
  unfold Smo.start
  have e1 : QMat.make 2 [nodeList [1], nodeList [-1]] ⟨.linear, 1, 0, 0, 2, true⟩ ([1, -1] : List ℝ) = .ok pairQ := by
    unfold QMat.make; rfl
  have e2 : (List.range 2).mapM (idxR ([-1, -1] : List ℝ)) = .ok [-1, -1] := rfl
  rw [e1, res_bind_ok, e2, res_bind_ok]
  have hs : statusOf (2 : ℝ) 0 = .lower := by
    unfold statusOf; norm_num
  simp only [zero_real, hs]
  rfl


theorem pair_Q : pairQ.getQ 0 2 = .ok [1, 1] ∧ pairQ.getQ 1 2 = .ok [1, 1] := by
  have hd : nodeDot (nodeList [1]) (nodeList [1]) = (1 : ℝ) ∧ nodeDot (nodeList [1]) (nodeList [-1]) = (-1 : ℝ) ∧
      nodeDot (nodeList [-1]) (nodeList [1]) = (-1 : ℝ) ∧ nodeDot (nodeList [-1]) (nodeList [-1]) = (1 : ℝ) := by
    simp [C66_dot, denseDot]
  constructor <;>
    simp [QMat.getQ, QMat.entry, pairQ, Kern.function, Kern.value, idxR, List.range_succ, List.mapM_cons, res_bind_ok, res_pure, hd]

/-- the same at the beginning of the first move -/
noncomputable def pairFirst : Smo ℝ := ⟨2, 2, [1, -1], [0, 0], [-1, -1], [.lower, .lower], pairQ, 2, [-1, -1], [0, 1], [0, 0],
    false, true, 2⟩

/-- after the first round -/
noncomputable def pairMid : Smo ℝ := ⟨2, 2, [1, -1], [1/2, 1/2], [0, 0], [.free, .free], pairQ, 2, [-1, -1], [0, 1], [0, 0],
    false, true, 2⟩

/-- after the second round -/
noncomputable def pairLast : Smo ℝ := ⟨2, 2, [1, -1], [1/2, 1/2], [0, 0], [.free, .free], pairQ, 2, [-1, -1], [0, 1], [0, 0],
    false, true, 1⟩

theorem pair_round1 : Smo.iterate pairStart = .ok (pairMid, false) := by
  have hm : (1 : ℝ) ≤ Dbl.maxVal := by rw [maxVal_real]; exact one_le_pow₀ (by norm_num)
  have h1 : -1 ≤ (Dbl.maxVal : ℝ) := by linarith
  have h2 : -(Dbl.maxVal : ℝ) ≤ 1 := by linarith
  have hc : Smo.choose pairStart = .ok (pairFirst, some (0, 1)) := by
    have e1 : pairStart.countDown = .ok pairFirst := rfl
    unfold Smo.choose
    rw [e1, res_bind_ok]
    have e2 : Smo.selectWorkingSet pairFirst ⟨none, none⟩ = .ok (false, ⟨some 0, some 1⟩) := by
      simp only [Smo.selectWorkingSet, pairFirst, List.range_succ, List.range_zero, List.nil_append, List.foldlM_append,
        List.foldlM_cons, List.foldlM_nil, Smo.selStep, idxR]
      simp [res_bind_ok, res_pure, Smo.selRow, Smo.Sel.offer0, Smo.Sel.offer1, h1]
      norm_num [h1, h2]
    rw [e2, res_bind_ok]
    rfl
  unfold Smo.iterate
  rw [hc, res_bind_ok]
  have hmv : Smo.move pairFirst 0 1 = .ok pairMid := by
    unfold Smo.move
    have e1 : pairFirst.Q.getQ 0 pairFirst.activeSize = .ok [1, 1] := pair_Q.1
    have e2 : pairFirst.Q.getQ 1 pairFirst.activeSize = .ok [1, 1] := pair_Q.2
    have e3 : Smo.moveAlpha pairFirst 0 1 [1, 1] [1, 1] = .ok ([1/2, 1/2], 1/2, 1/2) := by
      simp [Smo.moveAlpha, pairFirst, idxR, res_bind_ok, res_pure, movePair, fmaxD, clipDiffNeg]
      norm_num
    have e4 : updateAll pairFirst.G (List.range pairFirst.activeSize) (Smo.gradEntry [1, 1] [1, 1] (1/2) (1/2)) =
        .ok [0, 0] := by
      simp [updateAll, pairFirst, List.range_succ, List.foldlM_cons, updateAt, Smo.gradEntry, idxR, res_bind_ok, res_pure]
      norm_num
    have hs : statusOf (2 : ℝ) (1/2) = .free := by
      unfold statusOf; norm_num
    rw [e1, res_bind_ok, e2, res_bind_ok, e3, res_bind_ok]
    simp only
    rw [e4, res_bind_ok]
    simp [Smo.isUpper, Smo.updateAlphaStatus, pairFirst, idxR, res_bind_ok, res_pure, Smo.barUpdate]
    rw [show ((2 : ℝ)⁻¹) = 1/2 by norm_num, hs]
    simp [pairMid]
  simp only
  rw [hmv]; rfl

theorem pair_round2 : Smo.iterate pairMid = .ok (pairLast, true) := by
  have hm : (1 : ℝ) ≤ Dbl.maxVal := by rw [maxVal_real]; exact one_le_pow₀ (by norm_num)
  have h0 : 0 ≤ (Dbl.maxVal : ℝ) := by linarith
  have e1 : pairMid.countDown = .ok pairLast := rfl
  have e2 : ∀ w, ∃ w', Smo.selectWorkingSet pairLast w = .ok (true, w') := by
    intro w
    simp only [Smo.selectWorkingSet, pairLast, List.range_succ, List.range_zero, List.nil_append, List.foldlM_append,
      List.foldlM_cons, List.foldlM_nil, Smo.selStep, idxR]
    simp [res_bind_ok, res_pure, Smo.selRow, Smo.Sel.offer0, Smo.Sel.offer1, h0]
  have e3 : pairLast.reconstructGradient = .ok pairLast := rfl
  obtain ⟨w, ew⟩ := e2 ⟨none, none⟩
  obtain ⟨w', ew'⟩ := e2 w
  unfold Smo.iterate Smo.choose
  rw [e1, res_bind_ok, ew, res_bind_ok]
  simp only [if_true]
  rw [e3, res_bind_ok]
  have e4 : ({ pairLast with activeSize := pairLast.l } : Smo ℝ) = pairLast := rfl
  rw [e4, ew', res_bind_ok]
  rfl

theorem pair_solve : Smo.solve 2 2 [nodeList [(1 : ℝ)], nodeList [-1]] [1, -1] [-1, -1] ⟨.linear, 1, 0, 0, 2, true⟩ =
    .ok (some (0, [1/2, 1/2])) := by
  have e1 : Smo.run 2 pairStart = .ok (pairLast, true) := by
    simp only [Smo.run]
    rw [pair_round1, res_bind_ok]
    simp only [Bool.false_eq_true, if_false]
    rw [pair_round2, res_bind_ok]; rfl
  have e2 : pairLast.finish = .ok (0, [1/2, 1/2]) := by
    simp [Smo.finish, pairLast, Smo.writeBack, idxR, List.range_succ, List.foldlM_cons, res_bind_ok, res_pure,
      Smo.calculateRho, Smo.rhoStep, Smo.rhoRow]
  unfold Smo.solve
  rw [pair_start, res_bind_ok, e1, res_bind_ok]
  simp only [if_true]
  rw [e2]; rfl

/-- one training instance of each class -/
def pairList : IList ℝ := [⟨"a", [.continuous 1], none⟩, ⟨"b", [.continuous (-1)], none⟩]

noncomputable def pairParam : SvmParam ℝ := ⟨.linear, 1, 0, 0, 2, true⟩

noncomputable def pairVec (x : Inst ℝ) : List ℝ := if x.label = "a" then [1] else [-1]

def emptySvm (F : Type) : Svm F := ⟨DD.empty, [], [], [], [], none, 0, 0⟩

theorem pair_twoClass (a b : String) (hab : a < b) (ha : a ∈ pairList.map Inst.label) (hb : b ∈ pairList.map Inst.label) :
    twoClass pairParam pairList pairVec a b = pairProblem := by
  have hlab : ∀ c, c ∈ pairList.map Inst.label → c = "a" ∨ c = "b" := by
    intro c hc; simpa [pairList] using hc
  have h : a = "a" ∧ b = "b" := by
    rcases hlab a ha with rfl | rfl <;> rcases hlab b hb with rfl | rfl
    · exact absurd hab (by decide)
    · exact ⟨rfl, rfl⟩
    · exact absurd hab (by decide)
    · exact absurd hab (by decide)
  obtain ⟨rfl, rfl⟩ := h
  have e1 : classVectors pairList pairVec "a" = [[1]] := by simp [classVectors, pairList, pairVec]
  have e2 : classVectors pairList pairVec "b" = [[-1]] := by simp [classVectors, pairList, pairVec]
  unfold twoClass
  rw [e1, e2]; rfl

/-- the hypotheses of `C126_training_instances` (and so those of `C125_decision_values`) are met by `pairList`; both
instances are classified correctly -/
example : ∃ m, Svm.train (Svm.boundedSolver 1000 pairParam) (emptySvm ℝ) pairList pairParam = .ok (m, pairList.sortByClass) ∧
    ∀ x ∈ pairList, m.predict x = .ok x.label := by
  have hstop : ∀ a b, a < b → a ∈ pairList.map Inst.label → b ∈ pairList.map Inst.label →
      ∃ k o, k ≤ min (twoClass pairParam pairList pairVec a b).size 1000 ∧
        Smo.solve k (twoClass pairParam pairList pairVec a b).size ((twoClass pairParam pairList pairVec a b).vectors.map nodeList)
          (twoClass pairParam pairList pairVec a b).labels (twoClass pairParam pairList pairVec a b).linear pairParam =
            .ok (some o) := by
    intro a b h1 h2 h3
    rw [pair_twoClass a b h1 h2 h3]
    exact ⟨2, _, by decide, pair_solve⟩
  obtain ⟨m, α, ρ, e, hm, hp⟩ := C126_training_instances (emptySvm ℝ) pairList pairParam pairVec 1000 (le_refl _)
    ⟨rfl, rfl, rfl⟩ (by norm_num [pairParam])
    (by intro x hx; cases hx; rfl) (by simp [pairList])
    (by
      intro x hx
      simp only [pairList, List.mem_cons, List.not_mem_nil, or_false] at hx
      rcases hx with rfl | rfl
      · simp [pairVec]; rfl
      · simp [pairVec]; rfl)
    (by intro a b h1 h2 h3; rw [pair_twoClass a b h1 h2 h3]; exact pairProblem_inRange) hstop
  refine ⟨m, e, ?_⟩
  have ha : "a" ∈ pairList.map Inst.label := by simp [pairList]
  have hb : "b" ∈ pairList.map Inst.label := by simp [pairList]
  have hlab : ∀ c, c ∈ pairList.map Inst.label → c = "a" ∨ c = "b" := by
    intro c hc; simpa [pairList] using hc
  obtain ⟨hf, hg⟩ := hm "a" "b" (by decide) ha hb
  rw [pair_twoClass "a" "b" (by decide) ha hb] at hf hg
  have hbal := hf.balance
  have hsz : pairProblem.size = 2 := rfl
  rw [hsz] at hbal
  simp [Finset.sum_range_succ, pairProblem, SvmProblem.y] at hbal
  have u0 := hf.upper 0 (by decide)
  have u1 := hf.upper 1 (by decide)
  have hC : pairProblem.param.C = 2 := rfl
  rw [hC] at u0 u1
  have key : α "a" "b" 0 < 2 ∧ α "a" "b" 1 < 2 := by
    by_contra hcon
    have h2 : α "a" "b" 0 = 2 ∧ α "a" "b" 1 = 2 := by
      by_cases h : α "a" "b" 0 < 2
      · exact absurd ⟨h, by linarith⟩ hcon
      · exact ⟨by linarith, by linarith⟩
    have i0 := hg.inside 0 (by decide) (by rw [h2.1]; norm_num)
    have i1 := hg.inside 1 (by decide) (by rw [h2.2]; norm_num)
    simp only [SvmProblem.decision, hsz, Finset.sum_range_succ, Finset.sum_range_zero, h2.1, h2.2] at i0 i1
    simp [pairProblem, SvmProblem.y, SvmProblem.kernel, kernelFormula, denseDot] at i0 i1
    norm_num at i0 i1
    linarith
  intro x hx
  simp only [pairList, List.mem_cons, List.not_mem_nil, or_false] at hx
  rcases hx with rfl | rfl
  · apply hp "a" 0 _ (by simp [pairList])
    · intro b h1 h2
      rcases hlab b h2 with rfl | rfl
      · exact absurd h1 (by decide)
      · exact key.1
    · intro a h1 h2
      rcases hlab a h2 with rfl | rfl <;> exact absurd h1 (by decide)
  · apply hp "b" 0 _ (by simp [pairList])
    · intro b h1 h2
      rcases hlab b h2 with rfl | rfl <;> exact absurd h1 (by decide)
    · intro a h1 h2
      rcases hlab a h2 with rfl | rfl
      · have e1 : (classVectors pairList pairVec "a").length = 1 := by simp [classVectors, pairList]
        rw [e1]; exact key.2
      · exact absurd h1 (by decide)

/-! ## retraining -/

def lineA : IList XR := [⟨"a", [.continuous (.fin 1)], none⟩, ⟨"b", [.continuous (.fin (-1))], none⟩]
def lineB : IList XR := [⟨"a", [.continuous (.fin (-1))], none⟩, ⟨"b", [.continuous (.fin 1)], none⟩]

/-- **C55 is refuted for support vector machines.** A machine trained on `lineB` gives the class `b` to the point 1, as the training data
say; the same machine, trained on `lineA` first, gives it the class `a`: the support vectors and thresholds of
the first training are still there and come first. -/
theorem C55_svm_refuted :
    (Svm.train (Svm.boundedSolver 3 lineParam) (emptySvm XR) lineB lineParam >>= fun m =>
      m.1.predict ⟨"", [.continuous (.fin 1)], none⟩) = .ok "b" ∧
    (Svm.train (Svm.boundedSolver 3 lineParam) (emptySvm XR) lineA lineParam >>= fun m =>
      Svm.train (Svm.boundedSolver 3 lineParam) m.1 lineB lineParam >>= fun m =>
        m.1.predict ⟨"", [.continuous (.fin 1)], none⟩) = .ok "a" := by
  decide +kernel

/-- three classes: training and prediction run through, and all training instances are recognised -/
def lineC : IList XR := [⟨"c", [.continuous (.fin 4)], none⟩, ⟨"a", [.continuous (.fin 0)], none⟩,
  ⟨"b", [.continuous (.fin 2)], none⟩]

example : (Svm.train (Svm.boundedSolver 4 lineParam) (emptySvm XR) lineC lineParam >>= fun m =>
      lineC.mapM m.1.predict) = .ok ["c", "a", "b"] := by decide +kernel

end Verif
