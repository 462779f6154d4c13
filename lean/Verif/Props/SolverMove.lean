import Verif.Props.SolverInv

/-! # C68, C70, C123: one step of the optimisation, and every reachable state -/

set_option linter.unusedSectionVars false
set_option linter.unusedVariables false
set_option linter.unusedTactic false
set_option linter.unusedSimpArgs false

namespace Verif
open Dbl

/-! ## the new pair of multipliers -/

theorem movePair_range (C yi yj gi gj ai aj qii qjj qij : ℝ) (hai : 0 ≤ ai) (hai' : ai ≤ C) (haj : 0 ≤ aj)
    (haj' : aj ≤ C) :
    let a := movePair C yi yj gi gj ai aj qii qjj qij
    0 ≤ a.1 ∧ a.1 ≤ C ∧ 0 ≤ a.2 ∧ a.2 ≤ C := by
  intro a
  have ha : a = movePair C yi yj gi gj ai aj qii qjj qij := rfl
  unfold movePair at ha
  simp only [eq_real, zero_real, lt_real, sub_real, add_real, decide_eq_true_eq] at ha
  rw [ha]
  split_ifs with h1 h2 h3
  · unfold clipDiff
    simp only [lt_real, zero_real, sub_real, decide_eq_true_eq]
    split_ifs <;> simp_all <;> (try constructor) <;> (try constructor) <;> (try constructor) <;> linarith
  · unfold clipDiffNeg
    simp only [lt_real, zero_real, add_real, neg_real, decide_eq_true_eq]
    split_ifs <;> simp_all <;> (try constructor) <;> (try constructor) <;> (try constructor) <;> linarith
  · unfold clipSumHigh
    simp only [lt_real, zero_real, sub_real, decide_eq_true_eq]
    split_ifs <;> simp_all <;> (try constructor) <;> (try constructor) <;> (try constructor) <;> linarith
  · unfold clipSumLow
    simp only [lt_real, zero_real, decide_eq_true_eq]
    split_ifs <;> simp_all <;> (try constructor) <;> (try constructor) <;> (try constructor) <;> linarith

theorem movePair_balance (C yi yj gi gj ai aj qii qjj qij : ℝ) (hyi : yi = 1 ∨ yi = -1) (hyj : yj = 1 ∨ yj = -1) :
    let a := movePair C yi yj gi gj ai aj qii qjj qij
    yi * a.1 + yj * a.2 = yi * ai + yj * aj := by
  intro a
  have ha : a = movePair C yi yj gi gj ai aj qii qjj qij := rfl
  unfold movePair at ha
  simp only [eq_real, zero_real, lt_real, sub_real, add_real, decide_eq_true_eq] at ha
  rw [ha]
  have key1 : ∀ u v : ℝ, u - v = ai - aj → yi ≠ yj → yi * u + yj * v = yi * ai + yj * aj := by
    intro u v huv hne
    rcases hyi with rfl | rfl <;> rcases hyj with rfl | rfl
    · exact absurd rfl hne
    · linarith
    · linarith
    · exact absurd rfl hne
  have key2 : ∀ u v : ℝ, u + v = ai + aj → yi = yj → yi * u + yj * v = yi * ai + yj * aj := by
    intro u v huv he
    subst he
    rw [← mul_add, ← mul_add, huv]
  split_ifs with h1 h2 h3
  · apply key1 _ _ _ (by simpa using h1)
    unfold clipDiff
    simp only [lt_real, zero_real, sub_real, decide_eq_true_eq]
    split_ifs <;> simp_all
  · apply key1 _ _ _ (by simpa using h1)
    unfold clipDiffNeg
    simp only [lt_real, zero_real, add_real, neg_real, decide_eq_true_eq]
    split_ifs <;> simp_all
  · apply key2 _ _ _ (by simpa using h1)
    unfold clipSumHigh
    simp only [lt_real, zero_real, sub_real, decide_eq_true_eq]
    split_ifs <;> simp_all
  · apply key2 _ _ _ (by simpa using h1)
    unfold clipSumLow
    simp only [lt_real, zero_real, decide_eq_true_eq]
    split_ifs <;> simp_all

theorem eq_map_of_getD (v : List ℝ) (ids : List Nat) (f : Nat → ℝ) (hl : v.length = ids.length)
    (h : ∀ k, k < ids.length → v.getD k 0 = f (ids.getD k 0)) : v = ids.map f := by
  apply List.ext_getElem
  · simpa using hl
  · intro k h1 h2
    have hk : k < ids.length := by rw [← hl]; exact h1
    have := h k hk
    have e1 : v.getD k 0 = v[k] := by simp [h1]
    have e2 : ids.getD k 0 = ids[k] := by simp [hk]
    rw [e1, e2] at this
    simp [this]

section inv
variable {P : SvmProblem} {A : Nat → ℝ} {s : Smo ℝ}

/-- `GBar` after the status of the row `i` changed from `before` to `after` -/
theorem barUpdate_ok (h : SmoInv P A s) {i : Nat} (hi : i < P.size) (before after : Bool) (GB : List ℝ)
    (hGB : GB.length = P.size) (s' : Smo ℝ) (hQ : s'.Q = s.Q) (hl : s'.l = s.l) (hC : s'.C = s.C) :
    ∃ GB', s'.barUpdate i before after GB = .ok GB' ∧ GB'.length = P.size ∧
      ∀ k, k < P.size → GB'.getD k 0 = GB.getD k 0 +
        ((if after then P.param.C * P.q (s.id k) (s.id i) else 0) -
          (if before then P.param.C * P.q (s.id k) (s.id i) else 0)) := by
  unfold Smo.barUpdate
  by_cases hb : before = after
  · rw [if_neg (by simpa using hb)]
    refine ⟨GB, rfl, hGB, ?_⟩
    intro k _
    rw [hb]; ring
  · rw [if_pos (by simpa using hb), hQ, hl, hC, h.getQ hi (by rw [h.l]), res_bind_ok, h.C]
    have hlen : ∀ k ∈ List.range s.l, k < GB.length := by
      intro k hk
      rw [List.mem_range, h.l] at hk
      rw [hGB]; exact hk
    cases before with
    | true =>
      have : after = false := by cases after with | true => exact absurd rfl hb | false => rfl
      subst this
      obtain ⟨GB', e, l1, a1, _⟩ := updateAll_ok GB (0 : ℝ) (List.range s.l)
        (Smo.subScaled P.param.C ((List.range s.l).map (fun j => P.q (s.id i) (s.id j))))
        (fun k old => old - P.param.C * P.q (s.id i) (s.id k)) List.nodup_range hlen
        (by
          intro k hk a
          rw [List.mem_range] at hk
          unfold Smo.subScaled
          rw [idxR_range_map _ _ _ hk, res_bind_ok]; rfl)
      refine ⟨GB', e, by rw [l1, hGB], ?_⟩
      intro k hk
      rw [a1 k (by rw [List.mem_range, h.l]; exact hk), P.q_comm (s.id k)]
      simp; ring
    | false =>
      have : after = true := by cases after with | true => rfl | false => exact absurd rfl hb
      subst this
      obtain ⟨GB', e, l1, a1, _⟩ := updateAll_ok GB (0 : ℝ) (List.range s.l)
        (Smo.addScaled P.param.C ((List.range s.l).map (fun j => P.q (s.id i) (s.id j))))
        (fun k old => old + P.param.C * P.q (s.id i) (s.id k)) List.nodup_range hlen
        (by
          intro k hk a
          rw [List.mem_range] at hk
          unfold Smo.addScaled
          rw [idxR_range_map _ _ _ hk, res_bind_ok]; rfl)
      refine ⟨GB', e, by rw [l1, hGB], ?_⟩
      intro k hk
      rw [a1 k (by rw [List.mem_range, h.l]; exact hk), P.q_comm (s.id k)]
      simp

/-- the multipliers after a step -/
noncomputable def movedTo (P : SvmProblem) (A : Nat → ℝ) (p r : Nat) : Nat → ℝ :=
  let a := movePair P.param.C (P.y p) (P.y r) (P.gradient A p) (P.gradient A r) (A p) (A r)
    (P.q p p) (P.q r r) (P.q p r)
  Function.update (Function.update A p a.1) r a.2

theorem SmoInv.move (hv : P.Valid) (h : SmoInv P A s) {i j : Nat} (hi : i < s.activeSize)
    (hj : j < s.activeSize) (hij : i ≠ j) :
    ∃ s', s.move i j = .ok s' ∧ SmoInv P (movedTo P A (s.id i) (s.id j)) s' ∧
      s'.activeSet = s.activeSet ∧ s'.activeSize = s.activeSize ∧ s'.counter = s.counter := by
  have hact := h.active
  have hi' : i < P.size := by omega
  have hj' : j < P.size := by omega
  have hpl : s.id i < P.size := h.ids.getD_lt hi'
  have hrl : s.id j < P.size := h.ids.getD_lt hj'
  have hpr : s.id i ≠ s.id j := fun e => hij (h.ids.getD_inj hi' hj' e)
  obtain ⟨p, hp⟩ : ∃ p, p = s.id i := ⟨_, rfl⟩
  obtain ⟨r, hr⟩ : ∃ r, r = s.id j := ⟨_, rfl⟩
  obtain ⟨a, ha⟩ : ∃ a, a = movePair P.param.C (P.y p) (P.y r) (P.gradient A p) (P.gradient A r) (A p) (A r)
    (P.q p p) (P.q r r) (P.q p r) := ⟨_, rfl⟩
  obtain ⟨A', hA'⟩ : ∃ A', A' = movedTo P A p r := ⟨_, rfl⟩
  have hA'2 : A' = Function.update (Function.update A p a.1) r a.2 := by
    rw [hA', ha]; rfl
  rw [← hp, ← hr] at hpr
  rw [← hp] at hpl
  rw [← hr] at hrl
  have Ap : A' p = a.1 := by rw [hA'2, Function.update_of_ne hpr, Function.update_self]
  have Ar : A' r = a.2 := by rw [hA'2, Function.update_self]
  have Ao : ∀ k, k ≠ p → k ≠ r → A' k = A k := by
    intro k h1 h2
    rw [hA'2, Function.update_of_ne h2, Function.update_of_ne h1]
  have hidl := h.idlen
  have hn := h.ids.nodup
  have hil : i < s.activeSet.length := by omega
  have hjl : j < s.activeSet.length := by omega
  -- the new multipliers
  have eAlpha : (s.alpha.set i a.1).set j a.2 = s.activeSet.map A' := by
    rw [h.alpha, map_set_update _ _ _ _ hil hn, map_set_update _ _ _ _ hjl hn, hA'2, hp, hr]
  have eMove : s.moveAlpha i j ((List.range s.activeSize).map (fun k => P.q (s.id i) (s.id k)))
      ((List.range s.activeSize).map (fun k => P.q (s.id j) (s.id k))) =
      .ok (s.activeSet.map A', a.1 - A p, a.2 - A r) := by
    unfold Smo.moveAlpha
    rw [h.get_alpha hi', res_bind_ok, h.get_alpha hj', res_bind_ok, h.get_y hi', res_bind_ok, h.get_y hj',
      res_bind_ok, h.get_G hi, res_bind_ok, h.get_G hj, res_bind_ok, idxR_range_map _ _ _ hi, res_bind_ok,
      idxR_range_map _ _ _ hj, res_bind_ok, idxR_range_map _ _ _ hj, res_bind_ok, h.C]
    rw [← hp, ← hr, ← ha]
    simp only
    rw [eAlpha]
    rfl
  -- the gradient
  obtain ⟨G', eG, lG, gG, _⟩ := updateAll_ok s.G (0 : ℝ) (List.range s.activeSize)
    (Smo.gradEntry ((List.range s.activeSize).map (fun k => P.q (s.id i) (s.id k)))
      ((List.range s.activeSize).map (fun k => P.q (s.id j) (s.id k))) (a.1 - A p) (a.2 - A r))
    (fun k old => old + (P.q p (s.id k) * (a.1 - A p) + P.q r (s.id k) * (a.2 - A r))) List.nodup_range
    (by intro k hk; rw [List.mem_range] at hk; rw [h.Glen]; omega)
    (by
      intro k hk old
      rw [List.mem_range] at hk
      unfold Smo.gradEntry
      rw [idxR_range_map _ _ _ hk, res_bind_ok, idxR_range_map _ _ _ hk, res_bind_ok, hp, hr]
      rfl)
  -- the statuses
  have eSt : (s.status.set i (statusOf P.param.C a.1)).set j (statusOf P.param.C a.2) =
      s.activeSet.map (fun k => statusOf P.param.C (A' k)) := by
    rw [h.status, map_set_update _ _ _ _ hil hn, map_set_update _ _ _ _ hjl hn]
    apply List.map_congr_left
    intro k _
    have e1 : s.activeSet.getD i 0 = p := hp.symm
    have e2 : s.activeSet.getD j 0 = r := hr.symm
    rw [e1, e2]
    by_cases k1 : k = r
    · subst k1; rw [Function.update_self, Ar]
    · rw [Function.update_of_ne k1]
      by_cases k2 : k = p
      · subst k2; rw [Function.update_self, Ap]
      · rw [Function.update_of_ne k2, Ao k k2 k1]
  obtain ⟨s3, hs3⟩ : ∃ s3 : Smo ℝ, 
      s3 = ({ s with
        alpha := s.activeSet.map A'
        G := G'
        status := s.activeSet.map (fun k => statusOf P.param.C (A' k)) } : Smo ℝ) := ⟨_, rfl⟩
  have eS : (({ s with alpha := s.activeSet.map A', G := G' } : Smo ℝ).updateAlphaStatus i >>=
      fun s => s.updateAlphaStatus j) = .ok s3 := by
    unfold Smo.updateAlphaStatus
    simp only
    rw [idxR_map _ _ _ hil, res_bind_ok, h.get_status hi', res_bind_ok, res_pure, res_bind_ok]
    simp only
    rw [idxR_map _ _ _ hjl, res_bind_ok]
    have hstl : j < (s.status.set i (statusOf s.C (A' (s.activeSet.getD i 0)))).length := by
      rw [List.length_set, h.status]; simpa using hjl
    rw [idxR_ok_of_lt hstl, res_bind_ok, res_pure]
    have e1 : s.activeSet.getD i 0 = p := hp.symm
    have e2 : s.activeSet.getD j 0 = r := hr.symm
    rw [e1, e2, Ap, Ar, h.C, eSt, hs3, h.C]
  -- GBar
  have hstat : ∀ k, k < P.size → idxR s3.status k = .ok (statusOf P.param.C (A' (s.id k))) := by
    intro k hk
    rw [hs3]
    exact idxR_map _ _ _ (by rw [hidl]; exact hk)
  have hGBl : s.GBar.length = P.size := by rw [h.GBar]; simpa using hidl
  obtain ⟨B1, eB1, lB1, gB1⟩ := barUpdate_ok h hi' (decide (statusOf P.param.C (A p) = .upper))
    (decide (statusOf P.param.C (A' p) = .upper)) s.GBar hGBl s3 (by rw [hs3]) (by rw [hs3]) (by rw [hs3])
  obtain ⟨B2, eB2, lB2, gB2⟩ := barUpdate_ok h hj' (decide (statusOf P.param.C (A r) = .upper))
    (decide (statusOf P.param.C (A' r) = .upper)) B1 lB1 s3 (by rw [hs3]) (by rw [hs3]) (by rw [hs3])
  have eBar : B2 = s.activeSet.map (upperPart P A') := by
    apply eq_map_of_getD _ _ _ (by rw [lB2, hidl])
    intro k hk
    rw [hidl] at hk
    rw [gB2 k hk, gB1 k hk]
    have e0 : s.GBar.getD k 0 = upperPart P A (s.id k) := by
      have := h.get_bar hk
      rw [idxR_getD0 _ _ (by rw [hGBl]; exact hk)] at this
      exact Except.ok.inj this
    rw [e0]
    unfold upperPart
    rw [sum_two_changes P.size
      (fun m => if statusOf P.param.C (A m) = .upper then P.param.C * P.q (s.id k) m else 0)
      (fun m => if statusOf P.param.C (A' m) = .upper then P.param.C * P.q (s.activeSet.getD k 0) m else 0)
      p r hpl hrl hpr
      (by intro m h1 h2; simp only [Ao m h1 h2, Smo.id])]
    simp only [decide_eq_true_eq, ← hp, ← hr, Smo.id]
  refine ⟨{ s3 with GBar := B2 }, ?_, ?_, by rw [hs3], by rw [hs3], by rw [hs3]⟩
  · unfold Smo.move
    rw [h.getQ hi' h.active, res_bind_ok, h.getQ hj' h.active, res_bind_ok, eMove, res_bind_ok]
    simp only
    rw [eG, res_bind_ok]
    unfold Smo.isUpper
    rw [h.get_status hi', res_bind_ok, res_pure, res_bind_ok, h.get_status hj', res_bind_ok, res_pure, res_bind_ok]
    rw [bind_ok_iff] at eS
    obtain ⟨s2, q1, q2⟩ := eS
    rw [q1, res_bind_ok, q2, res_bind_ok, hstat i hi', res_bind_ok, res_pure, res_bind_ok]
    have : s3.GBar = s.GBar := by rw [hs3]
    rw [this, ← hp, ← hr, eB1, res_bind_ok, hstat j hj', res_bind_ok, res_pure, res_bind_ok, ← hr, eB2, res_bind_ok]
    rfl
  · rw [← hp, ← hr, ← hA', hs3]
    have box := movePair_range P.param.C (P.y p) (P.y r) (P.gradient A p) (P.gradient A r) (A p) (A r)
      (P.q p p) (P.q r r) (P.q p r) (h.feasible.lower p hpl) (h.feasible.upper p hpl)
      (h.feasible.lower r hrl) (h.feasible.upper r hrl)
    simp only [← ha] at box
    have bal := movePair_balance P.param.C (P.y p) (P.y r) (P.gradient A p) (P.gradient A r) (A p) (A r)
      (P.q p p) (P.q r r) (P.q p r) (hv.sign p hpl) (hv.sign r hrl)
    simp only [← ha] at bal
    refine ⟨h.l, h.active, h.C, h.ids, h.y, h.b, h.Qy, h.kernel, rfl, rfl, eBar, by rw [lG, h.Glen], ?_, ?_, ⟨?_, ?_, ?_⟩⟩
    · intro k hk
      have hk : k < s.activeSize := hk
      show G'.getD k 0 = P.gradient A' (s.id k)
      rw [gG k (by rw [List.mem_range]; exact hk), h.G k hk]
      unfold SvmProblem.gradient
      rw [sum_two_changes P.size (fun m => A m * P.q (s.id k) m) (fun m => A' m * P.q (s.id k) m) p r hpl hrl hpr
        (by intro m h1 h2; simp only [Ao m h1 h2])]
      simp only [Ap, Ar, P.q_comm p, P.q_comm r, Smo.id]
      ring
    · intro k hk hk'
      have hk : s.activeSize ≤ k := hk
      show statusOf P.param.C (A' (s.id k)) ≠ .free
      rw [Ao]
      · exact h.bound k hk hk'
      · rw [hp]; intro e
        have := h.ids.getD_inj hk' hi' e
        omega
      · rw [hr]; intro e
        have := h.ids.getD_inj hk' hj' e
        omega
    · intro k hk
      by_cases k1 : k = p
      · rw [k1, Ap]; exact box.1
      · by_cases k2 : k = r
        · rw [k2, Ar]; exact box.2.2.1
        · rw [Ao k k1 k2]; exact h.feasible.lower k hk
    · intro k hk
      by_cases k1 : k = p
      · rw [k1, Ap]; exact box.2.1
      · by_cases k2 : k = r
        · rw [k2, Ar]; exact box.2.2.2
        · rw [Ao k k1 k2]; exact h.feasible.upper k hk
    · rw [sum_two_changes P.size (fun m => P.y m * A m) (fun m => P.y m * A' m) p r hpl hrl hpr
        (by intro m h1 h2; simp only [Ao m h1 h2]), h.feasible.balance]
      simp only [Ap, Ar]
      linarith

end inv

end Verif
