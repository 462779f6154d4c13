import Verif.Props.SvmPredict
import Verif.Props.SolverEnd
import Mathlib.Data.List.Perm.Subperm

/-! # C126: the trained SVM is right about the training instances its solutions are right about -/

set_option linter.unusedSectionVars false
set_option linter.unusedVariables false

namespace Verif
open Dbl

/-! ## a class that wins all its comparisons -/

/-- the class the pair `e` votes for -/
def winner {F : Type} [Dbl F] (f : Nat × Nat → F) (e : Nat × Nat) : Nat := if Dbl.lt Dbl.zero (f e) then e.1 else e.2

theorem votesFor_map {F : Type} [Dbl F] (ps : List (Nat × Nat)) (f : Nat × Nat → F) (c : Nat) :
    votesFor ps (ps.map f) c = (ps.filter (fun e => winner f e == c)).length := by
  unfold votesFor winner
  induction ps with
  | nil => rfl
  | cons e ps ih =>
    simp only [List.map_cons, List.zip_cons_cons, List.filter_cons]
    by_cases h : ((if Dbl.lt Dbl.zero (f e) then e.1 else e.2) == c) = true
    · rw [if_pos h, if_pos h, List.length_cons, List.length_cons, ih]
    · rw [if_neg h, if_neg h]; exact ih

def otherOf (c : Nat) (e : Nat × Nat) : Nat := if e.1 = c then e.2 else e.1

theorem others_nodup {F : Type} [Dbl F] {n : Nat} {ps : List (Nat × Nat)} (hps : IsPairs n ps) (f : Nat × Nat → F) (c : Nat) :
    ((ps.filter (fun e => winner f e == c)).map (otherOf c)).Nodup := by
  apply List.Nodup.map_on
  · rintro ⟨i, j⟩ he ⟨i', j'⟩ he' h
    rw [List.mem_filter] at he he'
    have h1 := (hps.mem i j).mp he.1
    have h2 := (hps.mem i' j').mp he'.1
    have h3 : i = c ∨ j = c := by
      have := he.2
      unfold winner at this
      simp only [beq_iff_eq] at this
      split at this
      · exact Or.inl this
      · exact Or.inr this
    have h4 : i' = c ∨ j' = c := by
      have := he'.2
      unfold winner at this
      simp only [beq_iff_eq] at this
      split at this
      · exact Or.inl this
      · exact Or.inr this
    unfold otherOf at h
    simp only at h
    rw [Prod.mk.injEq]
    split at h <;> split at h <;> omega
  · exact hps.nodup.filter _

/-- **C72** (unanimous winner): a class that wins against every other class gets more votes than any
other class. -/
theorem C72_unanimous {F : Type} [Dbl F] (n : Nat) (ps : List (Nat × Nat)) (hps : IsPairs n ps) (f : Nat × Nat → F) (a : Nat)
    (ha : a < n) (h1 : ∀ j, a < j → j < n → Dbl.lt Dbl.zero (f (a, j)) = true)
    (h2 : ∀ i, i < a → Dbl.lt Dbl.zero (f (i, a)) = false) (c : Nat) (hc : c < n) (hca : c ≠ a) :
    votesFor ps (ps.map f) c < votesFor ps (ps.map f) a := by
  rw [votesFor_map, votesFor_map]
  have hA : n - 1 ≤ (ps.filter (fun e => winner f e == a)).length := by
    have hsub : ((List.range n).erase a) ⊆ (ps.filter (fun e => winner f e == a)).map (otherOf a) := by
      intro k hk
      rw [List.Nodup.mem_erase_iff List.nodup_range, List.mem_range] at hk
      rw [List.mem_map]
      rcases Nat.lt_or_ge k a with hka | hka
      · refine ⟨(k, a), ?_, by simp [otherOf, hk.1]⟩
        rw [List.mem_filter]
        refine ⟨(hps.mem k a).mpr ⟨hka, ha⟩, ?_⟩
        simp [winner, h2 k hka]
      · have hka' : a < k := by omega
        refine ⟨(a, k), ?_, by simp [otherOf]⟩
        rw [List.mem_filter]
        refine ⟨(hps.mem a k).mpr ⟨hka', hk.2⟩, ?_⟩
        simp [winner, h1 k hka' hk.2]
    have := (List.subperm_of_subset (List.nodup_range.erase a) hsub).length_le
    rw [List.length_map, List.length_erase_of_mem (List.mem_range.mpr ha), List.length_range] at this
    exact this
  have hC : (ps.filter (fun e => winner f e == c)).length ≤ n - 2 := by
    have hsub : (ps.filter (fun e => winner f e == c)).map (otherOf c) ⊆ ((List.range n).erase a).erase c := by
      intro k hk
      rw [List.mem_map] at hk
      obtain ⟨⟨i, j⟩, he, rfl⟩ := hk
      rw [List.mem_filter] at he
      have hij := (hps.mem i j).mp he.1
      rw [List.Nodup.mem_erase_iff (List.nodup_range.erase a), List.Nodup.mem_erase_iff List.nodup_range, List.mem_range]
      have hw : winner f (i, j) = c := by simpa using he.2
      unfold winner at hw
      unfold otherOf
      simp only at hw ⊢
      split at hw
      · subst hw
        rw [if_pos rfl]
        refine ⟨by omega, ?_, hij.2⟩
        rintro rfl
        rename_i hlt
        rw [h2 _ hij.1] at hlt
        cases hlt
      · subst hw
        rw [if_neg (by omega)]
        refine ⟨by omega, ?_, by omega⟩
        rintro rfl
        rename_i hlt
        exact hlt (h1 _ hij.1 hij.2)
    have := (List.subperm_of_subset (others_nodup hps f c) hsub).length_le
    rw [List.length_map, List.length_erase_of_mem, List.length_erase_of_mem (List.mem_range.mpr ha), List.length_range] at this
    · omega
    · rw [List.Nodup.mem_erase_iff List.nodup_range, List.mem_range]; exact ⟨hca, hc⟩
  omega

/-! ## the solver behind `solveSingle` -/

theorem run_more {F : Type} [Dbl F] (k n : Nat) (hk : k ≤ n) (s s' : Smo F) (h : Smo.run k s = .ok (s', true)) :
    Smo.run n s = .ok (s', true) := by
  induction k generalizing n s with
  | zero => cases h
  | succ k ih =>
    obtain ⟨n, rfl⟩ : ∃ n', n = n' + 1 := ⟨n - 1, by omega⟩
    simp only [Smo.run] at h ⊢
    cases e : s.iterate with
    | error er => rw [e] at h; cases h
    | ok r =>
      rw [e, res_bind_ok] at h
      rw [res_bind_ok]
      cases hr : r.2 with
      | true => rw [hr] at h; simpa using h
      | false =>
        rw [hr] at h
        simp only [Bool.false_eq_true, if_false] at h ⊢
        exact ih n (by omega) _ h

theorem solve_more {F : Type} [Dbl F] (k n : Nat) (hk : k ≤ n) (l : Nat) (x : List (NodeL F)) (y b : List F) (p : SvmParam F)
    (o : F × List F) (h : Smo.solve k l x y b p = .ok (some o)) : Smo.solve n l x y b p = .ok (some o) := by
  unfold Smo.solve at h ⊢
  cases e : Smo.start l x y b p with
  | error er => rw [e] at h; cases h
  | ok s =>
    rw [e, res_bind_ok] at h
    rw [res_bind_ok]
    cases e2 : Smo.run k s with
    | error er => rw [e2] at h; cases h
    | ok r =>
      obtain ⟨s', stop⟩ := r
      rw [e2, res_bind_ok] at h
      cases stop with
      | false => cases h
      | true =>
        rw [run_more k n hk s s' e2, res_bind_ok]
        exact h

section
variable (p : SvmParam ℝ) (l : IList ℝ) (vec : Inst ℝ → List ℝ) (a b : String)

theorem twoClass_size : (twoClass p l vec a b).size = (classVectors l vec a).length + (classVectors l vec b).length := by
  simp [SvmProblem.size, twoClass]

theorem twoClass_y_left (k : Nat) (hk : k < (classVectors l vec a).length) : (twoClass p l vec a b).y k = 1 := by
  simp [SvmProblem.y, twoClass, List.getElem?_append, hk]

theorem twoClass_y_right (k : Nat) (hk : k < (classVectors l vec b).length) :
    (twoClass p l vec a b).y ((classVectors l vec a).length + k) = -1 := by
  simp [SvmProblem.y, twoClass, hk]

theorem twoClass_valid (hC : 0 < p.C) : (twoClass p l vec a b).Valid := by
  refine ⟨?_, ?_, ?_, hC⟩
  · rw [twoClass_size]; simp [twoClass]
  · rw [twoClass_size]; simp [twoClass]
  · intro i hi
    rw [twoClass_size] at hi
    rcases Nat.lt_or_ge i (classVectors l vec a).length with h | h
    · exact Or.inl (twoClass_y_left p l vec a b i h)
    · obtain ⟨k, rfl⟩ : ∃ k, i = (classVectors l vec a).length + k := ⟨i - (classVectors l vec a).length, by omega⟩
      exact Or.inr (twoClass_y_right p l vec a b k (by omega))

theorem twoClass_b (k : Nat) (hk : k < (twoClass p l vec a b).size) : (twoClass p l vec a b).b k = -1 := by
  rw [twoClass_size] at hk
  simp [SvmProblem.b, twoClass, hk]

theorem signLabels : (twoClass p l vec a b).labels.map Svm.signLabel = (twoClass p l vec a b).labels := by
  simp only [twoClass, List.map_append, List.map_replicate]
  congr 2
  · simp [Svm.signLabel]
  · have : ¬ ((0 : ℝ) < -1) := by norm_num
    simp [Svm.signLabel, this]

/-- the signed multipliers of the solution -/
theorem solveSingle_bounded (hC : 0 < p.C) (N k : Nat) (hk : k ≤ N) (ρ : ℝ) (α : List ℝ)
    (hα : α.length = (twoClass p l vec a b).size)
    (hs : Smo.solve k (twoClass p l vec a b).size ((twoClass p l vec a b).vectors.map nodeList) (twoClass p l vec a b).labels
      (twoClass p l vec a b).linear p = .ok (some (ρ, α))) :
    Svm.solveSingle (Svm.boundedSolver N p) ((twoClass p l vec a b).vectors.map nodeList) (twoClass p l vec a b).labels =
      .ok (ρ, (List.range (twoClass p l vec a b).size).map (fun i => α.getD i 0 * (twoClass p l vec a b).y i)) := by
  obtain ⟨P, hP⟩ : ∃ P, P = twoClass p l vec a b := ⟨_, rfl⟩
  have hv := twoClass_valid p l vec a b hC
  have hsl := signLabels p l vec a b
  have hlin : List.replicate (twoClass p l vec a b).labels.length (Dbl.ofInt (-1) : ℝ) = (twoClass p l vec a b).linear := by
    simp [twoClass]
  rw [← hP] at hα hs hv hsl hlin ⊢
  unfold Svm.solveSingle
  simp only
  rw [hsl, hlin]
  have e1 : Svm.boundedSolver N p (P.vectors.map nodeList) P.labels P.linear = .ok (ρ, α) := by
    unfold Svm.boundedSolver
    rw [hv.labels, solve_more k N hk _ _ _ _ _ _ hs]; rfl
  rw [e1, res_bind_ok, hv.labels]
  rw [mapM_ok (g := fun i => α.getD i 0 * P.y i)]
  · rfl
  · intro i hi
    have hi' := List.mem_range.mp hi
    unfold Svm.signAlpha
    have e2 : idxR α i = .ok (α.getD i 0) := by
      rw [idxR_eq_ok]; simp [hα, hi']
    have e3 : idxR P.labels i = .ok (P.y i) := by
      rw [idxR_eq_ok]; unfold SvmProblem.y; simp [hv.labels, hi']
    rw [e2, res_bind_ok, e3, res_bind_ok]; rfl

/-- on a training vector the decision value is the one of the optimisation problem -/
theorem decisionValue_training (α : Nat → ℝ) (ρ : ℝ) (k : Nat) (hk : k < (twoClass p l vec a b).size) :
    decisionValue p ((twoClass p l vec a b).vectors.getD k []) (classVectors l vec a ++ classVectors l vec b)
      ((List.range (twoClass p l vec a b).size).map (fun i => α i * (twoClass p l vec a b).y i)) ρ =
      (twoClass p l vec a b).decision α ρ k := by
  unfold decisionValue SvmProblem.decision
  have e : (classVectors l vec a ++ classVectors l vec b).length = (twoClass p l vec a b).size := rfl
  rw [e]
  congr 1
  apply Finset.sum_congr rfl
  intro i hi
  have hi' := Finset.mem_range.mp hi
  unfold SvmProblem.kernel
  rw [C67_symmetric]
  have : ((List.range (twoClass p l vec a b).size).map (fun i => α i * (twoClass p l vec a b).y i)).getD i 0 =
      α i * (twoClass p l vec a b).y i := by simp [hi']
  rw [this, mul_comm (α i)]; rfl

end

/-- **C126**: train with the library's own solver, when every two-class problem is solved within
`min (number of its instances) 1000` rounds (`hstop`). Then the multipliers `α a b` and thresholds `ρ a b` satisfy the
constraints and margin conditions up to 0.001, and an instance (the `k`-th of class `c`) whose multiplier is
below `C` in each of the problems of its class is given its own class. -/
theorem C126_training_instances (old : Svm ℝ) (l : IList ℝ) (p : SvmParam ℝ) (vec : Inst ℝ → List ℝ) (N : Nat) (hN : 1000 ≤ N)
    (fresh : old.rho = [] ∧ old.svCounts = [] ∧ old.supportVectors = []) (hC : 0 < p.C)
    (hne : ∀ x, l[0]? = some x → discreteCheck x = true) (hl : l ≠ [])
    (hn : ∀ x ∈ l, x.continuousAttributes = .ok (vec x))
    (hr : ∀ a b, a < b → a ∈ l.map Inst.label → b ∈ l.map Inst.label → (twoClass p l vec a b).InRange)
    (hstop : ∀ a b, a < b → a ∈ l.map Inst.label → b ∈ l.map Inst.label →
      ∃ k o, k ≤ min (twoClass p l vec a b).size 1000 ∧
        Smo.solve k (twoClass p l vec a b).size ((twoClass p l vec a b).vectors.map nodeList)
          (twoClass p l vec a b).labels (twoClass p l vec a b).linear p = .ok (some o)) :
    ∃ (m : Svm ℝ) (α : String → String → Nat → ℝ) (ρ : String → String → ℝ),
      Svm.train (Svm.boundedSolver N p) old l p = .ok (m, l.sortByClass) ∧
      (∀ a b, a < b → a ∈ l.map Inst.label → b ∈ l.map Inst.label →
        (twoClass p l vec a b).Feasible (α a b) ∧ (twoClass p l vec a b).Margins (1/1000) (α a b) (ρ a b)) ∧
      ∀ (c : String) (k : Nat) (x : Inst ℝ), (l.filter (fun x => x.label == c))[k]? = some x →
        (∀ b, c < b → b ∈ l.map Inst.label → α c b k < p.C) →
        (∀ a, a < c → a ∈ l.map Inst.label → α a c ((classVectors l vec a).length + k) < p.C) →
        m.predict x = .ok c := by
  have hch : ∀ a b, ∃ o : ℝ × List ℝ, a < b → a ∈ l.map Inst.label → b ∈ l.map Inst.label →
      ∃ k, k ≤ min (twoClass p l vec a b).size 1000 ∧
        Smo.solve k (twoClass p l vec a b).size ((twoClass p l vec a b).vectors.map nodeList)
          (twoClass p l vec a b).labels (twoClass p l vec a b).linear p = .ok (some o) := by
    intro a b
    by_cases h : a < b ∧ a ∈ l.map Inst.label ∧ b ∈ l.map Inst.label
    · obtain ⟨k, o, hk, e⟩ := hstop a b h.1 h.2.1 h.2.2
      exact ⟨o, fun _ _ _ => ⟨k, hk, e⟩⟩
    · exact ⟨(0, []), fun h1 h2 h3 => absurd ⟨h1, h2, h3⟩ h⟩
  choose O hO using hch
  have hres : ∀ a b, a < b → a ∈ l.map Inst.label → b ∈ l.map Inst.label →
      (O a b).2.length = (twoClass p l vec a b).size ∧ (twoClass p l vec a b).Feasible ((O a b).2.getD · 0) ∧
        (twoClass p l vec a b).Margins (1/1000) ((O a b).2.getD · 0) (O a b).1 := by
    intro a b h1 h2 h3
    obtain ⟨k, hk, e⟩ := hO a b h1 h2 h3
    exact C71_early_stop_partial _ (twoClass_valid p l vec a b hC) (hr a b h1 h2 h3) (twoClass_b p l vec a b) k hk _ _ e
  obtain ⟨m, em, hm⟩ := C125_decision_values (Svm.boundedSolver N p) old l p vec
    (fun a b => ((O a b).1, (List.range (twoClass p l vec a b).size).map
      (fun i => (O a b).2.getD i 0 * (twoClass p l vec a b).y i))) (classPairs l.classDistribution.size) fresh hne hl hn
    (fun a b h1 h2 h3 => by
      obtain ⟨k, hk, e⟩ := hO a b h1 h2 h3
      exact solveSingle_bounded p l vec a b hC N k (by omega) _ _ (hres a b h1 h2 h3).1 e)
    (classPairs_isPairs _)
  refine ⟨m, fun a b => ((O a b).2.getD · 0), fun a b => (O a b).1, em, fun a b h1 h2 h3 => (hres a b h1 h2 h3).2, ?_⟩
  intro c k x hx hup hlow
  have hxl : x ∈ l.filter (fun x => x.label == c) := List.mem_of_getElem? hx
  rw [List.mem_filter] at hxl
  have hcl : c ∈ l.map Inst.label := by
    rw [List.mem_map]; exact ⟨x, hxl.1, by simpa using hxl.2⟩
  have hkc : (classVectors l vec c)[k]? = some (vec x) := by
    unfold classVectors; rw [List.getElem?_map, hx]; rfl
  have hkl : k < (classVectors l vec c).length := lt_of_getElem? hkc
  obtain ⟨values, hv, hval, b, label, hp, hbl, hmax⟩ := hm x (vec x) (hn x hxl.1)
  rw [hp]
  have hd := C10_class_distribution l
  have hci := (hd.mem_items c).mpr hcl
  obtain ⟨i, hi⟩ := List.getElem?_of_mem hci
  have hil : i < l.classDistribution.size := by rw [← items_length]; exact lt_of_getElem? hi
  have hgi : l.classDistribution.getItems.getD i "" = c := by rw [List.getD_eq_getElem?_getD, hi]; rfl
  have hsrt := List.pairwise_iff_getElem.mp hd.sorted
  have hlab : ∀ j, j < l.classDistribution.size →
      l.classDistribution.getItems.getD j "" ∈ l.map Inst.label ∧
      (i < j → c < l.classDistribution.getItems.getD j "") ∧ (j < i → l.classDistribution.getItems.getD j "" < c) := by
    intro j hj
    have hj' : j < l.classDistribution.getItems.length := by rw [items_length]; exact hj
    have hi' : i < l.classDistribution.getItems.length := by rw [items_length]; exact hil
    have e2 : l.classDistribution.getItems.getD j "" = l.classDistribution.getItems[j] := by simp [hj']
    have e1 : c = l.classDistribution.getItems[i] := by
      rw [List.getElem?_eq_getElem hi'] at hi; exact (Option.some.inj hi).symm
    rw [e2, e1]
    refine ⟨(hd.mem_items _).mp (List.getElem_mem hj'), fun h => hsrt i j hi' hj' h, fun h => hsrt j i hj' hi' h⟩
  have hbest : b = i := by
    by_contra hbi
    have hbl' : b < l.classDistribution.size := by rw [← items_length]; exact lt_of_getElem? hbl
    have := C72_unanimous l.classDistribution.size (classPairs _) (classPairs_isPairs _)
      (fun e => decisionValue p (vec x)
        (classVectors l vec (l.classDistribution.getItems.getD e.1 "") ++
          classVectors l vec (l.classDistribution.getItems.getD e.2 ""))
        ((List.range (twoClass p l vec (l.classDistribution.getItems.getD e.1 "")
            (l.classDistribution.getItems.getD e.2 "")).size).map
          (fun i => (O (l.classDistribution.getItems.getD e.1 "") (l.classDistribution.getItems.getD e.2 "")).2.getD i 0 *
            (twoClass p l vec (l.classDistribution.getItems.getD e.1 "")
              (l.classDistribution.getItems.getD e.2 "")).y i))
        (O (l.classDistribution.getItems.getD e.1 "") (l.classDistribution.getItems.getD e.2 "")).1) i hil ?_ ?_ b hbl' hbi
    · have h2 := (hmax i hil).1
      rw [hval] at h2
      exact absurd this (Nat.not_lt.mpr h2)
    · intro j hij hj
      obtain ⟨h1, h2, _⟩ := hlab j hj
      rw [lt_real, zero_real]
      simp only [hgi]
      have hM := (hres c _ (h2 hij) hcl h1).2.2
      have hks : k < (twoClass p l vec c (l.classDistribution.getItems.getD j "")).size := by rw [twoClass_size]; omega
      have hq : vec x = (twoClass p l vec c (l.classDistribution.getItems.getD j "")).vectors.getD k [] := by
        simp only [twoClass, List.getD_eq_getElem?_getD, List.getElem?_append_left hkl, hkc]; rfl
      have := hM.outside k hks (hup _ (h2 hij) h1)
      rw [twoClass_y_left p l vec c _ k hkl] at this
      have e := decisionValue_training p l vec c (l.classDistribution.getItems.getD j "")
        ((O c (l.classDistribution.getItems.getD j "")).2.getD · 0) (O c (l.classDistribution.getItems.getD j "")).1 k hks
      have h3 : 0 < (twoClass p l vec c (l.classDistribution.getItems.getD j "")).decision
          ((O c (l.classDistribution.getItems.getD j "")).2.getD · 0) (O c (l.classDistribution.getItems.getD j "")).1 k := by
        linarith
      rw [← e, ← hq] at h3
      exact decide_eq_true h3
    · intro j hij
      have hj : j < l.classDistribution.size := by omega
      obtain ⟨h1, _, h2⟩ := hlab j hj
      rw [← Bool.not_eq_true, lt_real, zero_real]
      simp only [hgi]
      have hM := (hres _ c (h2 hij) h1 hcl).2.2
      obtain ⟨a, ha⟩ : ∃ a, a = l.classDistribution.getItems.getD j "" := ⟨_, rfl⟩
      rw [← ha] at h1 h2 hM ⊢
      have hks : (classVectors l vec a).length + k < (twoClass p l vec a c).size := by rw [twoClass_size]; omega
      have hq : vec x = (twoClass p l vec a c).vectors.getD ((classVectors l vec a).length + k) [] := by
        simp only [twoClass, List.getD_eq_getElem?_getD]
        rw [List.getElem?_append_right (by omega), Nat.add_sub_cancel_left, hkc]; rfl
      have := hM.outside _ hks (hlow _ (h2 hij) h1)
      rw [twoClass_y_right p l vec a c k hkl] at this
      have e := decisionValue_training p l vec a c ((O a c).2.getD · 0) (O a c).1 _ hks
      intro h4
      have h5 : 0 < (twoClass p l vec a c).decision ((O a c).2.getD · 0) (O a c).1 ((classVectors l vec a).length + k) := by
        rw [← e, ← hq]; exact of_decide_eq_true h4
      linarith
  rw [hbest, hi] at hbl
  rw [Option.some.inj hbl]

end Verif
