import Verif.Spec.Between
import Verif.Props.SvmStop

/-! # C207: support vector machines with the linear kernel and two classes -/

namespace Verif
open Dbl

theorem denseDot_between (t : ℝ) {u v : List ℝ} (h : u.length = v.length) (s : List ℝ) :
    denseDot (List.zipWith (fun a b => (1 - t) * a + t * b) u v) s = (1 - t) * denseDot u s + t * denseDot v s := by
  unfold denseDot
  rw [List.length_zipWith, ← h, min_self, Finset.mul_sum, Finset.mul_sum, ← Finset.sum_add_distrib]
  refine Finset.sum_congr rfl (fun i _ => ?_)
  by_cases hi : i < u.length
  · have hi' : i < v.length := by omega
    have e : (List.zipWith (fun a b => (1 - t) * a + t * b) u v).getD i 0 = (1 - t) * u.getD i 0 + t * v.getD i 0 := by
      simp [List.getD_eq_getElem?_getD, hi, hi']
    rw [e]; ring
  · have hi' : ¬ i < v.length := by omega
    have e : (List.zipWith (fun a b => (1 - t) * a + t * b) u v).getD i 0 = 0 := by
      simp [List.getD_eq_getElem?_getD, hi]
    have e1 : u.getD i 0 = 0 := by simp [List.getD_eq_getElem?_getD, hi]
    have e2 : v.getD i 0 = 0 := by simp [List.getD_eq_getElem?_getD, hi']
    rw [e, e1, e2]; ring

theorem decisionValue_between {p : SvmParam ℝ} (hk : p.kernelType = .linear) (t : ℝ) {u v : List ℝ} (h : u.length = v.length)
    (xs : List (List ℝ)) (w : List ℝ) (ρ : ℝ) :
    decisionValue p (List.zipWith (fun a b => (1 - t) * a + t * b) u v) xs w ρ =
      (1 - t) * decisionValue p u xs w ρ + t * decisionValue p v xs w ρ := by
  unfold decisionValue
  have e : ∀ q s, kernelFormula p q s = denseDot q s := by intro q s; simp [kernelFormula, hk]
  simp only [e, denseDot_between t h]
  rw [mul_sub, mul_sub, Finset.mul_sum, Finset.mul_sum]
  have : ∀ k, w.getD k 0 * ((1 - t) * denseDot u (xs.getD k []) + t * denseDot v (xs.getD k [])) =
      (1 - t) * (w.getD k 0 * denseDot u (xs.getD k [])) + t * (w.getD k 0 * denseDot v (xs.getD k [])) := by
    intro k; ring
  simp only [this, Finset.sum_add_distrib]
  ring

theorem contAttrs_numbers {x : Inst ℝ} {u : List ℝ} (h : x.attrs = u.map Attr.continuous) : x.continuousAttributes = .ok u := by
  unfold Inst.continuousAttributes
  rw [h]
  have : ∀ (r : List ℝ), List.foldlM (fun r (a : Attr ℝ) => do
      let inserted ← a.continuousAttributes
      pure (r ++ inserted)) r (u.map Attr.continuous) = (.ok (r ++ u) : Res (List ℝ)) := by
    clear h
    induction u with
    | nil => intro r; simp
    | cons a u ih =>
      intro r
      have e : (Attr.continuous a).continuousAttributes = (.ok [a] : Res (List ℝ)) := rfl
      rw [List.map_cons, List.foldlM_cons, e, res_bind_ok]
      refine (ih (r ++ [a])).trans ?_
      rw [List.append_assoc]; rfl
  exact this []

/-- the votes of one machine for two classes -/
theorem two_votes {v : ℝ} {c : Nat} (hc : c < 2)
    (h : ∀ c', c' < 2 → votesFor [(0, 1)] [v] c' ≤ votesFor [(0, 1)] [v] c ∧ (c' < c → votesFor [(0, 1)] [v] c' < votesFor [(0, 1)] [v] c)) :
    c = if 0 < v then 0 else 1 := by
  have h0 := h 0 (by omega)
  have h1 := h 1 (by omega)
  by_cases hv : 0 < v
  · rw [if_pos hv]
    by_contra hne
    have : c = 1 := by omega
    subst this
    have := h0.2 (by omega)
    simp [votesFor, hv] at this
  · rw [if_neg hv]
    by_contra hne
    have : c = 0 := by omega
    subst this
    have := h1.1
    simp [votesFor, hv] at this

/-- **C207.** A support vector machine with the linear kernel, trained on two classes, whatever the solutions of the two-class problem
are: if two numeric instances get the same answer, so does every instance between them. -/
theorem C207_svm (solve : List (NodeL ℝ) → List ℝ → List ℝ → Res (ℝ × List ℝ)) (old : Svm ℝ) (l : IList ℝ)
    (p : SvmParam ℝ) (vec : Inst ℝ → List ℝ) (W : String → String → ℝ × List ℝ)
    (fresh : old.rho = [] ∧ old.svCounts = [] ∧ old.supportVectors = []) (hk : p.kernelType = .linear)
    (hne : ∀ x, l[0]? = some x → discreteCheck x = true) (hn : ∀ x ∈ l, x.continuousAttributes = .ok (vec x))
    (hsolve : ∀ a b, a < b → a ∈ l.map Inst.label → b ∈ l.map Inst.label →
      Svm.solveSingle solve ((twoClass p l vec a b).vectors.map nodeList) (twoClass p l vec a b).labels = .ok (W a b))
    (htwo : l.classDistribution.size = 2) :
    ∃ m, Svm.train solve old l p = .ok (m, l.sortByClass) ∧
      ∀ {t : ℝ}, 0 ≤ t → t ≤ 1 → ∀ {x y z : Inst ℝ}, Between t x y z → ∀ {r : String},
        m.predict x = .ok r → m.predict y = .ok r → m.predict z = .ok r := by
  have hl : l ≠ [] := by
    rintro rfl
    exact absurd htwo (by decide)
  have hps : IsPairs l.classDistribution.size [(0, 1)] := by
    rw [htwo]
    refine ⟨fun i j => ?_, by simp⟩
    simp only [List.mem_singleton, Prod.mk.injEq]
    omega
  obtain ⟨m, h1, h2⟩ := C125_decision_values solve old l p vec W [(0, 1)] fresh hne hl hn hsolve hps
  refine ⟨m, h1, ?_⟩
  set items := l.classDistribution.getItems with hitems
  set f := fun q => decisionValue p q (classVectors l vec (items.getD 0 "") ++ classVectors l vec (items.getD 1 ""))
    (W (items.getD 0 "") (items.getD 1 "")).2 (W (items.getD 0 "") (items.getD 1 "")).1 with hf
  have hlen : items.length = 2 := by rw [← htwo]; exact items_length _
  have key : ∀ (x : Inst ℝ) (q : List ℝ), x.attrs = q.map Attr.continuous →
      ∃ label, m.predict x = .ok label ∧ items[if 0 < f q then 0 else 1]? = some label := by
    intro x q hx
    obtain ⟨values, _, e, c, label, h3, h4, h5⟩ := h2 x q (contAttrs_numbers hx)
    have e' : values = [f q] := e
    subst e'
    rw [htwo] at h5
    have hc : c < 2 := by rw [← hlen]; exact (List.getElem?_eq_some_iff.1 h4).1
    rw [two_votes hc h5] at h4
    exact ⟨label, h3, h4⟩
  intro t h0 h1 x y z hz r hx hy
  obtain ⟨u, v, huv, ex, ey, ez, _, _⟩ := hz
  obtain ⟨a, a1, a2⟩ := key x u ex
  obtain ⟨b, b1, b2⟩ := key y v ey
  obtain ⟨c, c1, c2⟩ := key z _ ez
  rw [hx] at a1; cases a1
  rw [hy] at b1; cases b1
  have hnd : items.Nodup := (C10_class_distribution l).sorted.imp (fun h => ne_of_lt h)
  have hsame : (if 0 < f u then 0 else 1) = (if 0 < f v then 0 else 1) :=
    (hnd.getElem_inj_iff).1 ((List.getElem?_eq_some_iff.1 a2).2.trans (List.getElem?_eq_some_iff.1 b2).2.symm)
  have hmix : f (List.zipWith (fun a b => (1 - t) * a + t * b) u v) = (1 - t) * f u + t * f v := decisionValue_between hk t huv _ _ _
  have hz : (if 0 < f (List.zipWith (fun a b => (1 - t) * a + t * b) u v) then 0 else 1) = (if 0 < f u then 0 else 1) := by
    rw [hmix]
    by_cases hu : 0 < f u
    · have hv : 0 < f v := by
        by_contra h
        rw [if_pos hu, if_neg h] at hsame
        cases hsame
      rw [if_pos hu, if_pos]
      rcases eq_or_lt_of_le h0 with h | h
      · rw [← h]; linarith
      · have b1 : 0 ≤ (1 - t) * f u := mul_nonneg (sub_nonneg.2 h1) hu.le
        have b2 : 0 < t * f v := mul_pos h hv
        linarith
    · have hv : ¬ 0 < f v := by
        intro h
        rw [if_neg hu, if_pos h] at hsame
        cases hsame
      rw [if_neg hu, if_neg]
      have b1 : (1 - t) * f u ≤ 0 := mul_nonpos_of_nonneg_of_nonpos (sub_nonneg.2 h1) (not_lt.1 hu)
      have b2 : t * f v ≤ 0 := mul_nonpos_of_nonneg_of_nonpos h0 (not_lt.1 hv)
      linarith
  rw [hz, a2] at c2
  cases c2
  exact c1

/-! ## the hypotheses are met -/

/-- one instance of each class, solved by the program's own solver: whatever lies between two points of the same answer gets it too -/
example : ∃ m, Svm.train (Svm.boundedSolver 1000 pairParam) (emptySvm ℝ) pairList pairParam = .ok (m, pairList.sortByClass) ∧
    ∀ {t : ℝ}, 0 ≤ t → t ≤ 1 → ∀ {x y z : Inst ℝ}, Between t x y z → ∀ {r : String},
      m.predict x = .ok r → m.predict y = .ok r → m.predict z = .ok r := by
  refine C207_svm (Svm.boundedSolver 1000 pairParam) (emptySvm ℝ) pairList pairParam pairVec (fun a b => (0,
    (List.range (twoClass pairParam pairList pairVec a b).size).map
      (fun i => ([1/2, 1/2] : List ℝ).getD i 0 * (twoClass pairParam pairList pairVec a b).y i))) ⟨rfl, rfl, rfl⟩ rfl
    (by intro x hx; cases hx; rfl) ?_ ?_ rfl
  · intro x hx
    simp only [pairList, List.mem_cons, List.not_mem_nil, or_false] at hx
    rcases hx with rfl | rfl
    · simp [pairVec]; rfl
    · simp [pairVec]; rfl
  · intro a b h1 h2 h3
    refine solveSingle_bounded pairParam pairList pairVec a b (by norm_num [pairParam]) 1000 2 (by norm_num) 0 [1/2, 1/2] ?_ ?_
    · rw [pair_twoClass a b h1 h2 h3]; rfl
    · rw [pair_twoClass a b h1 h2 h3]; exact pair_solve

/-- a point between two points -/
example : Between (1/2) (⟨"?", [.continuous 1], none⟩ : Inst ℝ) ⟨"?", [.continuous 3], none⟩ ⟨"?", [.continuous 2], none⟩ :=
  ⟨[1], [3], rfl, rfl, rfl, by simp; norm_num, rfl, rfl⟩

end Verif
