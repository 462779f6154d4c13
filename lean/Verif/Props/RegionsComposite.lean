import Verif.Props.Regions

/-! # Property C207: perceptrons and instances with possible classes -/

namespace Verif
open Dbl

/-- what a perceptron answers to a numeric instance with the possible classes `p :: ps` -/
theorem perceptron_composite (W : Mat ℝ) (labels : List String) (hrows : W.rows = labels.length) (q : Inst ℝ) (w : List ℝ)
    (hq : q.attrs = w.map Attr.continuous) (hcols : W.cols = w.length + 1) (p : String) (ps : List String) (hp : q.possible = some (p :: ps))
    (hb : ∀ i < labels.length, -(2 : ℝ) ^ 1024 < score W (fun j => (1 :: w).getD j 0) i) :
    ∃ c, netPredict labels (percOutput W) q = .ok c ∧
      (((∀ a ∈ labels, a ∉ p :: ps) ∧ c = p) ∨
       ∃ k, labels[k]? = some c ∧ c ∈ p :: ps ∧
        (∀ (i : Nat) a, labels[i]? = some a → a ∈ p :: ps → score W (fun j => (1 :: w).getD j 0) i ≤ score W (fun j => (1 :: w).getD j 0) k) ∧
        ∀ (i : Nat) a, i < k → labels[i]? = some a → a ∈ p :: ps →
          score W (fun j => (1 :: w).getD j 0) i < score W (fun j => (1 :: w).getD j 0) k) := by
  have hv : inputVector q = .ok (1 :: w) := by
    unfold inputVector
    rw [toVector_ok q w hq]
    simp only [res_bind_ok, res_pure, one_real]
  have ho : percOutput W (1 :: w) = .ok ((List.range W.rows).map (score W (fun j => (1 :: w).getD j 0))) :=
    C118_perceptron W (1 :: w) (by simp [hcols])
  have hm : (Dbl.neg (Dbl.maxVal : ℝ)) = -(2 ^ 1024 : ℝ) := by rw [← maxVal_real]; simp
  have lt_of : ∀ (i : Nat) (s : String), labels[i]? = some s → i < labels.length := by
    intro i s h
    by_contra hc
    rw [List.getElem?_eq_none_iff.2 (by omega)] at h; cases h
  have at_ : ∀ i, i < labels.length → ((List.range W.rows).map (score W (fun j => (1 :: w).getD j 0)))[i]? =
      some (score W (fun j => (1 :: w).getD j 0) i) := by
    intro i hi
    rw [List.getElem?_map, List.getElem?_range (by omega)]; rfl
  obtain ⟨c, h1, h2, h3⟩ := C76_composite labels ((List.range W.rows).map (score W (fun j => (1 :: w).getD j 0))) p ps (by simp [hrows])
    (ord_real _) (by
      intro v hv
      obtain ⟨i, hi, rfl⟩ := List.mem_map.1 hv
      rw [hm]
      have := hb i (by rw [← hrows]; exact List.mem_range.1 hi)
      simpa using this)
  refine ⟨c, ?_, ?_⟩
  · rw [C76_predict labels (percOutput W) q _ _ (by simp [Inst.isComposite, hp]) hv ho]
    have : q.possibleLabels = p :: ps := by unfold Inst.possibleLabels; rw [hp]
    rw [this]
    exact h1
  · rcases h3 with h3 | ⟨k, v, e1, e2, e3, e4⟩
    · exact .inl h3
    · right
      rw [at_ k (lt_of k c e1)] at e2
      cases e2
      refine ⟨k, e1, h2, fun i a hi ha => ?_, fun i a hik hi ha => ?_⟩
      · have := e3 i a _ hi ha (at_ i (lt_of i a hi))
        simpa [le_real] using this
      · have := e4 i a _ hik hi ha (at_ i (lt_of i a hi))
        simpa [lt_real] using this

/-- **C207.** A linear perceptron and instances with possible classes: if two numeric instances with the same possible classes get the same answer, so
does every instance between them with these possible classes. The scores at the two instances are above `-DBL_MAX`. -/
theorem C207_perceptron_composite (W : Mat ℝ) (labels : List String) (hnd : labels.Nodup) (hrows : W.rows = labels.length)
    {t : ℝ} (h0 : 0 ≤ t) (h1 : t ≤ 1) {x y z : Inst ℝ} (hz : Between t x y z) (p : String) (ps : List String) (hp : x.possible = some (p :: ps))
    (hcols : W.cols = x.attrs.length + 1) {r : String}
    (hbx : ∀ i < labels.length, -(2 : ℝ) ^ 1024 < score W (withBias (fun j => (numbersOf x).getD j 0)) i)
    (hby : ∀ i < labels.length, -(2 : ℝ) ^ 1024 < score W (withBias (fun j => (numbersOf y).getD j 0)) i)
    (hx : netPredict labels (percOutput W) x = .ok r) (hy : netPredict labels (percOutput W) y = .ok r) :
    netPredict labels (percOutput W) z = .ok r := by
  obtain ⟨u, v, huv, hxa, hya, hza, hxy, hxz⟩ := hz
  rw [hxa, List.length_map] at hcols
  have nums : ∀ (q : Inst ℝ) (w : List ℝ), q.attrs = w.map Attr.continuous →
      withBias (fun j => (numbersOf q).getD j 0) = fun j => (1 :: w).getD j 0 := by
    intro q w hq
    have hn : numbersOf q = w := by unfold numbersOf; rw [hq, List.filterMap_map]; exact List.filterMap_some
    rw [hn]
    funext j
    cases j <;> rfl
  rw [nums x u hxa] at hbx
  rw [nums y v hya] at hby
  have hbz : ∀ i < labels.length, -(2 : ℝ) ^ 1024 <
      score W (fun j => (1 :: List.zipWith (fun a b => (1 - t) * a + t * b) u v).getD j 0) i := by
    intro i hi
    rw [score_between W t u v huv]
    have a1 := hbx i hi
    have a2 := hby i hi
    generalize -(2 : ℝ) ^ 1024 = M at a1 a2 ⊢
    rcases eq_or_lt_of_le h0 with ht | ht
    · rw [← ht]; linarith
    · have b1 := mul_le_mul_of_nonneg_left a1.le (sub_nonneg.2 h1)
      have b2 := mul_lt_mul_of_pos_left a2 ht
      linarith
  obtain ⟨c, e1, e⟩ := perceptron_composite W labels hrows x u hxa hcols p ps hp hbx
  obtain ⟨c', f1, f⟩ := perceptron_composite W labels hrows y v hya (by omega) p ps (by rw [hxy, hp]) hby
  obtain ⟨d, g1, g⟩ := perceptron_composite W labels hrows z _ hza (by rw [List.length_zipWith]; omega) p ps (by rw [hxz, hp]) hbz
  rw [hx] at e1; cases e1
  rw [hy] at f1; cases f1
  rcases e with ⟨n1, rfl⟩ | ⟨k, e2, ec, e3, e4⟩
  · rcases g with ⟨-, rfl⟩ | ⟨i, g2, gc, -, -⟩
    · exact g1
    · exact absurd gc (n1 _ (List.mem_of_getElem? g2))
  have hkm := List.mem_of_getElem? e2
  rcases f with ⟨n, -⟩ | ⟨k', f2, -, f3, f4⟩
  · exact absurd ec (n _ hkm)
  rcases g with ⟨n, -⟩ | ⟨i, g2, gc, g3, g4⟩
  · exact absurd ec (n _ hkm)
  have hk : k < labels.length := by
    by_contra hc
    rw [List.getElem?_eq_none_iff.2 (by omega)] at e2; cases e2
  have hkk : k = k' := (List.getElem?_inj hk hnd).1 (e2.trans f2.symm)
  subst hkk
  have hik : i = k := by
    rcases lt_trichotomy i k with h | h | h
    · have a1 := e4 i d h g2 gc
      have a2 := f4 i d h g2 gc
      have a3 := g3 k r e2 ec
      rw [score_between W t u v huv, score_between W t u v huv] at a3
      exfalso
      rcases eq_or_lt_of_le h0 with ht | ht
      · rw [← ht] at a3; linarith
      · have b1 := mul_le_mul_of_nonneg_left a1.le (sub_nonneg.2 h1)
        have b2 := mul_lt_mul_of_pos_left a2 ht
        linarith
    · exact h
    · have a1 := e3 i d g2 gc
      have a2 := f3 i d g2 gc
      have a3 := g4 k r h e2 ec
      rw [score_between W t u v huv, score_between W t u v huv] at a3
      exfalso
      have b1 := mul_le_mul_of_nonneg_left a1 (sub_nonneg.2 h1)
      have b2 := mul_le_mul_of_nonneg_left a2 h0
      linarith
  subst hik
  rw [g2] at e2
  cases e2
  exact g1

/-! ## A concrete case: three classes with the scores `-v`, `v` and `2 v`, of which the third is not possible -/

section

/-- the weights of the three classes -/
def exThree : Mat ℝ := ⟨3, 2, fun i j => if j = 0 then 0 else if i = 0 then -1 else if i = 1 then 1 else 2⟩

/-- the number `v` with the possible classes A and B -/
def exPossible (v : ℝ) : Inst ℝ := ⟨"A", [.continuous v], some ["A", "B"]⟩

theorem exThree_score (w : List ℝ) (i : Nat) : score exThree (fun j => (1 :: w).getD j 0) i =
    (if i = 0 then -1 else if i = 1 then 1 else 2) * w.getD 0 0 := by
  simp [score, exThree, Finset.sum_range_succ]

theorem exThree_bound (v : ℝ) (h1 : -8 < v) (h2 : v < 8) (i : Nat) :
    -(2 : ℝ) ^ 1024 < (if i = 0 then -1 else if i = 1 then 1 else 2) * v := by
  refine lt_trans exBound ?_
  split
  · linarith
  · split <;> linarith

theorem exThree_predict (v : ℝ) (h0 : 0 < v) (h8 : v < 8) :
    netPredict ["A", "B", "C"] (percOutput exThree) (exPossible v) = .ok "B" := by
  obtain ⟨c, h1, h | ⟨k, h2, h3, h4, -⟩⟩ := perceptron_composite exThree ["A", "B", "C"] rfl (exPossible v) [v] rfl rfl "A" ["B"] rfl (by
    intro i _
    rw [exThree_score]
    exact exThree_bound v (by linarith) h8 i)
  · exact absurd (by simp) (h.1 "A" (by simp))
  · rw [h1]
    have := h4 1 "B" rfl (by simp)
    rw [exThree_score, exThree_score] at this
    match k, h2, this with
    | 0, _, this => simp at this; linarith
    | 1, h2, _ => simp at h2; rw [h2]
    | 2, h2, _ => simp at h2; subst h2; simp at h3
    | k + 3, h2, _ => simp at h2

example : netPredict ["A", "B", "C"] (percOutput exThree) (exPossible 2) = .ok "B" :=
  C207_perceptron_composite exThree ["A", "B", "C"] (by decide) rfl (t := 1 / 2) (by norm_num) (by norm_num)
    (x := exPossible 1) (y := exPossible 3) (z := exPossible 2) ⟨[1], [3], rfl, rfl, rfl, by simp [exPossible]; norm_num, rfl, rfl⟩ "A" ["B"] rfl rfl
    (by
      intro i _
      have : withBias (fun j => (numbersOf (exPossible 1)).getD j 0) = fun j => ([1, 1] : List ℝ).getD j 0 := by funext j; cases j <;> rfl
      rw [this, exThree_score]
      exact exThree_bound 1 (by norm_num) (by norm_num) i)
    (by
      intro i _
      have : withBias (fun j => (numbersOf (exPossible 3)).getD j 0) = fun j => ([1, 3] : List ℝ).getD j 0 := by funext j; cases j <;> rfl
      rw [this, exThree_score]
      exact exThree_bound 3 (by norm_num) (by norm_num) i)
    (exThree_predict 1 (by norm_num) (by norm_num)) (exThree_predict 3 (by norm_num) (by norm_num))

end

end Verif
