import Verif.Spec.Columns
import Verif.Props.UnitsGauss
import Verif.Props.Instance
import Verif.Props.TreeFit

/-! # Property C166: the order of the columns -/

set_option linter.unusedSectionVars false

namespace Verif
open Dbl

/-! ## reordered instances -/

section
variable {F : Type} [Dbl F] {σ : List Nat} {n : Nat}

theorem perm_length (hσ : IsPermutation σ n) : σ.length = n := by
  have := List.Perm.length_eq hσ
  simpa using this

theorem perm_lt (hσ : IsPermutation σ n) : ∀ i ∈ σ, i < n := fun i hi => by
  have := (List.Perm.mem_iff hσ).1 hi
  simpa using this

theorem perm_getD_lt (hσ : IsPermutation σ n) {i : Nat} (hi : i < n) : σ.getD i 0 < n := by
  rw [List.getD_eq_getElem?_getD, List.getElem?_eq_getElem (by rw [perm_length hσ]; exact hi)]
  exact perm_lt hσ _ (List.getElem_mem _)

theorem perm_eq_map (hσ : IsPermutation σ n) : σ = (List.range n).map (fun i => σ.getD i 0) := by
  apply List.ext_getElem?
  intro i
  by_cases hi : i < n
  · have : i < σ.length := by rw [perm_length hσ]; exact hi
    rw [List.getElem?_map, List.getElem?_range hi]
    simp [List.getD_eq_getElem?_getD, List.getElem?_eq_getElem this]
  · rw [List.getElem?_eq_none_iff.2 (by rw [perm_length hσ]; omega),
      List.getElem?_eq_none_iff.2 (by simp; omega)]

theorem sum_reorder (hσ : IsPermutation σ n) (f : Nat → ℝ) :
    ((List.range n).map (fun i => f (σ.getD i 0))).sum = ((List.range n).map f).sum := by
  have h1 : (List.range n).map (fun i => f (σ.getD i 0)) = σ.map f := by
    conv_rhs => rw [perm_eq_map hσ, List.map_map]
    rfl
  rw [h1]
  exact (List.Perm.map f hσ).sum_eq

/-- the permutation of the columns -/
noncomputable def permEquiv (hσ : IsPermutation σ n) : Fin n ≃ Fin n :=
  Equiv.ofBijective (fun i : Fin n => (⟨σ.getD i 0, perm_getD_lt hσ i.2⟩ : Fin n)) (by
    apply Finite.injective_iff_bijective.1
    intro i j h
    have hnd : σ.Nodup := (List.Perm.nodup_iff hσ).2 List.nodup_range
    have h1 : σ.getD i 0 = σ.getD j 0 := congrArg Fin.val h
    have hi : i.1 < σ.length := by rw [perm_length hσ]; exact i.2
    have hj : j.1 < σ.length := by rw [perm_length hσ]; exact j.2
    rw [List.getD_eq_getElem?_getD, List.getD_eq_getElem?_getD, List.getElem?_eq_getElem hi, List.getElem?_eq_getElem hj] at h1
    exact Fin.ext ((hnd.getElem_inj_iff).1 h1))

theorem permEquiv_val (hσ : IsPermutation σ n) (i : Fin n) : (permEquiv hσ i : Nat) = σ.getD i 0 := rfl

theorem reorder_attrs (hσ : IsPermutation σ n) (x : Inst F) (hx : x.attrs.length = n) {i : Nat} (hi : i < n) :
    (reorder σ x).attrs[i]? = x.attrs[σ.getD i 0]? := by
  have key : ∀ (s : List Nat), (∀ j ∈ s, j < n) → ∀ i, i < s.length →
      (s.filterMap (fun j => x.attrs[j]?))[i]? = x.attrs[s.getD i 0]? := by
    intro s
    induction s with
    | nil => intro _ i hi; simp at hi
    | cons j s ih =>
      intro hs i hi
      have hj : j < x.attrs.length := by rw [hx]; exact hs j (by simp)
      rw [List.filterMap_cons, List.getElem?_eq_getElem hj]
      cases i with
      | zero => simp [List.getElem?_eq_getElem hj]
      | succ i =>
        simp only [List.getElem?_cons_succ, List.getD_cons_succ]
        exact ih (fun k hk => hs k (by simp [hk])) i (by simpa using hi)
  exact key σ (perm_lt hσ) i (by rw [perm_length hσ]; exact hi)

theorem reorder_length (hσ : IsPermutation σ n) (x : Inst F) (hx : x.attrs.length = n) : (reorder σ x).attrs.length = n := by
  have key : ∀ (s : List Nat), (∀ j ∈ s, j < n) → (s.filterMap (fun j => x.attrs[j]?)).length = s.length := by
    intro s
    induction s with
    | nil => intro _; rfl
    | cons j s ih =>
      intro hs
      have hj : j < x.attrs.length := by rw [hx]; exact hs j (by simp)
      rw [List.filterMap_cons, List.getElem?_eq_getElem hj]
      simp [ih (fun k hk => hs k (by simp [hk]))]
  rw [← perm_length hσ]
  exact key σ (perm_lt hσ)

/-- reordering is what projection on all features in another order does -/
theorem reorder_projection (hσ : IsPermutation σ n) (x : Inst F) (hx : x.attrs.length = n) (hp : x.possible = none) :
    x.getSubSetOfFeatures σ = .ok (reorder σ x) := by
  have h := subset_loop x σ ⟨x.label, [], none⟩ (fun f hf => by rw [hx]; exact perm_lt hσ f hf)
  unfold Inst.getSubSetOfFeatures
  rw [h]
  simp [reorder, hp]

theorem labels_reorder (l : IList F) : (l.map (reorder σ)).map Inst.label = l.map Inst.label := by
  rw [List.map_map]; rfl

theorem dist_reorder (l : IList F) : IList.classDistribution (l.map (reorder σ)) = l.classDistribution := by
  rw [classDistribution_eq, classDistribution_eq, labels_reorder]

end

/-! ## distances -/

section
variable {σ : List Nat} {n : Nat}

theorem zipWith_sum_range (p q : List (Attr ℝ)) (hp : p.length = n) (hq : q.length = n) (f : Attr ℝ → Attr ℝ → ℝ) :
    (List.zipWith f p q).sum =
      ((List.range n).map (fun i => f (p.getD i (.continuous 0)) (q.getD i (.continuous 0)))).sum := by
  congr 1
  apply List.ext_getElem?
  intro i
  by_cases hi : i < n
  · rw [List.getElem?_zipWith, List.getElem?_map, List.getElem?_range hi,
      List.getElem?_eq_getElem (show i < p.length by omega), List.getElem?_eq_getElem (show i < q.length by omega)]
    simp [List.getD_eq_getElem?_getD, List.getElem?_eq_getElem (show i < p.length by omega),
      List.getElem?_eq_getElem (show i < q.length by omega)]
  · rw [List.getElem?_eq_none_iff.2 (by simp; omega), List.getElem?_eq_none_iff.2 (by simp; omega)]

theorem euclidean_reorder (hσ : IsPermutation σ n) (x y : Inst ℝ) (hx : x.attrs.length = n) (hy : y.attrs.length = n) :
    ∃ d, euclidean x y = .ok d ∧ euclidean (reorder σ x) (reorder σ y) = .ok d := by
  refine ⟨_, C51_sum x y (by omega), ?_⟩
  have hx' := reorder_length hσ x hx
  have hy' := reorder_length hσ y hy
  rw [C51_sum _ _ (by omega), zipWith_sum_range _ _ hx' hy', zipWith_sum_range _ _ hx hy]
  congr 1
  rw [← sum_reorder hσ (fun i => sqDiff (x.attrs.getD i (.continuous 0)) (y.attrs.getD i (.continuous 0)))]
  congr 1
  refine List.map_congr_left (fun i hi => ?_)
  have hi := List.mem_range.1 hi
  simp only [List.getD_eq_getElem?_getD]
  rw [reorder_attrs hσ x hx hi, reorder_attrs hσ y hy hi]
  simp only [List.getD_eq_getElem?_getD]

/-- **C166** (part) Nearest neighbours with the Euclidean distance: reordering the columns of the training data and
of the instance asked about leaves the neighbours, the prediction and the class probabilities the same. -/
theorem C166_knn_partial (hσ : IsPermutation σ n) (data : IList ℝ) (k : Int) (hl : ∀ y ∈ data, y.attrs.length = n)
    (x : Inst ℝ) (hx : x.attrs.length = n) :
    ∃ ns, Knn.nearestNeighbors ⟨data, k, euclidean⟩ x = .ok ns ∧
      Knn.nearestNeighbors ⟨data.map (reorder σ), k, euclidean⟩ (reorder σ x) = .ok (ns.map (reorder σ)) ∧
      Knn.predict ⟨data.map (reorder σ), k, euclidean⟩ (reorder σ x) = Knn.predict ⟨data, k, euclidean⟩ x ∧
      Knn.predictProbability ⟨data.map (reorder σ), k, euclidean⟩ (reorder σ x) =
        Knn.predictProbability ⟨data, k, euclidean⟩ x := by
  have hcsub : ∀ y ∈ candidates data x, y ∈ data := by
    intro y hy; rw [candidates_eq] at hy; exact (List.mem_filter.1 hy).1
  let d : Inst ℝ → ℝ := fun y => match euclidean y x with | .ok d => d | .error _ => 0
  let d' : Inst ℝ → ℝ := fun y => match euclidean y (reorder σ x) with | .ok d => d | .error _ => 0
  have hdd : ∀ y ∈ data, euclidean y x = .ok (d y) ∧ euclidean (reorder σ y) (reorder σ x) = .ok (d' (reorder σ y)) ∧
      d' (reorder σ y) = d y := by
    intro y hy
    obtain ⟨e, h1, h2⟩ := euclidean_reorder hσ y x (hl y hy) hx
    simp only [d, d', h1, h2, and_self]
  have hcand : candidates (data.map (reorder σ)) (reorder σ x) = (candidates data x).map (reorder σ) := by
    rw [candidates_eq, candidates_eq, List.filter_map]; rfl
  have h1 := nearest_eq (⟨data, k, euclidean⟩ : Knn ℝ) x d (fun y hy => (hdd y (hcsub y hy)).1)
  have h2 := nearest_eq (⟨data.map (reorder σ), k, euclidean⟩ : Knn ℝ) (reorder σ x) d' (by
    intro y hy
    simp only [hcand] at hy
    obtain ⟨z, hz, rfl⟩ := List.mem_map.1 hy
    exact (hdd z (hcsub z hz)).2.1)
  simp only [hcand] at h2
  rw [stableSort_map (reorder σ) (fun a b => d a <. d b) (fun a b => d' a <. d' b) (candidates data x) (by
    intro y hy z hz
    rw [(hdd y (hcsub y hy)).2.2, (hdd z (hcsub z hz)).2.2]), ← List.map_take] at h2
  refine ⟨_, h1, h2, ?_, ?_⟩
  · unfold Knn.predict
    rw [h1, h2]
    simp only [res_bind_ok, List.length_map]
    have : IList.getClassLabels (List.map (reorder σ)
        (List.take k.toNat (stableSort (fun a b => d a <. d b) (candidates data x)))) =
      IList.getClassLabels (List.take k.toNat (stableSort (fun a b => d a <. d b) (candidates data x))) := by
      rw [getClassLabels_eq, getClassLabels_eq, labels_reorder]
    rw [this]; rfl
  · unfold Knn.predictProbability
    rw [h1, h2]
    simp only [res_bind_ok, dist_reorder]

/-! ## scores of the Gaussian family -/

/-- equal scores of the trained classes give equal predictions -/
theorem gaussPredict_same (l : IList ℝ) {f g : Inst ℝ → String → Res ℝ} {x y : Inst ℝ} (hxy : y.possible = x.possible)
    (hlb : y.label = x.label)
    (h : ∀ c ∈ l.map Inst.label, g y c = f x c) :
    gaussPredict l.classDistribution g y = gaussPredict l.classDistribution f x := by
  have hgs : gaussStep l.classDistribution (g y) = gaussStep l.classDistribution (f x) := by
    funext p c
    unfold gaussStep
    by_cases hcc : l.classDistribution.containsItem c = true
    · rw [if_pos hcc, if_pos hcc, h c ((containsItem_iff l c).1 hcc)]
    · rw [if_neg hcc, if_neg hcc]
  unfold gaussPredict gaussInit Inst.isComposite Inst.possibleLabels
  rw [hgs, hxy, hlb]

theorem numeric_length {x : Inst ℝ} (h : Numeric n x) : x.attrs.length = n := by
  obtain ⟨u, h1, h2⟩ := h
  rw [h1]; simpa using h2

theorem numeric_reorder (hσ : IsPermutation σ n) {x : Inst ℝ} (h : Numeric n x) : Numeric n (reorder σ x) := by
  have hx := numeric_length h
  obtain ⟨u, h1, h2⟩ := h
  refine ⟨(List.range n).map (fun i => u.getD (σ.getD i 0) 0), ?_, by simp⟩
  apply List.ext_getElem?
  intro i
  by_cases hi : i < n
  · have hs := perm_getD_lt hσ hi
    rw [reorder_attrs hσ x hx hi, h1, List.getElem?_map, List.getElem?_map, List.getElem?_map, List.getElem?_range hi]
    simp only [Option.map_some]
    rw [List.getD_eq_getElem?_getD (l := u), List.getElem?_eq_getElem (by omega)]
    rfl
  · rw [List.getElem?_eq_none_iff.2 (by rw [reorder_length hσ x hx]; omega), List.getElem?_eq_none_iff.2 (by simp; omega)]

theorem contValues_reorder (hσ : IsPermutation σ n) {x : Inst ℝ} (h : Numeric n x) {i : Nat} (hi : i < n) :
    (contValues (reorder σ x)).getD i 0 = (contValues x).getD (σ.getD i 0) 0 := by
  unfold contValues
  rw [List.getD_eq_getElem?_getD, List.getD_eq_getElem?_getD, List.getElem?_map, List.getElem?_map,
    reorder_attrs hσ x (numeric_length h) hi]

theorem classSize_reorder (l : IList ℝ) (c : String) : classSize (l.map (reorder σ)) c = classSize l c := by
  unfold classSize
  rw [List.map_map]; rfl

variable {l : IList ℝ}

theorem classCol_reorder (hσ : IsPermutation σ n) (hl : ∀ x ∈ l, Numeric n x) (c : String) {i : Nat} (hi : i < n) :
    ((l.map (reorder σ)).filter (fun x => x.label == c)).map (fun x => (contValues x).getD i 0) =
      (l.filter (fun x => x.label == c)).map (fun x => (contValues x).getD (σ.getD i 0) 0) := by
  rw [List.filter_map, List.map_map]
  exact List.map_congr_left (fun x hx => contValues_reorder hσ (hl x (List.mem_filter.1 hx).1) hi)

theorem classMean_reorder (hσ : IsPermutation σ n) (hl : ∀ x ∈ l, Numeric n x) (c : String) {i : Nat} (hi : i < n) :
    (classMean (l.map (reorder σ)) contValues n c).getD i 0 = (classMean l contValues n c).getD (σ.getD i 0) 0 := by
  have h := classCol_reorder hσ hl c hi
  rw [List.getD_eq_getElem?_getD, List.getD_eq_getElem?_getD (l := classMean l contValues n c)]
  simp only [classMean, List.getElem?_map, List.getElem?_range hi, List.getElem?_range (perm_getD_lt hσ hi),
    Option.map_some, Option.getD_some]
  rw [h]

theorem classSD_reorder (hσ : IsPermutation σ n) (hl : ∀ x ∈ l, Numeric n x) (c : String) {i : Nat} (hi : i < n) :
    (classSD (l.map (reorder σ)) contValues n c).getD i 0 = (classSD l contValues n c).getD (σ.getD i 0) 0 := by
  have h := classCol_reorder hσ hl c hi
  rw [List.getD_eq_getElem?_getD, List.getD_eq_getElem?_getD (l := classSD l contValues n c)]
  simp only [classSD, List.getElem?_map, List.getElem?_range hi, List.getElem?_range (perm_getD_lt hσ hi),
    Option.map_some, Option.getD_some]
  rw [h]

theorem GaussData.reorder (hσ : IsPermutation σ n) (h : GaussData n l) : GaussData n (l.map (Verif.reorder σ)) := by
  refine ⟨by simpa using h.ne, ?_, ?_⟩
  · intro x hx
    obtain ⟨y, hy, rfl⟩ := List.mem_map.1 hx
    exact numeric_reorder hσ (h.numeric y hy)
  · intro c hc
    rw [classSize_reorder]; rw [labels_reorder] at hc; exact h.two c hc

/-- **C166** (part) Naive Bayes on numbers. -/
theorem C166_naive_bayes_partial (hσ : IsPermutation σ n) (hn : 0 < n) (hg : GaussData n l) :
    ∃ m m', NaiveBayes.train NaiveBayes.new l = .ok m ∧ NaiveBayes.train NaiveBayes.new (l.map (reorder σ)) = .ok m' ∧
      ∀ x, Numeric n x → m'.predict (reorder σ x) = m.predict x := by
  have hg' := hg.reorder hσ
  obtain ⟨m, e, hp, hs⟩ := C106_partial l hg.ne contValues n hn (fun x hx => numeric_values (hg.numeric x hx)) hg.two
  obtain ⟨m', e', hp', hs'⟩ := C106_partial (l.map (reorder σ)) hg'.ne contValues n hn
    (fun x hx => numeric_values (hg'.numeric x hx)) hg'.two
  refine ⟨m, m', e, e', fun x hx => ?_⟩
  have hx' := numeric_reorder hσ hx
  unfold NaiveBayes.predict
  rw [hp, hp', dist_reorder]
  refine gaussPredict_same l (x := x) (y := reorder σ x) rfl rfl (fun c hc => ?_)
  rw [hs x _ (numeric_values hx).1 (numeric_values hx).2 c hc,
    hs' _ _ (numeric_values hx').1 (numeric_values hx').2 c (by rw [labels_reorder]; exact hc),
    classSize_reorder, List.length_map]
  congr 3
  rw [← sum_reorder hσ (fun i => (((contValues x).getD i 0 - (classMean l contValues n c).getD i 0) / (classSD l contValues n c).getD i 0) ^ 2)]
  congr 1
  refine List.map_congr_left (fun i hi => ?_)
  have hi := List.mem_range.1 hi
  rw [contValues_reorder hσ hx hi, classMean_reorder hσ hg.numeric c hi, classSD_reorder hσ hg.numeric c hi]

/-! ### matrices -/

theorem permuted_matrix (hσ : IsPermutation σ n) {S S' : Mat ℝ}
    (h : ∀ i j, i < n → j < n → S'.e i j = S.e (σ.getD i 0) (σ.getD j 0)) :
    asMatrix n S' = (asMatrix n S).submatrix (permEquiv hσ) (permEquiv hσ) := by
  ext i j
  simp only [asMatrix, Matrix.of_apply, Matrix.submatrix_apply, permEquiv_val]
  exact h i j i.2 j.2

theorem bilinear_reorder (hσ : IsPermutation σ n) {inverse : Mat ℝ → Mat ℝ} (hinv : Inverts n inverse) {S S' : Mat ℝ}
    (hr : S.rows = n) (hc : S.cols = n) (hr' : S'.rows = n) (hc' : S'.cols = n) (hdet : (asMatrix n S).det ≠ 0)
    (h : ∀ i j, i < n → j < n → S'.e i j = S.e (σ.getD i 0) (σ.getD j 0)) {u w u' w' : Nat → ℝ}
    (hu : ∀ i, i < n → u' i = u (σ.getD i 0)) (hw : ∀ i, i < n → w' i = w (σ.getD i 0)) :
    bilinear n (inverse S') u' w' = bilinear n (inverse S) u w := by
  have hS' := permuted_matrix hσ h
  have hdet' : (asMatrix n S').det ≠ 0 := by
    rw [hS', Matrix.det_submatrix_equiv_self]; exact hdet
  rw [bilinear_eq, bilinear_eq, hinv S' hr' hc' hdet', hinv S hr hc hdet, hS', Matrix.inv_submatrix_equiv]
  have h1 : (fun i : Fin n => u' i) = (fun i : Fin n => u i) ∘ permEquiv hσ := by
    funext i; exact hu i i.2
  have h2 : (fun i : Fin n => w' i) = (fun i : Fin n => w i) ∘ permEquiv hσ := by
    funext i; exact hw i i.2
  rw [h1, h2]
  generalize (fun i : Fin n => u i) = p
  generalize (fun i : Fin n => w i) = q
  generalize (asMatrix n S)⁻¹ = A
  unfold _root_.dotProduct Matrix.mulVec _root_.dotProduct
  simp only [Function.comp_apply, Matrix.submatrix_apply]
  rw [← Equiv.sum_comp (permEquiv hσ) (fun i => p i * ∑ j, A i j * q j)]
  refine Finset.sum_congr rfl (fun i _ => ?_)
  rw [Equiv.sum_comp (permEquiv hσ) (fun j => A (permEquiv hσ i) j * q j)]

theorem mahSq_reorder (hσ : IsPermutation σ n) {inverse : Mat ℝ → Mat ℝ} (hinv : Inverts n inverse) {S S' : Mat ℝ}
    (hr : S.rows = n) (hc : S.cols = n) (hr' : S'.rows = n) (hc' : S'.cols = n) (hdet : (asMatrix n S).det ≠ 0)
    (h : ∀ i j, i < n → j < n → S'.e i j = S.e (σ.getD i 0) (σ.getD j 0)) {u w u' w' : List ℝ}
    (hu : ∀ i, i < n → u'.getD i 0 = u.getD (σ.getD i 0) 0) (hw : ∀ i, i < n → w'.getD i 0 = w.getD (σ.getD i 0) 0) :
    mahSq n (inverse S') u' w' = mahSq n (inverse S) u w := by
  unfold mahSq
  exact bilinear_reorder hσ hinv hr hc hr' hc' hdet h (fun i hi => by rw [hu i hi, hw i hi]) (fun i hi => by rw [hu i hi, hw i hi])

theorem scatter_reorder (hσ : IsPermutation σ n) (hl : ∀ x ∈ l, Numeric n x) (c : String) {i j : Nat} (hi : i < n) (hj : j < n) :
    scatter (l.map (reorder σ)) contValues n c i j = scatter l contValues n c (σ.getD i 0) (σ.getD j 0) := by
  unfold scatter
  rw [List.filter_map, List.map_map]
  congr 1
  refine List.map_congr_left (fun x hx => ?_)
  have hx := hl x (List.mem_filter.1 hx).1
  simp only [Function.comp_apply]
  rw [contValues_reorder hσ hx hi, contValues_reorder hσ hx hj, classMean_reorder hσ hl c hi, classMean_reorder hσ hl c hj]

theorem distinct_reorder : (IList.getDistinctClassLabels (l.map (reorder σ))) = l.getDistinctClassLabels := by
  refine (C07_distinct_class_labels (l.map (reorder σ))).unique ?_
  rw [labels_reorder]
  exact C07_distinct_class_labels l

theorem pooled_reorder (hσ : IsPermutation σ n) (hl : ∀ x ∈ l, Numeric n x) {i j : Nat} (hi : i < n) (hj : j < n) :
    pooledEntry (l.map (reorder σ)) contValues n i j = pooledEntry l contValues n (σ.getD i 0) (σ.getD j 0) := by
  unfold pooledEntry
  rw [distinct_reorder, List.length_map]
  congr 2
  exact List.map_congr_left (fun c _ => scatter_reorder hσ hl c hi hj)

/-- **C166** (part) Linear discriminant analysis, when the pooled covariance matrix is not singular. -/
theorem C166_lda_partial (hσ : IsPermutation σ n) (hg : GaussData n l) (inverse : Mat ℝ → Mat ℝ)
    (hsymm : ∀ S, IsSymm n S → IsSymm n (inverse S)) (hinv : Inverts n inverse)
    (hns : (Matrix.of fun i j : Fin n => pooledEntry l contValues n i j).det ≠ 0) :
    ∃ m m', Lda.train inverse Lda.new l = .ok m ∧ Lda.train inverse Lda.new (l.map (reorder σ)) = .ok m' ∧
      ∀ x, Numeric n x → m'.predict (reorder σ x) = m.predict x := by
  have hg' := hg.reorder hσ
  obtain ⟨m, S, e, hp, hS, hSe, hs⟩ := C104_lda l contValues n (fun x hx => numeric_values (hg.numeric x hx))
    hg.two hg.ne inverse hsymm
  obtain ⟨m', S', e', hp', hS', hSe', hs'⟩ := C104_lda (l.map (reorder σ)) contValues n
    (fun x hx => numeric_values (hg'.numeric x hx)) hg'.two hg'.ne inverse hsymm
  refine ⟨m, m', e, e', fun x hx => ?_⟩
  have hx' := numeric_reorder hσ hx
  have hnx := numeric_values hx
  have hnx' := numeric_values hx'
  have hmat : (asMatrix n S).det ≠ 0 := by
    have : asMatrix n S = Matrix.of fun i j : Fin n => pooledEntry l contValues n i j := by
      ext i j; simp only [asMatrix, Matrix.of_apply]; exact hSe i j i.2 j.2
    rw [this]; exact hns
  have hent : ∀ i j, i < n → j < n → S'.e i j = S.e (σ.getD i 0) (σ.getD j 0) := by
    intro i j hi hj
    rw [hSe' i j hi hj, hSe _ _ (perm_getD_lt hσ hi) (perm_getD_lt hσ hj), pooled_reorder hσ hg.numeric hi hj]
  unfold Lda.predict
  rw [hp, hp', dist_reorder]
  refine gaussPredict_same l (x := x) (y := reorder σ x) rfl rfl (fun c hc => ?_)
  rw [hs x _ hnx.1 hnx.2 c hc, hs' _ _ hnx'.1 hnx'.2 c (by rw [labels_reorder]; exact hc), classSize_reorder, List.length_map,
    mahSq_reorder hσ hinv hS.1 hS.2.1 hS'.1 hS'.2.1 hmat hent (u := contValues x) (w := classMean l contValues n c)
      (fun i hi => contValues_reorder hσ hx hi) (fun i hi => classMean_reorder hσ hg.numeric c hi),
    bilinear_reorder hσ hinv hS.1 hS.2.1 hS'.1 hS'.2.1 hmat hent (u := fun i => (contValues x).getD i 0)
      (w := fun i => (contValues x).getD i 0)
      (fun i hi => contValues_reorder hσ hx hi) (fun i hi => contValues_reorder hσ hx hi)]

/-- **C166** (part) Quadratic discriminant analysis, when no class has a singular covariance matrix. -/
theorem C166_qda_partial (hσ : IsPermutation σ n) (hg : GaussData n l) (inverse : Mat ℝ → Mat ℝ) (det : Mat ℝ → ℝ)
    (hsymm : ∀ S, IsSymm n S → IsSymm n (inverse S)) (hinv : Inverts n inverse)
    (hdet : ∀ S : Mat ℝ, S.rows = n → S.cols = n → det S = (asMatrix n S).det)
    (hns : ∀ c ∈ l.map Inst.label, (Matrix.of fun i j : Fin n => scatter l contValues n c i j).det ≠ 0) :
    ∃ m m', Qda.train inverse det Qda.new l = .ok m ∧ Qda.train inverse det Qda.new (l.map (reorder σ)) = .ok m' ∧
      ∀ x, Numeric n x → m'.predict (reorder σ x) = m.predict x := by
  have hg' := hg.reorder hσ
  obtain ⟨m, S, e, hp, hS, hs⟩ := C105_qda l contValues n (fun x hx => numeric_values (hg.numeric x hx))
    hg.two hg.ne inverse det hsymm
  obtain ⟨m', S', e', hp', hS', hs'⟩ := C105_qda (l.map (reorder σ)) contValues n
    (fun x hx => numeric_values (hg'.numeric x hx)) hg'.two hg'.ne inverse det hsymm
  refine ⟨m, m', e, e', fun x hx => ?_⟩
  have hx' := numeric_reorder hσ hx
  have hnx := numeric_values hx
  have hnx' := numeric_values hx'
  unfold Qda.predict
  rw [hp, hp', dist_reorder]
  refine gaussPredict_same l (x := x) (y := reorder σ x) rfl rfl (fun c hc => ?_)
  have hc' : c ∈ (l.map (reorder σ)).map Inst.label := by rw [labels_reorder]; exact hc
  have hmat : (asMatrix n (S c)).det ≠ 0 := by
    have hk : ((classSize l c : ℝ) - 1)⁻¹ ≠ 0 := by
      have : (2 : ℝ) ≤ classSize l c := by exact_mod_cast hg.two c hc
      exact inv_ne_zero (by linarith)
    have : asMatrix n (S c) = ((classSize l c : ℝ) - 1)⁻¹ • Matrix.of fun i j : Fin n => scatter l contValues n c i j := by
      ext i j
      simp only [asMatrix, Matrix.of_apply, Matrix.smul_apply, smul_eq_mul]
      rw [(hS c hc).2 i j i.2 j.2, div_eq_inv_mul]
    rw [this, Matrix.det_smul]
    exact mul_ne_zero (pow_ne_zero _ hk) (hns c hc)
  have hent : ∀ i j, i < n → j < n → (S' c).e i j = (S c).e (σ.getD i 0) (σ.getD j 0) := by
    intro i j hi hj
    rw [(hS' c hc').2 i j hi hj, (hS c hc).2 _ _ (perm_getD_lt hσ hi) (perm_getD_lt hσ hj),
      scatter_reorder hσ hg.numeric c hi hj, classSize_reorder]
  rw [hs x _ hnx.1 hnx.2 c hc, hs' _ _ hnx'.1 hnx'.2 c hc', classSize_reorder, List.length_map,
    mahSq_reorder hσ hinv (hS c hc).1.1 (hS c hc).1.2.1 (hS' c hc').1.1 (hS' c hc').1.2.1 hmat hent (u := contValues x)
      (w := classMean l contValues n c)
      (fun i hi => contValues_reorder hσ hx hi) (fun i hi => classMean_reorder hσ hg.numeric c hi),
    hdet _ (hS' c hc').1.1 (hS' c hc').1.2.1, hdet _ (hS c hc).1.1 (hS c hc).1.2.1, permuted_matrix hσ hent,
    Matrix.det_submatrix_equiv_self]

/-! ## nearest mean -/

theorem mean_reorder (hσ : IsPermutation σ n) (hl : ∀ x ∈ l, Numeric n x) (c : String) :
    (⟨c, (classMean (l.map (reorder σ)) contValues n c).map Attr.continuous, none⟩ : Inst ℝ) =
      reorder σ ⟨c, (classMean l contValues n c).map Attr.continuous, none⟩ := by
  have h1 : (classMean (l.map (reorder σ)) contValues n c).length = n := by simp [classMean]
  have h2 : (classMean l contValues n c).length = n := by simp [classMean]
  have h3 : ((classMean l contValues n c).map (Attr.continuous (F := ℝ))).length = n := by simpa using h2
  have key : (reorder σ (⟨c, (classMean l contValues n c).map Attr.continuous, none⟩ : Inst ℝ)).attrs =
      (classMean (l.map (reorder σ)) contValues n c).map Attr.continuous := by
    apply List.ext_getElem?
    intro i
    by_cases hi : i < n
    · have hm := classMean_reorder hσ hl c hi
      have hs := perm_getD_lt hσ hi
      rw [reorder_attrs hσ _ h3 hi, List.getElem?_map, List.getElem?_map,
        List.getElem?_eq_getElem (show _ < (classMean (l.map (reorder σ)) contValues n c).length by omega),
        List.getElem?_eq_getElem (show _ < (classMean l contValues n c).length by omega)]
      rw [List.getD_eq_getElem?_getD, List.getD_eq_getElem?_getD (l := classMean l contValues n c),
        List.getElem?_eq_getElem (show _ < (classMean (l.map (reorder σ)) contValues n c).length by omega),
        List.getElem?_eq_getElem (show _ < (classMean l contValues n c).length by omega)] at hm
      simp only [Option.getD_some] at hm
      rw [hm]
    · rw [List.getElem?_eq_none_iff.2 (by rw [reorder_length hσ _ h3]; omega), List.getElem?_eq_none_iff.2 (by simp; omega)]
  rw [← key]; rfl

/-- **C166** (part) The nearest mean classifier on numbers, with the Euclidean distance. -/
theorem C166_nearest_mean_partial (hσ : IsPermutation σ n) (hl : ∀ x ∈ l, Numeric n x) (old old' : KMeans ℝ) :
    ∃ m m', KMeans.train old l euclidean = .ok m ∧ KMeans.train old' (l.map (reorder σ)) euclidean = .ok m' ∧
      ∀ x, Numeric n x → m'.predict (reorder σ x) = m.predict x := by
  have hl' : ∀ x ∈ l.map (reorder σ), Numeric n x := by
    intro x hx
    obtain ⟨y, hy, rfl⟩ := List.mem_map.1 hx
    exact numeric_reorder hσ (hl y hy)
  have e := kmeans_continuous old l euclidean n contValues (fun x hx => numeric_values (hl x hx))
  have e' := kmeans_continuous old' (l.map (reorder σ)) euclidean n contValues (fun x hx => numeric_values (hl' x hx))
  refine ⟨_, _, e, e', fun x hx => ?_⟩
  unfold KMeans.predict
  simp only [dist_reorder]
  refine gaussPredict_same l (x := x) (y := reorder σ x) rfl rfl (fun c hc => ?_)
  unfold KMeans.metric
  simp only
  rw [kmeans_find _ _ c (((C07_distinct_class_labels l).mem_iff c).2 hc),
    kmeans_find _ _ c (((C07_distinct_class_labels (l.map (reorder σ))).mem_iff c).2 (by rw [labels_reorder]; exact hc))]
  simp only [nonNull_some, res_bind_ok]
  obtain ⟨d, h1, h2⟩ := euclidean_reorder hσ x ⟨c, (classMean l contValues n c).map Attr.continuous, none⟩
    (numeric_length hx) (by simp [classMean])
  rw [mean_reorder hσ hl c, h1, h2]

/-! ## naive Bayes on nominal data -/

/-- `n` nominal attributes -/
def Nominal (n : Nat) (x : Inst ℝ) : Prop := ∃ u : List String, x.attrs = u.map Attr.discrete ∧ u.length = n

/-- the values of the nominal attributes -/
def nomValues (x : Inst ℝ) : List String := x.attrs.map (fun a => match a with | .discrete v => v | _ => "")

theorem nominal_values {x : Inst ℝ} (h : Nominal n x) : x.attrs = (nomValues x).map Attr.discrete ∧ (nomValues x).length = n := by
  obtain ⟨u, h1, h2⟩ := h
  have : nomValues x = u := by
    unfold nomValues
    rw [h1, List.map_map]
    conv_rhs => rw [← List.map_id u]
    rfl
  rw [this]; exact ⟨h1, h2⟩

theorem nominal_length {x : Inst ℝ} (h : Nominal n x) : x.attrs.length = n := by
  obtain ⟨u, h1, h2⟩ := h
  rw [h1]; simpa using h2

theorem nominal_reorder (hσ : IsPermutation σ n) {x : Inst ℝ} (h : Nominal n x) : Nominal n (reorder σ x) := by
  have hx := nominal_length h
  obtain ⟨u, h1, h2⟩ := h
  refine ⟨(List.range n).map (fun i => u.getD (σ.getD i 0) ""), ?_, by simp⟩
  apply List.ext_getElem?
  intro i
  by_cases hi : i < n
  · have hs := perm_getD_lt hσ hi
    rw [reorder_attrs hσ x hx hi, h1, List.getElem?_map, List.getElem?_map, List.getElem?_map, List.getElem?_range hi]
    simp only [Option.map_some]
    rw [List.getD_eq_getElem?_getD (l := u), List.getElem?_eq_getElem (by omega)]
    rfl
  · rw [List.getElem?_eq_none_iff.2 (by rw [reorder_length hσ x hx]; omega), List.getElem?_eq_none_iff.2 (by simp; omega)]

theorem nomValues_reorder (hσ : IsPermutation σ n) {x : Inst ℝ} (h : Nominal n x) {i : Nat} (hi : i < n) (d : String) :
    (nomValues (reorder σ x)).getD i d = (nomValues x).getD (σ.getD i 0) d := by
  unfold nomValues
  rw [List.getD_eq_getElem?_getD, List.getD_eq_getElem?_getD, List.getElem?_map, List.getElem?_map,
    reorder_attrs hσ x (nominal_length h) hi]

theorem classColumn_reorder (hσ : IsPermutation σ n) (hl : ∀ x ∈ l, Nominal n x) (c : String) {i : Nat} (hi : i < n) :
    classColumn (l.map (reorder σ)) nomValues c i = classColumn l nomValues c (σ.getD i 0) := by
  unfold classColumn
  rw [List.filter_map, List.map_map]
  exact List.map_congr_left (fun x hx => nomValues_reorder hσ (hl x (List.mem_filter.1 hx).1) hi _)

/-- **C166** (part) Naive Bayes on nominal data. -/
theorem C166_naive_bayes_nominal_partial (hσ : IsPermutation σ n) (hn : 0 < n) (hne : l ≠ []) (hl : ∀ x ∈ l, Nominal n x) :
    ∃ m m', NaiveBayes.train NaiveBayes.new l = .ok m ∧ NaiveBayes.train NaiveBayes.new (l.map (reorder σ)) = .ok m' ∧
      ∀ x, Nominal n x → m'.predict (reorder σ x) = m.predict x := by
  have hl' : ∀ x ∈ l.map (reorder σ), Nominal n x := by
    intro x hx
    obtain ⟨y, hy, rfl⟩ := List.mem_map.1 hx
    exact nominal_reorder hσ (hl y hy)
  obtain ⟨m, e, hp, hs⟩ := C54_score l hne nomValues n hn (fun x hx => nominal_values (hl x hx))
  obtain ⟨m', e', hp', hs'⟩ := C54_score (l.map (reorder σ)) (by simpa using hne) nomValues n hn
    (fun x hx => nominal_values (hl' x hx))
  refine ⟨m, m', e, e', fun x hx => ?_⟩
  have hx' := nominal_reorder hσ hx
  unfold NaiveBayes.predict
  rw [hp, hp', dist_reorder]
  refine gaussPredict_same l (x := x) (y := reorder σ x) rfl rfl (fun c hc => ?_)
  rw [(hs x _ (nominal_values hx).1 (nominal_values hx).2 c hc).1,
    (hs' _ _ (nominal_values hx').1 (nominal_values hx').2 c (by rw [labels_reorder]; exact hc)).1,
    classSize_reorder, List.length_map]
  congr 2
  rw [← sum_reorder hσ (fun i => Real.log (smoothed l nomValues c i ((nomValues x).getD i "")))]
  congr 1
  refine List.map_congr_left (fun i hi => ?_)
  have hi := List.mem_range.1 hi
  simp only [smoothed]
  rw [nomValues_reorder hσ hx hi, classColumn_reorder hσ hl c hi, classSize_reorder]

end

/-! ## decision trees -/

/-- two columns that agree on the training data -/
def twins : IList XR :=
  [⟨"a", [.discrete "u", .discrete "u"], none⟩, ⟨"b", [.discrete "v", .discrete "v"], none⟩]

/-- **C166 is false** of decision trees: of two columns that separate the training data equally well the first one is
used, so an instance that differs in them is predicted differently when the columns are exchanged. -/
theorem C166_refuted : ∃ (l : IList XR) (x : Inst XR) (n n' : Node XR),
    IsPermutation [1, 0] 2 ∧ (∀ y ∈ x :: l, y.attrs.length = 2) ∧
    treeTrain l none = .ok n ∧ treePredict n x = .ok "a" ∧
    treeTrain (l.map (reorder [1, 0])) none = .ok n' ∧ treePredict n' (reorder [1, 0] x) = .ok "b" := by
  have h1 : (treeTrain twins none >>= fun n => treePredict n ⟨"?", [.discrete "u", .discrete "v"], none⟩) = .ok "a" := by
    decide +kernel
  have h2 : (treeTrain (twins.map (reorder [1, 0])) none >>= fun n =>
      treePredict n (reorder [1, 0] ⟨"?", [.discrete "u", .discrete "v"], none⟩)) = .ok "b" := by
    decide +kernel
  obtain ⟨n, e1, e2⟩ := bind_ok_iff.1 h1
  obtain ⟨n', e3, e4⟩ := bind_ok_iff.1 h2
  exact ⟨twins, ⟨"?", [.discrete "u", .discrete "v"], none⟩, n, n', by unfold IsPermutation; decide, by decide, e1, e2, e3, e4⟩

/-! ## the hypotheses are met -/

/-- inversion of matrices of size `n` -/
noncomputable def inverseN (n : Nat) (S : Mat ℝ) : Mat ℝ :=
  ⟨n, n, fun i j => if h : i < n ∧ j < n then (asMatrix n S)⁻¹ ⟨i, h.1⟩ ⟨j, h.2⟩ else 0⟩

theorem inverseN_inverts (n : Nat) : Inverts n (inverseN n) := by
  intro S _ _ _
  ext i j
  simp [asMatrix, inverseN]

theorem inverseN_symm (n : Nat) (S : Mat ℝ) (h : IsSymm n S) : IsSymm n (inverseN n S) := by
  refine ⟨rfl, rfl, fun i j hi hj => ?_⟩
  have ht : (asMatrix n S).transpose = asMatrix n S := by
    ext i j
    simp only [asMatrix, Matrix.transpose_apply, Matrix.of_apply]
    exact h.2.2 j i j.2 i.2
  have h1 : (asMatrix n S)⁻¹.transpose = (asMatrix n S)⁻¹ := by
    rw [Matrix.transpose_nonsing_inv, ht]
  simp only [inverseN, hi, hj, and_self, dite_true]
  exact (congrFun (congrFun h1 ⟨j, hj⟩) ⟨i, hi⟩)

/-- three points of each of two classes, with two columns -/
def planePoints : IList ℝ :=
  [⟨"a", [.continuous 0, .continuous 0], none⟩, ⟨"a", [.continuous 3, .continuous 0], none⟩,
   ⟨"a", [.continuous 0, .continuous 6], none⟩, ⟨"b", [.continuous 9, .continuous 9], none⟩,
   ⟨"b", [.continuous 12, .continuous 9], none⟩, ⟨"b", [.continuous 9, .continuous 12], none⟩]

theorem planePoints_gauss : GaussData 2 planePoints := by
  refine ⟨by simp [planePoints], ?_, ?_⟩
  · intro x hx
    simp only [planePoints, List.mem_cons, List.not_mem_nil, or_false] at hx
    rcases hx with rfl | rfl | rfl | rfl | rfl | rfl
    exacts [⟨[0, 0], rfl, rfl⟩, ⟨[3, 0], rfl, rfl⟩, ⟨[0, 6], rfl, rfl⟩, ⟨[9, 9], rfl, rfl⟩, ⟨[12, 9], rfl, rfl⟩, ⟨[9, 12], rfl, rfl⟩]
  · intro c hc
    simp only [planePoints, List.map_cons, List.map_nil, List.mem_cons, List.not_mem_nil, or_false] at hc
    rcases hc with rfl | rfl | rfl | rfl | rfl | rfl <;> simp [planePoints, classSize]

theorem planePoints_mean : classMean planePoints contValues 2 "a" = [1, 2] ∧ classMean planePoints contValues 2 "b" = [10, 10] := by
  constructor <;> simp [classMean, planePoints, contValues, contOf, mean, List.range_succ] <;> norm_num

theorem planePoints_scatter : ∀ i j : Fin 2, scatter planePoints contValues 2 "a" i j = !![6, -6; -6, 24] i j ∧
    scatter planePoints contValues 2 "b" i j = !![6, -3; -3, 6] i j := by
  intro i j
  unfold scatter
  rw [planePoints_mean.1, planePoints_mean.2]
  fin_cases i <;> fin_cases j <;> simp [planePoints, contValues, contOf] <;> norm_num

theorem planePoints_det : (∀ c ∈ planePoints.map Inst.label,
      (Matrix.of fun i j : Fin 2 => scatter planePoints contValues 2 c i j).det ≠ 0) ∧
    (Matrix.of fun i j : Fin 2 => pooledEntry planePoints contValues 2 i j).det ≠ 0 := by
  have ha : (Matrix.of fun i j : Fin 2 => scatter planePoints contValues 2 "a" i j).det ≠ 0 := by
    rw [show (Matrix.of fun i j : Fin 2 => scatter planePoints contValues 2 "a" i j) = !![6, -6; -6, 24] by
      ext i j; exact (planePoints_scatter i j).1, Matrix.det_fin_two_of]
    norm_num
  have hb : (Matrix.of fun i j : Fin 2 => scatter planePoints contValues 2 "b" i j).det ≠ 0 := by
    rw [show (Matrix.of fun i j : Fin 2 => scatter planePoints contValues 2 "b" i j) = !![6, -3; -3, 6] by
      ext i j; exact (planePoints_scatter i j).2, Matrix.det_fin_two_of]
    norm_num
  constructor
  · intro c hc
    simp only [planePoints, List.map_cons, List.map_nil, List.mem_cons, List.not_mem_nil, or_false] at hc
    rcases hc with rfl | rfl | rfl | rfl | rfl | rfl
    exacts [ha, ha, ha, hb, hb, hb]
  · have hd : planePoints.getDistinctClassLabels = ["a", "b"] := rfl
    rw [show (Matrix.of fun i j : Fin 2 => pooledEntry planePoints contValues 2 i j) = !![3, -9/4; -9/4, 30/4] by
      ext i j
      simp only [Matrix.of_apply, pooledEntry, hd, List.map_cons, List.map_nil, List.sum_cons, List.sum_nil,
        (planePoints_scatter i j).1, (planePoints_scatter i j).2]
      fin_cases i <;> fin_cases j <;> simp [planePoints] <;> norm_num, Matrix.det_fin_two_of]
    norm_num

/-- the columns of `planePoints` exchanged: all five classifiers on numbers -/
example : (∃ m m', NaiveBayes.train NaiveBayes.new planePoints = .ok m ∧
      NaiveBayes.train NaiveBayes.new (planePoints.map (reorder [1, 0])) = .ok m' ∧
      ∀ x, Numeric 2 x → m'.predict (reorder [1, 0] x) = m.predict x) ∧
    (∃ m m', Lda.train (inverseN 2) Lda.new planePoints = .ok m ∧
      Lda.train (inverseN 2) Lda.new (planePoints.map (reorder [1, 0])) = .ok m' ∧
      ∀ x, Numeric 2 x → m'.predict (reorder [1, 0] x) = m.predict x) ∧
    (∃ m m', Qda.train (inverseN 2) (fun S => (asMatrix 2 S).det) Qda.new planePoints = .ok m ∧
      Qda.train (inverseN 2) (fun S => (asMatrix 2 S).det) Qda.new (planePoints.map (reorder [1, 0])) = .ok m' ∧
      ∀ x, Numeric 2 x → m'.predict (reorder [1, 0] x) = m.predict x) ∧
    (∃ m m', KMeans.train ⟨.empty, [], euclidean⟩ planePoints euclidean = .ok m ∧
      KMeans.train ⟨.empty, [], euclidean⟩ (planePoints.map (reorder [1, 0])) euclidean = .ok m' ∧
      ∀ x, Numeric 2 x → m'.predict (reorder [1, 0] x) = m.predict x) ∧
    Knn.predict ⟨planePoints.map (reorder [1, 0]), 3, euclidean⟩ (reorder [1, 0] ⟨"?", [.continuous 1, .continuous 5], none⟩) =
      Knn.predict ⟨planePoints, 3, euclidean⟩ ⟨"?", [.continuous 1, .continuous 5], none⟩ := by
  have hσ : IsPermutation [1, 0] 2 := by unfold IsPermutation; decide
  refine ⟨C166_naive_bayes_partial hσ (by omega) planePoints_gauss,
    C166_lda_partial hσ planePoints_gauss _ (inverseN_symm 2) (inverseN_inverts 2) planePoints_det.2,
    C166_qda_partial hσ planePoints_gauss _ _ (inverseN_symm 2) (inverseN_inverts 2) (fun _ _ _ => rfl) planePoints_det.1,
    C166_nearest_mean_partial hσ planePoints_gauss.numeric _ _, ?_⟩
  obtain ⟨_, _, _, h, _⟩ := C166_knn_partial hσ planePoints 3
    (fun y hy => numeric_length (planePoints_gauss.numeric y hy)) ⟨"?", [.continuous 1, .continuous 5], none⟩ rfl
  exact h

/-- naive Bayes on nominal data with its columns exchanged -/
example : ∃ m m', NaiveBayes.train NaiveBayes.new xorData = .ok m ∧
    NaiveBayes.train NaiveBayes.new (xorData.map (reorder [1, 0])) = .ok m' ∧
    ∀ x, Nominal 2 x → m'.predict (reorder [1, 0] x) = m.predict x :=
  C166_naive_bayes_nominal_partial (by unfold IsPermutation; decide) (by omega) (by simp [xorData]) (by
    intro x hx
    simp only [xorData, List.mem_cons, List.not_mem_nil, or_false] at hx
    rcases hx with rfl | rfl | rfl | rfl
    exacts [⟨["u", "u"], rfl, rfl⟩, ⟨["u", "v"], rfl, rfl⟩, ⟨["v", "u"], rfl, rfl⟩, ⟨["v", "v"], rfl, rfl⟩])

end Verif
