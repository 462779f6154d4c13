import Verif.Props.Units
import Mathlib.LinearAlgebra.Matrix.NonsingularInverse

/-! # Properties C154 and C155: units of measurement in discriminant analysis and nearest neighbours -/

set_option linter.unusedSectionVars false

namespace Verif
open Dbl

/-! ## predictions depend on the order of the scores only -/

theorem IsArgmax.unique {μ : String → ℝ} {cs : List String} {r r' : String} (h : IsArgmax μ cs r)
    (h' : IsArgmax μ cs r') : r = r' := by
  obtain ⟨l1, l2, e, hl⟩ := h.split
  obtain ⟨k1, k2, e', hk⟩ := h'.split
  have hr : r ∈ cs := by rw [e]; simp
  have hr' : r' ∈ cs := by rw [e']; simp
  rw [e] at e'
  rcases List.append_eq_append_iff.1 e' with ⟨t, h1, h2⟩ | ⟨t, h1, h2⟩
  · cases t with
    | nil => simp at h2; exact h2.1
    | cons a t =>
      simp only [List.cons_append, List.cons.injEq] at h2
      have := hk r (by rw [h1, ← h2.1]; simp) (ord_real _)
      rw [h.max r' hr'] at this; cases this
  · cases t with
    | nil => simp at h2; exact h2.1.symm
    | cons a t =>
      simp only [List.cons_append, List.cons.injEq] at h2
      have := hl r' (by rw [h1, ← h2.1]; simp) (ord_real _)
      rw [h'.max r hr] at this; cases this

theorem gaussPredict_order {prior : DD} {f g : Inst ℝ → String → Res ℝ} {x y : Inst ℝ} {μ ν : String → ℝ}
    (hxy : y.possible = x.possible)
    (hf : ∀ c ∈ discCandidates prior x, f x c = .ok (μ c)) (hg : ∀ c ∈ discCandidates prior x, g y c = .ok (ν c))
    (hord : ∀ c ∈ discCandidates prior x, ∀ d ∈ discCandidates prior x, μ c < μ d ↔ ν c < ν d)
    (hbf : ∃ c ∈ discCandidates prior x, -(2 : ℝ) ^ 1024 < μ c)
    (hbg : ∃ c ∈ discCandidates prior x, -(2 : ℝ) ^ 1024 < ν c) :
    gaussPredict prior g y = gaussPredict prior f x := by
  have hcand : discCandidates prior y = discCandidates prior x := by unfold discCandidates; rw [hxy]
  obtain ⟨r, er, hr⟩ := C52_argmax prior f x μ hf (by
    obtain ⟨c, hc, h⟩ := hbf; exact ⟨c, hc, by simpa [maxVal_real] using h⟩)
  obtain ⟨r', er', hr'⟩ := C52_argmax prior g y ν (by rw [hcand]; exact hg) (by
    obtain ⟨c, hc, h⟩ := hbg; exact ⟨c, by rw [hcand]; exact hc, by simpa [maxVal_real] using h⟩)
  rw [hcand] at hr'
  rw [er, er']
  congr 1
  refine IsArgmax.unique (μ := ν) (cs := discCandidates prior x) hr' ?_
  obtain ⟨l1, l2, e, hl⟩ := hr.split
  have hrc : r ∈ discCandidates prior x := by rw [e]; simp
  refine ⟨⟨l1, l2, e, fun s hs _ => ?_⟩, fun s hs => ?_⟩
  · have := hl s hs (ord_real _)
    rw [lt_real, decide_eq_true_eq] at this ⊢
    exact (hord s (by rw [e]; simp [hs]) r hrc).1 this
  · have := hr.max s hs
    rw [lt_real, decide_eq_false_iff_not] at this ⊢
    exact fun h => this ((hord r hrc s hs).2 h)

/-! ## matrices -/

/-- the entries of a library matrix of size `n` -/
def asMatrix (n : Nat) (A : Mat ℝ) : Matrix (Fin n) (Fin n) ℝ := Matrix.of fun i j => A.e i j

/-- `inverse` inverts the non-singular matrices of size `n` -/
def Inverts (n : Nat) (inverse : Mat ℝ → Mat ℝ) : Prop :=
  ∀ S : Mat ℝ, S.rows = n → S.cols = n → (asMatrix n S).det ≠ 0 →
    asMatrix n (inverse S) = (asMatrix n S)⁻¹

theorem bilinear_eq (n : Nat) (A : Mat ℝ) (u w : Nat → ℝ) :
    bilinear n A u w = _root_.dotProduct (fun i : Fin n => u i) (Matrix.mulVec (asMatrix n A) (fun j : Fin n => w j)) := by
  unfold bilinear _root_.dotProduct
  rw [Finset.sum_range]
  refine Finset.sum_congr rfl (fun i _ => ?_)
  rw [Finset.sum_range, Matrix.mulVec, _root_.dotProduct, Finset.mul_sum]
  refine Finset.sum_congr rfl (fun j _ => ?_)
  simp only [asMatrix, Matrix.of_apply]; ring

section
variable {n : Nat} (a b : Nat → ℝ)

theorem scaled_matrix {S S' : Mat ℝ} (h : ∀ i j, i < n → j < n → S'.e i j = a i * a j * S.e i j) :
    asMatrix n S' = Matrix.diagonal (fun i : Fin n => a i) * asMatrix n S * Matrix.diagonal (fun i : Fin n => a i) := by
  ext i j
  rw [Matrix.mul_diagonal, Matrix.diagonal_mul]
  simp only [asMatrix, Matrix.of_apply]
  rw [h i j i.2 j.2]; ring

/-- the squared Mahalanobis distance does not depend on the units -/
theorem mahSq_units {inverse : Mat ℝ → Mat ℝ} (hinv : Inverts n inverse) (ha : ∀ i, a i ≠ 0) {S S' : Mat ℝ}
    (hr : S.rows = n) (hc : S.cols = n) (hr' : S'.rows = n) (hc' : S'.cols = n) (hdet : (asMatrix n S).det ≠ 0)
    (h : ∀ i j, i < n → j < n → S'.e i j = a i * a j * S.e i j) {u w u' w' : List ℝ}
    (hu : ∀ i, i < n → u'.getD i 0 = a i * u.getD i 0 + b i)
    (hw : ∀ i, i < n → w'.getD i 0 = a i * w.getD i 0 + b i) :
    mahSq n (inverse S') u' w' = mahSq n (inverse S) u w := by
  have hS' := scaled_matrix a h
  have hD : (Matrix.diagonal (fun i : Fin n => a i)).det ≠ 0 := by
    rw [Matrix.det_diagonal]; exact Finset.prod_ne_zero_iff.2 (fun i _ => ha i)
  have hdet' : (asMatrix n S').det ≠ 0 := by
    rw [hS', Matrix.det_mul, Matrix.det_mul]
    exact mul_ne_zero (mul_ne_zero hD hdet) hD
  have hd : (fun i : Fin n => u'.getD i 0 - w'.getD i 0) =
      Matrix.mulVec (Matrix.diagonal (fun i : Fin n => a i)) (fun i : Fin n => u.getD i 0 - w.getD i 0) := by
    funext i
    rw [Matrix.mulVec_diagonal, hu i i.2, hw i i.2]; ring
  unfold mahSq
  rw [bilinear_eq, bilinear_eq, hinv S' hr' hc' hdet', hinv S hr hc hdet, hd]
  generalize (fun i : Fin n => u.getD i 0 - w.getD i 0) = d
  have key : Matrix.mulVec (asMatrix n S')⁻¹ (Matrix.mulVec (Matrix.diagonal (fun i : Fin n => a i)) d) =
      Matrix.mulVec (Matrix.diagonal (fun i : Fin n => a i))⁻¹ (Matrix.mulVec (asMatrix n S)⁻¹ d) := by
    rw [hS', Matrix.mul_inv_rev, Matrix.mul_inv_rev, Matrix.mulVec_mulVec, Matrix.mulVec_mulVec]
    congr 1
    rw [Matrix.mul_assoc, Matrix.mul_assoc, Matrix.nonsing_inv_mul _ (isUnit_iff_ne_zero.2 hD), Matrix.mul_one]
  rw [key, Matrix.dotProduct_mulVec]
  congr 1
  rw [← Matrix.vecMul_transpose, Matrix.diagonal_transpose, Matrix.vecMul_vecMul,
    Matrix.mul_nonsing_inv _ (isUnit_iff_ne_zero.2 hD), Matrix.vecMul_one]

end

/-! ## C154 -/

section
variable {n : Nat} {l : IList ℝ} (a b : Nat → ℝ)

theorem scatter_inUnits (hl : ∀ x ∈ l, Numeric n x) {c : String} (hc : c ∈ l.map Inst.label) {i j : Nat} (hi : i < n) (hj : j < n) :
    scatter (l.map (inUnits a b)) contValues n c i j = a i * a j * scatter l contValues n c i j := by
  unfold scatter
  rw [List.filter_map, List.map_map, ← List.sum_map_mul_left]
  congr 1
  refine List.map_congr_left (fun x hx => ?_)
  have hx := hl x (List.mem_filter.1 hx).1
  simp only [Function.comp_apply]
  rw [contValues_inUnits a b hx hi, contValues_inUnits a b hx hj, classMean_inUnits a b hl hc hi,
    classMean_inUnits a b hl hc hj]
  ring

theorem distinct_inUnits : (IList.getDistinctClassLabels (l.map (inUnits a b))) = l.getDistinctClassLabels := by
  refine (C07_distinct_class_labels (l.map (inUnits a b))).unique ?_
  rw [labels_inUnits]
  exact C07_distinct_class_labels l

theorem pooled_inUnits (hl : ∀ x ∈ l, Numeric n x) {i j : Nat} (hi : i < n) (hj : j < n) :
    pooledEntry (l.map (inUnits a b)) contValues n i j = a i * a j * pooledEntry l contValues n i j := by
  unfold pooledEntry
  rw [distinct_inUnits, List.length_map, ← mul_div_assoc, ← List.sum_map_mul_left]
  congr 2
  refine List.map_congr_left (fun c hc => ?_)
  exact scatter_inUnits a b hl (((C07_distinct_class_labels l).mem_iff c).1 hc) hi hj

end

/-- a training list of numbers, with two or more instances of every class -/
structure GaussData (n : Nat) (l : IList ℝ) : Prop where
  ne : l ≠ []
  numeric : ∀ x ∈ l, Numeric n x
  two : ∀ c ∈ l.map Inst.label, 2 ≤ classSize l c

theorem GaussData.inUnits {n : Nat} {l : IList ℝ} (h : GaussData n l) (a b : Nat → ℝ) :
    GaussData n (l.map (Verif.inUnits a b)) := by
  refine ⟨by simpa using h.ne, ?_, ?_⟩
  · intro x hx
    obtain ⟨y, hy, rfl⟩ := List.mem_map.1 hx
    exact numeric_inUnits a b (h.numeric y hy)
  · intro c hc
    rw [classSize_inUnits]; rw [labels_inUnits] at hc; exact h.two c hc

/-- **C154.** Linear discriminant analysis: training and asking in other units (`a i * v + b i`,
`a i ≠ 0`) gives the same predictions, when the pooled covariance matrix is not singular and some
class scores above `-DBL_MAX` in either unit. `inverse` is the matrix library's inversion. -/
theorem C154_lda_units {n : Nat} {l : IList ℝ} (hg : GaussData n l) (inverse : Mat ℝ → Mat ℝ)
    (hsymm : ∀ S, IsSymm n S → IsSymm n (inverse S)) (hinv : Inverts n inverse)
    (hns : (Matrix.of fun i j : Fin n => pooledEntry l contValues n i j).det ≠ 0)
    (a b : Nat → ℝ) (ha : ∀ i, a i ≠ 0) :
    ∃ m m', Lda.train inverse Lda.new l = .ok m ∧ Lda.train inverse Lda.new (l.map (inUnits a b)) = .ok m' ∧
      ∀ x, Numeric n x → x.possible = none →
        (∃ c ∈ l.map Inst.label, ∃ s, m.metric x c = .ok s ∧ -(2 : ℝ) ^ 1024 < s) →
        (∃ c ∈ l.map Inst.label, ∃ s, m'.metric (inUnits a b x) c = .ok s ∧ -(2 : ℝ) ^ 1024 < s) →
        m'.predict (inUnits a b x) = m.predict x := by
  have hg' := hg.inUnits a b
  obtain ⟨m, S, e, hp, hS, hSe, hs⟩ := C104_lda l contValues n (fun x hx => numeric_values (hg.numeric x hx))
    hg.two hg.ne inverse hsymm
  obtain ⟨m', S', e', hp', hS', hSe', hs'⟩ := C104_lda (l.map (inUnits a b)) contValues n
    (fun x hx => numeric_values (hg'.numeric x hx)) hg'.two hg'.ne inverse hsymm
  refine ⟨m, m', e, e', fun x hx hposs hb hb' => ?_⟩
  have hx' := numeric_inUnits a b hx
  have hnx := numeric_values hx
  have hnx' := numeric_values hx'
  have hmat : (asMatrix n S).det ≠ 0 := by
    have : asMatrix n S = Matrix.of fun i j : Fin n => pooledEntry l contValues n i j := by
      ext i j; simp only [asMatrix, Matrix.of_apply]; exact hSe i j i.2 j.2
    rw [this]; exact hns
  have hent : ∀ i j, i < n → j < n → S'.e i j = a i * a j * S.e i j := by
    intro i j hi hj
    rw [hSe' i j hi hj, hSe i j hi hj, pooled_inUnits a b hg.numeric hi hj]
  have hmah : ∀ c ∈ l.map Inst.label, mahSq n (inverse S') (contValues (inUnits a b x))
      (classMean (l.map (inUnits a b)) contValues n c) = mahSq n (inverse S) (contValues x) (classMean l contValues n c) :=
    fun c hc => mahSq_units a b hinv ha hS.1 hS.2.1 hS'.1 hS'.2.1 hmat hent
      (fun i hi => contValues_inUnits a b hx hi) (fun i hi => classMean_inUnits a b hg.numeric hc hi)
  have hcand : ∀ c, c ∈ discCandidates l.classDistribution x ↔ c ∈ l.map Inst.label := by
    intro c
    simp only [discCandidates, hposs, (C10_class_distribution l).mem_items]
  have hf := fun c hc => hs x _ hnx.1 hnx.2 c ((hcand c).1 hc)
  have hf' := fun c hc => hs' _ _ hnx'.1 hnx'.2 c (by rw [labels_inUnits]; exact (hcand c).1 hc)
  unfold Lda.predict
  rw [hp, hp', dist_inUnits]
  refine gaussPredict_order rfl hf hf' ?_ ?_ ?_
  · intro c hc d hd
    rw [hmah c ((hcand c).1 hc), hmah d ((hcand d).1 hd), classSize_inUnits, classSize_inUnits, List.length_map]
    constructor <;> intro h <;> linarith
  · obtain ⟨c, hc, s, h1, h2⟩ := hb
    rw [hf c ((hcand c).2 hc)] at h1; cases h1
    exact ⟨c, (hcand c).2 hc, h2⟩
  · obtain ⟨c, hc, s, h1, h2⟩ := hb'
    rw [hf' c ((hcand c).2 hc)] at h1; cases h1
    exact ⟨c, (hcand c).2 hc, h2⟩

/-- **C154.** Quadratic discriminant analysis, likewise, when no class has a singular covariance
matrix; `det` is the library's determinant. -/
theorem C154_qda_units {n : Nat} {l : IList ℝ} (hg : GaussData n l) (inverse : Mat ℝ → Mat ℝ) (det : Mat ℝ → ℝ)
    (hsymm : ∀ S, IsSymm n S → IsSymm n (inverse S)) (hinv : Inverts n inverse)
    (hdet : ∀ S : Mat ℝ, S.rows = n → S.cols = n → det S = (asMatrix n S).det)
    (hns : ∀ c ∈ l.map Inst.label, (Matrix.of fun i j : Fin n => scatter l contValues n c i j).det ≠ 0)
    (a b : Nat → ℝ) (ha : ∀ i, a i ≠ 0) :
    ∃ m m', Qda.train inverse det Qda.new l = .ok m ∧ Qda.train inverse det Qda.new (l.map (inUnits a b)) = .ok m' ∧
      ∀ x, Numeric n x → x.possible = none →
        (∃ c ∈ l.map Inst.label, ∃ s, m.metric x c = .ok s ∧ -(2 : ℝ) ^ 1024 < s) →
        (∃ c ∈ l.map Inst.label, ∃ s, m'.metric (inUnits a b x) c = .ok s ∧ -(2 : ℝ) ^ 1024 < s) →
        m'.predict (inUnits a b x) = m.predict x := by
  have hg' := hg.inUnits a b
  obtain ⟨m, S, e, hp, hS, hs⟩ := C105_qda l contValues n (fun x hx => numeric_values (hg.numeric x hx))
    hg.two hg.ne inverse det hsymm
  obtain ⟨m', S', e', hp', hS', hs'⟩ := C105_qda (l.map (inUnits a b)) contValues n
    (fun x hx => numeric_values (hg'.numeric x hx)) hg'.two hg'.ne inverse det hsymm
  refine ⟨m, m', e, e', fun x hx hposs hb hb' => ?_⟩
  have hx' := numeric_inUnits a b hx
  have hnx := numeric_values hx
  have hnx' := numeric_values hx'
  have hS'l : ∀ c ∈ l.map Inst.label, c ∈ (l.map (inUnits a b)).map Inst.label := by
    intro c hc; rw [labels_inUnits]; exact hc
  have hmat : ∀ c ∈ l.map Inst.label, (asMatrix n (S c)).det ≠ 0 := by
    intro c hc
    have hk : ((classSize l c : ℝ) - 1)⁻¹ ≠ 0 := by
      have : (2 : ℝ) ≤ classSize l c := by exact_mod_cast hg.two c hc
      exact inv_ne_zero (by linarith)
    have : asMatrix n (S c) = ((classSize l c : ℝ) - 1)⁻¹ • Matrix.of fun i j : Fin n => scatter l contValues n c i j := by
      ext i j
      simp only [asMatrix, Matrix.of_apply, Matrix.smul_apply, smul_eq_mul]
      rw [(hS c hc).2 i j i.2 j.2, div_eq_inv_mul]
    rw [this, Matrix.det_smul]
    exact mul_ne_zero (pow_ne_zero _ hk) (hns c hc)
  have hent : ∀ c ∈ l.map Inst.label, ∀ i j, i < n → j < n → (S' c).e i j = a i * a j * (S c).e i j := by
    intro c hc i j hi hj
    rw [(hS' c (hS'l c hc)).2 i j hi hj, (hS c hc).2 i j hi hj, scatter_inUnits a b hg.numeric hc hi hj,
      classSize_inUnits, mul_div_assoc]
  have hmah : ∀ c ∈ l.map Inst.label, mahSq n (inverse (S' c)) (contValues (inUnits a b x))
      (classMean (l.map (inUnits a b)) contValues n c) = mahSq n (inverse (S c)) (contValues x) (classMean l contValues n c) :=
    fun c hc => mahSq_units a b hinv ha (hS c hc).1.1 (hS c hc).1.2.1 (hS' c (hS'l c hc)).1.1 (hS' c (hS'l c hc)).1.2.1
      (hmat c hc) (hent c hc)
      (fun i hi => contValues_inUnits a b hx hi) (fun i hi => classMean_inUnits a b hg.numeric hc hi)
  have hD : (Matrix.diagonal (fun i : Fin n => a i)).det ≠ 0 := by
    rw [Matrix.det_diagonal]; exact Finset.prod_ne_zero_iff.2 (fun i _ => ha i)
  have hlog : ∀ c ∈ l.map Inst.label, Real.log (det (S' c)) =
      Real.log (det (S c)) + 2 * Real.log (Matrix.diagonal (fun i : Fin n => a i)).det := by
    intro c hc
    rw [hdet _ (hS' c (hS'l c hc)).1.1 (hS' c (hS'l c hc)).1.2.1, hdet _ (hS c hc).1.1 (hS c hc).1.2.1,
      scaled_matrix a (hent c hc), Matrix.det_mul, Matrix.det_mul, Real.log_mul (mul_ne_zero hD (hmat c hc)) hD,
      Real.log_mul hD (hmat c hc)]
    ring
  have hcand : ∀ c, c ∈ discCandidates l.classDistribution x ↔ c ∈ l.map Inst.label := by
    intro c
    simp only [discCandidates, hposs, (C10_class_distribution l).mem_items]
  have hf := fun c hc => hs x _ hnx.1 hnx.2 c ((hcand c).1 hc)
  have hf' := fun c hc => hs' _ _ hnx'.1 hnx'.2 c (by rw [labels_inUnits]; exact (hcand c).1 hc)
  unfold Qda.predict
  rw [hp, hp', dist_inUnits]
  refine gaussPredict_order rfl hf hf' ?_ ?_ ?_
  · intro c hc d hd
    rw [hmah c ((hcand c).1 hc), hmah d ((hcand d).1 hd), hlog c ((hcand c).1 hc), hlog d ((hcand d).1 hd),
      classSize_inUnits, classSize_inUnits, List.length_map]
    constructor <;> intro h <;> linarith
  · obtain ⟨c, hc, s, h1, h2⟩ := hb
    rw [hf c ((hcand c).2 hc)] at h1; cases h1
    exact ⟨c, (hcand c).2 hc, h2⟩
  · obtain ⟨c, hc, s, h1, h2⟩ := hb'
    rw [hf' c ((hcand c).2 hc)] at h1; cases h1
    exact ⟨c, (hcand c).2 hc, h2⟩

/-! ## C155 -/

theorem sqDiff_inUnits {s : ℝ} {a b : ℝ} (ha : |a| = s) (t t' : Attr ℝ)
    (h : s = 1 ∨ ∀ v, t ≠ .discrete v) : sqDiff (t.inUnits a b) (t'.inUnits a b) = s ^ 2 * sqDiff t t' := by
  cases t <;> cases t' <;> simp only [Attr.inUnits, sqDiff, mul_zero]
  · rw [← ha, sq_abs]; ring
  · rename_i v w
    rcases h with h | h
    · rw [h]; simp
    · exact absurd rfl (h v)

/-- the distance in other units, when all columns are scaled by the same factor `s` -/
theorem euclidean_inUnits {s : ℝ} {a b : Nat → ℝ} (ha : ∀ i, |a i| = s) {ts : List AttrType} {x y : Inst ℝ}
    (hx : typesOf x = ts) (hy : typesOf y = ts) (h : s = 1 ∨ AttrType.discrete ∉ ts) :
    ∃ d, euclidean x y = .ok d ∧ euclidean (inUnits a b x) (inUnits a b y) = .ok (s ^ 2 * d) := by
  have hlen : x.attrs.length = y.attrs.length := by
    have := congrArg List.length (hx.trans hy.symm)
    simpa [typesOf] using this
  refine ⟨_, C51_sum x y (le_of_eq hlen), ?_⟩
  rw [C51_sum _ _ (by simp [inUnits, hlen])]
  congr 1
  have hnd : ∀ t ∈ x.attrs, s = 1 ∨ ∀ v, t ≠ .discrete v := by
    intro t ht
    refine h.imp id (fun h v hv => h ?_)
    rw [← hx, typesOf]
    exact List.mem_map.2 ⟨t, ht, by rw [hv]; rfl⟩
  simp only [inUnits]
  generalize x.attrs = p at hnd hlen
  generalize y.attrs = q at hlen
  have key : ∀ (p q : List (Attr ℝ)) (k : Nat), p.length = q.length →
      (∀ t ∈ p, s = 1 ∨ ∀ v, t ≠ .discrete v) →
      (List.zipWith sqDiff (p.mapIdx (fun i t => t.inUnits (a (k + i)) (b (k + i))))
        (q.mapIdx (fun i t => t.inUnits (a (k + i)) (b (k + i))))).sum = s ^ 2 * (List.zipWith sqDiff p q).sum := by
    intro p
    induction p with
    | nil => intro q k _ _; simp
    | cons t p ih =>
      intro q k hpq hp
      cases q with
      | nil => simp at hpq
      | cons t' q =>
        rw [List.mapIdx_cons, List.mapIdx_cons, List.zipWith_cons_cons, List.zipWith_cons_cons, List.sum_cons,
          List.sum_cons, sqDiff_inUnits (ha _) t t' (hp t (by simp))]
        have := ih q (k + 1) (by simpa using hpq) (fun t ht => hp t (by simp [ht]))
        have e : ∀ q : List (Attr ℝ), q.mapIdx (fun i t => t.inUnits (a (k + (i + 1))) (b (k + (i + 1)))) =
            q.mapIdx (fun i t => t.inUnits (a (k + 1 + i)) (b (k + 1 + i))) := by
          intro q; congr 1; funext i t; rw [show k + (i + 1) = k + 1 + i by omega]
        rw [e, e, this]; ring
  have := key p q 0 hlen hnd
  simpa using this

theorem stableSort_map {α β : Type} (f : α → β) (lt : α → α → Bool) (lt' : β → β → Bool) (l : List α)
    (h : ∀ x ∈ l, ∀ y ∈ l, lt' (f x) (f y) = lt x y) : stableSort lt' (l.map f) = (stableSort lt l).map f := by
  induction l with
  | nil => rfl
  | cons x l ih =>
    have ih := ih (fun a ha b hb => h a (by simp [ha]) b (by simp [hb]))
    show insertBy lt' (f x) (stableSort lt' (l.map f)) = (insertBy lt x (stableSort lt l)).map f
    rw [ih]
    have hmem : ∀ y ∈ stableSort lt l, lt' (f y) (f x) = lt y x := by
      intro y hy
      have := (stableSort_perm lt l).mem_iff.1 hy
      exact h y (by simp [this]) x (by simp)
    generalize stableSort lt l = s at hmem
    induction s with
    | nil => rfl
    | cons y s ihs =>
      simp only [List.map_cons, insertBy, hmem y (by simp)]
      split
      · rw [List.map_cons, ihs (fun z hz => hmem z (by simp [hz]))]
      · rfl

/-- **C155.** Nearest neighbours with the Euclidean distance: measuring all columns in another
unit of the same size (`|a i| = s > 0`, shifts `b i` free) leaves the neighbours, the prediction
and the class probabilities the same. With plain discrete attributes only `s = 1` is allowed: a
mismatch always counts 1. -/
theorem C155_knn_units (data : IList ℝ) (k : Int) (ts : List AttrType) (hts : ∀ y ∈ data, typesOf y = ts)
    (s : ℝ) (hs : 0 < s) (a b : Nat → ℝ) (ha : ∀ i, |a i| = s) (hdisc : s = 1 ∨ AttrType.discrete ∉ ts)
    (x : Inst ℝ) (hx : typesOf x = ts) :
    ∃ ns, Knn.nearestNeighbors ⟨data, k, euclidean⟩ x = .ok ns ∧
      Knn.nearestNeighbors ⟨data.map (inUnits a b), k, euclidean⟩ (inUnits a b x) = .ok (ns.map (inUnits a b)) ∧
      Knn.predict ⟨data.map (inUnits a b), k, euclidean⟩ (inUnits a b x) = Knn.predict ⟨data, k, euclidean⟩ x ∧
      Knn.predictProbability ⟨data.map (inUnits a b), k, euclidean⟩ (inUnits a b x) =
        Knn.predictProbability ⟨data, k, euclidean⟩ x := by
  have hd : ∀ y ∈ data, ∃ d, euclidean y x = .ok d ∧ euclidean (inUnits a b y) (inUnits a b x) = .ok (s ^ 2 * d) :=
    fun y hy => euclidean_inUnits ha (hts y hy) hx hdisc
  have hcsub : ∀ y ∈ candidates data x, y ∈ data := by
    intro y hy; rw [candidates_eq] at hy; exact (List.mem_filter.1 hy).1
  let d : Inst ℝ → ℝ := fun y => match euclidean y x with | .ok d => d | .error _ => 0
  let d' : Inst ℝ → ℝ := fun y => match euclidean y (inUnits a b x) with | .ok d => d | .error _ => 0
  have hdd : ∀ y ∈ data, euclidean y x = .ok (d y) ∧ euclidean (inUnits a b y) (inUnits a b x) = .ok (d' (inUnits a b y)) ∧
      d' (inUnits a b y) = s ^ 2 * d y := by
    intro y hy
    obtain ⟨e, h1, h2⟩ := hd y hy
    simp only [d, d', h1, h2, and_self]
  have hcand : candidates (data.map (inUnits a b)) (inUnits a b x) = (candidates data x).map (inUnits a b) := by
    rw [candidates_eq, candidates_eq, List.filter_map]; rfl
  have h1 := nearest_eq (⟨data, k, euclidean⟩ : Knn ℝ) x d (fun y hy => (hdd y (hcsub y hy)).1)
  have h2 := nearest_eq (⟨data.map (inUnits a b), k, euclidean⟩ : Knn ℝ) (inUnits a b x) d' (by
    intro y hy
    simp only [hcand] at hy
    obtain ⟨z, hz, rfl⟩ := List.mem_map.1 hy
    exact (hdd z (hcsub z hz)).2.1)
  simp only [hcand] at h2
  rw [stableSort_map (inUnits a b) (fun a b => d a <. d b) (fun a b => d' a <. d' b) (candidates data x) (by
    intro y hy z hz
    simp only [lt_real]
    rw [(hdd y (hcsub y hy)).2.2, (hdd z (hcsub z hz)).2.2]
    have hs2 : 0 < s ^ 2 := by positivity
    rw [decide_eq_decide]
    exact mul_lt_mul_iff_right₀ hs2), ← List.map_take] at h2
  refine ⟨_, h1, h2, ?_, ?_⟩
  · unfold Knn.predict
    rw [h1, h2]
    simp only [res_bind_ok, List.length_map]
    have : IList.getClassLabels (List.map (inUnits a b)
        (List.take k.toNat (stableSort (fun a b => d a <. d b) (candidates data x)))) =
      IList.getClassLabels (List.take k.toNat (stableSort (fun a b => d a <. d b) (candidates data x))) := by
      rw [getClassLabels_eq, getClassLabels_eq, labels_inUnits]
    rw [this]; rfl
  · unfold Knn.predictProbability
    rw [h1, h2]
    simp only [res_bind_ok, dist_inUnits]

/-- **C155.** The nearest-mean classifier on numbers, likewise; some class mean is nearer than
`DBL_MAX` in either unit. -/
theorem C155_nearest_mean_units (l : IList ℝ) (n : Nat) (hl : ∀ x ∈ l, Numeric n x) (old old' : KMeans ℝ)
    (s : ℝ) (hs : 0 < s) (a b : Nat → ℝ) (ha : ∀ i, |a i| = s) :
    ∃ m m', KMeans.train old l euclidean = .ok m ∧ KMeans.train old' (l.map (inUnits a b)) euclidean = .ok m' ∧
      ∀ x, Numeric n x → x.possible = none →
        (∃ c ∈ l.map Inst.label, ∃ t, m.metric x c = .ok t ∧ -(2 : ℝ) ^ 1024 < t) →
        (∃ c ∈ l.map Inst.label, ∃ t, m'.metric (inUnits a b x) c = .ok t ∧ -(2 : ℝ) ^ 1024 < t) →
        m'.predict (inUnits a b x) = m.predict x := by
  have hl' : ∀ x ∈ l.map (inUnits a b), Numeric n x := by
    intro x hx
    obtain ⟨y, hy, rfl⟩ := List.mem_map.1 hx
    exact numeric_inUnits a b (hl y hy)
  have e := kmeans_continuous old l euclidean n contValues (fun x hx => numeric_values (hl x hx))
  have e' := kmeans_continuous old' (l.map (inUnits a b)) euclidean n contValues (fun x hx => numeric_values (hl' x hx))
  refine ⟨_, _, e, e', fun x hx hposs hb hb' => ?_⟩
  have hcand : ∀ c, c ∈ discCandidates l.classDistribution x ↔ c ∈ l.map Inst.label := by
    intro c
    simp only [discCandidates, hposs, (C10_class_distribution l).mem_items]
  have hnum : ∀ (z : Inst ℝ) (u : List ℝ), Numeric n z → u.length = n → typesOf z = typesOf (⟨"", u.map Attr.continuous, none⟩ : Inst ℝ) := by
    intro z u hz hu
    obtain ⟨h1, h2⟩ := numeric_values hz
    unfold typesOf
    rw [h1]
    simp only [List.map_map]
    apply List.ext_getElem?
    intro i
    simp only [List.getElem?_map, Function.comp_def, typeOf]
    by_cases hi : i < n
    · rw [List.getElem?_eq_getElem (by omega), List.getElem?_eq_getElem (by omega)]; rfl
    · rw [List.getElem?_eq_none_iff.2 (by omega), List.getElem?_eq_none_iff.2 (by omega)]
  have hmean : ∀ c ∈ l.map Inst.label,
      (⟨c, (classMean (l.map (inUnits a b)) contValues n c).map Attr.continuous, none⟩ : Inst ℝ) =
        inUnits a b ⟨c, (classMean l contValues n c).map Attr.continuous, none⟩ := by
    intro c hc
    simp only [inUnits, Inst.mk.injEq, true_and, and_true]
    apply List.ext_getElem?
    intro i
    rw [List.getElem?_mapIdx, List.getElem?_map, List.getElem?_map]
    have l1 : (classMean (l.map (inUnits a b)) contValues n c).length = n := by simp [classMean]
    have l2 : (classMean l contValues n c).length = n := by simp [classMean]
    by_cases hi : i < n
    · have := classMean_inUnits a b hl hc hi
      rw [List.getD_eq_getElem?_getD, List.getD_eq_getElem?_getD, List.getElem?_eq_getElem (by omega),
        List.getElem?_eq_getElem (by omega)] at this
      rw [List.getElem?_eq_getElem (by omega), List.getElem?_eq_getElem (by omega)]
      simp only [Option.getD_some] at this
      simp only [Option.map_some, this]; rfl
    · rw [List.getElem?_eq_none_iff.2 (by omega), List.getElem?_eq_none_iff.2 (by omega)]; rfl
  have hval : ∀ c ∈ l.map Inst.label, ∃ d : ℝ,
      KMeans.metric ⟨l.classDistribution, l.getDistinctClassLabels.map (fun c => (c, ((classMean l contValues n c).map Attr.continuous).map some)), euclidean⟩ x c = .ok (-d) ∧
      KMeans.metric ⟨IList.classDistribution (l.map (inUnits a b)), (IList.getDistinctClassLabels (l.map (inUnits a b))).map (fun c => (c, ((classMean (l.map (inUnits a b)) contValues n c).map Attr.continuous).map some)), euclidean⟩ (inUnits a b x) c = .ok (-(s ^ 2 * d)) := by
    intro c hc
    obtain ⟨d, h1, h2⟩ := euclidean_inUnits (b := b) ha (hnum x (contValues x) hx (numeric_values hx).2)
      (y := ⟨c, (classMean l contValues n c).map Attr.continuous, none⟩) (ts := typesOf (⟨"", (contValues x).map Attr.continuous, none⟩ : Inst ℝ))
      (hnum _ _ ⟨_, rfl, by simp [classMean]⟩ (numeric_values hx).2) (.inr (by
        intro h
        simp only [typesOf, List.map_map, List.mem_map] at h
        obtain ⟨v, _, h⟩ := h
        cases h))
    refine ⟨d, ?_, ?_⟩
    · unfold KMeans.metric
      simp only
      rw [kmeans_find _ _ c (((C07_distinct_class_labels l).mem_iff c).2 hc)]
      simp only [nonNull_some, res_bind_ok, h1]
      rfl
    · unfold KMeans.metric
      simp only
      rw [kmeans_find _ _ c (((C07_distinct_class_labels (l.map (inUnits a b))).mem_iff c).2 (by rw [labels_inUnits]; exact hc))]
      simp only [nonNull_some, res_bind_ok]
      rw [hmean c hc, h2]
      rfl
  choose! d hd1 hd2 using hval
  unfold KMeans.predict
  simp only [dist_inUnits] at hd2 hb' ⊢
  refine gaussPredict_order (μ := fun c => -d c) (ν := fun c => -(s ^ 2 * d c)) rfl
    (fun c hc => hd1 c ((hcand c).1 hc)) (fun c hc => hd2 c ((hcand c).1 hc)) ?_ ?_ ?_
  · intro c _ c' _
    simp only [neg_lt_neg_iff]
    exact (mul_lt_mul_iff_right₀ (by positivity : 0 < s ^ 2)).symm
  · obtain ⟨c, hc, t, h1, h2⟩ := hb
    rw [hd1 c hc] at h1; cases h1
    exact ⟨c, (hcand c).2 hc, h2⟩
  · obtain ⟨c, hc, t, h1, h2⟩ := hb'
    rw [hd2 c hc] at h1; cases h1
    exact ⟨c, (hcand c).2 hc, h2⟩

/-! ## the hypotheses are met -/

/-- inversion of matrices of size 1 -/
noncomputable def inverse1 (S : Mat ℝ) : Mat ℝ := ⟨1, 1, fun i j => (S.e i j)⁻¹⟩

theorem inverse1_symm (S : Mat ℝ) (h : IsSymm 1 S) : IsSymm 1 (inverse1 S) :=
  ⟨rfl, rfl, fun i j hi hj => by simp only [inverse1]; rw [h.2.2 i j hi hj]⟩

theorem inverse1_inverts : Inverts 1 inverse1 := by
  intro S _ _ _
  rw [Matrix.inv_subsingleton]
  ext i j
  have hi : i = 0 := Subsingleton.elim _ _
  have hj : j = 0 := Subsingleton.elim _ _
  subst hi hj
  simp [asMatrix, inverse1]

theorem nbWitness_gauss : GaussData 1 nbWitness := ⟨by simp [nbWitness], nbWitness_numeric, nbWitness_two⟩

theorem nbWitness_meanA : classMean nbWitness contValues 1 "a" = [0] := by
  simp [classMean, nbWitness, contValues, contOf, mean]

theorem nbWitness_scatter : scatter nbWitness contValues 1 "a" 0 0 = 2 ∧ scatter nbWitness contValues 1 "b" 0 0 = 200 := by
  have mb : classMean nbWitness contValues 1 "b" = [1] := by
    simp [classMean, nbWitness, contValues, contOf, mean]; norm_num
  constructor
  · unfold scatter
    rw [nbWitness_meanA]
    simp [nbWitness, contValues, contOf]; norm_num
  · unfold scatter
    rw [mb]
    simp [nbWitness, contValues, contOf]; norm_num

theorem nbWitness_labels : nbWitness.getDistinctClassLabels = ["a", "b"] := rfl

theorem nbWitness_pooled : (Matrix.of fun i j : Fin 1 => pooledEntry nbWitness contValues 1 i j).det ≠ 0 := by
  rw [Matrix.det_fin_one]
  simp only [Matrix.of_apply, Fin.val_zero, pooledEntry, nbWitness_labels, List.map_cons, List.map_nil,
    nbWitness_scatter.1, nbWitness_scatter.2]
  norm_num [nbWitness]

/-- linear and quadratic discriminants, numbers doubled, the query 0 -/
example : (∃ m m', Lda.train inverse1 Lda.new nbWitness = .ok m ∧
      Lda.train inverse1 Lda.new (nbWitness.map (inUnits (fun _ => 2) (fun _ => 0))) = .ok m' ∧
      m'.predict (inUnits (fun _ => 2) (fun _ => 0) ⟨"?", [.continuous 0], none⟩) = m.predict ⟨"?", [.continuous 0], none⟩) ∧
    ∃ m m', Qda.train inverse1 (fun S => (asMatrix 1 S).det) Qda.new nbWitness = .ok m ∧
      Qda.train inverse1 (fun S => (asMatrix 1 S).det) Qda.new (nbWitness.map (inUnits (fun _ => 2) (fun _ => 0))) = .ok m' ∧
      ∀ x, Numeric 1 x → x.possible = none →
        (∃ c ∈ nbWitness.map Inst.label, ∃ s, m.metric x c = .ok s ∧ -(2 : ℝ) ^ 1024 < s) →
        (∃ c ∈ nbWitness.map Inst.label, ∃ s, m'.metric (inUnits (fun _ => 2) (fun _ => 0) x) c = .ok s ∧ -(2 : ℝ) ^ 1024 < s) →
        m'.predict (inUnits (fun _ => 2) (fun _ => 0) x) = m.predict x := by
  constructor
  · obtain ⟨m, m', e, e', h⟩ := C154_lda_units nbWitness_gauss inverse1 inverse1_symm inverse1_inverts nbWitness_pooled
      (fun _ => 2) (fun _ => 0) (fun _ => by norm_num)
    have hg' := nbWitness_gauss.inUnits (fun _ => 2) (fun _ => 0)
    obtain ⟨n, S, en, _, _, _, hs⟩ := C104_lda nbWitness contValues 1 (fun x hx => numeric_values (nbWitness_numeric x hx))
      nbWitness_gauss.two nbWitness_gauss.ne inverse1 inverse1_symm
    obtain ⟨n', S', en', _, _, _, hs'⟩ := C104_lda (nbWitness.map (inUnits (fun _ => 2) (fun _ => 0))) contValues 1
      (fun x hx => numeric_values (hg'.numeric x hx)) hg'.two hg'.ne inverse1 inverse1_symm
    rw [e] at en; cases en
    rw [e'] at en'; cases en'
    have hmem : "a" ∈ nbWitness.map Inst.label := by simp [nbWitness]
    have hbig : -(2 : ℝ) ^ 1024 < Real.log (2 / 4) := by
      have h1 : Real.log (4 / 2) < 2 := by
        have := Real.log_lt_sub_one_of_pos (x := 4 / 2) (by norm_num) (by norm_num)
        linarith
      have h2 : Real.log (2 / 4) = - Real.log (4 / 2) := by rw [← Real.log_inv]; norm_num
      have h3 : (2 : ℝ) ≤ 2 ^ 1024 := by
        have := pow_le_pow_right₀ (one_le_two : (1 : ℝ) ≤ 2) (show 1 ≤ 1024 by norm_num)
        rwa [pow_one] at this
      rw [h2]
      generalize (2 : ℝ) ^ 1024 = P at h3
      linarith
    refine ⟨m, m', e, e', h _ ⟨[0], rfl, rfl⟩ rfl ⟨"a", hmem, _, hs _ [0] rfl rfl "a" hmem, ?_⟩
      ⟨"a", hmem, _, hs' _ [2 * 0 + 0] rfl rfl "a" (by rw [labels_inUnits]; exact hmem), ?_⟩⟩
    · rw [nbWitness_meanA]
      simpa [mahSq, bilinear, classSize, nbWitness] using hbig
    · have hm := classMean_inUnits (fun _ => 2) (fun _ => 0) nbWitness_numeric hmem (i := 0) (by norm_num)
      rw [nbWitness_meanA] at hm
      rw [classSize_inUnits]
      simp only [List.getD_eq_getElem?_getD] at hm
      have hcs : classSize nbWitness "a" = 2 := by simp [classSize, nbWitness]
      have hln : (nbWitness.map (inUnits (fun _ => 2) (fun _ => 0))).length = 4 := rfl
      simp only [mahSq, bilinear, Finset.range_one, Finset.sum_singleton, List.getD_eq_getElem?_getD, hm, hcs, hln]
      simpa using hbig
  · exact C154_qda_units nbWitness_gauss inverse1 _ inverse1_symm inverse1_inverts (fun _ _ _ => rfl) (by
      intro c hc
      rw [Matrix.det_fin_one]
      simp only [nbWitness, List.map_cons, List.map_nil, List.mem_cons, List.not_mem_nil, or_false] at hc
      have := nbWitness_scatter
      rcases hc with rfl | rfl | rfl | rfl
      · simp only [Matrix.of_apply, Fin.val_zero, this.1]; norm_num
      · simp only [Matrix.of_apply, Fin.val_zero, this.1]; norm_num
      · simp only [Matrix.of_apply, Fin.val_zero, this.2]; norm_num
      · simp only [Matrix.of_apply, Fin.val_zero, this.2]; norm_num)
      (fun _ => 2) (fun _ => 0) (fun _ => by norm_num)

/-- nearest neighbours with a shifted number and a colour; nearest means with doubled numbers -/
example : (∃ ns, Knn.nearestNeighbors ⟨exNormHeap, 1, euclidean⟩ ⟨"?", [.discrete "red", .continuous 2], none⟩ = .ok ns ∧
      Knn.predict ⟨exNormHeap.map (inUnits (fun _ => 1) (fun _ => 7)), 1, euclidean⟩
        (inUnits (fun _ => 1) (fun _ => 7) ⟨"?", [.discrete "red", .continuous 2], none⟩) =
      Knn.predict ⟨exNormHeap, 1, euclidean⟩ ⟨"?", [.discrete "red", .continuous 2], none⟩) ∧
    ∃ m m', KMeans.train ⟨DD.empty, [], euclidean⟩ nbWitness euclidean = .ok m ∧
      KMeans.train ⟨DD.empty, [], euclidean⟩ (nbWitness.map (inUnits (fun _ => -2) (fun _ => 5))) euclidean = .ok m' := by
  constructor
  · obtain ⟨ns, h1, _, h3, _⟩ := C155_knn_units exNormHeap 1 [.discrete, .continuous] (by
      intro x hx
      simp only [exNormHeap, List.mem_cons, List.not_mem_nil, or_false] at hx
      rcases hx with rfl | rfl <;> rfl) 1 (by norm_num) (fun _ => 1) (fun _ => 7) (fun _ => by norm_num) (.inl rfl)
      ⟨"?", [.discrete "red", .continuous 2], none⟩ rfl
    exact ⟨ns, h1, h3⟩
  · obtain ⟨m, m', h1, h2, _⟩ := C155_nearest_mean_units nbWitness 1 nbWitness_numeric ⟨DD.empty, [], euclidean⟩
      ⟨DD.empty, [], euclidean⟩ 2 (by norm_num) (fun _ => -2) (fun _ => 5) (fun _ => by norm_num)
    exact ⟨m, m', h1, h2⟩

end Verif
