import Verif.Spec.Axes
import Verif.Props.UnitsGauss
import Verif.Props.Distance
import Verif.Props.SingleClass

/-! # Property C221: other axes -/

set_option linter.unusedSectionVars false

namespace Verif
open Dbl

section
variable {n : Nat} (A : Matrix (Fin n) (Fin n) ℝ) (b : Fin n → ℝ)

theorem numeric_inAxes (x : Inst ℝ) : Numeric n (inAxes A b x) :=
  ⟨List.ofFn (fun i => A.mulVec (vectorOf n x) i + b i), by simp [inAxes, List.map_ofFn, Function.comp_def], by simp⟩

theorem contValues_vector {x : Inst ℝ} (h : Numeric n x) (i : Fin n) : (contValues x).getD i 0 = vectorOf n x i := by
  obtain ⟨h1, h2⟩ := numeric_values h
  have hi : (i : Nat) < (contValues x).length := by omega
  unfold vectorOf contValAt
  conv_rhs => rw [h1]
  rw [List.getElem?_map, List.getD_eq_getElem?_getD, List.getElem?_eq_getElem hi]; rfl

theorem vectorOf_inAxes (x : Inst ℝ) (i : Fin n) : vectorOf n (inAxes A b x) i = A.mulVec (vectorOf n x) i + b i := by
  conv_lhs => unfold vectorOf contValAt inAxes
  simp

theorem contValues_inAxes (x : Inst ℝ) (i : Fin n) :
    (contValues (inAxes A b x)).getD i 0 = A.mulVec (vectorOf n x) i + b i := by
  rw [contValues_vector (numeric_inAxes A b x), vectorOf_inAxes]

theorem classSize_inAxes (l : IList ℝ) (c : String) : classSize (l.map (inAxes A b)) c = classSize l c := by
  unfold classSize
  rw [List.map_map]; rfl

theorem labels_inAxes (l : IList ℝ) : (l.map (inAxes A b)).map Inst.label = l.map Inst.label := by
  rw [List.map_map]; rfl

theorem dist_inAxes (l : IList ℝ) : IList.classDistribution (l.map (inAxes A b)) = l.classDistribution := by
  rw [classDistribution_eq, classDistribution_eq, labels_inAxes]

theorem distinct_inAxes (l : IList ℝ) : IList.getDistinctClassLabels (l.map (inAxes A b)) = l.getDistinctClassLabels := by
  refine (C07_distinct_class_labels (l.map (inAxes A b))).unique ?_
  rw [labels_inAxes]
  exact C07_distinct_class_labels l

/-! ### means and scatter of a list -/

/-- the mean vector of a list of instances -/
noncomputable def meanVec (n : Nat) (p : IList ℝ) : Fin n → ℝ := fun i => mean (p.map (fun x => vectorOf n x i))

theorem meanVec_inAxes {p : IList ℝ} (hne : p ≠ []) (i : Fin n) :
    meanVec n (p.map (inAxes A b)) i = A.mulVec (meanVec n p) i + b i := by
  have key : ∀ p : IList ℝ, (p.map (fun x => A.mulVec (vectorOf n x) i + b i)).sum =
      ∑ j, A i j * (p.map (fun x => vectorOf n x j)).sum + p.length * b i := by
    intro p
    induction p with
    | nil => simp
    | cons x p ih =>
      have : A.mulVec (vectorOf n x) i = ∑ j, A i j * vectorOf n x j := rfl
      simp only [List.map_cons, List.sum_cons, ih, List.length_cons, mul_add, Finset.sum_add_distrib, this]
      push_cast; ring
  have hl : (p.length : ℝ) ≠ 0 := by simpa using hne
  unfold meanVec mean
  simp only [List.map_map, Function.comp_def, vectorOf_inAxes, List.length_map]
  rw [key, add_div, mul_div_cancel_left₀ _ hl]
  congr 1
  simp only [Finset.sum_div, mul_div_assoc]
  rfl

/-- the scatter matrix of a list around `m` -/
noncomputable def scatterMat (p : IList ℝ) (m : Fin n → ℝ) : Matrix (Fin n) (Fin n) ℝ :=
  Matrix.of fun i j => (p.map (fun x => (vectorOf n x i - m i) * (vectorOf n x j - m j))).sum

theorem scatterMat_inAxes (p : IList ℝ) (m m' : Fin n → ℝ) (hm : ∀ i, m' i = A.mulVec m i + b i) :
    scatterMat (p.map (inAxes A b)) m' = A * scatterMat p m * A.transpose := by
  induction p with
  | nil => ext i j; simp [scatterMat, Matrix.mul_apply]
  | cons x p ih =>
    have h1 : ∀ (q : IList ℝ) (y : Inst ℝ) (m : Fin n → ℝ), scatterMat (y :: q) m =
        Matrix.vecMulVec (vectorOf n y - m) (vectorOf n y - m) + scatterMat q m := by
      intro q y m; ext i j; simp [scatterMat, Matrix.vecMulVec_apply]
    have h2 : vectorOf n (inAxes A b x) - m' = A.mulVec (vectorOf n x - m) := by
      funext i
      simp only [Pi.sub_apply, vectorOf_inAxes, hm, Matrix.mulVec_sub]; ring
    rw [List.map_cons, h1, h1, ih, h2, Matrix.mul_add, Matrix.add_mul, Matrix.mul_vecMulVec, Matrix.vecMulVec_mul,
      Matrix.vecMul_transpose]

theorem classMean_vec {l : IList ℝ} (hl : ∀ x ∈ l, Numeric n x) (c : String) (i : Fin n) :
    (classMean l contValues n c).getD i 0 = meanVec n (l.filter (fun x => x.label == c)) i := by
  have : (classMean l contValues n c).getD i 0 =
      mean ((l.filter (fun x => x.label == c)).map (fun x => (contValues x).getD i 0)) := by
    simp only [classMean, List.getD_eq_getElem?_getD, List.getElem?_map, List.getElem?_range i.2, Option.map_some,
      Option.getD_some]
  rw [this]
  unfold meanVec
  congr 1
  exact List.map_congr_left (fun x hx => contValues_vector (hl x (List.mem_filter.1 hx).1) i)

theorem scatter_mat {l : IList ℝ} (hl : ∀ x ∈ l, Numeric n x) (c : String) :
    (Matrix.of fun i j : Fin n => scatter l contValues n c i j) =
      scatterMat (l.filter (fun x => x.label == c)) (meanVec n (l.filter (fun x => x.label == c))) := by
  ext i j
  simp only [Matrix.of_apply, scatter, scatterMat]
  congr 1
  refine List.map_congr_left (fun x hx => ?_)
  have hx := hl x (List.mem_filter.1 hx).1
  rw [contValues_vector hx, contValues_vector hx, classMean_vec hl, classMean_vec hl]

theorem numeric_map_inAxes (l : IList ℝ) : ∀ x ∈ l.map (inAxes A b), Numeric n x := by
  intro x hx
  obtain ⟨y, _, rfl⟩ := List.mem_map.1 hx
  exact numeric_inAxes A b y

theorem filter_inAxes (l : IList ℝ) (c : String) : (l.map (inAxes A b)).filter (fun x => x.label == c) =
    (l.filter (fun x => x.label == c)).map (inAxes A b) := by
  rw [List.filter_map]; rfl

theorem classMean_inAxes {l : IList ℝ} (hl : ∀ x ∈ l, Numeric n x) {c : String} (hc : c ∈ l.map Inst.label) (i : Fin n) :
    (classMean (l.map (inAxes A b)) contValues n c).getD i 0 =
      A.mulVec (fun j : Fin n => (classMean l contValues n c).getD j 0) i + b i := by
  rw [classMean_vec (numeric_map_inAxes A b l), filter_inAxes, meanVec_inAxes A b (class_ne_nil l c hc)]
  simp only [classMean_vec hl]

theorem scatter_inAxes {l : IList ℝ} (hl : ∀ x ∈ l, Numeric n x) {c : String} (hc : c ∈ l.map Inst.label) :
    (Matrix.of fun i j : Fin n => scatter (l.map (inAxes A b)) contValues n c i j) =
      A * (Matrix.of fun i j : Fin n => scatter l contValues n c i j) * A.transpose := by
  rw [scatter_mat (numeric_map_inAxes A b l), scatter_mat hl, filter_inAxes]
  exact scatterMat_inAxes A b _ _ _ (meanVec_inAxes A b (class_ne_nil l c hc))

theorem pooled_inAxes {l : IList ℝ} (hl : ∀ x ∈ l, Numeric n x) :
    (Matrix.of fun i j : Fin n => pooledEntry (l.map (inAxes A b)) contValues n i j) =
      A * (Matrix.of fun i j : Fin n => pooledEntry l contValues n i j) * A.transpose := by
  have h1 : ∀ (k : ℝ) (cs : List String) (f : String → Nat → Nat → ℝ),
      (Matrix.of fun i j : Fin n => (cs.map (fun c => f c i j)).sum / k) =
        k⁻¹ • (cs.map (fun c => Matrix.of fun i j : Fin n => f c i j)).sum := by
    intro k cs f
    induction cs with
    | nil => ext i j; simp
    | cons c cs ih =>
      rw [List.map_cons, List.sum_cons, smul_add, ← ih]
      ext i j
      simp only [Matrix.add_apply, Matrix.smul_apply, Matrix.of_apply, List.map_cons, List.sum_cons, smul_eq_mul]
      ring
  have h2 : ∀ (cs : List String) (f : String → Matrix (Fin n) (Fin n) ℝ),
      (cs.map (fun c => A * f c * A.transpose)).sum = A * (cs.map f).sum * A.transpose := by
    intro cs f
    induction cs with
    | nil => simp
    | cons c cs ih => simp only [List.map_cons, List.sum_cons, ih, Matrix.mul_add, Matrix.add_mul]
  unfold pooledEntry
  rw [distinct_inAxes, List.length_map, h1, h1, Matrix.mul_smul, Matrix.smul_mul, ← h2]
  congr 2
  refine List.map_congr_left (fun c hc => ?_)
  exact scatter_inAxes A b hl (((C07_distinct_class_labels l).mem_iff c).1 hc)

/-- the squared Mahalanobis distance does not depend on the axes -/
theorem mahSq_axes {inverse : Mat ℝ → Mat ℝ} (hinv : Inverts n inverse) (hA : A.det ≠ 0) {S S' : Mat ℝ}
    (hr : S.rows = n) (hc : S.cols = n) (hr' : S'.rows = n) (hc' : S'.cols = n) (hdet : (asMatrix n S).det ≠ 0)
    (hS' : asMatrix n S' = A * asMatrix n S * A.transpose) {u w u' w' : List ℝ}
    (hu : ∀ i : Fin n, u'.getD i 0 = A.mulVec (fun j : Fin n => u.getD j 0) i + b i)
    (hw : ∀ i : Fin n, w'.getD i 0 = A.mulVec (fun j : Fin n => w.getD j 0) i + b i) :
    mahSq n (inverse S') u' w' = mahSq n (inverse S) u w := by
  have hdet' : (asMatrix n S').det ≠ 0 := by
    rw [hS', Matrix.det_mul, Matrix.det_mul, Matrix.det_transpose]
    exact mul_ne_zero (mul_ne_zero hA hdet) hA
  have hd : (fun i : Fin n => u'.getD i 0 - w'.getD i 0) = A.mulVec (fun i : Fin n => u.getD i 0 - w.getD i 0) := by
    funext i
    rw [hu i, hw i, show (fun i : Fin n => u.getD i 0 - w.getD i 0) =
      (fun i : Fin n => u.getD i 0) - (fun i : Fin n => w.getD i 0) from rfl, Matrix.mulVec_sub, Pi.sub_apply]
    ring
  have hAt : IsUnit A.transpose.det := by rw [Matrix.det_transpose]; exact isUnit_iff_ne_zero.2 hA
  unfold mahSq
  rw [bilinear_eq, bilinear_eq, hinv S' hr' hc' hdet', hinv S hr hc hdet, hd]
  generalize (fun i : Fin n => u.getD i 0 - w.getD i 0) = d
  have key : Matrix.mulVec (asMatrix n S')⁻¹ (A.mulVec d) = Matrix.mulVec (A.transpose)⁻¹ (Matrix.mulVec (asMatrix n S)⁻¹ d) := by
    rw [hS', Matrix.mul_inv_rev, Matrix.mul_inv_rev, Matrix.mulVec_mulVec, Matrix.mulVec_mulVec]
    congr 1
    rw [Matrix.mul_assoc, Matrix.mul_assoc, Matrix.nonsing_inv_mul _ (isUnit_iff_ne_zero.2 hA), Matrix.mul_one]
  rw [key, Matrix.dotProduct_mulVec]
  congr 1
  rw [← Matrix.vecMul_transpose, Matrix.vecMul_vecMul, Matrix.mul_nonsing_inv _ hAt, Matrix.vecMul_one]

theorem GaussData.inAxes {l : IList ℝ} (h : GaussData n l) : GaussData n (l.map (Verif.inAxes A b)) := by
  refine ⟨by simpa using h.ne, numeric_map_inAxes A b l, ?_⟩
  intro c hc
  rw [classSize_inAxes]; rw [labels_inAxes] at hc; exact h.two c hc

theorem contValues_axes {x : Inst ℝ} (hx : Numeric n x) (i : Fin n) :
    (contValues (inAxes A b x)).getD i 0 = A.mulVec (fun j : Fin n => (contValues x).getD j 0) i + b i := by
  rw [contValues_inAxes]
  simp only [contValues_vector hx]

/-! ## discriminant analysis -/

/-- **C221.** Linear discriminant analysis: training and asking with the data described along other
axes (`A v + b` in place of the vector `v` of numbers, `A` any invertible matrix) gives the same
predictions, when the pooled covariance matrix is not singular and some class scores above
`-DBL_MAX` in either description. `inverse` is the matrix library's inversion. -/
theorem C221_lda {l : IList ℝ} (hg : GaussData n l) (inverse : Mat ℝ → Mat ℝ)
    (hsymm : ∀ S, IsSymm n S → IsSymm n (inverse S)) (hinv : Inverts n inverse)
    (hns : (Matrix.of fun i j : Fin n => pooledEntry l contValues n i j).det ≠ 0) (hA : A.det ≠ 0) :
    ∃ m m', Lda.train inverse Lda.new l = .ok m ∧ Lda.train inverse Lda.new (l.map (inAxes A b)) = .ok m' ∧
      ∀ x, Numeric n x → x.possible = none →
        (∃ c ∈ l.map Inst.label, ∃ s, m.metric x c = .ok s ∧ -(2 : ℝ) ^ 1024 < s) →
        (∃ c ∈ l.map Inst.label, ∃ s, m'.metric (inAxes A b x) c = .ok s ∧ -(2 : ℝ) ^ 1024 < s) →
        m'.predict (inAxes A b x) = m.predict x := by
  have hg' := hg.inAxes A b
  obtain ⟨m, S, e, hp, hS, hSe, hs⟩ := C104_lda l contValues n (fun x hx => numeric_values (hg.numeric x hx))
    hg.two hg.ne inverse hsymm
  obtain ⟨m', S', e', hp', hS', hSe', hs'⟩ := C104_lda (l.map (inAxes A b)) contValues n
    (fun x hx => numeric_values (hg'.numeric x hx)) hg'.two hg'.ne inverse hsymm
  refine ⟨m, m', e, e', fun x hx hposs hb hb' => ?_⟩
  have hnx := numeric_values hx
  have hnx' := numeric_values (numeric_inAxes A b x)
  have hm : asMatrix n S = Matrix.of fun i j : Fin n => pooledEntry l contValues n i j := by
    ext i j; simp only [asMatrix, Matrix.of_apply]; exact hSe i j i.2 j.2
  have hm' : asMatrix n S' = Matrix.of fun i j : Fin n => pooledEntry (l.map (inAxes A b)) contValues n i j := by
    ext i j; simp only [asMatrix, Matrix.of_apply]; exact hSe' i j i.2 j.2
  have hmah : ∀ c ∈ l.map Inst.label, mahSq n (inverse S') (contValues (inAxes A b x))
      (classMean (l.map (inAxes A b)) contValues n c) = mahSq n (inverse S) (contValues x) (classMean l contValues n c) :=
    fun c hc => mahSq_axes A b hinv hA hS.1 hS.2.1 hS'.1 hS'.2.1 (by rw [hm]; exact hns)
      (by rw [hm, hm', pooled_inAxes A b hg.numeric])
      (contValues_axes A b hx) (classMean_inAxes A b hg.numeric hc)
  have hcand : ∀ c, c ∈ discCandidates l.classDistribution x ↔ c ∈ l.map Inst.label := by
    intro c
    simp only [discCandidates, hposs, (C10_class_distribution l).mem_items]
  have hf := fun c hc => hs x _ hnx.1 hnx.2 c ((hcand c).1 hc)
  have hf' := fun c hc => hs' _ _ hnx'.1 hnx'.2 c (by rw [labels_inAxes]; exact (hcand c).1 hc)
  unfold Lda.predict
  rw [hp, hp', dist_inAxes]
  refine gaussPredict_order rfl hf hf' ?_ ?_ ?_
  · intro c hc d hd
    rw [hmah c ((hcand c).1 hc), hmah d ((hcand d).1 hd), classSize_inAxes, classSize_inAxes, List.length_map]
    constructor <;> intro h <;> linarith
  · obtain ⟨c, hc, s, h1, h2⟩ := hb
    rw [hf c ((hcand c).2 hc)] at h1; cases h1
    exact ⟨c, (hcand c).2 hc, h2⟩
  · obtain ⟨c, hc, s, h1, h2⟩ := hb'
    rw [hf' c ((hcand c).2 hc)] at h1; cases h1
    exact ⟨c, (hcand c).2 hc, h2⟩

/-- **C221.** Quadratic discriminant analysis, likewise, when no class has a singular covariance
matrix; `det` is the library's determinant. -/
theorem C221_qda {l : IList ℝ} (hg : GaussData n l) (inverse : Mat ℝ → Mat ℝ) (det : Mat ℝ → ℝ)
    (hsymm : ∀ S, IsSymm n S → IsSymm n (inverse S)) (hinv : Inverts n inverse)
    (hdet : ∀ S : Mat ℝ, S.rows = n → S.cols = n → det S = (asMatrix n S).det)
    (hns : ∀ c ∈ l.map Inst.label, (Matrix.of fun i j : Fin n => scatter l contValues n c i j).det ≠ 0) (hA : A.det ≠ 0) :
    ∃ m m', Qda.train inverse det Qda.new l = .ok m ∧ Qda.train inverse det Qda.new (l.map (inAxes A b)) = .ok m' ∧
      ∀ x, Numeric n x → x.possible = none →
        (∃ c ∈ l.map Inst.label, ∃ s, m.metric x c = .ok s ∧ -(2 : ℝ) ^ 1024 < s) →
        (∃ c ∈ l.map Inst.label, ∃ s, m'.metric (inAxes A b x) c = .ok s ∧ -(2 : ℝ) ^ 1024 < s) →
        m'.predict (inAxes A b x) = m.predict x := by
  have hg' := hg.inAxes A b
  obtain ⟨m, S, e, hp, hS, hs⟩ := C105_qda l contValues n (fun x hx => numeric_values (hg.numeric x hx))
    hg.two hg.ne inverse det hsymm
  obtain ⟨m', S', e', hp', hS', hs'⟩ := C105_qda (l.map (inAxes A b)) contValues n
    (fun x hx => numeric_values (hg'.numeric x hx)) hg'.two hg'.ne inverse det hsymm
  refine ⟨m, m', e, e', fun x hx hposs hb hb' => ?_⟩
  have hnx := numeric_values hx
  have hnx' := numeric_values (numeric_inAxes A b x)
  have hS'l : ∀ c ∈ l.map Inst.label, c ∈ (l.map (inAxes A b)).map Inst.label := by
    intro c hc; rw [labels_inAxes]; exact hc
  have hm : ∀ c ∈ l.map Inst.label, asMatrix n (S c) =
      ((classSize l c : ℝ) - 1)⁻¹ • Matrix.of fun i j : Fin n => scatter l contValues n c i j := by
    intro c hc
    ext i j
    simp only [asMatrix, Matrix.of_apply, Matrix.smul_apply, smul_eq_mul]
    rw [(hS c hc).2 i j i.2 j.2, div_eq_inv_mul]
  have hm' : ∀ c ∈ l.map Inst.label, asMatrix n (S' c) = A * asMatrix n (S c) * A.transpose := by
    intro c hc
    rw [hm c hc, Matrix.mul_smul, Matrix.smul_mul, ← scatter_inAxes A b hg.numeric hc]
    ext i j
    simp only [asMatrix, Matrix.of_apply, Matrix.smul_apply, smul_eq_mul]
    rw [(hS' c (hS'l c hc)).2 i j i.2 j.2, classSize_inAxes, div_eq_inv_mul]
  have hmat : ∀ c ∈ l.map Inst.label, (asMatrix n (S c)).det ≠ 0 := by
    intro c hc
    have hk : ((classSize l c : ℝ) - 1)⁻¹ ≠ 0 := by
      have : (2 : ℝ) ≤ classSize l c := by exact_mod_cast hg.two c hc
      exact inv_ne_zero (by linarith)
    rw [hm c hc, Matrix.det_smul]
    exact mul_ne_zero (pow_ne_zero _ hk) (hns c hc)
  have hmah : ∀ c ∈ l.map Inst.label, mahSq n (inverse (S' c)) (contValues (inAxes A b x))
      (classMean (l.map (inAxes A b)) contValues n c) = mahSq n (inverse (S c)) (contValues x) (classMean l contValues n c) :=
    fun c hc => mahSq_axes A b hinv hA (hS c hc).1.1 (hS c hc).1.2.1 (hS' c (hS'l c hc)).1.1 (hS' c (hS'l c hc)).1.2.1
      (hmat c hc) (hm' c hc) (contValues_axes A b hx) (classMean_inAxes A b hg.numeric hc)
  have hlog : ∀ c ∈ l.map Inst.label, Real.log (det (S' c)) = Real.log (det (S c)) + 2 * Real.log A.det := by
    intro c hc
    rw [hdet _ (hS' c (hS'l c hc)).1.1 (hS' c (hS'l c hc)).1.2.1, hdet _ (hS c hc).1.1 (hS c hc).1.2.1,
      hm' c hc, Matrix.det_mul, Matrix.det_mul, Matrix.det_transpose, Real.log_mul (mul_ne_zero hA (hmat c hc)) hA,
      Real.log_mul hA (hmat c hc)]
    ring
  have hcand : ∀ c, c ∈ discCandidates l.classDistribution x ↔ c ∈ l.map Inst.label := by
    intro c
    simp only [discCandidates, hposs, (C10_class_distribution l).mem_items]
  have hf := fun c hc => hs x _ hnx.1 hnx.2 c ((hcand c).1 hc)
  have hf' := fun c hc => hs' _ _ hnx'.1 hnx'.2 c (by rw [labels_inAxes]; exact (hcand c).1 hc)
  unfold Qda.predict
  rw [hp, hp', dist_inAxes]
  refine gaussPredict_order rfl hf hf' ?_ ?_ ?_
  · intro c hc d hd
    rw [hmah c ((hcand c).1 hc), hmah d ((hcand d).1 hd), hlog c ((hcand c).1 hc), hlog d ((hcand d).1 hd),
      classSize_inAxes, classSize_inAxes, List.length_map]
    constructor <;> intro h <;> linarith
  · obtain ⟨c, hc, s, h1, h2⟩ := hb
    rw [hf c ((hcand c).2 hc)] at h1; cases h1
    exact ⟨c, (hcand c).2 hc, h2⟩
  · obtain ⟨c, hc, s, h1, h2⟩ := hb'
    rw [hf' c ((hcand c).2 hc)] at h1; cases h1
    exact ⟨c, (hcand c).2 hc, h2⟩

/-! ## nearest neighbours and nearest means -/

theorem euclidean_vector {x y : Inst ℝ} (hx : Numeric n x) (hy : Numeric n y) :
    euclidean x y = .ok (_root_.dotProduct (vectorOf n x - vectorOf n y) (vectorOf n x - vectorOf n y)) := by
  obtain ⟨h1, h2⟩ := numeric_values hx
  obtain ⟨h3, h4⟩ := numeric_values hy
  rw [C51_sum x y (by rw [h1, h3]; simp [h2, h4])]
  congr 1
  have : List.zipWith sqDiff x.attrs y.attrs =
      List.ofFn (fun i : Fin n => (vectorOf n x i - vectorOf n y i) * (vectorOf n x i - vectorOf n y i)) := by
    apply List.ext_getElem
    · rw [h1, h3]; simp [h2, h4]
    · intro i hi hi'
      have hi : i < n := by simpa using hi'
      rw [List.getElem_zipWith, List.getElem_ofFn]
      rw [← contValues_vector hx ⟨i, hi⟩, ← contValues_vector hy ⟨i, hi⟩]
      have hix : (contValues x).getD i 0 = (contValues x)[i]'(by omega) := by
        rw [List.getD_eq_getElem?_getD, List.getElem?_eq_getElem (by omega)]; rfl
      have hiy : (contValues y).getD i 0 = (contValues y)[i]'(by omega) := by
        rw [List.getD_eq_getElem?_getD, List.getElem?_eq_getElem (by omega)]; rfl
      have e1 : x.attrs[i]'(by rw [h1]; simp; omega) = .continuous ((contValues x)[i]'(by omega)) := by
        rw [List.getElem_of_eq h1, List.getElem_map]
      have e2 : y.attrs[i]'(by rw [h3]; simp; omega) = .continuous ((contValues y)[i]'(by omega)) := by
        rw [List.getElem_of_eq h3, List.getElem_map]
      rw [e1, e2, hix, hiy]
      simp only [sqDiff]
      ring
  rw [this, List.sum_ofFn]
  rfl

theorem euclidean_inAxes {s : ℝ} (hA : A.transpose * A = s ^ 2 • (1 : Matrix (Fin n) (Fin n) ℝ)) {x y : Inst ℝ}
    (hx : Numeric n x) (hy : Numeric n y) :
    ∃ d, euclidean x y = .ok d ∧ euclidean (inAxes A b x) (inAxes A b y) = .ok (s ^ 2 * d) := by
  refine ⟨_, euclidean_vector hx hy, ?_⟩
  rw [euclidean_vector (numeric_inAxes A b x) (numeric_inAxes A b y)]
  congr 1
  have : vectorOf n (inAxes A b x) - vectorOf n (inAxes A b y) = A.mulVec (vectorOf n x - vectorOf n y) := by
    funext i
    simp only [Pi.sub_apply, vectorOf_inAxes, Matrix.mulVec_sub]; ring
  rw [this]
  generalize vectorOf n x - vectorOf n y = d
  rw [Matrix.dotProduct_mulVec, ← Matrix.mulVec_transpose, Matrix.mulVec_mulVec, hA, Matrix.smul_mulVec,
    Matrix.one_mulVec, smul_dotProduct, smul_eq_mul]

/-- two k-nearest-neighbour classifiers that see their data in the same order of distance -/
theorem knn_alike (g : Inst ℝ → Inst ℝ) (hlab : ∀ y, (g y).label = y.label) (hposs : ∀ y, (g y).possible = y.possible)
    (data : IList ℝ) (k : Int) (D D' : Inst ℝ → Inst ℝ → Res ℝ) (x : Inst ℝ) (s : ℝ) (hs : 0 < s)
    (hd : ∀ y ∈ data, ∃ d, D y x = .ok d ∧ D' (g y) (g x) = .ok (s * d)) :
    ∃ ns, Knn.nearestNeighbors ⟨data, k, D⟩ x = .ok ns ∧
      Knn.nearestNeighbors ⟨data.map g, k, D'⟩ (g x) = .ok (ns.map g) ∧
      Knn.predict ⟨data.map g, k, D'⟩ (g x) = Knn.predict ⟨data, k, D⟩ x ∧
      Knn.predictProbability ⟨data.map g, k, D'⟩ (g x) = Knn.predictProbability ⟨data, k, D⟩ x := by
  have hcsub : ∀ y ∈ candidates data x, y ∈ data := by
    intro y hy; rw [candidates_eq] at hy; exact (List.mem_filter.1 hy).1
  let d : Inst ℝ → ℝ := fun y => match D y x with | .ok d => d | .error _ => 0
  let d' : Inst ℝ → ℝ := fun y => match D' y (g x) with | .ok d => d | .error _ => 0
  have hdd : ∀ y ∈ data, D y x = .ok (d y) ∧ D' (g y) (g x) = .ok (d' (g y)) ∧ d' (g y) = s * d y := by
    intro y hy
    obtain ⟨e, h1, h2⟩ := hd y hy
    simp only [d, d', h1, h2, and_self]
  have helig : ∀ y, Knn.eligible (g x) (g y) = Knn.eligible x y := by
    intro y; unfold Knn.eligible Inst.isComposite Inst.possibleLabels; simp only [hlab, hposs]
  have hcand : candidates (data.map g) (g x) = (candidates data x).map g := by
    rw [candidates_eq, candidates_eq, List.filter_map]
    congr 1
    exact List.filter_congr (fun y _ => helig y)
  have hlabs : ∀ p : IList ℝ, (p.map g).map Inst.label = p.map Inst.label := by
    intro p; rw [List.map_map]; exact List.map_congr_left (fun y _ => hlab y)
  have h1 := nearest_eq (⟨data, k, D⟩ : Knn ℝ) x d (fun y hy => (hdd y (hcsub y hy)).1)
  have h2 := nearest_eq (⟨data.map g, k, D'⟩ : Knn ℝ) (g x) d' (by
    intro y hy
    simp only [hcand] at hy
    obtain ⟨z, hz, rfl⟩ := List.mem_map.1 hy
    exact (hdd z (hcsub z hz)).2.1)
  simp only [hcand] at h2
  rw [stableSort_map g (fun a b => d a <. d b) (fun a b => d' a <. d' b) (candidates data x) (by
    intro y hy z hz
    simp only [lt_real]
    rw [(hdd y (hcsub y hy)).2.2, (hdd z (hcsub z hz)).2.2]
    rw [decide_eq_decide]
    exact mul_lt_mul_iff_right₀ hs), ← List.map_take] at h2
  refine ⟨_, h1, h2, ?_, ?_⟩
  · unfold Knn.predict
    rw [h1, h2]
    simp only [res_bind_ok, List.length_map, getClassLabels_eq, hlabs, Inst.isComposite, Inst.possibleLabels, hposs,
      hlab]
  · unfold Knn.predictProbability
    rw [h1, h2]
    simp only [res_bind_ok, classDistribution_eq, hlabs]

/-- **C221.** Nearest neighbours with the Euclidean distance: turning or mirroring the axes and
changing the unit of all of them (`Aᵀ A = s² I`, `s > 0`; any shift) leaves the neighbours, the
prediction and the class probabilities the same. -/
theorem C221_knn (data : IList ℝ) (k : Int) (hnum : ∀ y ∈ data, Numeric n y) (s : ℝ) (hs : 0 < s)
    (hA : A.transpose * A = s ^ 2 • (1 : Matrix (Fin n) (Fin n) ℝ)) (x : Inst ℝ) (hx : Numeric n x) :
    ∃ ns, Knn.nearestNeighbors ⟨data, k, euclidean⟩ x = .ok ns ∧
      Knn.nearestNeighbors ⟨data.map (inAxes A b), k, euclidean⟩ (inAxes A b x) = .ok (ns.map (inAxes A b)) ∧
      Knn.predict ⟨data.map (inAxes A b), k, euclidean⟩ (inAxes A b x) = Knn.predict ⟨data, k, euclidean⟩ x ∧
      Knn.predictProbability ⟨data.map (inAxes A b), k, euclidean⟩ (inAxes A b x) =
        Knn.predictProbability ⟨data, k, euclidean⟩ x :=
  knn_alike (inAxes A b) (fun _ => rfl) (fun _ => rfl) data k euclidean euclidean x (s ^ 2) (by positivity)
    (fun y hy => euclidean_inAxes A b hA (hnum y hy) hx)

/-- the covariance matrix the library computes for a list of numeric instances -/
theorem covariance_mat {l : IList ℝ} (hn : 2 ≤ l.length) (hl : ∀ x ∈ l, Numeric n x) :
    ∃ avg M, l.continuousAttributeAverage = .ok avg ∧ l.covariance avg = .ok (n, M) ∧ IsSymm n ⟨n, n, M⟩ ∧
      asMatrix n ⟨n, n, M⟩ = ((l.length : ℝ) - 1)⁻¹ • scatterMat l (meanVec n l) := by
  have hne : l ≠ [] := by rintro rfl; simp at hn
  have hv : ∀ x ∈ l, x.attrs = (contValues x).map Attr.continuous ∧ (contValues x).length = n :=
    fun x hx => numeric_values (hl x hx)
  have ha := contAverage_ok l hne contValues n hv
  obtain ⟨M, e, h⟩ := C18_covariance l hn ((List.range n).map (fun (i : Nat) =>
      mean (l.map (fun x => (contValues x).getD i 0)))) n contValues (by simp) (by
    intro x hx
    exact ⟨toVector_ok x _ (hv x hx).1, (hv x hx).2, by rw [contSize_ok x _ (hv x hx).1, (hv x hx).2]⟩)
  refine ⟨_, M, ha, e, ⟨rfl, rfl, fun i j hi hj => ?_⟩, ?_⟩
  · simp only
    rw [h i j hi hj, h j i hj hi]
    congr 2
    exact List.map_congr_left (fun x _ => mul_comm _ _)
  · ext i j
    simp only [asMatrix, Matrix.of_apply, Matrix.smul_apply, smul_eq_mul, scatterMat]
    rw [h i j i.2 j.2, div_eq_inv_mul]
    congr 2
    refine List.map_congr_left (fun x hx => ?_)
    have hm : ∀ k : Fin n, ((List.range n).map (fun (i : Nat) => mean (l.map (fun x => (contValues x).getD i 0)))).getD k 0 =
        meanVec n l k := by
      intro k
      have e1 : ((List.range n).map (fun (i : Nat) => mean (l.map (fun x => (contValues x).getD i 0)))).getD k 0 =
          mean (l.map (fun x => (contValues x).getD k 0)) := by
        simp only [List.getD_eq_getElem?_getD, List.getElem?_map, List.getElem?_range k.2, Option.map_some, Option.getD_some]
      rw [e1]
      unfold meanVec
      congr 1
      exact List.map_congr_left (fun x hx => contValues_vector (hl x hx) k)
    rw [hm, hm, contValues_vector (hl x hx), contValues_vector (hl x hx)]

/-- **C221.** Nearest neighbours with the Mahalanobis distance under the inverse of the covariance
matrix the library computes for the data (not singular): the neighbours, the prediction and the
class probabilities are the same along any other axes, turned, stretched or slanted, when the matrix
is computed anew from the data described along these axes. -/
theorem C221_knn_mahalanobis (data : IList ℝ) (k : Int) (hn : 2 ≤ data.length) (hnum : ∀ y ∈ data, Numeric n y)
    (inverse : Mat ℝ → Mat ℝ) (hsymm : ∀ S, IsSymm n S → IsSymm n (inverse S)) (hinv : Inverts n inverse)
    (hA : A.det ≠ 0) :
    ∃ avg M avg' M', data.continuousAttributeAverage = .ok avg ∧ data.covariance avg = .ok (n, M) ∧
      IList.continuousAttributeAverage (data.map (inAxes A b)) = .ok avg' ∧
      IList.covariance (data.map (inAxes A b)) avg' = .ok (n, M') ∧
      ((asMatrix n ⟨n, n, M⟩).det ≠ 0 → ∀ x, Numeric n x → ∃ ns,
        Knn.nearestNeighbors ⟨data, k, mahalanobis (inverse ⟨n, n, M⟩)⟩ x = .ok ns ∧
        Knn.nearestNeighbors ⟨data.map (inAxes A b), k, mahalanobis (inverse ⟨n, n, M'⟩)⟩ (inAxes A b x) = .ok (ns.map (inAxes A b)) ∧
        Knn.predict ⟨data.map (inAxes A b), k, mahalanobis (inverse ⟨n, n, M'⟩)⟩ (inAxes A b x) =
          Knn.predict ⟨data, k, mahalanobis (inverse ⟨n, n, M⟩)⟩ x ∧
        Knn.predictProbability ⟨data.map (inAxes A b), k, mahalanobis (inverse ⟨n, n, M'⟩)⟩ (inAxes A b x) =
          Knn.predictProbability ⟨data, k, mahalanobis (inverse ⟨n, n, M⟩)⟩ x) := by
  have hne : data ≠ [] := by rintro rfl; simp at hn
  obtain ⟨avg, M, h1, h2, h3, h4⟩ := covariance_mat hn hnum
  obtain ⟨avg', M', h1', h2', h3', h4'⟩ := covariance_mat (l := data.map (inAxes A b)) (by simpa using hn)
    (numeric_map_inAxes A b data)
  refine ⟨avg, M, avg', M', h1, h2, h1', h2', fun hdet x hx => ?_⟩
  refine knn_alike (inAxes A b) (fun _ => rfl) (fun _ => rfl) data k _ _ x 1 one_pos (fun y hy => ?_)
  have hnx := numeric_values hx
  have hny := numeric_values (hnum y hy)
  have hnx' := numeric_values (numeric_inAxes A b x)
  have hny' := numeric_values (numeric_inAxes A b y)
  have hS := hsymm _ h3
  have hS' := hsymm _ h3'
  refine ⟨_, mahalanobis_eq (toVector_ok y _ hny.1) (toVector_ok x _ hnx.1) hny.2 hnx.2 hS.1 hS.2.1, ?_⟩
  rw [mahalanobis_eq (toVector_ok _ _ hny'.1) (toVector_ok _ _ hnx'.1) hny'.2 hnx'.2 hS'.1 hS'.2.1, one_mul]
  congr 1
  refine mahSq_axes A b hinv hA rfl rfl rfl rfl hdet ?_ (contValues_axes A b (hnum y hy)) (contValues_axes A b hx)
  rw [h4, h4', scatterMat_inAxes A b data _ _ (meanVec_inAxes A b hne), List.length_map, Matrix.mul_smul, Matrix.smul_mul]

theorem mean_inst_inAxes {l : IList ℝ} (hl : ∀ x ∈ l, Numeric n x) {c : String} (hc : c ∈ l.map Inst.label) :
    (⟨c, (classMean (l.map (inAxes A b)) contValues n c).map Attr.continuous, none⟩ : Inst ℝ) =
      inAxes A b ⟨c, (classMean l contValues n c).map Attr.continuous, none⟩ := by
  have hm : Numeric n (⟨c, (classMean l contValues n c).map Attr.continuous, none⟩ : Inst ℝ) := ⟨_, rfl, by simp [classMean]⟩
  have hcv : contValues (⟨c, (classMean l contValues n c).map Attr.continuous, none⟩ : Inst ℝ) = classMean l contValues n c := by
    generalize classMean l contValues n c = u
    unfold contValues
    rw [List.map_map]
    conv_rhs => rw [← List.map_id u]
    exact List.map_congr_left (fun v _ => rfl)
  simp only [inAxes, Inst.mk.injEq, true_and, and_true]
  apply List.ext_getElem
  · simp [classMean]
  · intro i hi hi'
    have hi : i < n := by simpa using hi'
    rw [List.getElem_map, List.getElem_ofFn]
    congr 1
    have := classMean_inAxes A b hl hc ⟨i, hi⟩
    have e1 : (classMean (l.map (inAxes A b)) contValues n c).getD i 0 =
        (classMean (l.map (inAxes A b)) contValues n c)[i]'(by simp [classMean, hi]) := by
      rw [List.getD_eq_getElem?_getD, List.getElem?_eq_getElem (by simp [classMean, hi])]; rfl
    simp only at this
    rw [← e1, this]
    congr 2
    funext j
    rw [← contValues_vector hm, hcv]

/-- **C221.** The nearest-mean classifier on numbers with the Euclidean distance, likewise for axes
turned, mirrored or measured in another common unit; some class mean is nearer than `DBL_MAX` in
either description. -/
theorem C221_nearest_mean (l : IList ℝ) (hl : ∀ x ∈ l, Numeric n x) (old old' : KMeans ℝ)
    (s : ℝ) (hs : 0 < s) (hA : A.transpose * A = s ^ 2 • (1 : Matrix (Fin n) (Fin n) ℝ)) :
    ∃ m m', KMeans.train old l euclidean = .ok m ∧ KMeans.train old' (l.map (inAxes A b)) euclidean = .ok m' ∧
      ∀ x, Numeric n x → x.possible = none →
        (∃ c ∈ l.map Inst.label, ∃ t, m.metric x c = .ok t ∧ -(2 : ℝ) ^ 1024 < t) →
        (∃ c ∈ l.map Inst.label, ∃ t, m'.metric (inAxes A b x) c = .ok t ∧ -(2 : ℝ) ^ 1024 < t) →
        m'.predict (inAxes A b x) = m.predict x := by
  have e := kmeans_continuous old l euclidean n contValues (fun x hx => numeric_values (hl x hx))
  have e' := kmeans_continuous old' (l.map (inAxes A b)) euclidean n contValues
    (fun x hx => numeric_values (numeric_map_inAxes A b l x hx))
  refine ⟨_, _, e, e', fun x hx hposs hb hb' => ?_⟩
  have hcand : ∀ c, c ∈ discCandidates l.classDistribution x ↔ c ∈ l.map Inst.label := by
    intro c
    simp only [discCandidates, hposs, (C10_class_distribution l).mem_items]
  have hval : ∀ c ∈ l.map Inst.label, ∃ d : ℝ,
      KMeans.metric ⟨l.classDistribution, l.getDistinctClassLabels.map (fun c => (c, ((classMean l contValues n c).map Attr.continuous).map some)), euclidean⟩ x c = .ok (-d) ∧
      KMeans.metric ⟨IList.classDistribution (l.map (inAxes A b)), (IList.getDistinctClassLabels (l.map (inAxes A b))).map (fun c => (c, ((classMean (l.map (inAxes A b)) contValues n c).map Attr.continuous).map some)), euclidean⟩ (inAxes A b x) c = .ok (-(s ^ 2 * d)) := by
    intro c hc
    obtain ⟨d, h1, h2⟩ := euclidean_inAxes A b hA hx
      (y := ⟨c, (classMean l contValues n c).map Attr.continuous, none⟩) ⟨_, rfl, by simp [classMean]⟩
    refine ⟨d, ?_, ?_⟩
    · unfold KMeans.metric
      simp only
      rw [kmeans_find _ _ c (((C07_distinct_class_labels l).mem_iff c).2 hc)]
      simp only [nonNull_some, res_bind_ok, h1]
      rfl
    · unfold KMeans.metric
      simp only
      rw [kmeans_find _ _ c (((C07_distinct_class_labels (l.map (inAxes A b))).mem_iff c).2 (by rw [labels_inAxes]; exact hc))]
      simp only [nonNull_some, res_bind_ok]
      rw [mean_inst_inAxes A b hl hc, h2]
      rfl
  choose! d hd1 hd2 using hval
  unfold KMeans.predict
  simp only [dist_inAxes] at hd2 hb' ⊢
  refine gaussPredict_order (μ := fun c => -d c) (ν := fun c => -(s ^ 2 * d c)) rfl
    (fun c hc => hd1 c ((hcand c).1 hc)) (fun c hc => hd2 c ((hcand c).1 hc)) ?_ ?_ ?_
  · intro c _ c' _
    simp only [neg_lt_neg_iff]
    exact (mul_lt_mul_iff_right₀ (by positivity : 0 < s ^ 2)).symm
  · obtain ⟨c, hc, t, h1, h2⟩ := hb
    rw [hd1 c hc] at h1; cases h1
    exact ⟨c, (hcand c).2 hc, h2⟩
  · obtain ⟨c, hc, t, h1, h2⟩ := hb'
    rw [hd2 c hc] at h1; cases h1
    exact ⟨c, (hcand c).2 hc, h2⟩

end

/-! ## the hypotheses are met -/

/-- the inverse as a matrix of the library -/
noncomputable def inverseOf (n : Nat) (S : Mat ℝ) : Mat ℝ :=
  ⟨n, n, fun i j => if h : i < n ∧ j < n then (asMatrix n S)⁻¹ ⟨i, h.1⟩ ⟨j, h.2⟩ else 0⟩

theorem inverseOf_inverts (n : Nat) : Inverts n (inverseOf n) := by
  intro S _ _ _
  ext i j
  simp [asMatrix, inverseOf]

theorem inverseOf_symm (n : Nat) (S : Mat ℝ) (h : IsSymm n S) : IsSymm n (inverseOf n S) := by
  refine ⟨rfl, rfl, fun i j hi hj => ?_⟩
  have ht : (asMatrix n S).transpose = asMatrix n S := by
    ext i j; simp only [Matrix.transpose_apply, asMatrix, Matrix.of_apply]; exact h.2.2 j i j.2 i.2
  have hi' : ((asMatrix n S)⁻¹).transpose = (asMatrix n S)⁻¹ := by rw [Matrix.transpose_nonsing_inv, ht]
  simp only [inverseOf, hi, hj, and_self, dite_true]
  exact (congrFun (congrFun hi' ⟨j, hj⟩) ⟨i, hi⟩)

/-- a point of the plane with a class -/
def pointIn (c : String) (u v : ℝ) : Inst ℝ := ⟨c, [.continuous u, .continuous v], none⟩

/-- two classes of four instances, around (0, 0) and around (4, 4) -/
def plusSigns : IList ℝ :=
  [pointIn "a" 1 0, pointIn "a" (-1) 0, pointIn "a" 0 1, pointIn "a" 0 (-1),
   pointIn "b" 5 4, pointIn "b" 3 4, pointIn "b" 4 5, pointIn "b" 4 3]

theorem plusSigns_numeric : ∀ x ∈ plusSigns, Numeric 2 x := by
  intro x hx
  simp only [plusSigns, List.mem_cons, List.not_mem_nil, or_false] at hx
  rcases hx with rfl | rfl | rfl | rfl | rfl | rfl | rfl | rfl <;> exact ⟨[_, _], rfl, rfl⟩

theorem plusSigns_gauss : GaussData 2 plusSigns := by
  refine ⟨by simp [plusSigns], plusSigns_numeric, fun c hc => ?_⟩
  simp only [plusSigns, pointIn, List.map_cons, List.map_nil, List.mem_cons, List.not_mem_nil, or_false] at hc
  rcases hc with rfl | rfl | rfl | rfl | rfl | rfl | rfl | rfl <;> decide

theorem plusSigns_means : classMean plusSigns contValues 2 "a" = [0, 0] ∧ classMean plusSigns contValues 2 "b" = [4, 4] := by
  constructor <;>
    · simp [classMean, plusSigns, pointIn, contValues, contOf, mean, List.range, List.range.loop] <;> norm_num

theorem plusSigns_scatter : ∀ c ∈ plusSigns.map Inst.label,
    (Matrix.of fun i j : Fin 2 => scatter plusSigns contValues 2 c i j) = !![2, 0; 0, 2] := by
  have ha : ∀ i j : Fin 2, scatter plusSigns contValues 2 "a" i j = !![(2 : ℝ), 0; 0, 2] i j := by
    intro i j
    unfold scatter
    rw [plusSigns_means.1]
    fin_cases i <;> fin_cases j <;> simp [plusSigns, pointIn, contValues, contOf] <;> norm_num
  have hb : ∀ i j : Fin 2, scatter plusSigns contValues 2 "b" i j = !![(2 : ℝ), 0; 0, 2] i j := by
    intro i j
    unfold scatter
    rw [plusSigns_means.2]
    fin_cases i <;> fin_cases j <;> simp [plusSigns, pointIn, contValues, contOf] <;> norm_num
  intro c hc
  simp only [plusSigns, pointIn, List.map_cons, List.map_nil, List.mem_cons, List.not_mem_nil, or_false] at hc
  ext i j
  rcases hc with rfl | rfl | rfl | rfl | rfl | rfl | rfl | rfl
  all_goals first | exact ha i j | exact hb i j

theorem plusSigns_labels : plusSigns.getDistinctClassLabels = ["a", "b"] := rfl

theorem plusSigns_pooled : (Matrix.of fun i j : Fin 2 => pooledEntry plusSigns contValues 2 i j).det ≠ 0 := by
  have h : ∀ c ∈ plusSigns.map Inst.label, ∀ i j : Fin 2, scatter plusSigns contValues 2 c i j = !![(2 : ℝ), 0; 0, 2] i j :=
    fun c hc i j => congrFun (congrFun (plusSigns_scatter c hc) i) j
  have ha := h "a" (by simp [plusSigns, pointIn])
  have hb := h "b" (by simp [plusSigns, pointIn])
  rw [Matrix.det_fin_two]
  simp only [Matrix.of_apply, pooledEntry, plusSigns_labels, List.map_cons, List.map_nil, ha, hb]
  norm_num [plusSigns]

/-- slanted axes -/
def slant : Matrix (Fin 2) (Fin 2) ℝ := !![1, 1; 0, 1]

/-- axes turned by an eighth, the unit changed by the square root of 2 -/
def eighthTurn : Matrix (Fin 2) (Fin 2) ℝ := !![1, -1; 1, 1]

theorem slant_det : slant.det ≠ 0 := by simp [slant, Matrix.det_fin_two]

theorem eighthTurn_orth : eighthTurn.transpose * eighthTurn = (Real.sqrt 2) ^ 2 • (1 : Matrix (Fin 2) (Fin 2) ℝ) := by
  rw [Real.sq_sqrt (by norm_num)]
  ext i j
  fin_cases i <;> fin_cases j <;> simp [eighthTurn, Matrix.mul_apply] <;> norm_num

/-- linear and quadratic discriminants along slanted axes; the linear one asked at the centre of class a -/
example : (∃ m m', Lda.train (inverseOf 2) Lda.new plusSigns = .ok m ∧
      Lda.train (inverseOf 2) Lda.new (plusSigns.map (inAxes slant 0)) = .ok m' ∧
      m'.predict (inAxes slant 0 (pointIn "?" 0 0)) = m.predict (pointIn "?" 0 0)) ∧
    ∃ m m', Qda.train (inverseOf 2) (fun S => (asMatrix 2 S).det) Qda.new plusSigns = .ok m ∧
      Qda.train (inverseOf 2) (fun S => (asMatrix 2 S).det) Qda.new (plusSigns.map (inAxes slant 0)) = .ok m' ∧
      ∀ x, Numeric 2 x → x.possible = none →
        (∃ c ∈ plusSigns.map Inst.label, ∃ s, m.metric x c = .ok s ∧ -(2 : ℝ) ^ 1024 < s) →
        (∃ c ∈ plusSigns.map Inst.label, ∃ s, m'.metric (inAxes slant 0 x) c = .ok s ∧ -(2 : ℝ) ^ 1024 < s) →
        m'.predict (inAxes slant 0 x) = m.predict x := by
  constructor
  · obtain ⟨m, m', e, e', h⟩ := C221_lda slant 0 plusSigns_gauss (inverseOf 2) (inverseOf_symm 2) (inverseOf_inverts 2)
      plusSigns_pooled slant_det
    have hg' := plusSigns_gauss.inAxes slant 0
    obtain ⟨k, S, ek, _, _, _, hs⟩ := C104_lda plusSigns contValues 2 (fun x hx => numeric_values (plusSigns_numeric x hx))
      plusSigns_gauss.two plusSigns_gauss.ne (inverseOf 2) (inverseOf_symm 2)
    obtain ⟨k', S', ek', _, _, _, hs'⟩ := C104_lda (plusSigns.map (inAxes slant 0)) contValues 2
      (fun x hx => numeric_values (hg'.numeric x hx)) hg'.two hg'.ne (inverseOf 2) (inverseOf_symm 2)
    rw [e] at ek; cases ek
    rw [e'] at ek'; cases ek'
    have hmem : "a" ∈ plusSigns.map Inst.label := by simp [plusSigns, pointIn]
    have hbig : -(2 : ℝ) ^ 1024 < Real.log (4 / 8) := by
      have h1 : Real.log (8 / 4) < 2 := by
        have := Real.log_lt_sub_one_of_pos (x := 8 / 4) (by norm_num) (by norm_num)
        linarith
      have h2 : Real.log (4 / 8) = - Real.log (8 / 4) := by rw [← Real.log_inv]; norm_num
      have h3 : (2 : ℝ) ≤ 2 ^ 1024 := by
        have := pow_le_pow_right₀ (one_le_two : (1 : ℝ) ≤ 2) (show 1 ≤ 1024 by norm_num)
        rwa [pow_one] at this
      rw [h2]
      generalize (2 : ℝ) ^ 1024 = P at h3
      linarith
    have hcs : classSize plusSigns "a" = 4 := by decide
    have hz : inAxes slant 0 (pointIn "?" 0 0) = pointIn "?" 0 0 := by
      simp [inAxes, pointIn, vectorOf, contValAt, slant, Matrix.mulVec, _root_.dotProduct, List.ofFn_succ]
    have hm' : classMean (plusSigns.map (inAxes slant 0)) contValues 2 "a" = [0, 0] := by
      have h0 := classMean_inAxes slant 0 plusSigns_numeric hmem
      rw [plusSigns_means.1] at h0
      have hlen : (classMean (plusSigns.map (inAxes slant 0)) contValues 2 "a").length = 2 := by simp [classMean]
      have h1 := h0 0
      have h2 := h0 1
      revert hlen h1 h2
      generalize classMean (plusSigns.map (inAxes slant 0)) contValues 2 "a" = q
      intro hlen h1 h2
      match q, hlen with
      | [q1, q2], _ =>
        simp [slant, Matrix.mulVec, _root_.dotProduct] at h1 h2
        rw [h1, h2]
    refine ⟨m, m', e, e', h _ ⟨[0, 0], rfl, rfl⟩ rfl ⟨"a", hmem, _, hs _ [0, 0] rfl rfl "a" hmem, ?_⟩
      ⟨"a", hmem, _, hs' _ [0, 0] (by rw [hz]; rfl) rfl "a" (by rw [labels_inAxes]; exact hmem), ?_⟩⟩
    · rw [plusSigns_means.1, hcs]
      simpa [mahSq, bilinear, plusSigns, Finset.sum_range_succ] using hbig
    · rw [hm', classSize_inAxes, hcs]
      simpa [mahSq, bilinear, plusSigns, Finset.sum_range_succ] using hbig
  · exact C221_qda slant 0 plusSigns_gauss (inverseOf 2) _ (inverseOf_symm 2) (inverseOf_inverts 2) (fun _ _ _ => rfl) (by
      intro c hc
      rw [plusSigns_scatter c hc]
      simp [Matrix.det_fin_two]) slant_det

/-- neighbours and nearest means along turned axes -/
example (x : Inst ℝ) (hx : Numeric 2 x) :
    (∃ ns, Knn.nearestNeighbors ⟨plusSigns, 3, euclidean⟩ x = .ok ns ∧
      Knn.nearestNeighbors ⟨plusSigns.map (inAxes eighthTurn 0), 3, euclidean⟩ (inAxes eighthTurn 0 x) = .ok (ns.map (inAxes eighthTurn 0))) ∧
    ∃ m m', KMeans.train ⟨DD.empty, [], euclidean⟩ plusSigns euclidean = .ok m ∧
      KMeans.train ⟨DD.empty, [], euclidean⟩ (plusSigns.map (inAxes eighthTurn 0)) euclidean = .ok m' := by
  constructor
  · obtain ⟨ns, h1, h2, _⟩ := C221_knn eighthTurn 0 plusSigns 3 plusSigns_numeric (Real.sqrt 2) (by simp) eighthTurn_orth x hx
    exact ⟨ns, h1, h2⟩
  · obtain ⟨m, m', h1, h2, _⟩ := C221_nearest_mean eighthTurn 0 plusSigns plusSigns_numeric ⟨DD.empty, [], euclidean⟩
      ⟨DD.empty, [], euclidean⟩ (Real.sqrt 2) (by simp) eighthTurn_orth
    exact ⟨m, m', h1, h2⟩

/-- the covariance matrix of one class, and neighbours under it along slanted axes -/
example (x : Inst ℝ) (hx : Numeric 2 x) : ∃ avg M avg' M' ns,
    IList.continuousAttributeAverage (plusSigns.take 4) = .ok avg ∧ IList.covariance (plusSigns.take 4) avg = .ok (2, M) ∧
    IList.continuousAttributeAverage ((plusSigns.take 4).map (inAxes slant 0)) = .ok avg' ∧
    IList.covariance ((plusSigns.take 4).map (inAxes slant 0)) avg' = .ok (2, M') ∧
    Knn.nearestNeighbors ⟨plusSigns.take 4, 3, mahalanobis (inverseOf 2 ⟨2, 2, M⟩)⟩ x = .ok ns ∧
    Knn.nearestNeighbors ⟨(plusSigns.take 4).map (inAxes slant 0), 3, mahalanobis (inverseOf 2 ⟨2, 2, M'⟩)⟩ (inAxes slant 0 x) =
      .ok (ns.map (inAxes slant 0)) := by
  have hnum : ∀ y ∈ plusSigns.take 4, Numeric 2 y := fun y hy => plusSigns_numeric y (List.mem_of_mem_take hy)
  obtain ⟨avg, M, avg', M', h1, h2, h3, h4, h⟩ := C221_knn_mahalanobis slant 0 (plusSigns.take 4) 3 (by simp [plusSigns]) hnum
    (inverseOf 2) (inverseOf_symm 2) (inverseOf_inverts 2) slant_det
  obtain ⟨avg1, M1, g1, g2, _, g4⟩ := covariance_mat (l := plusSigns.take 4) (by simp [plusSigns]) hnum
  rw [h1] at g1; cases g1
  rw [h2] at g2; cases g2
  obtain ⟨ns, k1, k2, _⟩ := h (by
    rw [g4, Matrix.det_smul, Matrix.det_fin_two]
    simp [scatterMat, meanVec, mean, plusSigns, pointIn, vectorOf, contValAt]
    norm_num) x hx
  exact ⟨avg, M, avg', M', ns, h1, h2, h3, h4, k1, k2⟩

/-! ## trees -/

/-- an instance with two numbers, its axes turned by an eighth (and the unit changed by the square root of 2) -/
def turned (x : Inst XR) : Inst XR :=
  { x with attrs := [.continuous (contValAt x 0 -. contValAt x 1), .continuous (contValAt x 0 +. contValAt x 1)] }

/-- **C221, trees depend on the axes**: they split along the axes of the description. Two instances, one of each class; the
tree asks about the first number, and the first number along the turned axes is another one. -/
theorem C221_tree_depends : ∃ (l : IList XR) (x : Inst XR),
    (treeTrain l none >>= fun t => treePredict t x) = .ok "a" ∧
    (treeTrain (l.map turned) none >>= fun t => treePredict t (turned x)) = .ok "b" := by
  refine ⟨[⟨"a", [.continuous (.fin 0), .continuous (.fin 0)], none⟩, ⟨"b", [.continuous (.fin 2), .continuous (.fin 1)], none⟩],
    ⟨"?", [.continuous (.fin 0), .continuous (.fin (-9))], none⟩, ?_, ?_⟩ <;> decide +kernel

/-- an instance of the plane -/
def planePoint (c : String) (u v : ℚ) : Inst XR := ⟨c, [.continuous (.fin u), .continuous (.fin v)], none⟩

/-- nine instances of each class around the origin, the first ones along one diagonal, the others along the other -/
def crossedClasses : IList XR :=
  [planePoint "a" 2 2, planePoint "a" (-2) (-2), planePoint "a" (3/2) (-3/2), planePoint "a" (-3/2) (3/2)] ++
  List.replicate 5 (planePoint "a" 0 0) ++
  [planePoint "b" 2 (-2), planePoint "b" (-2) 2, planePoint "b" (3/2) (3/2), planePoint "b" (-3/2) (-3/2)] ++
  List.replicate 5 (planePoint "b" 0 0)

/-- **C221, naive Bayes depends on the axes**: it looks at each number by itself. Two classes that lie along the two diagonals have the
same means and deviations of each number; along the diagonals they differ. -/
theorem C221_naive_bayes_depends :
    (NaiveBayes.train NaiveBayes.new crossedClasses >>= fun m => m.predict (planePoint "?" 1 (-1))) = .ok "a" ∧
    (NaiveBayes.train NaiveBayes.new (crossedClasses.map turned) >>= fun m => m.predict (turned (planePoint "?" 1 (-1)))) = .ok "b" := by
  constructor <;> decide +kernel

end Verif
