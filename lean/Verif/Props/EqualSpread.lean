import Verif.Props.Regions

/-! # C208: classes of the same spread

Quadratic discriminant analysis, linear discriminant analysis, naive Bayes and the nearest mean are
the same classifier when the classes do not differ in what each of them looks at in addition. -/

namespace Verif
open Dbl

set_option linter.unusedSectionVars false

/-- every class of the numeric list `l` has the covariance matrix `S` -/
def SameCovariance (n : Nat) (l : IList ℝ) (S : Nat → Nat → ℝ) : Prop :=
  ∀ c ∈ l.map Inst.label, ∀ i j, i < n → j < n →
    scatter l contValues n c i j / ((classSize l c : ℝ) - 1) = S i j

/-- every class has as many instances as every other -/
def SameSizes (l : IList ℝ) : Prop :=
  ∀ c ∈ l.map Inst.label, ∀ d ∈ l.map Inst.label, classSize l c = classSize l d

theorem mem_candidates {l : IList ℝ} {x : Inst ℝ} {c : String}
    (hc : c ∈ discCandidates l.classDistribution x) : c ∈ l.map Inst.label := by
  rw [← (C10_class_distribution l).mem_items]
  unfold discCandidates at hc
  cases hp : x.possible with
  | none => rw [hp] at hc; exact hc
  | some ls =>
    rw [hp] at hc
    have := (List.mem_filter.1 hc).2
    simpa using this

theorem sum_classSize (l : IList ℝ) : (l.getDistinctClassLabels.map (classSize l)).sum = l.length := by
  have h : l.getDistinctClassLabels.Perm (l.map Inst.label).dedup := by
    rw [List.perm_ext_iff_of_nodup (C07_distinct_class_labels l).nodup (List.nodup_dedup _)]
    intro c
    rw [(C07_distinct_class_labels l).mem_iff, List.mem_dedup]
  rw [(h.map (classSize l)).sum_eq]
  have := List.sum_map_count_dedup_eq_length (l.map Inst.label)
  rw [List.length_map] at this
  exact this

/-- the pooled covariance of classes with the same covariance -/
theorem pooled_same {n : Nat} {l : IList ℝ} (hg : GaussData n l) {S : Nat → Nat → ℝ} (hS : SameCovariance n l S)
    {i j : Nat} (hi : i < n) (hj : j < n) : pooledEntry l contValues n i j = S i j := by
  unfold pooledEntry
  have hsize : ∀ c ∈ l.getDistinctClassLabels, (1 : ℝ) ≤ (classSize l c : ℝ) - 1 := by
    intro c hc
    have := hg.two c (((C07_distinct_class_labels l).mem_iff c).1 hc)
    have : (2 : ℝ) ≤ classSize l c := by exact_mod_cast this
    linarith
  have h1 : (l.getDistinctClassLabels.map (fun c => scatter l contValues n c i j)).sum =
      (l.getDistinctClassLabels.map (fun c => ((classSize l c : ℝ) - 1))).sum * S i j := by
    rw [← List.sum_map_mul_right]
    congr 1
    refine List.map_congr_left (fun c hc => ?_)
    rw [← hS c (((C07_distinct_class_labels l).mem_iff c).1 hc) i j hi hj]
    have := hsize c hc
    field_simp
  have h2 : ∀ ls : List String, (ls.map (fun c => ((classSize l c : ℝ) - 1))).sum =
      (((ls.map (classSize l)).sum : ℕ) : ℝ) - ls.length := by
    intro ls
    induction ls with
    | nil => simp
    | cons c ls ih =>
      simp only [List.map_cons, List.sum_cons, ih, List.length_cons]
      push_cast; ring
  rw [h1, h2, sum_classSize]
  have h3 : (l.length : ℝ) - l.getDistinctClassLabels.length ≠ 0 := by
    have e := h2 l.getDistinctClassLabels
    rw [sum_classSize] at e
    rw [← e]
    have hne : l.getDistinctClassLabels ≠ [] := by
      obtain ⟨x, hx⟩ := List.exists_mem_of_ne_nil _ hg.ne
      intro h
      have := ((C07_distinct_class_labels l).mem_iff x.label).2 (List.mem_map.2 ⟨x, hx, rfl⟩)
      rw [h] at this; simp at this
    have hpos : ∀ ls : List String, ls ≠ [] → (∀ c ∈ ls, (1 : ℝ) ≤ (classSize l c : ℝ) - 1) →
        0 < (ls.map (fun c => ((classSize l c : ℝ) - 1))).sum := by
      intro ls
      induction ls with
      | nil => intro h; exact absurd rfl h
      | cons c ls ih =>
        intro _ h
        rw [List.map_cons, List.sum_cons]
        have hc := h c (List.mem_cons_self ..)
        by_cases hls : ls = []
        · subst hls; simp only [List.map_nil, List.sum_nil]; linarith
        · have := ih hls (fun d hd => h d (List.mem_cons_of_mem _ hd)); linarith
    exact (hpos _ hne hsize).ne'
  field_simp

theorem mahSq_congr {n : Nat} {A B : Mat ℝ} (h : asMatrix n A = asMatrix n B) (u w : List ℝ) :
    mahSq n A u w = mahSq n B u w := by
  unfold mahSq
  rw [bilinear_eq, bilinear_eq, h]

/-- **C208.** When all classes have the same covariance matrix, and it is not singular, linear and
quadratic discriminant analysis give the same answers, to plain and composite instances. (`inverse`
and `det` are the matrix library's; some candidate scores above `-DBL_MAX` in both.) -/
theorem C208_lda_qda {n : Nat} {l : IList ℝ} (hg : GaussData n l) (inverse : Mat ℝ → Mat ℝ) (det : Mat ℝ → ℝ)
    (hsymm : ∀ S, IsSymm n S → IsSymm n (inverse S)) (hinv : Inverts n inverse)
    (hdet : ∀ S : Mat ℝ, S.rows = n → S.cols = n → det S = (asMatrix n S).det)
    (S : Nat → Nat → ℝ) (hS : SameCovariance n l S) (hns : (Matrix.of fun i j : Fin n => S i j).det ≠ 0) :
    ∃ m q, Lda.train inverse Lda.new l = .ok m ∧ Qda.train inverse det Qda.new l = .ok q ∧
      ∀ x, Numeric n x →
        (∃ c ∈ discCandidates l.classDistribution x, ∃ s, m.metric x c = .ok s ∧ -(2 : ℝ) ^ 1024 < s) →
        (∃ c ∈ discCandidates l.classDistribution x, ∃ s, q.metric x c = .ok s ∧ -(2 : ℝ) ^ 1024 < s) →
        q.predict x = m.predict x := by
  obtain ⟨m, P, e, hp, hPs, hP, hs⟩ := C104_lda l contValues n (fun x hx => numeric_values (hg.numeric x hx))
    hg.two hg.ne inverse hsymm
  obtain ⟨q, Q, e', hp', hQ, hs'⟩ := C105_qda l contValues n (fun x hx => numeric_values (hg.numeric x hx))
    hg.two hg.ne inverse det hsymm
  refine ⟨m, q, e, e', fun x hx hb hb' => ?_⟩
  have hnx := numeric_values hx
  have eP : asMatrix n P = Matrix.of fun i j : Fin n => S i j := by
    ext i j
    simp only [asMatrix, Matrix.of_apply]
    rw [hP i j i.2 j.2, pooled_same hg hS i.2 j.2]
  have eQ : ∀ c ∈ l.map Inst.label, asMatrix n (Q c) = Matrix.of fun i j : Fin n => S i j := by
    intro c hc
    ext i j
    simp only [asMatrix, Matrix.of_apply]
    rw [(hQ c hc).2 i j i.2 j.2, hS c hc i j i.2 j.2]
  have hmah : ∀ c ∈ l.map Inst.label, ∀ u w, mahSq n (inverse (Q c)) u w = mahSq n (inverse P) u w := by
    intro c hc u w
    refine mahSq_congr ?_ u w
    rw [hinv _ (hQ c hc).1.1 (hQ c hc).1.2.1 (by rw [eQ c hc]; exact hns),
      hinv _ hPs.1 hPs.2.1 (by rw [eP]; exact hns), eP, eQ c hc]
  have hlog : ∀ c ∈ l.map Inst.label, det (Q c) = (Matrix.of fun i j : Fin n => S i j).det := by
    intro c hc
    rw [hdet _ (hQ c hc).1.1 (hQ c hc).1.2.1, eQ c hc]
  have hf := fun c hc => hs x _ hnx.1 hnx.2 c (mem_candidates (x := x) hc)
  have hf' := fun c hc => hs' x _ hnx.1 hnx.2 c (mem_candidates (x := x) hc)
  unfold Qda.predict Lda.predict
  rw [hp, hp']
  refine gaussPredict_order rfl hf hf' ?_ ?_ ?_
  · intro c hc d hd
    rw [hmah c (mem_candidates hc), hmah d (mem_candidates hd), hlog c (mem_candidates hc), hlog d (mem_candidates hd)]
    constructor <;> intro h <;> linarith
  · obtain ⟨c, hc, s, h1, h2⟩ := hb
    rw [hf c hc] at h1; cases h1
    exact ⟨c, hc, h2⟩
  · obtain ⟨c, hc, s, h1, h2⟩ := hb'
    rw [hf' c hc] at h1; cases h1
    exact ⟨c, hc, h2⟩

theorem sqDist_range (n : Nat) : ∀ (u w : List ℝ), u.length = n → w.length = n →
    sqDist u w = ∑ i ∈ Finset.range n, (u.getD i 0 - w.getD i 0) ^ 2 := by
  unfold sqDist
  induction n with
  | zero =>
    intro u w hu hw
    rw [List.length_eq_zero_iff.1 hu]; simp
  | succ n ih =>
    intro u w hu hw
    cases u with
    | nil => simp at hu
    | cons a u =>
      cases w with
      | nil => simp at hw
      | cons b w =>
        rw [List.zipWith_cons_cons, List.sum_cons, ih u w (by simpa using hu) (by simpa using hw),
          Finset.sum_range_succ']
        simp only [List.getD_cons_succ, List.getD_cons_zero]
        ring

/-- scores of a nearest-mean classifier trained on numbers -/
theorem kmeans_scores (old : KMeans ℝ) {l : IList ℝ} {n : Nat} (hl : ∀ x ∈ l, Numeric n x) :
    ∃ m, KMeans.train old l euclidean = .ok m ∧ m.prior = l.classDistribution ∧
      ∀ x, Numeric n x → ∀ c ∈ l.map Inst.label,
        m.metric x c = .ok (-(sqDist (contValues x) (classMean l contValues n c))) := by
  refine ⟨_, kmeans_continuous old l euclidean n contValues (fun x hx => numeric_values (hl x hx)), rfl, ?_⟩
  intro x hx c hc
  unfold KMeans.metric
  simp only
  rw [kmeans_find _ _ c (((C07_distinct_class_labels l).mem_iff c).2 hc)]
  simp only [nonNull_some, res_bind_ok]
  rw [euclidean_numbers x _ (contValues x) (classMean l contValues n c) (numeric_values hx).1 rfl
    (by simp [classMean, (numeric_values hx).2])]
  rfl

/-- **C208.** When the attributes are uncorrelated within every class and all have the same variance
`s`, and the classes have the same number of instances, linear discriminant analysis and the nearest
mean give the same answers. -/
theorem C208_lda_nearest_mean {n : Nat} {l : IList ℝ} (hg : GaussData n l) (inverse : Mat ℝ → Mat ℝ)
    (hsymm : ∀ S, IsSymm n S → IsSymm n (inverse S)) (hinv : Inverts n inverse) (s : ℝ) (hs0 : 0 < s)
    (hS : SameCovariance n l (fun i j => if i = j then s else 0)) (hsize : SameSizes l) (old : KMeans ℝ) :
    ∃ m k, Lda.train inverse Lda.new l = .ok m ∧ KMeans.train old l euclidean = .ok k ∧
      ∀ x, Numeric n x →
        (∃ c ∈ discCandidates l.classDistribution x, ∃ s, m.metric x c = .ok s ∧ -(2 : ℝ) ^ 1024 < s) →
        (∃ c ∈ discCandidates l.classDistribution x, ∃ s, k.metric x c = .ok s ∧ -(2 : ℝ) ^ 1024 < s) →
        k.predict x = m.predict x := by
  obtain ⟨m, P, e, hp, hPs, hP, hs⟩ := C104_lda l contValues n (fun x hx => numeric_values (hg.numeric x hx))
    hg.two hg.ne inverse hsymm
  obtain ⟨k, e', hp', hs'⟩ := kmeans_scores old hg.numeric
  refine ⟨m, k, e, e', fun x hx hb hb' => ?_⟩
  have hnx := numeric_values hx
  have eP : asMatrix n P = Matrix.diagonal fun _ : Fin n => s := by
    ext i j
    simp only [asMatrix, Matrix.of_apply, Matrix.diagonal_apply]
    rw [hP i j i.2 j.2, pooled_same hg hS i.2 j.2]
    simp only [Fin.ext_iff]
  have hdetP : (asMatrix n P).det ≠ 0 := by
    rw [eP, Matrix.det_diagonal]
    exact Finset.prod_ne_zero_iff.2 (fun i _ => hs0.ne')
  have eI : asMatrix n (inverse P) = Matrix.diagonal fun _ : Fin n => s⁻¹ := by
    rw [hinv _ hPs.1 hPs.2.1 hdetP, eP]
    refine Matrix.inv_eq_left_inv ?_
    rw [Matrix.diagonal_mul_diagonal]
    simp [hs0.ne']
  have hmah : ∀ c, mahSq n (inverse P) (contValues x) (classMean l contValues n c) =
      s⁻¹ * sqDist (contValues x) (classMean l contValues n c) := by
    intro c
    unfold mahSq
    rw [bilinear_eq, eI, sqDist_range n _ _ hnx.2 (by simp [classMean]), Finset.mul_sum, Finset.sum_range]
    unfold _root_.dotProduct
    refine Finset.sum_congr rfl (fun i _ => ?_)
    rw [Matrix.mulVec_diagonal]; ring
  have hf := fun c hc => hs x _ hnx.1 hnx.2 c (mem_candidates (x := x) hc)
  have hf' := fun c hc => hs' x hx c (mem_candidates (x := x) hc)
  unfold KMeans.predict Lda.predict
  rw [hp, hp']
  refine gaussPredict_order rfl hf hf' ?_ ?_ ?_
  · intro c hc d hd
    rw [hmah c, hmah d, hsize c (mem_candidates hc) d (mem_candidates hd)]
    have hi : 0 < s⁻¹ := inv_pos.2 hs0
    constructor
    · intro h
      have : s⁻¹ * sqDist (contValues x) (classMean l contValues n d) < s⁻¹ * sqDist (contValues x) (classMean l contValues n c) := by
        linarith
      have := lt_of_mul_lt_mul_left this hi.le
      linarith
    · intro h
      have : sqDist (contValues x) (classMean l contValues n d) < sqDist (contValues x) (classMean l contValues n c) := by
        linarith
      have := mul_lt_mul_of_pos_left this hi
      linarith
  · obtain ⟨c, hc, s, h1, h2⟩ := hb
    rw [hf c hc] at h1; cases h1
    exact ⟨c, hc, h2⟩
  · obtain ⟨c, hc, s, h1, h2⟩ := hb'
    rw [hf' c hc] at h1; cases h1
    exact ⟨c, hc, h2⟩

/-- **C208.** When all attributes have the same standard deviation `s` in all classes, and the classes
have the same number of instances, naive Bayes and the nearest mean give the same answers. -/
theorem C208_naive_bayes_nearest_mean {n : Nat} (hn : 0 < n) {l : IList ℝ} (hg : GaussData n l) (s : ℝ) (hs0 : 0 < s)
    (hsd : ∀ c ∈ l.map Inst.label, classSD l contValues n c = List.replicate n s) (hsize : SameSizes l)
    (old : KMeans ℝ) :
    ∃ m k, NaiveBayes.train NaiveBayes.new l = .ok m ∧ KMeans.train old l euclidean = .ok k ∧
      ∀ x, Numeric n x →
        (∃ c ∈ discCandidates l.classDistribution x, ∃ s, m.metric x c = .ok s ∧ -(2 : ℝ) ^ 1024 < s) →
        (∃ c ∈ discCandidates l.classDistribution x, ∃ s, k.metric x c = .ok s ∧ -(2 : ℝ) ^ 1024 < s) →
        k.predict x = m.predict x := by
  obtain ⟨m, e, hp, hs⟩ := C106_partial l hg.ne contValues n hn (fun x hx => numeric_values (hg.numeric x hx)) hg.two
  obtain ⟨k, e', hp', hs'⟩ := kmeans_scores old hg.numeric
  refine ⟨m, k, e, e', fun x hx hb hb' => ?_⟩
  have hnx := numeric_values hx
  have hsum : ∀ c ∈ l.map Inst.label, ((List.range n).map (fun (i : Nat) =>
      (((contValues x).getD i 0 - (classMean l contValues n c).getD i 0) / (classSD l contValues n c).getD i 0) ^ 2)).sum =
      (s ^ 2)⁻¹ * sqDist (contValues x) (classMean l contValues n c) := by
    intro c hc
    have hlist : ∀ (k : Nat) (f : Nat → ℝ), ((List.range k).map f).sum = ∑ i ∈ Finset.range k, f i := by
      intro k f
      induction k with
      | zero => simp
      | succ k ih => rw [List.range_succ, List.map_append, List.sum_append, ih, Finset.sum_range_succ]; simp
    rw [hsd c hc, sqDist_range n _ _ hnx.2 (by simp [classMean]), Finset.mul_sum, hlist]
    refine Finset.sum_congr rfl (fun i hi => ?_)
    rw [show (List.replicate n s).getD i 0 = s by
      rw [List.getD_eq_getElem?_getD, List.getElem?_replicate_of_lt (Finset.mem_range.1 hi)]; rfl, div_pow,
      div_eq_inv_mul]
  have hf := fun c hc => hs x _ hnx.1 hnx.2 c (mem_candidates (x := x) hc)
  have hf' := fun c hc => hs' x hx c (mem_candidates (x := x) hc)
  unfold KMeans.predict NaiveBayes.predict
  rw [hp, hp']
  refine gaussPredict_order rfl hf hf' ?_ ?_ ?_
  · intro c hc d hd
    rw [hsum c (mem_candidates hc), hsum d (mem_candidates hd), hsize c (mem_candidates hc) d (mem_candidates hd)]
    have hi : 0 < (s ^ 2)⁻¹ := by positivity
    constructor
    · intro h
      have : (s ^ 2)⁻¹ * sqDist (contValues x) (classMean l contValues n d) < (s ^ 2)⁻¹ * sqDist (contValues x) (classMean l contValues n c) := by
        linarith
      have := lt_of_mul_lt_mul_left this hi.le
      linarith
    · intro h
      have : sqDist (contValues x) (classMean l contValues n d) < sqDist (contValues x) (classMean l contValues n c) := by
        linarith
      have := mul_lt_mul_of_pos_left this hi
      linarith
  · obtain ⟨c, hc, s, h1, h2⟩ := hb
    rw [hf c hc] at h1; cases h1
    exact ⟨c, hc, h2⟩
  · obtain ⟨c, hc, s, h1, h2⟩ := hb'
    rw [hf' c hc] at h1; cases h1
    exact ⟨c, hc, h2⟩

/-! ## Concrete cases -/

section

/-- class A at -1 and 1, class B at 3 and 5 -/
noncomputable def evenTwo : IList ℝ :=
  [⟨"A", [.continuous (-1)], none⟩, ⟨"A", [.continuous 1], none⟩,
   ⟨"B", [.continuous 3], none⟩, ⟨"B", [.continuous 5], none⟩]

theorem evenTwo_labels {c : String} (hc : c ∈ evenTwo.map Inst.label) : c = "A" ∨ c = "B" := by
  simp only [evenTwo, List.map_cons, List.map_nil, List.mem_cons, List.not_mem_nil, or_false] at hc
  tauto

theorem evenTwo_size {c : String} (hc : c ∈ evenTwo.map Inst.label) : classSize evenTwo c = 2 := by
  rcases evenTwo_labels hc with rfl | rfl <;> simp [classSize, evenTwo]

theorem evenTwo_gauss : GaussData 1 evenTwo := by
  refine ⟨by simp [evenTwo], ?_, fun c hc => le_of_eq (evenTwo_size hc).symm⟩
  intro x hx
  simp only [evenTwo, List.mem_cons, List.not_mem_nil, or_false] at hx
  rcases hx with rfl | rfl | rfl | rfl
  · exact ⟨[-1], rfl, rfl⟩
  · exact ⟨[1], rfl, rfl⟩
  · exact ⟨[3], rfl, rfl⟩
  · exact ⟨[5], rfl, rfl⟩

theorem evenTwo_meanA : classMean evenTwo contValues 1 "A" = [0] := by
  simp [classMean, evenTwo, contValues, contOf, mean]

theorem evenTwo_meanB : classMean evenTwo contValues 1 "B" = [4] := by
  simp [classMean, evenTwo, contValues, contOf, mean]; norm_num

theorem evenTwo_cov : SameCovariance 1 evenTwo (fun i j => if i = j then 2 else 0) := by
  intro c hc i j hi hj
  have hi0 : i = 0 := by omega
  have hj0 : j = 0 := by omega
  subst hi0 hj0
  rw [evenTwo_size hc]
  rcases evenTwo_labels hc with rfl | rfl
  · unfold scatter
    rw [evenTwo_meanA]
    simp [evenTwo, contValues, contOf]; norm_num
  · unfold scatter
    rw [evenTwo_meanB]
    simp [evenTwo, contValues, contOf]; norm_num

theorem evenTwo_sd {c : String} (hc : c ∈ evenTwo.map Inst.label) :
    classSD evenTwo contValues 1 c = List.replicate 1 (Real.sqrt 2) := by
  rcases evenTwo_labels hc with rfl | rfl
  · simp [classSD, evenTwo, contValues, contOf, sampleSD, sampleVar, mean]; norm_num
  · simp [classSD, evenTwo, contValues, contOf, sampleSD, sampleVar, mean]; norm_num

theorem evenTwo_same : SameSizes evenTwo := fun c hc d hd => by rw [evenTwo_size hc, evenTwo_size hd]

theorem log_half_bound : -(2 : ℝ) ^ 1024 < Real.log (2 / 4) := log_bound (by norm_num)

/-- the four classifiers agree at the number 0 -/
example (old : KMeans ℝ) : ∃ m q b k, Lda.train inverse1 Lda.new evenTwo = .ok m ∧
    Qda.train inverse1 (fun S => (asMatrix 1 S).det) Qda.new evenTwo = .ok q ∧
    NaiveBayes.train NaiveBayes.new evenTwo = .ok b ∧ KMeans.train old evenTwo euclidean = .ok k ∧
    q.predict (exNumber 0) = m.predict (exNumber 0) ∧ k.predict (exNumber 0) = m.predict (exNumber 0) ∧
    k.predict (exNumber 0) = b.predict (exNumber 0) := by
  have hnum : Numeric 1 (exNumber 0) := ⟨[0], rfl, rfl⟩
  have hA : "A" ∈ evenTwo.map Inst.label := by simp [evenTwo]
  have hc : "A" ∈ discCandidates evenTwo.classDistribution (exNumber 0) := by
    unfold discCandidates
    exact ((C10_class_distribution evenTwo).mem_items _).2 hA
  have hcv : contValues (exNumber 0) = [0] := rfl
  have hlen : evenTwo.length = 4 := rfl
  have hv : ∀ x ∈ evenTwo, x.attrs = (contValues x).map Attr.continuous ∧ (contValues x).length = 1 :=
    fun x hx => numeric_values (evenTwo_gauss.numeric x hx)
  obtain ⟨m, q, em, eq, h1⟩ := C208_lda_qda evenTwo_gauss inverse1 (fun S => (asMatrix 1 S).det) inverse1_symm
    inverse1_inverts (fun _ _ _ => rfl) _ evenTwo_cov (by rw [Matrix.det_fin_one]; simp)
  obtain ⟨m', k, em', ek, h2⟩ := C208_lda_nearest_mean evenTwo_gauss inverse1 inverse1_symm inverse1_inverts 2 (by norm_num)
    evenTwo_cov evenTwo_same old
  obtain ⟨b, k', eb, ek', h3⟩ := C208_naive_bayes_nearest_mean (by norm_num) evenTwo_gauss (Real.sqrt 2) (by positivity)
    (fun c hc => evenTwo_sd hc) evenTwo_same old
  rw [em] at em'; cases em'
  rw [ek] at ek'; cases ek'
  obtain ⟨_, S, e, _, _, _, hs⟩ := C104_lda evenTwo contValues 1 hv evenTwo_gauss.two evenTwo_gauss.ne inverse1 inverse1_symm
  rw [em] at e; cases e
  obtain ⟨_, Q, e, _, hQ, hs'⟩ := C105_qda evenTwo contValues 1 hv evenTwo_gauss.two evenTwo_gauss.ne inverse1
    (fun S => (asMatrix 1 S).det) inverse1_symm
  rw [eq] at e; cases e
  obtain ⟨_, e, _, hsb⟩ := C106_partial evenTwo evenTwo_gauss.ne contValues 1 (by norm_num) hv evenTwo_gauss.two
  rw [eb] at e; cases e
  obtain ⟨_, e, _, hsk⟩ := kmeans_scores old evenTwo_gauss.numeric
  rw [ek] at e; cases e
  have bm : ∃ c ∈ discCandidates evenTwo.classDistribution (exNumber 0), ∃ s, m.metric (exNumber 0) c = .ok s ∧ -(2 : ℝ) ^ 1024 < s := by
    refine ⟨"A", hc, _, hs _ [0] rfl rfl "A" hA, ?_⟩
    rw [evenTwo_meanA, evenTwo_size hA, hlen]
    simpa [mahSq, bilinear] using log_half_bound
  have bk : ∃ c ∈ discCandidates evenTwo.classDistribution (exNumber 0), ∃ s, k.metric (exNumber 0) c = .ok s ∧ -(2 : ℝ) ^ 1024 < s := by
    refine ⟨"A", hc, _, hsk _ hnum "A" hA, ?_⟩
    rw [evenTwo_meanA, hcv]
    simp [sqDist]
  have bb : ∃ c ∈ discCandidates evenTwo.classDistribution (exNumber 0), ∃ s, b.metric (exNumber 0) c = .ok s ∧ -(2 : ℝ) ^ 1024 < s := by
    refine ⟨"A", hc, _, hsb _ [0] rfl rfl "A" hA, ?_⟩
    rw [evenTwo_meanA, evenTwo_size hA, hlen]
    simpa using log_half_bound
  have bq : ∃ c ∈ discCandidates evenTwo.classDistribution (exNumber 0), ∃ s, q.metric (exNumber 0) c = .ok s ∧ -(2 : ℝ) ^ 1024 < s := by
    refine ⟨"A", hc, _, hs' _ [0] rfl rfl "A" hA, ?_⟩
    have hd : (asMatrix 1 (Q "A")).det = 2 := by
      rw [Matrix.det_fin_one]
      simp only [asMatrix, Matrix.of_apply, Fin.val_zero]
      rw [(hQ "A" hA).2 0 0 (by norm_num) (by norm_num), evenTwo_cov "A" hA 0 0 (by norm_num) (by norm_num)]
      simp
    rw [evenTwo_meanA, evenTwo_size hA, hlen, hd]
    have l2 : Real.log 2 ≤ 1 := by
      have := Real.log_le_sub_one_of_pos (x := 2) (by norm_num); linarith
    have lh : Real.log ((2 : ℕ) / (4 : ℕ)) = - Real.log 2 := by rw [← Real.log_inv]; norm_num
    rw [lh]
    refine lt_trans exBound ?_
    simp only [mahSq, bilinear]
    simp
    linarith
  exact ⟨m, q, b, k, em, eq, eb, ek, h1 _ hnum bm bq, h2 _ hnum bm bk, h3 _ hnum bb bk⟩

end

end Verif
