import Verif.Props.NaiveBayes
import Mathlib.Algebra.BigOperators.Ring.Finset

/-! # Properties C104 and C105: linear and quadratic discriminants -/

set_option linter.unusedSectionVars false

namespace Verif
open Dbl Finset

/-- `Σ_i Σ_j u_i A_ij w_j` for vectors of size `d` -/
noncomputable def bilinear (d : Nat) (A : Mat ℝ) (u w : Nat → ℝ) : ℝ :=
  ∑ i ∈ Finset.range d, ∑ j ∈ Finset.range d, u i * A.e i j * w j

/-- squared Mahalanobis distance of the vectors `u` and `w` under the matrix `A` -/
noncomputable def mahSq (d : Nat) (A : Mat ℝ) (u w : List ℝ) : ℝ :=
  bilinear d A (fun i => u.getD i 0 - w.getD i 0) (fun i => u.getD i 0 - w.getD i 0)

/-- a square matrix of size `d` that is its own transpose -/
def IsSymm (d : Nat) (A : Mat ℝ) : Prop :=
  A.rows = d ∧ A.cols = d ∧ ∀ i j, i < d → j < d → A.e i j = A.e j i

theorem dotV_eq (d : Nat) : ∀ (v w : List ℝ), v.length = d → w.length = d →
    dotV v w = ∑ i ∈ Finset.range d, v.getD i 0 * w.getD i 0 := by
  intro v w hv hw
  unfold dotV
  have : ∀ (v w : List ℝ) (d : Nat) (s : ℝ), v.length = d → w.length = d →
      (v.zip w).foldl (fun s p => s +. (p.1 *. p.2)) s =
        s + ∑ i ∈ Finset.range d, v.getD i 0 * w.getD i 0 := by
    intro v
    induction v with
    | nil => intro w d s h1 h2; simp at h1; subst h1; simp
    | cons a v ih =>
      intro w d s h1 h2
      cases w with
      | nil => simp at h2; subst h2; simp at h1
      | cons b w =>
        cases d with
        | zero => simp at h1
        | succ d =>
          rw [List.zip_cons_cons, List.foldl_cons, ih w d _ (by simpa using h1) (by simpa using h2),
            Finset.sum_range_succ']
          simp only [add_real, mul_real, List.getD_cons_succ, List.getD_cons_zero]
          ring
  rw [this v w d _ hv hw]; simp

theorem getD_map_range (d : Nat) (f : Nat → ℝ) (i : Nat) (hi : i < d) :
    ((List.range d).map f).getD i 0 = f i := by
  rw [List.getD_eq_getElem?_getD, List.getElem?_map, List.getElem?_range hi]; rfl

theorem bilinear_comm (d : Nat) (A : Mat ℝ) (hA : IsSymm d A) (u w : Nat → ℝ) :
    bilinear d A u w = bilinear d A w u := by
  unfold bilinear
  rw [Finset.sum_comm]
  refine Finset.sum_congr rfl (fun i hi => Finset.sum_congr rfl (fun j hj => ?_))
  rw [hA.2.2 j i (Finset.mem_range.1 hj) (Finset.mem_range.1 hi)]
  ring

theorem mahSq_expand (d : Nat) (A : Mat ℝ) (hA : IsSymm d A) (u w : List ℝ) :
    mahSq d A u w = bilinear d A (fun i => u.getD i 0) (fun i => u.getD i 0) -
      2 * bilinear d A (fun i => w.getD i 0) (fun i => u.getD i 0) +
      bilinear d A (fun i => w.getD i 0) (fun i => w.getD i 0) := by
  have hc := bilinear_comm d A hA (fun i => u.getD i 0) (fun i => w.getD i 0)
  have : mahSq d A u w = bilinear d A (fun i => u.getD i 0) (fun i => u.getD i 0) -
      bilinear d A (fun i => u.getD i 0) (fun i => w.getD i 0) -
      bilinear d A (fun i => w.getD i 0) (fun i => u.getD i 0) +
      bilinear d A (fun i => w.getD i 0) (fun i => w.getD i 0) := by
    unfold mahSq bilinear
    simp only [← Finset.sum_sub_distrib, ← Finset.sum_add_distrib]
    refine Finset.sum_congr rfl (fun i _ => Finset.sum_congr rfl (fun j _ => ?_))
    ring
  rw [this, hc]; ring

theorem mulRight_dot (d : Nat) (A : Mat ℝ) (hA : IsSymm d A) (w u : List ℝ) (hw : w.length = d)
    (hu : u.length = d) :
    ∃ r, A.mulRight w = some r ∧ r.length = d ∧ dotChecked r u =
      some (bilinear d A (fun i => w.getD i 0) (fun i => u.getD i 0)) := by
  refine ⟨(List.range d).map (fun (i : Nat) => dotV (A.row i) w), ?_, by simp, ?_⟩
  · unfold Mat.mulRight; rw [if_pos (by rw [hA.2.1, hw]), hA.1]
  · unfold dotChecked
    rw [if_pos (by simp [hu]), dotV_eq d _ _ (by simp) hu, bilinear_comm d A hA]
    unfold bilinear
    congr 1
    refine Finset.sum_congr rfl (fun i hi => ?_)
    have hi' := Finset.mem_range.1 hi
    rw [getD_map_range d _ i hi', dotV_eq d _ _ (by simp [Mat.row, hA.2.1]) hw, Finset.sum_mul]
    refine Finset.sum_congr rfl (fun j hj => ?_)
    unfold Mat.row
    rw [hA.2.1, getD_map_range d _ j (Finset.mem_range.1 hj)]
    ring

theorem mulLeft_dot (d : Nat) (A : Mat ℝ) (hA : IsSymm d A) (w u : List ℝ) (hw : w.length = d)
    (hu : u.length = d) :
    ∃ r, A.mulLeft w = some r ∧ r.length = d ∧ dotChecked r u =
      some (bilinear d A (fun i => w.getD i 0) (fun i => u.getD i 0)) := by
  refine ⟨(List.range d).map (fun (j : Nat) => dotV w (A.col j)), ?_, by simp, ?_⟩
  · unfold Mat.mulLeft; rw [if_pos (by rw [hA.1, hw]), hA.2.1]
  · unfold dotChecked
    rw [if_pos (by simp [hu]), dotV_eq d _ _ (by simp) hu]
    unfold bilinear
    rw [Finset.sum_comm]
    congr 1
    refine Finset.sum_congr rfl (fun j hj => ?_)
    have hj' := Finset.mem_range.1 hj
    rw [getD_map_range d _ j hj', dotV_eq d _ _ hw (by simp [Mat.col, hA.1]), Finset.sum_mul]
    refine Finset.sum_congr rfl (fun i hi => ?_)
    unfold Mat.col
    rw [hA.1, getD_map_range d _ i (Finset.mem_range.1 hi)]

theorem IsSymm.scale {d : Nat} {A : Mat ℝ} (hA : IsSymm d A) (c : ℝ) : IsSymm d (A.scale c) :=
  ⟨hA.1, hA.2.1, fun i j hi hj => by simp only [Mat.scale]; rw [hA.2.2 i j hi hj]⟩

theorem bilinear_scale (d : Nat) (A : Mat ℝ) (c : ℝ) (u w : Nat → ℝ) :
    bilinear d (A.scale c) u w = c * bilinear d A u w := by
  unfold bilinear
  rw [Finset.mul_sum]
  refine Finset.sum_congr rfl (fun i _ => ?_)
  rw [Finset.mul_sum]
  refine Finset.sum_congr rfl (fun j _ => ?_)
  simp only [Mat.scale, mul_real]; ring

/-! ## data of continuous attributes -/

theorem contAverage_ok (p : IList ℝ) (hne : p ≠ []) (v : Inst ℝ → List ℝ) (n : Nat)
    (hv : ∀ x ∈ p, x.attrs = (v x).map Attr.continuous ∧ (v x).length = n) :
    p.continuousAttributeAverage = .ok ((List.range n).map (fun (i : Nat) =>
      mean (p.map (fun x => (v x).getD i 0)))) := by
  obtain ⟨x, hx, h0⟩ := first_of_ne hne
  unfold IList.continuousAttributeAverage
  rw [h0]
  have hlen : x.attributeSize = n := by
    rw [Inst.attributeSize, (hv x hx).1, List.length_map, (hv x hx).2]
  simp only [res_bind_ok, hlen]
  have hstep : ∀ i, i < n → p.continuousAttributeAverageAt i =
      .ok [mean (p.map (fun x => (v x).getD i 0))] := by
    intro i hi
    have hc := all_continuous hv i hi
    unfold IList.continuousAttributeAverageAt
    rw [h0]
    simp only [res_bind_ok]
    rw [getAttribute_cont (hc x hx)]
    simp only [res_bind_ok, Attr.isDiscreteIndexed, Attr.isContinuous, Bool.false_eq_true, if_false, if_true]
    rw [sumLoop_ok hc]
    simp [mean]
  have : ∀ (k : Nat), k ≤ n → ∀ r, (List.range k).foldlM (fun r i => do
      let added ← p.continuousAttributeAverageAt i
      (pure (r ++ added) : Res (List ℝ))) r =
      .ok (r ++ (List.range k).map (fun (i : Nat) => mean (p.map (fun x => (v x).getD i 0)))) := by
    intro k
    induction k with
    | zero => intro _ r; simp
    | succ k ih =>
      intro hk r
      rw [List.range_succ, List.foldlM_append, ih (by omega)]
      simp only [res_bind_ok, List.foldlM_cons, List.foldlM_nil, hstep k (by omega), res_pure]
      simp
  rw [this n le_rfl]; simp

theorem toVector_ok (x : Inst ℝ) (u : List ℝ) (hx : x.attrs = u.map Attr.continuous) :
    x.toVector = .ok u := by
  have := meanVector_ok "" u
  unfold NaiveBayes.meanVector at this
  rw [nonNull_some] at this
  simp only [res_bind_ok] at this
  unfold Inst.toVector at this ⊢
  rw [hx]; exact this

theorem contSize_ok (x : Inst ℝ) (u : List ℝ) (hx : x.attrs = u.map Attr.continuous) :
    x.continuousAttributeSize = u.length := by
  unfold Inst.continuousAttributeSize
  rw [hx]
  have : ∀ (u : List ℝ) (s : Int), (u.map (Attr.continuous)).foldl (fun s a => s + a.continuousAttributeSize) s
      = s + u.length := by
    intro u
    induction u with
    | nil => simp
    | cons a u ih =>
      intro s
      rw [List.map_cons, List.foldl_cons, ih]
      simp [Attr.continuousAttributeSize]; ring
  rw [this]; simp

/-- within-class scatter of attributes `i` and `j` -/
noncomputable def scatter (l : IList ℝ) (v : Inst ℝ → List ℝ) (n : Nat) (c : String) (i j : Nat) : ℝ :=
  ((l.filter (fun x => x.label == c)).map (fun x =>
    ((v x).getD i 0 - (classMean l v n c).getD i 0) *
    ((v x).getD j 0 - (classMean l v n c).getD j 0))).sum

theorem scatter_symm (l : IList ℝ) (v : Inst ℝ → List ℝ) (n : Nat) (c : String) (i j : Nat) :
    scatter l v n c i j = scatter l v n c j i := by
  unfold scatter
  congr 1
  exact List.map_congr_left (fun x _ => mul_comm _ _)

section
variable (l : IList ℝ) (v : Inst ℝ → List ℝ) (n : Nat)
variable (hv : ∀ x ∈ l, x.attrs = (v x).map Attr.continuous ∧ (v x).length = n)
variable (h2 : ∀ c ∈ l.map Inst.label, 2 ≤ classSize l c)
include hv h2

theorem class_average (c : String) (hc : c ∈ l.map Inst.label) :
    IList.continuousAttributeAverage (l.filter (fun x => x.label == c)) = .ok (classMean l v n c) :=
  contAverage_ok _ (class_ne_nil l c hc) v n (fun x hx => hv x (List.mem_filter.1 hx).1)

theorem class_length (c : String) :
    (l.filter (fun x => x.label == c)).length = classSize l c := by
  have e := classColumn_length l v c 0
  unfold classColumn at e
  rw [List.length_map] at e
  exact e

theorem class_covariance (c : String) (hc : c ∈ l.map Inst.label) :
    ∃ M, IList.covariance (l.filter (fun x => x.label == c)) (classMean l v n c) = .ok (n, M) ∧
      ∀ i j, i < n → j < n → M i j = scatter l v n c i j / ((classSize l c : ℝ) - 1) := by
  have hl := class_length l v n hv h2 c
  obtain ⟨M, e, h⟩ := C18_covariance (l.filter (fun x => x.label == c)) (by rw [hl]; exact h2 c hc)
    (classMean l v n c) n v (by simp [classMean]) (by
      intro x hx
      obtain ⟨h1, h2⟩ := hv x (List.mem_filter.1 hx).1
      exact ⟨toVector_ok x _ h1, h2, by rw [contSize_ok x _ h1, h2]⟩)
  refine ⟨M, e, ?_⟩
  intro i j hi hj
  rw [h i j hi hj, hl]; rfl

/-- entry `i`, `j` of the pooled covariance matrix -/
noncomputable def pooledEntry (l : IList ℝ) (v : Inst ℝ → List ℝ) (n : Nat) (i j : Nat) : ℝ :=
  ((l.getDistinctClassLabels.map (fun c => scatter l v n c i j)).sum) /
    ((l.length : ℝ) - l.getDistinctClassLabels.length)

theorem lda_classCovariance (c : String) (hc : c ∈ l.map Inst.label) :
    ∃ M, Lda.classCovariance (l.filter (fun x => x.label == c)) = .ok M ∧ M.rows = n ∧ M.cols = n ∧
      ∀ i j, i < n → j < n → M.e i j = scatter l v n c i j := by
  obtain ⟨M, e, h⟩ := class_covariance l v n hv h2 c hc
  refine ⟨Mat.scale ⟨n, n, M⟩ (Dbl.ofInt ((l.filter (fun x => x.label == c)).length - 1 : Int)),
    ?_, rfl, rfl, ?_⟩
  · unfold Lda.classCovariance
    rw [class_average l v n hv h2 c hc]
    simp only [res_bind_ok]
    rw [e]
    rfl
  · intro i j hi hj
    simp only [Mat.scale, mul_real, ofInt_real]
    rw [h i j hi hj, class_length l v n hv h2 c]
    have : (2 : ℝ) ≤ classSize l c := by exact_mod_cast h2 c hc
    push_cast
    have : ((classSize l c : ℝ) - 1) ≠ 0 := by linarith
    field_simp

theorem pooled_ok : ∃ S, Lda.pooledCovariance n
      (l.getDistinctClassLabels.map (fun c => l.filter (fun x => x.label == c))) l.length = .ok S ∧
    S.rows = n ∧ S.cols = n ∧ ∀ i j, i < n → j < n → S.e i j = pooledEntry l v n i j := by
  have hfo := C07_distinct_class_labels l
  have hloop : ∀ (cs : List String), (∀ c ∈ cs, c ∈ l.map Inst.label) → ∀ M0 : Mat ℝ, M0.rows = n → M0.cols = n →
      ∃ M, (cs.map (fun c => l.filter (fun x => x.label == c))).foldlM (fun (cov : Mat ℝ) p => do
        let cc ← Lda.classCovariance p
        (pure (cov.addCaught cc) : Res (Mat ℝ))) M0 = .ok M ∧ M.rows = n ∧ M.cols = n ∧
        ∀ i j, i < n → j < n → M.e i j = M0.e i j + (cs.map (fun c => scatter l v n c i j)).sum := by
    intro cs
    induction cs with
    | nil => intro _ M0 h1 h2; exact ⟨M0, rfl, h1, h2, by simp⟩
    | cons c cs ih =>
      intro hc M0 r0 c0
      obtain ⟨M1, e1, r1, c1, h1⟩ := lda_classCovariance l v n hv h2 c (hc c (by simp))
      obtain ⟨M, e, r, c', h⟩ := ih (fun c hc' => hc c (by simp [hc']))
        ⟨n, n, fun i j => M0.e i j + M1.e i j⟩ rfl rfl
      refine ⟨M, ?_, r, c', ?_⟩
      · rw [List.map_cons, List.foldlM_cons, e1]
        simp only [res_bind_ok]
        rw [← e]
        have : M0.addCaught M1 = ⟨n, n, fun i j => M0.e i j + M1.e i j⟩ := by
          unfold Mat.addCaught
          rw [if_pos (by rw [r0, r1, c0, c1]; exact ⟨rfl, rfl⟩), r0, c0]
          rfl
        rw [this]
        rfl
      · intro i j hi hj
        rw [h i j hi hj]
        simp only [h1 i j hi hj, List.map_cons, List.sum_cons]
        ring
  obtain ⟨M, e, r, c, h⟩ := hloop l.getDistinctClassLabels (fun c hc => (hfo.mem_iff c).1 hc)
    (Mat.zeros n n) rfl rfl
  refine ⟨M.divide (Dbl.ofInt (l.length -
    (l.getDistinctClassLabels.map (fun c => l.filter (fun x => x.label == c))).length : Int)),
    ?_, ?_, ?_, ?_⟩
  · unfold Lda.pooledCovariance
    rw [e]; rfl
  · exact r
  · exact c
  · intro i j hi hj
    simp only [Mat.divide, div_real, ofInt_real]
    rw [h i j hi hj]
    simp [Mat.zeros, pooledEntry]

theorem pooledEntry_symm (i j : Nat) : pooledEntry l v n i j = pooledEntry l v n j i := by
  unfold pooledEntry
  congr 2
  exact List.map_congr_left (fun c _ => scatter_symm l v n c i j)

theorem discreteCheck_continuous (x : Inst ℝ) (u : List ℝ) (hx : x.attrs = u.map Attr.continuous) :
    discreteCheck x = true := by
  unfold discreteCheck
  rw [hx]
  simp [Attr.isDiscrete]

/-- **C104.** After training on continuous data with at least two instances of every class, the
score of a class is its log prior minus half the squared Mahalanobis distance to the class mean
under the inverse of the pooled covariance matrix, up to a term that is the same for all
classes. `inverse` is the matrix library's inversion: of a symmetric matrix, it is symmetric. -/
theorem C104_lda (hne : l ≠ []) (inverse : Mat ℝ → Mat ℝ)
    (hinv : ∀ S, IsSymm n S → IsSymm n (inverse S)) :
    ∃ m S, Lda.train inverse Lda.new l = .ok m ∧ m.prior = l.classDistribution ∧
      IsSymm n S ∧ (∀ i j, i < n → j < n → S.e i j = pooledEntry l v n i j) ∧
      ∀ (x : Inst ℝ) (u : List ℝ), x.attrs = u.map Attr.continuous → u.length = n →
      ∀ c ∈ l.map Inst.label,
        m.metric x c = .ok (Real.log (classSize l c / l.length) -
          mahSq n (inverse S) u (classMean l v n c) / 2 +
          bilinear n (inverse S) (fun i => u.getD i 0) (fun i => u.getD i 0) / 2) := by
  obtain ⟨ps, e, hlen, hz, hps⟩ := labelled_classes l
  have hfo := C07_distinct_class_labels l
  obtain ⟨S, eS, rS, cS, hS⟩ := pooled_ok l v n hv h2
  have hsym : IsSymm n S := ⟨rS, cS, fun i j hi hj => by
    rw [hS i j hi hj, hS j i hj hi, pooledEntry_symm l v n hv h2]⟩
  have hA := hinv S hsym
  set A := inverse S with hAdef
  obtain ⟨x0, hx0, h0⟩ := first_of_ne hne
  -- the weights of a class
  have hw : ∀ c, ∃ w, A.mulRight (classMean l v n c) = some w ∧ w.length = n ∧
      ∀ u : List ℝ, u.length = n → dotChecked w u =
        some (bilinear n A (fun i => (classMean l v n c).getD i 0) (fun i => u.getD i 0)) := by
    intro c
    obtain ⟨w, h1, h2, h3⟩ := mulRight_dot n A hA (classMean l v n c) (classMean l v n c)
      (by simp [classMean]) (by simp [classMean])
    refine ⟨w, h1, h2, ?_⟩
    intro u hu
    obtain ⟨w', h1', _, h3'⟩ := mulRight_dot n A hA (classMean l v n c) u (by simp [classMean]) hu
    rw [h1] at h1'
    cases h1'
    exact h3'
  choose W hW1 hW2 hW3 using hw
  set w0 : String → ℝ := fun c => -1/2 * bilinear n A (fun i => (classMean l v n c).getD i 0)
      (fun i => (classMean l v n c).getD i 0) + Real.log (classSize l c / l.length) with hw0
  have hloop : ∀ (cs : List String), (∀ c ∈ cs, c ∈ l.map Inst.label) → ∀ m : Lda ℝ,
      m.prior = l.classDistribution →
      (cs.map (fun c => (c, l.filter (fun x => x.label == c)))).foldlM (Lda.classWeights A) m =
      .ok { m with
        w := cs.foldl (fun m c => OMap.emplace m c (W c)) m.w,
        w0 := cs.foldl (fun m c => OMap.emplace m c (w0 c)) m.w0 } := by
    intro cs
    induction cs with
    | nil => intro _ m _; rfl
    | cons c cs ih =>
      intro hc m hm
      rw [List.map_cons, List.foldlM_cons]
      have hcl := hc c (by simp)
      have : Lda.classWeights A m (c, l.filter (fun x => x.label == c)) =
          .ok { m with w := m.w.emplace c (W c), w0 := m.w0.emplace c (w0 c) } := by
        unfold Lda.classWeights
        rw [class_average l v n hv h2 c hcl]
        simp only [res_bind_ok]
        rw [hW1 c]
        simp only
        rw [hW3 c (classMean l v n c) (by simp [classMean])]
        simp only [hw0, hm, prior_real, lit_real, mul_real, add_real, log_real, classSize]
        norm_num
      rw [this]
      exact ih (fun c hc' => hc c (by simp [hc'])) _ hm
  refine ⟨Lda.mk l.classDistribution
      (l.getDistinctClassLabels.foldl (fun m c => OMap.emplace m c (w0 c)) [])
      (l.getDistinctClassLabels.foldl (fun m c => OMap.emplace m c (W c)) []),
    S, ?_, rfl, hsym, hS, ?_⟩
  · unfold Lda.train
    rw [h0]
    simp only [res_bind_ok]
    rw [discreteCheck_continuous l v n hv h2 x0 (v x0) (hv x0 hx0).1]
    simp only [Bool.true_eq_false, if_false]
    rw [e]
    simp only [res_bind_ok]
    rw [contSize_ok x0 (v x0) (hv x0 hx0).1, (hv x0 hx0).2, Int.toNat_natCast]
    rw [show ps = _ from hps, eS]
    simp only [res_bind_ok]
    rw [← hps, hz, ← hAdef, hloop _ (fun c hc => (hfo.mem_iff c).1 hc) _ rfl]
    rfl
  · intro x u hx hu c hc
    unfold Lda.metric
    rw [toVector_ok x u hx]
    simp only [res_bind_ok]
    unfold findR
    rw [find?_emplace_fold (fun c => W c), find?_emplace_fold (fun c => w0 c)]
    simp only [(hfo.mem_iff c).2 hc, if_true, OMap.find?_nil, Option.getD_none, res_bind_ok]
    rw [hW3 c u hu]
    simp only [res_pure, add_real, hw0, Except.ok.injEq]
    rw [mahSq_expand n A hA]
    ring

/-- **C104.** The predicted class is an instance label of the training list that maximises log
prior minus half the squared Mahalanobis distance to the class mean. -/
theorem C104_lda_predict (hne : l ≠ []) (inverse : Mat ℝ → Mat ℝ)
    (hinv : ∀ S, IsSymm n S → IsSymm n (inverse S)) :
    ∃ m S, Lda.train inverse Lda.new l = .ok m ∧
      IsSymm n S ∧ (∀ i j, i < n → j < n → S.e i j = pooledEntry l v n i j) ∧
      ∀ (x : Inst ℝ) (u : List ℝ), x.attrs = u.map Attr.continuous → u.length = n →
        x.possible = none →
        (∃ c ∈ l.map Inst.label, -(2 : ℝ) ^ 1024 < Real.log (classSize l c / l.length) -
          mahSq n (inverse S) u (classMean l v n c) / 2 +
          bilinear n (inverse S) (fun i => u.getD i 0) (fun i => u.getD i 0) / 2) →
        ∃ r, m.predict x = .ok r ∧ r ∈ l.map Inst.label ∧ ∀ c ∈ l.map Inst.label,
          Real.log (classSize l c / l.length) - mahSq n (inverse S) u (classMean l v n c) / 2 ≤
          Real.log (classSize l r / l.length) - mahSq n (inverse S) u (classMean l v n r) / 2 := by
  obtain ⟨m, S, e, hp, hS, hSe, h⟩ := C104_lda l v n hv h2 hne inverse hinv
  refine ⟨m, S, e, hS, hSe, ?_⟩
  intro x u hx hu hposs hbig
  have hcand : discCandidates m.prior x = m.prior.getItems := by
    simp [discCandidates, hposs]
  have hmem : ∀ c, c ∈ discCandidates m.prior x ↔ c ∈ l.map Inst.label := by
    intro c
    rw [hcand, hp, (C10_class_distribution l).mem_items]
  obtain ⟨r, er, hr⟩ := C52_argmax m.prior m.metric x (fun c => Real.log (classSize l c / l.length) -
          mahSq n (inverse S) u (classMean l v n c) / 2 +
          bilinear n (inverse S) (fun i => u.getD i 0) (fun i => u.getD i 0) / 2)
    (fun c hc => h x u hx hu c ((hmem c).1 hc))
    (by
      obtain ⟨c, hc, hlt⟩ := hbig
      refine ⟨c, (hmem c).2 hc, ?_⟩
      simpa [neg_real, maxVal_real, lt_real] using hlt)
  refine ⟨r, er, (hmem r).1 (by obtain ⟨l1, l2, e, _⟩ := hr.split; rw [e]; simp), ?_⟩
  intro c hc
  have := hr.max c ((hmem c).2 hc)
  simp at this
  linarith

/-- **C105.** After training on continuous data with at least two instances of every class, the
score of a class is its log prior minus half the log determinant of the class covariance matrix
minus half the squared Mahalanobis distance to the class mean under its inverse. `S c` is the
covariance matrix of the class. -/
theorem C105_qda (hne : l ≠ []) (inverse : Mat ℝ → Mat ℝ) (det : Mat ℝ → ℝ)
    (hinv : ∀ S, IsSymm n S → IsSymm n (inverse S)) :
    ∃ (m : Qda ℝ) (S : String → Mat ℝ), Qda.train inverse det Qda.new l = .ok m ∧
      m.prior = l.classDistribution ∧
      (∀ c ∈ l.map Inst.label, IsSymm n (S c) ∧ ∀ i j, i < n → j < n →
        (S c).e i j = scatter l v n c i j / ((classSize l c : ℝ) - 1)) ∧
      ∀ (x : Inst ℝ) (u : List ℝ), x.attrs = u.map Attr.continuous → u.length = n →
      ∀ c ∈ l.map Inst.label,
        m.metric x c = .ok (Real.log (classSize l c / l.length) - Real.log (det (S c)) / 2 -
          mahSq n (inverse (S c)) u (classMean l v n c) / 2) := by
  obtain ⟨ps, e, hlen, hz, hps⟩ := labelled_classes l
  have hfo := C07_distinct_class_labels l
  obtain ⟨x0, hx0, h0⟩ := first_of_ne hne
  have hcov : ∀ c, ∃ M : Mat ℝ, c ∈ l.map Inst.label →
      (IList.covariance (l.filter (fun x => x.label == c)) (classMean l v n c) = .ok (n, M.e) ∧
       IsSymm n M ∧ ∀ i j, i < n → j < n → M.e i j = scatter l v n c i j / ((classSize l c : ℝ) - 1)) := by
    intro c
    by_cases hc : c ∈ l.map Inst.label
    · obtain ⟨M, e, h⟩ := class_covariance l v n hv h2 c hc
      refine ⟨⟨n, n, M⟩, fun _ => ⟨e, ⟨rfl, rfl, ?_⟩, h⟩⟩
      intro i j hi hj
      simp only
      rw [h i j hi hj, h j i hj hi, scatter_symm]
    · exact ⟨⟨n, n, fun _ _ => 0⟩, fun h => absurd h hc⟩
  choose S hS using hcov
  have hw : ∀ c, ∃ w, c ∈ l.map Inst.label →
      ((inverse (S c)).mulLeft (classMean l v n c) = some w ∧ w.length = n ∧
      ∀ u : List ℝ, u.length = n → dotChecked w u =
        some (bilinear n (inverse (S c)) (fun i => (classMean l v n c).getD i 0) (fun i => u.getD i 0))) := by
    intro c
    by_cases hc : c ∈ l.map Inst.label
    · have hA := hinv _ (hS c hc).2.1
      obtain ⟨w, h1, h2, h3⟩ := mulLeft_dot n _ hA (classMean l v n c) (classMean l v n c)
        (by simp [classMean]) (by simp [classMean])
      refine ⟨w, fun _ => ⟨h1, h2, ?_⟩⟩
      intro u hu
      obtain ⟨w', h1', _, h3'⟩ := mulLeft_dot n _ hA (classMean l v n c) u (by simp [classMean]) hu
      rw [h1] at h1'
      cases h1'
      exact h3'
    · exact ⟨[], fun h => absurd h hc⟩
  choose w hwp using hw
  set w0 : String → ℝ := fun c => -1/2 * (bilinear n (inverse (S c)) (fun i => (classMean l v n c).getD i 0)
      (fun i => (classMean l v n c).getD i 0) + Real.log (det (S c))) +
      Real.log (classSize l c / l.length) with hw0
  set WW : String → Mat ℝ := fun c => (inverse (S c)).scale (-1/2) with hWW
  have hloop : ∀ (cs : List String), (∀ c ∈ cs, c ∈ l.map Inst.label) → ∀ m : Qda ℝ,
      m.prior = l.classDistribution →
      (cs.map (fun c => (c, l.filter (fun x => x.label == c)))).foldlM (Qda.classWeights inverse det) m =
      .ok { m with
        W := cs.foldl (fun m c => OMap.emplace m c (WW c)) m.W,
        w := cs.foldl (fun m c => OMap.emplace m c (w c)) m.w,
        w0 := cs.foldl (fun m c => OMap.emplace m c (w0 c)) m.w0 } := by
    intro cs
    induction cs with
    | nil => intro _ m _; rfl
    | cons c cs ih =>
      intro hc m hm
      rw [List.map_cons, List.foldlM_cons]
      have hcl := hc c (by simp)
      have : Qda.classWeights inverse det m (c, l.filter (fun x => x.label == c)) =
          .ok { m with W := m.W.emplace c (WW c), w := m.w.emplace c (w c), w0 := m.w0.emplace c (w0 c) } := by
        unfold Qda.classWeights
        rw [class_average l v n hv h2 c hcl]
        simp only [res_bind_ok]
        rw [(hS c hcl).1]
        simp only [res_bind_ok]
        have hSS : (⟨n, n, (S c).e⟩ : Mat ℝ) = S c := by
          obtain ⟨h1, h2, _⟩ := (hS c hcl).2.1
          rcases hM : S c with ⟨r, k, M⟩
          rw [hM] at h1 h2
          simp only at h1 h2
          rw [h1, h2]
        rw [hSS, (hwp c hcl).1]
        simp only
        rw [(hwp c hcl).2.2 (classMean l v n c) (by simp [classMean])]
        simp only [hw0, hWW, hm, prior_real, lit_real, mul_real, add_real, log_real, classSize]
        norm_num
      rw [this]
      exact ih (fun c hc' => hc c (by simp [hc'])) _ hm
  refine ⟨Qda.mk l.classDistribution
      (l.getDistinctClassLabels.foldl (fun m c => OMap.emplace m c (w0 c)) [])
      (l.getDistinctClassLabels.foldl (fun m c => OMap.emplace m c (w c)) [])
      (l.getDistinctClassLabels.foldl (fun m c => OMap.emplace m c (WW c)) []),
    S, ?_, rfl, fun c hc => (hS c hc).2, ?_⟩
  · unfold Qda.train
    rw [h0]
    simp only [res_bind_ok]
    rw [discreteCheck_continuous l v n hv h2 x0 (v x0) (hv x0 hx0).1]
    simp only [Bool.true_eq_false, if_false]
    rw [e]
    simp only [res_bind_ok]
    rw [hz, hloop _ (fun c hc => (hfo.mem_iff c).1 hc) _ rfl]
    rfl
  · intro x u hx hu c hc
    unfold Qda.metric
    rw [toVector_ok x u hx]
    simp only [res_bind_ok]
    unfold findR
    rw [find?_emplace_fold (fun c => WW c), find?_emplace_fold (fun c => w c),
      find?_emplace_fold (fun c => w0 c)]
    simp only [(hfo.mem_iff c).2 hc, if_true, OMap.find?_nil, Option.getD_none, res_bind_ok]
    have hA := hinv _ (hS c hc).2.1
    obtain ⟨q, hq1, _, hq2⟩ := mulLeft_dot n (WW c) (hA.scale _) u u hu hu
    rw [hq1]
    simp only [Option.bind_some]
    rw [hq2, (hwp c hc).2.2 u hu]
    simp only [res_pure, add_real, hw0, hWW, Except.ok.injEq]
    rw [mahSq_expand n _ hA, bilinear_scale]
    ring

end

/-- a training list meeting the hypotheses of C104, C105 and C106 -/
example : (∀ x ∈ nbWitness, x.attrs = (contValues x).map Attr.continuous ∧ (contValues x).length = 1) ∧
    (∀ c ∈ nbWitness.map Inst.label, 2 ≤ classSize nbWitness c) ∧ nbWitness ≠ [] := by
  refine ⟨?_, ?_, by simp [nbWitness]⟩
  · intro x hx
    simp only [nbWitness, List.mem_cons, List.not_mem_nil, or_false] at hx
    rcases hx with rfl | rfl | rfl | rfl <;> simp [contValues, contOf]
  · intro c hc
    simp only [nbWitness, List.map_cons, List.map_nil, List.mem_cons, List.not_mem_nil, or_false] at hc
    rcases hc with rfl | rfl | rfl | rfl <;> simp [classSize, nbWitness]

/-- an inversion meeting the hypothesis, for size 1 -/
example : ∀ S : Mat ℝ, IsSymm 1 S → IsSymm 1 ⟨1, 1, fun i j => (S.e i j)⁻¹⟩ :=
  fun S h => ⟨rfl, rfl, fun i j hi hj => by simp only; rw [h.2.2 i j hi hj]⟩

/-- Why two instances per class are asked for: with one instance the class covariance is 0/0, a
NaN in double arithmetic, and so is every entry of the pooled matrix. -/
theorem C104_single_instance_nan :
    ∃ S : Mat XR, Lda.pooledCovariance 1 [[⟨"a", [.continuous (.fin 1)], none⟩],
      [⟨"b", [.continuous (.fin 2)], none⟩, ⟨"b", [.continuous (.fin 3)], none⟩]] 3 = .ok S ∧
      S.e 0 0 = XR.nan := by
  have h : (Lda.pooledCovariance (F := XR) 1 [[⟨"a", [.continuous (.fin 1)], none⟩],
      [⟨"b", [.continuous (.fin 2)], none⟩, ⟨"b", [.continuous (.fin 3)], none⟩]] 3).map (fun S => S.e 0 0)
      = .ok XR.nan := by decide +kernel
  cases hS : Lda.pooledCovariance (F := XR) 1 [[⟨"a", [.continuous (.fin 1)], none⟩],
      [⟨"b", [.continuous (.fin 2)], none⟩, ⟨"b", [.continuous (.fin 3)], none⟩]] 3 with
  | error e => rw [hS] at h; cases h
  | ok S => rw [hS] at h; exact ⟨S, rfl, by simpa [Except.map] using h⟩

/-- **C45.** LDA and QDA refuse a training list whose first instance has a plain discrete
attribute. (On continuous data they do not: `C104_lda`, `C105_qda`.) -/
theorem C45_lda_qda {F : Type} [Dbl F] (x : Inst F) (l : IList F) (inverse : Mat F → Mat F) (det : Mat F → F)
    (old : Lda F) (oldq : Qda F) (h : ∃ a ∈ x.attrs, ∃ s, a = .discrete s) :
    Lda.train inverse old (x :: l) = .error (.throw "DiscreteFeaturesNotAllowed") ∧
    Qda.train inverse det oldq (x :: l) = .error (.throw "DiscreteFeaturesNotAllowed") := by
  have hd : discreteCheck x = false := by
    rw [C45_discrete_check]
    obtain ⟨a, ha, s, rfl⟩ := h
    exact ⟨s, ha⟩
  unfold Lda.train Qda.train
  simp only [atR_cons_zero, res_bind_ok, hd, if_true, and_self]

end Verif
