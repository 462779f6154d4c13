import Verif.Spec.SvmAlike
import Verif.Props.SolverAlike
import Verif.Props.RegionsSvm
import Verif.Props.SvmCases
import Verif.Props.Axes
import Verif.Lemmas.Rename
import Verif.Props.Preprocess

/-! # Property C223: a support vector machine sees its data through the kernel only -/

set_option linter.unusedSectionVars false

namespace Verif
open Dbl

section
variable {α β : Type}

theorem block_mapped (f : α → β) (l : List α) (s c : Nat) : Svm.block (l.map f) s c = (Svm.block l s c).map (List.map f) := by
  unfold Svm.block
  rw [← mapM_map_res]
  congr 1
  funext k
  exact idxR_mapped f l _

theorem block_facts {l b : List α} {s c : Nat} (h : Svm.block l s c = .ok b) : b.length = c ∧ ∀ x ∈ b, x ∈ l := by
  unfold Svm.block at h
  constructor
  · have := (mapM_ok_inv h).length_eq
    simpa using this.symm
  · intro x hx
    obtain ⟨k, _, hk⟩ := mapM_ok_mem h hx
    rw [idxR_eq_ok] at hk
    exact List.mem_iff_getElem?.2 ⟨_, hk⟩

end

section
variable {t : ℝ} (ht : 0 < t) {p p' : SvmParam ℝ} {f f' : Inst ℝ → List ℝ}

/-- the solutions of the pairs of classes, the multipliers divided by `t` -/
noncomputable def Svm.PairAcc.down (t : ℝ) (acc : Svm.PairAcc ℝ) : Svm.PairAcc ℝ :=
  ⟨acc.weights.map (fun w => (w.1, downBy t w.2)), acc.nonZero⟩

theorem fabsD_div {t : ℝ} (ht : 0 < t) (a : ℝ) : (Dbl.zero <. fabsD (a / t)) = (Dbl.zero <. fabsD a) := by
  have h1 : a / t < 0 ↔ a < 0 := by rw [div_lt_iff₀ ht, zero_mul]
  have h2 : ∀ b : ℝ, 0 < b / t ↔ 0 < b := fun b => by rw [lt_div_iff₀ ht, zero_mul]
  unfold fabsD
  simp only [lt_real, zero_real, neg_real, decide_eq_true_eq, h1]
  rw [decide_eq_decide]
  split
  · rw [← neg_div, h2]
  · rw [h2]

include ht

theorem markRow_down (alpha : List ℝ) (s off : Nat) : Svm.markRow (downBy t alpha) s off = Svm.markRow alpha s off := by
  funext nz k
  unfold Svm.markRow
  refine bind_congr_res (fun b _ => ?_)
  rw [idxR_down, bind_map_res]
  simp only [fabsD_div ht]

omit ht in
theorem signAlpha_down (alpha y : List ℝ) (i : Nat) :
    Svm.signAlpha (downBy t alpha) y i = (Svm.signAlpha alpha y i).map (· / t) := by
  unfold Svm.signAlpha
  rw [idxR_down, bind_map_res, map_bind_res]
  refine bind_congr_res (fun a _ => ?_)
  rw [map_bind_res]
  refine bind_congr_res (fun b _ => ?_)
  rw [map_pure_res]
  simp only [mul_real]
  congr 1; ring

/-- the two-class problems solved while training have the same solutions, up to the factor -/
theorem trainPair_alike (n : Nat) (hC : p'.C = p.C / t) (hs : p'.shrinking = p.shrinking) (S : IList ℝ)
    (hv : ∀ x ∈ S, ∀ y ∈ S, kernelFormula p' (f' x) (f' y) = t * kernelFormula p (f x) (f y)) (d : DD) (start : List Nat)
    (acc : Svm.PairAcc ℝ) (ij : Nat × Nat) :
    Svm.trainPair (Svm.boundedSolver n p') d (S.map (fun x => nodeList (f' x))) start (acc.down t) ij =
      (Svm.trainPair (Svm.boundedSolver n p) d (S.map (fun x => nodeList (f x))) start acc ij).map (Svm.PairAcc.down t) := by
  unfold Svm.trainPair
  simp only [block_mapped, bind_map_res, map_bind_res]
  refine bind_congr_res (fun si _ => bind_congr_res (fun sj _ => bind_congr_res (fun ci _ => bind_congr_res (fun cj _ => ?_))))
  refine bind_congr_res (fun bi hbi => bind_congr_res (fun bj hbj => ?_))
  obtain ⟨li, mi⟩ := block_facts hbi
  obtain ⟨lj, mj⟩ := block_facts hbj
  have hm : ∀ x ∈ bi ++ bj, x ∈ S := fun x hx => (List.mem_append.1 hx).elim (mi x) (mj x)
  have key : ∀ y b : List ℝ, y.length = (bi ++ bj).length →
      Svm.boundedSolver n p' (bi.map (fun x => nodeList (f' x)) ++ bj.map (fun x => nodeList (f' x))) y b =
      (Svm.boundedSolver n p (bi.map (fun x => nodeList (f x)) ++ bj.map (fun x => nodeList (f x))) y b).map
        (fun o => (o.1, downBy t o.2)) := by
    intro y b hy
    have := solve_alike (p := p) (p' := p') ht n (ps := (bi ++ bj).map (fun x => (f x, f' x))) (by
      intro a ha c hc
      obtain ⟨x, hx, rfl⟩ := List.mem_map.1 ha
      obtain ⟨z, hz, rfl⟩ := List.mem_map.1 hc
      exact hv x (hm x hx) z (hm z hz)) hC hs y b
    rw [List.length_map, List.map_map, List.map_map] at this
    unfold Svm.boundedSolver
    rw [hy, ← List.map_append, ← List.map_append]
    simp only [Function.comp_def] at this
    rw [this, bind_map_res, map_bind_res]
    refine bind_congr_res (fun o _ => ?_)
    cases o <;> rfl
  have hsingle : ∀ y : List ℝ, y.length = (bi ++ bj).length →
      Svm.solveSingle (Svm.boundedSolver n p') (bi.map (fun x => nodeList (f' x)) ++ bj.map (fun x => nodeList (f' x))) y =
      (Svm.solveSingle (Svm.boundedSolver n p) (bi.map (fun x => nodeList (f x)) ++ bj.map (fun x => nodeList (f x))) y).map
        (fun o => (o.1, downBy t o.2)) := by
    intro y hy
    unfold Svm.solveSingle
    simp only
    rw [key _ _ (by rw [List.length_map]; exact hy), bind_map_res, map_bind_res]
    refine bind_congr_res (fun r _ => ?_)
    have : Svm.signAlpha (downBy t r.2) (y.map Svm.signLabel) =
        fun i => (Svm.signAlpha r.2 (y.map Svm.signLabel) i).map (· / t) := funext (signAlpha_down r.2 _)
    rw [this, mapM_map_res, bind_map_res, map_bind_res]
    rfl
  rw [hsingle _ (by simp [li, lj]), bind_map_res]
  refine bind_congr_res (fun w _ => ?_)
  simp only [markRow_down ht]
  refine bind_congr_res (fun nz _ => bind_congr_res (fun nz _ => ?_))
  rw [map_pure_res]
  simp only [Svm.PairAcc.down, List.map_append, List.map_cons, List.map_nil]

omit ht in
theorem foldlM_down {σ γ : Type} (V : σ → σ) (g g' : σ → γ → Res σ) (h : ∀ s c, g' (V s) c = (g s c).map V) (l : List γ) (s : σ) :
    l.foldlM g' (V s) = (l.foldlM g s).map V := by
  induction l generalizing s with
  | nil => rfl
  | cons c l ih =>
    rw [List.foldlM_cons, List.foldlM_cons, h, bind_map_res, map_bind_res]
    exact bind_congr_res (fun a _ => ih a)

omit ht in
theorem fillRow_down (alpha : List ℝ) (nz : List Bool) (s off row : Nat) (st : List (List ℝ) × Nat) (k : Nat) :
    Svm.fillRow (downBy t alpha) nz s off row (st.1.map (downBy t), st.2) k =
      (Svm.fillRow alpha nz s off row st k).map (fun r => (r.1.map (downBy t), r.2)) := by
  unfold Svm.fillRow
  rw [map_bind_res]
  refine bind_congr_res (fun b _ => ?_)
  cases b
  · rfl
  · simp only [if_true]
    rw [idxR_mapped, bind_map_res, map_bind_res]
    refine bind_congr_res (fun r _ => ?_)
    rw [idxR_down, bind_map_res, map_bind_res]
    refine bind_congr_res (fun a _ => ?_)
    rw [idxR_down, bind_map_res, map_bind_res]
    refine bind_congr_res (fun _ _ => ?_)
    rw [map_pure_res]
    simp only [List.map_set, downBy]

omit ht in
theorem fillPair_down (d : DD) (start nzStart : List Nat) (acc : Svm.PairAcc ℝ) (st : List (List ℝ) × Nat) (ij : Nat × Nat) :
    Svm.fillPair d start nzStart (acc.down t) (st.1.map (downBy t), st.2) ij =
      (Svm.fillPair d start nzStart acc st ij).map (fun r => (r.1.map (downBy t), r.2)) := by
  unfold Svm.fillPair
  simp only [Svm.PairAcc.down, idxR_mapped, bind_map_res, map_bind_res]
  refine bind_congr_res (fun si _ => bind_congr_res (fun sj _ => bind_congr_res (fun ci _ => bind_congr_res (fun cj _ => ?_))))
  refine bind_congr_res (fun w _ => bind_congr_res (fun q _ => ?_))
  have h : ∀ (s off row c : Nat) (v : List (List ℝ)) (q : Nat),
      (List.range c).foldlM (Svm.fillRow (downBy t w.2) acc.nonZero s off row) (v.map (downBy t), q) =
        ((List.range c).foldlM (Svm.fillRow w.2 acc.nonZero s off row) (v, q)).map (fun r => (r.1.map (downBy t), r.2)) :=
    fun s off row c v q => foldlM_down (fun r : List (List ℝ) × Nat => (r.1.map (downBy t), r.2))
      (Svm.fillRow w.2 acc.nonZero s off row) (Svm.fillRow (downBy t w.2) acc.nonZero s off row)
      (fun st k => fillRow_down w.2 acc.nonZero s off row st k) (List.range c) (v, q)
  rw [h, bind_map_res]
  refine bind_congr_res (fun r _ => bind_congr_res (fun q' _ => ?_))
  rw [h, bind_map_res]
  rfl

theorem addTerm_alike (coef kernel : List ℝ) (s : Nat) :
    Svm.addTerm (downBy t coef) (kernel.map (t * ·)) s = Svm.addTerm coef kernel s := by
  funext sum k
  unfold Svm.addTerm
  rw [idxR_down, bind_map_res]
  refine bind_congr_res (fun c _ => ?_)
  rw [idxR_mapped, bind_map_res]
  refine bind_congr_res (fun v _ => ?_)
  simp only [add_real, mul_real]
  congr 2
  field_simp

/-- the decision values are the same -/
theorem pairValue_alike {m m' : Svm ℝ} (h1 : m'.svCounts = m.svCounts) (h2 : m'.coefs = m.coefs.map (downBy t)) (h3 : m'.rho = m.rho)
    (start : List Nat) (kernel : List ℝ) : m'.pairValue start (kernel.map (t * ·)) = m.pairValue start kernel := by
  funext result ij
  unfold Svm.pairValue
  rw [h1, h2, h3]
  simp only [idxR_mapped, bind_map_res, addTerm_alike ht]

omit ht in
theorem vectors_kept (S : IList ℝ) (h : ∀ x ∈ S, x.attrs = (f x).map Attr.continuous) :
    S.mapM Inst.toNodeList = .ok (S.map (fun x => nodeList (f x))) := by
  refine mapM_ok (fun x hx => ?_)
  unfold Inst.toNodeList
  rw [contAttrs_numbers (h x hx)]; rfl

omit ht in
theorem marked_vectors {γ : Type} (h : Inst ℝ → γ) (S : IList ℝ) (nz : List Bool) :
    (((S.map h).zip nz).filter Prod.snd).map Prod.fst = ((S.zip nz).filter Prod.snd).map (fun q => h q.1) := by
  induction S generalizing nz with
  | nil => rfl
  | cons x S ih =>
    cases nz with
    | nil => rfl
    | cons b nz => cases b <;> simp [ih]

/-- **C223.** A support vector machine sees its data only through the values of the kernel: change the numbers of all instances, and
the parameters of the kernel, in any way that multiplies these values by a common factor (for example 1), divide the penalty by this factor,
and the machine trained on the changed data answers changed queries as the machine trained on the original data answers the original
ones. This holds whatever number of rounds the solver is given. -/
theorem C223_kernel (n : Nat) (g : Inst ℝ → Inst ℝ) (T : IList ℝ) (x : Inst ℝ) (old : Svm ℝ)
    (hold : old.supportVectors = [] ∧ old.coefs = [])
    (hC : p'.C = p.C / t) (hs : p'.shrinking = p.shrinking) (h : KernelKept t p p' g (x :: T)) :
    (Svm.train (Svm.boundedSolver n p') old (T.map g) p' >>= fun m => m.1.predict (g x)) =
      (Svm.train (Svm.boundedSolver n p) old T p >>= fun m => m.1.predict x) := by
  have hsort : IList.sortByClass (T.map g) = (IList.sortByClass T).map g := by
    unfold IList.sortByClass
    refine stableSort_map g _ _ T (fun a ha b hb => ?_)
    simp only [h.classes a (by simp [ha]), h.classes b (by simp [hb])]
  have hmem : ∀ y ∈ T.sortByClass, y ∈ x :: T := fun y hy =>
    List.mem_cons_of_mem _ ((C14_sort_by_class T).perm.mem_iff.1 hy)
  have hdist : IList.classDistribution ((IList.sortByClass T).map g) = (IList.sortByClass T).classDistribution := by
    rw [classDistribution_eq, classDistribution_eq, List.map_map]
    congr 1
    exact List.map_congr_left (fun y hy => h.classes y (hmem y hy))
  have hchk : ∀ y ∈ x :: T, discreteCheck y = true ∧ discreteCheck (g y) = true := by
    intro y hy
    unfold discreteCheck
    rw [(h.numbers y hy).1, (h.numbers y hy).2]
    simp [Attr.isDiscrete]
  unfold Svm.train IList.get
  cases T with
  | nil => rfl
  | cons t0 T =>
    have e1 : atR (t0 :: T) 0 = .ok t0 := rfl
    have e2 : atR ((t0 :: T).map g) 0 = .ok (g t0) := rfl
    rw [e1, e2, res_bind_ok, res_bind_ok, (hchk t0 (by simp)).1, (hchk t0 (by simp)).2, hsort]
    generalize hS : IList.sortByClass (t0 :: T) = S at *
    simp only [if_true]
    unfold Svm.trainSorted
    have v1 := vectors_kept (f := numbersOf) S (fun y hy => (h.numbers y (hmem y hy)).1)
    have v2 : (S.map g).mapM Inst.toNodeList = .ok (S.map (fun y => nodeList (numbersOf (g y)))) := by
      have := vectors_kept (f := numbersOf) (S.map g) (by
        intro z hz
        obtain ⟨y, hy, rfl⟩ := List.mem_map.1 hz
        exact (h.numbers y (hmem y hy)).2)
      rw [this, List.map_map]; rfl
    rw [v1, v2, hdist, res_bind_ok, res_bind_ok]
    simp only [bind_assoc, List.length_map]
    refine bind_congr_res (fun start _ => ?_)
    have hfold := foldlM_down (Svm.PairAcc.down t)
      (Svm.trainPair (Svm.boundedSolver n p) S.classDistribution (S.map (fun y => nodeList (numbersOf y))) start)
      (Svm.trainPair (Svm.boundedSolver n p') S.classDistribution (S.map (fun y => nodeList (numbersOf (g y)))) start)
      (trainPair_alike (f := numbersOf) (f' := fun y => numbersOf (g y)) ht n hC hs S
        (fun a ha b hb => h.values a (hmem a ha) b (hmem b hb)) _ _)
      (classPairs S.classDistribution.size) ⟨[], List.replicate (List.length S) false⟩
    rw [show Svm.PairAcc.down t ⟨[], List.replicate (List.length S) false⟩ = ⟨[], List.replicate (List.length S) false⟩ from rfl] at hfold
    rw [hfold, bind_map_res]
    refine bind_congr_res (fun acc _ => bind_congr_res (fun counts _ => ?_))
    refine bind_congr_res (fun nzs _ => ?_)
    have hblank : ((Svm.resizeTo (S.classDistribution.size - 1) [] old.coefs).map (Svm.resizeTo counts.sum (Dbl.zero : ℝ))) =
        ((Svm.resizeTo (S.classDistribution.size - 1) [] old.coefs).map (Svm.resizeTo counts.sum (Dbl.zero : ℝ))).map (downBy t) := by
      rw [hold.2]
      simp [Svm.resizeTo, downBy]
    have hfill := foldlM_down (fun r : List (List ℝ) × Nat => (r.1.map (downBy t), r.2))
      (Svm.fillPair S.classDistribution start nzs acc) (Svm.fillPair S.classDistribution start nzs (acc.down t))
      (fillPair_down _ _ _ _) (classPairs S.classDistribution.size)
      ((Svm.resizeTo (S.classDistribution.size - 1) [] old.coefs).map (Svm.resizeTo counts.sum (Dbl.zero : ℝ)), 0)
    simp only at hfill
    rw [← hblank] at hfill
    rw [hfill, bind_map_res]
    refine bind_congr_res (fun coefs _ => ?_)
    simp only [pure_bind, hold.1, List.nil_append]
    unfold Svm.predict Inst.toNodeList
    rw [contAttrs_numbers (h.numbers x (by simp)).1, contAttrs_numbers (h.numbers x (by simp)).2]
    simp only [res_bind_ok, pure_bind]
    unfold Svm.predictValues
    rw [marked_vectors, marked_vectors]
    have hker : ∀ q ∈ (S.zip acc.nonZero).filter Prod.snd, kernelValue p' (nodeList (numbersOf (g x))) (nodeList (numbersOf (g q.1))) =
        t * kernelValue p (nodeList (numbersOf x)) (nodeList (numbersOf q.1)) := by
      intro q hq
      have hqS : q.1 ∈ S := (List.of_mem_zip (List.mem_of_mem_filter hq)).1
      rw [C67_predict_kernel, C67_predict_kernel]
      exact h.values x (by simp) q.1 (hmem _ hqS)
    simp only [List.mapM_map, Svm.getParam, Option.elim]
    rw [mapM_ok (g := fun q : Inst ℝ × Bool => t * kernelValue p (nodeList (numbersOf x)) (nodeList (numbersOf q.1)))
        (fun q hq => by rw [Function.comp_apply, res_bind_ok, hker q hq]; rfl),
      mapM_ok (g := fun q : Inst ℝ × Bool => kernelValue p (nodeList (numbersOf x)) (nodeList (numbersOf q.1)))
        (fun q hq => by rw [Function.comp_apply, res_bind_ok]; rfl)]
    have hw : (acc.down t).weights.map Prod.fst = acc.weights.map Prod.fst := by
      simp only [Svm.PairAcc.down, List.map_map]; rfl
    have hnz : (acc.down t).nonZero = acc.nonZero := rfl
    rw [hw, hnz]
    simp only [res_bind_ok]
    have hm : ((S.zip acc.nonZero).filter Prod.snd).map (fun q => t * kernelValue p (nodeList (numbersOf x)) (nodeList (numbersOf q.1))) =
        (((S.zip acc.nonZero).filter Prod.snd).map (fun q => kernelValue p (nodeList (numbersOf x)) (nodeList (numbersOf q.1)))).map (t * ·) := by
      rw [List.map_map]; rfl
    rw [hm]
    simp only [bind_assoc]
    refine bind_congr_res (fun st _ => ?_)
    congr 1
    congr 1
    apply pairValue_alike ht <;> rfl

end

/-! ## turning, reflecting, enlarging and moving the data -/

section
variable {n : Nat} (A : Matrix (Fin n) (Fin n) ℝ) (b : Fin n → ℝ) {x y : Inst ℝ}

theorem dense_vectors (hx : Numeric n x) (hy : Numeric n y) :
    denseDot (numbersOf x) (numbersOf y) = _root_.dotProduct (vectorOf n x) (vectorOf n y) ∧
    denseSqDist (numbersOf x) (numbersOf y) =
      _root_.dotProduct (vectorOf n x - vectorOf n y) (vectorOf n x - vectorOf n y) := by
  have lx := (numeric_values hx).2
  have ly := (numeric_values hy).2
  rw [numbersOf_values hx, numbersOf_values hy]
  unfold denseDot denseSqDist _root_.dotProduct
  rw [lx, ly, max_self, Finset.sum_range, Finset.sum_range]
  refine ⟨Finset.sum_congr rfl (fun i _ => ?_), Finset.sum_congr rfl (fun i _ => ?_)⟩
  · rw [contValues_vector hx, contValues_vector hy]
  · rw [contValues_vector hx, contValues_vector hy, sq]; rfl

theorem dot_stretched {s : ℝ} (hA : A.transpose * A = s ^ 2 • (1 : Matrix (Fin n) (Fin n) ℝ)) (u v : Fin n → ℝ) :
    _root_.dotProduct (A.mulVec u) (A.mulVec v) = s ^ 2 * _root_.dotProduct u v := by
  rw [Matrix.dotProduct_mulVec, ← Matrix.mulVec_transpose, Matrix.mulVec_mulVec, hA, Matrix.smul_mulVec,
    Matrix.one_mulVec, smul_dotProduct, smul_eq_mul]

theorem dense_inAxes {s : ℝ} (hA : A.transpose * A = s ^ 2 • (1 : Matrix (Fin n) (Fin n) ℝ)) (hx : Numeric n x) (hy : Numeric n y) :
    (b = 0 → denseDot (numbersOf (inAxes A b x)) (numbersOf (inAxes A b y)) = s ^ 2 * denseDot (numbersOf x) (numbersOf y)) ∧
    denseSqDist (numbersOf (inAxes A b x)) (numbersOf (inAxes A b y)) = s ^ 2 * denseSqDist (numbersOf x) (numbersOf y) := by
  have e : ∀ z, vectorOf n (inAxes A b z) = A.mulVec (vectorOf n z) + b := fun z => by
    funext i; rw [vectorOf_inAxes]; rfl
  rw [(dense_vectors (numeric_inAxes A b x) (numeric_inAxes A b y)).1, (dense_vectors (numeric_inAxes A b x) (numeric_inAxes A b y)).2,
    (dense_vectors hx hy).1, (dense_vectors hx hy).2, e, e]
  constructor
  · rintro rfl
    rw [add_zero, add_zero]
    exact dot_stretched A hA _ _
  · rw [add_sub_add_right_eq_sub, ← Matrix.mulVec_sub]
    exact dot_stretched A hA _ _

theorem numeric_attrs (hx : Numeric n x) : x.attrs = (numbersOf x).map Attr.continuous := by
  rw [numbersOf_values hx]
  exact (numeric_values hx).1

variable (T : IList ℝ) (hT : ∀ y ∈ T, Numeric n y) (hx : Numeric n x)
include hT hx

theorem kept_of_values {t : ℝ} {p p' : SvmParam ℝ} (h : ∀ u v : Inst ℝ, Numeric n u → Numeric n v →
      kernelFormula p' (numbersOf (inAxes A b u)) (numbersOf (inAxes A b v)) = t * kernelFormula p (numbersOf u) (numbersOf v)) :
    KernelKept t p p' (inAxes A b) (x :: T) where
  classes _ _ := rfl
  numbers z hz := by
    have hz' : Numeric n z := by
      rcases List.mem_cons.1 hz with rfl | hz
      · exact hx
      · exact hT z hz
    exact ⟨numeric_attrs hz', numeric_attrs (numeric_inAxes A b z)⟩
  values u hu v hv := by
    have num : ∀ z ∈ x :: T, Numeric n z := by
      intro z hz
      rcases List.mem_cons.1 hz with rfl | hz
      · exact hx
      · exact hT z hz
    exact h u v (num u hu) (num v hv)

/-- **C223.** Turning or reflecting the data around the origin makes no difference to a support vector machine, whatever its
kernel. -/
theorem C223_turned (p : SvmParam ℝ) (rounds : Nat) (old : Svm ℝ) (hold : old.supportVectors = [] ∧ old.coefs = [])
    (hA : A.transpose * A = 1) :
    (Svm.train (Svm.boundedSolver rounds p) old (T.map (inAxes A 0)) p >>= fun m => m.1.predict (inAxes A 0 x)) =
      (Svm.train (Svm.boundedSolver rounds p) old T p >>= fun m => m.1.predict x) := by
  refine C223_kernel one_pos rounds (inAxes A 0) T x old hold (by simp) rfl (kept_of_values A 0 T hT hx (fun u v hu hv => ?_))
  obtain ⟨h1, h2⟩ := dense_inAxes A 0 (s := 1) (by rw [hA]; simp) hu hv
  have h1 := h1 rfl
  rw [one_pow, one_mul] at h1 h2
  unfold kernelFormula
  rw [h1, h2, one_mul]

/-- **C223.** With the radial kernel the origin does not matter either, and a change of the unit is made up for by the parameter `γ`:
enlarging the data `s` times and dividing `γ` by `s²` makes no difference. -/
theorem C223_rbf (p : SvmParam ℝ) (rounds : Nat) (old : Svm ℝ) (hold : old.supportVectors = [] ∧ old.coefs = []) (hk : p.kernelType = .rbf)
    (s : ℝ) (hs : 0 < s) (hA : A.transpose * A = s ^ 2 • (1 : Matrix (Fin n) (Fin n) ℝ)) :
    (Svm.train (Svm.boundedSolver rounds { p with gamma := p.gamma / s ^ 2 }) old (T.map (inAxes A b))
        { p with gamma := p.gamma / s ^ 2 } >>= fun m => m.1.predict (inAxes A b x)) =
      (Svm.train (Svm.boundedSolver rounds p) old T p >>= fun m => m.1.predict x) := by
  refine C223_kernel one_pos rounds (inAxes A b) T x old hold (by simp) rfl (kept_of_values A b T hT hx (fun u v hu hv => ?_))
  obtain ⟨_, h2⟩ := dense_inAxes A b hA hu hv
  unfold kernelFormula
  simp only [hk]
  rw [h2, one_mul]
  congr 1
  field_simp

/-- **C223.** So it is for the polynomial and the sigmoid kernel, as long as the origin stays. -/
theorem C223_gamma (p : SvmParam ℝ) (rounds : Nat) (old : Svm ℝ) (hold : old.supportVectors = [] ∧ old.coefs = [])
    (hk : p.kernelType = .polynom ∨ p.kernelType = .sigmoid)
    (s : ℝ) (hs : 0 < s) (hA : A.transpose * A = s ^ 2 • (1 : Matrix (Fin n) (Fin n) ℝ)) :
    (Svm.train (Svm.boundedSolver rounds { p with gamma := p.gamma / s ^ 2 }) old (T.map (inAxes A 0))
        { p with gamma := p.gamma / s ^ 2 } >>= fun m => m.1.predict (inAxes A 0 x)) =
      (Svm.train (Svm.boundedSolver rounds p) old T p >>= fun m => m.1.predict x) := by
  refine C223_kernel one_pos rounds (inAxes A 0) T x old hold (by simp) rfl (kept_of_values A 0 T hT hx (fun u v hu hv => ?_))
  have h1 := (dense_inAxes A 0 hA hu hv).1 rfl
  have e : p.gamma / s ^ 2 * (s ^ 2 * denseDot (numbersOf u) (numbersOf v)) = p.gamma * denseDot (numbersOf u) (numbersOf v) := by
    field_simp
  unfold kernelFormula
  rcases hk with hk | hk <;> simp only [hk] <;> rw [h1, e, one_mul]

/-- **C223.** With the linear kernel a change of the unit is made up for by the penalty: enlarging the data `s` times and dividing the penalty
by `s²` makes no difference. -/
theorem C223_linear (p : SvmParam ℝ) (rounds : Nat) (old : Svm ℝ) (hold : old.supportVectors = [] ∧ old.coefs = [])
    (hk : p.kernelType = .linear) (s : ℝ) (hs : 0 < s) (hA : A.transpose * A = s ^ 2 • (1 : Matrix (Fin n) (Fin n) ℝ)) :
    (Svm.train (Svm.boundedSolver rounds { p with C := p.C / s ^ 2 }) old (T.map (inAxes A 0))
        { p with C := p.C / s ^ 2 } >>= fun m => m.1.predict (inAxes A 0 x)) =
      (Svm.train (Svm.boundedSolver rounds p) old T p >>= fun m => m.1.predict x) := by
  refine C223_kernel (t := s ^ 2) (by positivity) rounds (inAxes A 0) T x old hold rfl rfl (kept_of_values A 0 T hT hx (fun u v hu hv => ?_))
  have h1 := (dense_inAxes A 0 hA hu hv).1 rfl
  unfold kernelFormula
  simp only [hk]
  exact h1

end

/-- **C222** for support vector machines: after `Pca(ds, d).convert()` with all `d` components a support vector machine with any kernel
and parameters, trained on any part of the data, answers as it does without the filter. -/
theorem C222_pca_svm {d : Nat} (characteristics : Nat × (Nat → Nat → ℝ) → Option (List (List ℝ))) {h : Heap ℝ} {ds : RefSet}
    {l : IList ℝ} (hp : PointTo h ds.refs l) (hnd : ds.refs.Nodup) (h2 : 2 ≤ l.length) (hc : ∀ x ∈ l, Numeric d x) :
    ∃ M : Nat → Nat → ℝ,
      (∀ i j, i < d → j < d → M i j = sampleCov l (fun x => (numbersOf x).getD i 0) (fun x => (numbersOf x).getD j 0)) ∧
      ∀ es ev, characteristics (d, M) = some es → IsEigenbasis d M es ev →
      ∃ h', pca characteristics d h ds = .ok (h', ds) ∧ PointTo h' ds.refs (l.map (alongAll es)) ∧
        ∀ part : IList ℝ, (∀ x ∈ part, x ∈ l) → ∀ (p : SvmParam ℝ) (rounds : Nat) (x : Inst ℝ), Numeric d x →
          (Svm.train (Svm.boundedSolver rounds p) (emptySvm ℝ) (part.map (alongAll es)) p >>= fun m => m.1.predict (alongAll es x)) =
            (Svm.train (Svm.boundedSolver rounds p) (emptySvm ℝ) part p >>= fun m => m.1.predict x) := by
  have hrows : NumericRows l numbersOf d :=
    ⟨fun x hx => by rw [numbersOf_values (hc x hx)]; exact (numeric_values (hc x hx)).1,
      fun x hx => by rw [numbersOf_values (hc x hx)]; exact (numeric_values (hc x hx)).2⟩
  obtain ⟨M, hM, hall⟩ := C114_pca characteristics d d h ds l numbersOf hp hnd h2 hrows
  refine ⟨M, hM, fun es ev hch he => ?_⟩
  obtain ⟨h', e, hchg, _⟩ := hall es ev hch he le_rfl
  have horth := rowsOf_orth he
  rw [one_pow, one_smul] at horth
  refine ⟨h', e, pointTo_changed _ hp hchg.changed (fun x hx y hy => ?_), fun part hpart p rounds x hx => ?_⟩
  · obtain ⟨lab, as, ps⟩ := y
    obtain ⟨h1, h2, h3⟩ := hy
    simp only at h1 h2 h3
    subst h1 h2
    rw [h3, List.take_of_length_le (by rw [he.number]), alongAll, he.number]
  · have hnum : ∀ x ∈ part, Numeric d x := fun x hx => hc x (hpart x hx)
    have hmap : part.map (alongAll es) = part.map (inAxes (rowsOf d es) 0) :=
      List.map_congr_left (fun x hx => along_axes he.number (hnum x hx))
    rw [hmap, along_axes he.number hx]
    exact C223_turned (rowsOf d es) part hnum hx p rounds (emptySvm ℝ) ⟨rfl, rfl⟩ horth

/-- the data of C221 and a turn by an eighth, which enlarges `√2` times, satisfy the hypotheses -/
example (rounds : Nat) (b : Fin 2 → ℝ) :
    (Svm.train (Svm.boundedSolver rounds ⟨.rbf, 1, 1 / (Real.sqrt 2) ^ 2, 0, 2, true⟩) (emptySvm ℝ) (plusSigns.map (inAxes eighthTurn b))
        ⟨.rbf, 1, 1 / (Real.sqrt 2) ^ 2, 0, 2, true⟩ >>= fun m => m.1.predict (inAxes eighthTurn b (pointIn "?" 1 2))) =
      (Svm.train (Svm.boundedSolver rounds ⟨.rbf, 1, 1, 0, 2, true⟩) (emptySvm ℝ) plusSigns ⟨.rbf, 1, 1, 0, 2, true⟩ >>= fun m =>
        m.1.predict (pointIn "?" 1 2)) :=
  C223_rbf eighthTurn b plusSigns plusSigns_numeric ⟨[1, 2], rfl, rfl⟩ ⟨.rbf, 1, 1, 0, 2, true⟩ rounds (emptySvm ℝ) ⟨rfl, rfl⟩ rfl
    (Real.sqrt 2) (by positivity) eighthTurn_orth

/-- the linear kernel with the penalty 2, and 1 after the turn -/
example (rounds : Nat) :
    (Svm.train (Svm.boundedSolver rounds ⟨.linear, 1, 0, 0, 2 / (Real.sqrt 2) ^ 2, true⟩) (emptySvm ℝ) (plusSigns.map (inAxes eighthTurn 0))
        ⟨.linear, 1, 0, 0, 2 / (Real.sqrt 2) ^ 2, true⟩ >>= fun m => m.1.predict (inAxes eighthTurn 0 (pointIn "?" 1 2))) =
      (Svm.train (Svm.boundedSolver rounds ⟨.linear, 1, 0, 0, 2, true⟩) (emptySvm ℝ) plusSigns ⟨.linear, 1, 0, 0, 2, true⟩ >>= fun m =>
        m.1.predict (pointIn "?" 1 2)) :=
  C223_linear eighthTurn plusSigns plusSigns_numeric ⟨[1, 2], rfl, rfl⟩ ⟨.linear, 1, 0, 0, 2, true⟩ rounds (emptySvm ℝ) ⟨rfl, rfl⟩ rfl
    (Real.sqrt 2) (by positivity) eighthTurn_orth

/-- with three rounds allowed, training on two instances ends, and so it does on data ten times as large with a hundredth of the penalty -/
example :
    (Svm.train (Svm.boundedSolver 3 ⟨.linear, 1, .fin 0, .fin 0, .fin 2, true⟩) (emptySvm XR)
      [planePoint "a" 0 0, planePoint "b" 2 2] ⟨.linear, 1, .fin 0, .fin 0, .fin 2, true⟩ >>= fun m => m.1.predict (planePoint "?" 0 3)) = .ok "b" ∧
    (Svm.train (Svm.boundedSolver 3 ⟨.linear, 1, .fin 0, .fin 0, .fin (2 / 100), true⟩) (emptySvm XR)
      [planePoint "a" 0 0, planePoint "b" 20 20] ⟨.linear, 1, .fin 0, .fin 0, .fin (2 / 100), true⟩ >>= fun m =>
        m.1.predict (planePoint "?" 0 30)) = .ok "b" := by
  decide +kernel

/-- a support vector machine on eight instances of the plane, described along the diagonals -/
example (p : SvmParam ℝ) (rounds : Nat) : ∃ h', pca (fun _ => some diagonals) 2 plusSigns ⟨List.range 8, ⟨[.continuous, .continuous], []⟩⟩ =
      .ok (h', ⟨List.range 8, ⟨[.continuous, .continuous], []⟩⟩) ∧
    PointTo h' (List.range 8) (plusSigns.map (alongAll diagonals)) ∧
    (Svm.train (Svm.boundedSolver rounds p) (emptySvm ℝ) (plusSigns.map (alongAll diagonals)) p >>= fun m =>
      m.1.predict (alongAll diagonals (pointIn "?" 1 2))) =
    (Svm.train (Svm.boundedSolver rounds p) (emptySvm ℝ) plusSigns p >>= fun m => m.1.predict (pointIn "?" 1 2)) := by
  obtain ⟨M, hM, hall⟩ := C222_pca_svm (d := 2) (h := plusSigns) (ds := ⟨List.range 8, ⟨[.continuous, .continuous], []⟩⟩) (l := plusSigns)
    (fun _ => some diagonals) (pointTo_self plusSigns) (List.nodup_range) (by simp [plusSigns]) plusSigns_numeric
  obtain ⟨h', e, hp, hk⟩ := hall diagonals _ rfl (diagonals_basis hM)
  exact ⟨h', e, hp, hk plusSigns (fun x hx => hx) p rounds _ ⟨[1, 2], rfl, rfl⟩⟩

/-- two instances -/
def twoCorners (k : ℚ) : IList XR :=
  [⟨"a", [.continuous (.fin 0), .continuous (.fin 0)], none⟩, ⟨"b", [.continuous (.fin 2), .continuous (.fin (2 * k))], none⟩]

/-- **C223**, its limit: the unit of a single column matters. Two instances (0, 0) and (2, 2) of different classes; the query (0, 3) is
answered "b", and when the second numbers are divided by ten, "a". -/
theorem C223_one_unit_matters :
    (Svm.train (Svm.boundedSolver 3 ⟨.linear, 1, .fin 0, .fin 0, .fin 2, true⟩) (emptySvm XR) (twoCorners 1)
      ⟨.linear, 1, .fin 0, .fin 0, .fin 2, true⟩ >>= fun m =>
        m.1.predict ⟨"?", [.continuous (.fin 0), .continuous (.fin 3)], none⟩) = .ok "b" ∧
    (Svm.train (Svm.boundedSolver 3 ⟨.linear, 1, .fin 0, .fin 0, .fin 2, true⟩) (emptySvm XR) (twoCorners (1 / 10))
      ⟨.linear, 1, .fin 0, .fin 0, .fin 2, true⟩ >>= fun m =>
        m.1.predict ⟨"?", [.continuous (.fin 0), .continuous (.fin (3 / 10))], none⟩) = .ok "a" := by
  decide +kernel

end Verif
