import Verif.Spec.Svm
import Verif.Model.DblXR
import Verif.Lemmas.Basic
import Verif.Props.NetTrain
import Mathlib.Tactic.Ring
import Mathlib.Tactic.Positivity

/-! # C66, C67: sparse vectors and kernels -/

set_option linter.unusedSectionVars false
set_option linter.unusedVariables false

namespace Verif
open Dbl

section general
variable {F : Type} [Dbl F]

theorem nodesFrom_mem (v : List F) (k i : Nat) (a : F) :
    (⟨i, a⟩ : SNode F) ∈ nodesFrom k v ↔
      k ≤ i ∧ v[i - k]? = some a ∧ (a ==. Dbl.zero) = false := by
  induction v generalizing k with
  | nil => simp [nodesFrom]
  | cons b v ih =>
    have step : (⟨i, a⟩ : SNode F) ∈ nodesFrom (k + 1) v ↔
        k + 1 ≤ i ∧ (b :: v)[i - k]? = some a ∧ (a ==. Dbl.zero) = false := by
      rw [ih]
      constructor
      · rintro ⟨h1, h2, h3⟩
        refine ⟨h1, ?_, h3⟩
        rw [show i - k = (i - (k + 1)) + 1 by omega, List.getElem?_cons_succ]; exact h2
      · rintro ⟨h1, h2, h3⟩
        refine ⟨h1, ?_, h3⟩
        rw [show i - k = (i - (k + 1)) + 1 by omega, List.getElem?_cons_succ] at h2; exact h2
    simp only [nodesFrom]
    split
    · rename_i hb
      rw [List.mem_cons, step]
      constructor
      · rintro (h | ⟨h1, h2, h3⟩)
        · cases h; exact ⟨le_refl _, by simp, hb⟩
        · exact ⟨by omega, h2, h3⟩
      · rintro ⟨h1, h2, h3⟩
        by_cases hk : i = k
        · subst hk
          simp at h2; subst h2; exact Or.inl rfl
        · exact Or.inr ⟨by omega, h2, h3⟩
    · rename_i hb
      rw [step]
      constructor
      · rintro ⟨h1, h2, h3⟩; exact ⟨by omega, h2, h3⟩
      · rintro ⟨h1, h2, h3⟩
        refine ⟨?_, h2, h3⟩
        by_contra hlt
        have hk : i = k := by omega
        subst hk
        simp at h2; subst h2; exact hb h3

theorem nodesFrom_ge (v : List F) (k : Nat) (n : SNode F) (h : n ∈ nodesFrom k v) : k ≤ n.index := by
  obtain ⟨i, a⟩ := n
  exact ((nodesFrom_mem v k i a).mp h).1

theorem nodesFrom_sorted (v : List F) (k : Nat) :
    (nodesFrom k v).Pairwise (fun a b => a.index < b.index) := by
  induction v generalizing k with
  | nil => simp [nodesFrom]
  | cons b v ih =>
    simp only [nodesFrom]
    split
    · rw [List.pairwise_cons]
      refine ⟨?_, ih _⟩
      intro n hn
      have := nodesFrom_ge v (k + 1) n hn
      simp only; omega
    · exact ih _

/-- **C66** (first half), for every arithmetic: the constructor keeps exactly the non-zero entries,
each at its position, in increasing order of position. -/
theorem C66_sparse (v : List F) : IsSparseOf v (nodeList v) where
  increasing := nodesFrom_sorted v 0
  entries i a := by
    unfold nodeList
    rw [nodesFrom_mem]; simp

end general

/-! ## sums of sparse vectors -/

theorem dotLoop_nil_right (s : ℝ) (x : NodeL ℝ) : dotLoop s x [] = s := by
  cases x <;> simp [dotLoop]

theorem dotLoop_skip_left (s : ℝ) (n : SNode ℝ) (x y : NodeL ℝ) (h : ∀ b ∈ y, n.index < b.index) :
    dotLoop s (n :: x) y = dotLoop s x y := by
  cases y with
  | nil => rw [dotLoop_nil_right, dotLoop_nil_right]
  | cons b y =>
    have := h b (by simp)
    rw [dotLoop]
    rw [if_neg (by omega), if_neg (by omega)]

theorem dotLoop_skip_right (s : ℝ) (n : SNode ℝ) (x y : NodeL ℝ) (h : ∀ a ∈ x, n.index < a.index) :
    dotLoop s x (n :: y) = dotLoop s x y := by
  cases x with
  | nil => simp [dotLoop]
  | cons a x =>
    have := h a (by simp)
    rw [dotLoop]
    rw [if_neg (by omega), if_pos (by omega)]

theorem nodesFrom_gt (v : List ℝ) (k : Nat) : ∀ n ∈ nodesFrom (k + 1) v, k < n.index := by
  intro n hn
  have := nodesFrom_ge v (k + 1) n hn
  omega

/-- the merge loop on two sparse vectors -/
theorem dotLoop_nodes (u v : List ℝ) (s : ℝ) (k n : Nat) (hn : max u.length v.length ≤ n) :
    dotLoop s (nodesFrom k u) (nodesFrom k v) =
      s + ∑ i ∈ Finset.range n, u.getD i 0 * v.getD i 0 := by
  induction u generalizing v s k n with
  | nil => simp [nodesFrom, dotLoop]
  | cons a u ih =>
    cases v with
    | nil => rw [nodesFrom, dotLoop_nil_right]; simp
    | cons b v =>
      cases n with
      | zero => simp at hn
      | succ n =>
        have hn' : max u.length v.length ≤ n := by simp at hn ⊢; omega
        rw [Finset.sum_range_succ']
        simp only [List.getD_cons_succ, List.getD_cons_zero]
        by_cases ha : a = 0 <;> by_cases hb : b = 0
        · simp only [nodesFrom, eq_real, zero_real, ha, hb]
          simpa using ih v s (k + 1) n hn'
        · simp only [nodesFrom, eq_real, zero_real, ha, hb]
          simp only [decide_true, decide_false, Bool.true_eq_false, if_false, if_true]
          rw [dotLoop_skip_right _ _ _ _ (nodesFrom_gt u k), ih v s (k + 1) n hn']
          ring
        · simp only [nodesFrom, eq_real, zero_real, ha, hb]
          simp only [decide_true, decide_false, Bool.true_eq_false, if_false, if_true]
          rw [dotLoop_skip_left _ _ _ _ (nodesFrom_gt v k), ih v s (k + 1) n hn']
          ring
        · simp only [nodesFrom, eq_real, zero_real, ha, hb]
          simp only [decide_false, if_true]
          rw [dotLoop]
          simp only [if_true, add_real, mul_real]
          rw [ih v _ (k + 1) n hn']
          ring

/-- **C66** (second half): the dot product of two sparse vectors is the dot product of the dense
ones, whatever their lengths. -/
theorem C66_dot (u v : List ℝ) : nodeDot (nodeList u) (nodeList v) = denseDot u v := by
  unfold nodeDot nodeList denseDot
  rw [dotLoop_nodes u v _ 0 _ (le_refl _)]
  simp

example : nodeList ([.fin 3, .fin 0, .fin 5] : List XR) = [⟨0, .fin 3⟩, ⟨2, .fin 5⟩] := by decide +kernel

/-- vectors of different lengths with and without common non-zero positions -/
example : nodeDot (nodeList [3, 0, 5]) (nodeList [2, 7]) = (6 : ℝ) := by
  rw [C66_dot]; norm_num [denseDot, Finset.sum_range_succ]

/-! ## squared distances -/

theorem distLoop_nil_right (s : ℝ) (x : NodeL ℝ) : distLoop s x [] = restSquares s x := by
  cases x <;> simp [distLoop]

theorem distLoop_skip_left (s : ℝ) (n : SNode ℝ) (x y : NodeL ℝ) (h : ∀ b ∈ y, n.index < b.index) :
    distLoop s (n :: x) y = distLoop (s + n.value * n.value) x y := by
  cases y with
  | nil => rw [distLoop_nil_right, distLoop_nil_right]; simp [restSquares]
  | cons b y =>
    have := h b (by simp)
    rw [distLoop]
    rw [if_neg (by omega), if_neg (by omega)]
    simp

theorem distLoop_skip_right (s : ℝ) (n : SNode ℝ) (x y : NodeL ℝ) (h : ∀ a ∈ x, n.index < a.index) :
    distLoop s x (n :: y) = distLoop (s + n.value * n.value) x y := by
  cases x with
  | nil => simp [distLoop, restSquares]
  | cons a x =>
    have := h a (by simp)
    rw [distLoop]
    rw [if_neg (by omega), if_pos (by omega)]
    simp

theorem restSquares_nodes (u : List ℝ) (s : ℝ) (k n : Nat) (hn : u.length ≤ n) :
    restSquares s (nodesFrom k u) = s + ∑ i ∈ Finset.range n, (u.getD i 0) ^ 2 := by
  induction u generalizing s k n with
  | nil => simp [nodesFrom, restSquares]
  | cons a u ih =>
    cases n with
    | zero => simp at hn
    | succ n =>
      have hn' : u.length ≤ n := by simpa using hn
      rw [Finset.sum_range_succ']
      simp only [List.getD_cons_succ, List.getD_cons_zero]
      by_cases ha : a = 0
      · simp only [nodesFrom, eq_real, zero_real, ha]
        simpa using ih s (k + 1) n hn'
      · simp only [nodesFrom, eq_real, zero_real, ha]
        simp only [decide_false, if_true, restSquares, add_real, mul_real]
        rw [ih _ (k + 1) n hn']
        ring

theorem distLoop_nodes (u v : List ℝ) (s : ℝ) (k n : Nat) (hn : max u.length v.length ≤ n) :
    distLoop s (nodesFrom k u) (nodesFrom k v) =
      s + ∑ i ∈ Finset.range n, (u.getD i 0 - v.getD i 0) ^ 2 := by
  induction u generalizing v s k n with
  | nil =>
    rw [nodesFrom, distLoop, restSquares_nodes v s k n (by simpa using hn)]
    simp
  | cons a u ih =>
    cases v with
    | nil =>
      rw [show nodesFrom k ([] : List ℝ) = [] from rfl, distLoop_nil_right,
        restSquares_nodes (a :: u) s k n (by simpa using hn)]
      simp
    | cons b v =>
      cases n with
      | zero => simp at hn
      | succ n =>
        have hn' : max u.length v.length ≤ n := by simp at hn ⊢; omega
        rw [Finset.sum_range_succ']
        simp only [List.getD_cons_succ, List.getD_cons_zero]
        by_cases ha : a = 0 <;> by_cases hb : b = 0
        · simp only [nodesFrom, eq_real, zero_real, ha, hb]
          simpa using ih v s (k + 1) n hn'
        · simp only [nodesFrom, eq_real, zero_real, ha, hb]
          simp only [decide_true, decide_false, Bool.true_eq_false, if_false, if_true]
          rw [distLoop_skip_right _ _ _ _ (nodesFrom_gt u k), ih v _ (k + 1) n hn']
          ring
        · simp only [nodesFrom, eq_real, zero_real, ha, hb]
          simp only [decide_true, decide_false, Bool.true_eq_false, if_false, if_true]
          rw [distLoop_skip_left _ _ _ _ (nodesFrom_gt v k), ih v _ (k + 1) n hn']
          ring
        · simp only [nodesFrom, eq_real, zero_real, ha, hb]
          simp only [decide_false, if_true]
          rw [distLoop]
          simp only [if_true, add_real, mul_real, sub_real]
          rw [ih v _ (k + 1) n hn']
          ring

theorem distLoop_sq (u v : List ℝ) :
    distLoop 0 (nodeList u) (nodeList v) = denseSqDist u v := by
  unfold nodeList denseSqDist
  rw [distLoop_nodes u v _ 0 _ (le_refl _)]
  simp

theorem sum_getD_le (u v : List ℝ) (n : Nat) (h : max u.length v.length ≤ n) :
    denseDot u v = ∑ i ∈ Finset.range n, u.getD i 0 * v.getD i 0 := by
  have := dotLoop_nodes u v 0 0 n h
  have h2 := dotLoop_nodes u v 0 0 _ (le_refl _)
  unfold denseDot
  linarith

/-- `‖u‖² + ‖v‖² - 2 u·v = ‖u - v‖²` -/
theorem sqDist_expand (u v : List ℝ) :
    denseDot u u + denseDot v v - 2 * denseDot u v = denseSqDist u v := by
  rw [sum_getD_le u u (max u.length v.length) (by simp),
    sum_getD_le v v (max u.length v.length) (by simp)]
  unfold denseDot denseSqDist
  rw [Finset.mul_sum, ← Finset.sum_add_distrib, ← Finset.sum_sub_distrib]
  exact Finset.sum_congr rfl (fun i _ => by ring)

theorem denseDot_comm (u v : List ℝ) : denseDot u v = denseDot v u := by
  unfold denseDot
  rw [max_comm]
  exact Finset.sum_congr rfl (fun i _ => mul_comm _ _)

theorem denseSqDist_comm (u v : List ℝ) : denseSqDist u v = denseSqDist v u := by
  unfold denseSqDist
  rw [max_comm]
  exact Finset.sum_congr rfl (fun i _ => by ring)

/-! ## kernels -/

/-- **C67** (kernels used while predicting): on sparse vectors every kernel is the stated function of
the dense vectors; for RBF it is `exp(-γ‖u - v‖²)`. -/
theorem C67_predict_kernel (p : SvmParam ℝ) (u v : List ℝ) :
    kernelValue p (nodeList u) (nodeList v) = kernelFormula p u v := by
  unfold kernelValue kernelFormula
  cases p.kernelType <;>
    simp only [C66_dot, zero_real, distLoop_sq, pow_real, mul_real, add_real, exp_real, neg_real, tanh_real]

/-- **C67** (symmetry) -/
theorem C67_symmetric (p : SvmParam ℝ) (u v : List ℝ) :
    kernelFormula p u v = kernelFormula p v u := by
  unfold kernelFormula
  rw [denseDot_comm, denseSqDist_comm]

/-- **C67** (range of the RBF kernel) -/
theorem C67_rbf_range (p : SvmParam ℝ) (u v : List ℝ) (hp : p.kernelType = .rbf) (hg : 0 ≤ p.gamma) :
    0 < kernelFormula p u v ∧ kernelFormula p u v ≤ 1 := by
  have h : kernelFormula p u v = Real.exp (-p.gamma * denseSqDist u v) := by
    simp [kernelFormula, hp]
  rw [h]
  refine ⟨Real.exp_pos _, ?_⟩
  rw [Real.exp_le_one_iff]
  have : 0 ≤ denseSqDist u v := Finset.sum_nonneg (fun i _ => sq_nonneg _)
  nlinarith

section swaps
variable {α : Type}

theorem swapR_ok (v : List α) (i j : Nat) (hi : i < v.length) (hj : j < v.length) :
    ∃ v', swapR v i j = .ok v' ∧ v'.length = v.length ∧ ∀ k, v'[k]? = v[Equiv.swap i j k]? := by
  refine ⟨(v.set i v[j]).set j v[i], ?_, by simp, ?_⟩
  · unfold swapR
    rw [idxR_ok_of_lt hi, res_bind_ok, idxR_ok_of_lt hj, res_bind_ok]
    rfl
  · intro k
    rw [List.getElem?_set, List.getElem?_set]
    simp only [List.length_set]
    by_cases hjk : j = k
    · subst hjk
      rw [if_pos rfl, if_pos hj, Equiv.swap_apply_right, List.getElem?_eq_getElem hi]
    · rw [if_neg hjk]
      by_cases hik : i = k
      · subst hik
        rw [if_pos rfl, if_pos hi, Equiv.swap_apply_left, List.getElem?_eq_getElem hj]
      · rw [if_neg hik, Equiv.swap_apply_of_ne_of_ne (Ne.symm hik) (Ne.symm hjk)]

theorem swap_lt (i j k n : Nat) (hi : i < n) (hj : j < n) : Equiv.swap i j k < n ↔ k < n := by
  by_cases h1 : k = i
  · subst h1; simp [hi, hj]
  · by_cases h2 : k = j
    · subst h2; simp [hi, hj]
    · rw [Equiv.swap_apply_of_ne_of_ne h1 h2]

theorem rowAfter_append (s t : List (Nat × Nat)) (k : Nat) :
    rowAfter (s ++ t) k = rowAfter s (rowAfter t k) := by
  induction s with
  | nil => rfl
  | cons a s ih => simp [rowAfter, ih]

theorem Exchanged.refl (v : List α) : Exchanged [] v v := ⟨rfl, fun k => rfl⟩

theorem Exchanged.snoc {s : List (Nat × Nat)} {v v' v'' : List α} {i j : Nat}
    (h : Exchanged s v v') (hl : v''.length = v'.length)
    (hk : ∀ k, v''[k]? = v'[Equiv.swap i j k]?) : Exchanged (s ++ [(i, j)]) v v'' := by
  refine ⟨hl.trans h.1, ?_⟩
  intro k
  rw [hk, h.2, rowAfter_append]
  rfl

end swaps

/-- `Kernel::swapIndex` repeated -/
def swapKernel {F : Type} (swaps : List (Nat × Nat)) (k : Kern F) : Res (Kern F) :=
  swaps.foldlM (fun k s => k.swapIndex s.1 s.2) k

/-- `k` is the kernel object over the vectors `vs` -/
structure KernelOver (p : SvmParam ℝ) (vs : List (List ℝ)) (k : Kern ℝ) : Prop where
  type : k.kernelType = p.kernelType
  degree : k.degree = p.degree
  gamma : k.gamma = p.gamma
  coefficient0 : k.coefficient0 = p.coefficient0
  rows : k.x = vs.map nodeList
  squares : k.xSquare = if p.kernelType = .rbf then vs.map (fun v => nodeDot (nodeList v) (nodeList v)) else []

theorem mapM_idx_take {α : Type} (x : List α) (n : Nat) (hn : n ≤ x.length) :
    (List.range n).mapM (idxR x) = .ok (x.take n) := by
  induction n with
  | zero => rfl
  | succ n ih =>
    rw [List.range_succ, List.mapM_append, ih (by omega), res_bind_ok]
    simp only [List.mapM_cons, List.mapM_nil]
    rw [idxR_ok_of_lt (show n < x.length by omega), res_bind_ok]
    have : x.take (n + 1) = x.take n ++ [x[n]] := by
      rw [List.take_add_one, List.getElem?_eq_getElem (by omega)]; rfl
    rw [this]; rfl

theorem mapM_idx {α : Type} (x : List α) : (List.range x.length).mapM (idxR x) = .ok x := by
  rw [mapM_idx_take x _ (le_refl _), List.take_length]

theorem mapM_pure {α β : Type} (f : α → β) (x : List α) :
    x.mapM (fun a => (pure (f a) : Res β)) = .ok (x.map f) := by
  induction x with
  | nil => rfl
  | cons a x ih => rw [List.mapM_cons, ih]; rfl

theorem make_over (p : SvmParam ℝ) (vs : List (List ℝ)) :
    ∃ k, Kern.make vs.length (vs.map nodeList) p = .ok k ∧ KernelOver p vs k := by
  unfold Kern.make
  have h := mapM_idx (vs.map nodeList)
  rw [List.length_map] at h
  rw [h, res_bind_ok]
  by_cases ht : p.kernelType = .rbf
  · rw [if_pos ht, mapM_pure (fun n => nodeDot n n), res_bind_ok]
    exact ⟨_, rfl, ⟨rfl, rfl, rfl, rfl, rfl, by simp [ht]⟩⟩
  · rw [if_neg ht]
    exact ⟨_, rfl, ⟨rfl, rfl, rfl, rfl, rfl, by simp [ht]⟩⟩

theorem swapIndex_over (p : SvmParam ℝ) (vs : List (List ℝ)) (k : Kern ℝ) (h : KernelOver p vs k)
    (i j : Nat) (hi : i < vs.length) (hj : j < vs.length) :
    ∃ k' vs', k.swapIndex i j = .ok k' ∧ swapR vs i j = .ok vs' ∧ KernelOver p vs' k' := by
  obtain ⟨vs', e, hl, hk⟩ := swapR_ok vs i j hi hj
  have hx : ∀ {β : Type} (f : List ℝ → β), swapR (vs.map f) i j = .ok (vs'.map f) := by
    intro β f
    obtain ⟨w, e', hl', hk'⟩ := swapR_ok (vs.map f) i j (by simpa using hi) (by simpa using hj)
    rw [e']
    congr 1
    apply List.ext_getElem?
    intro m
    rw [hk', List.getElem?_map, List.getElem?_map, hk]
  unfold Kern.swapIndex
  rw [h.rows, hx nodeList, res_bind_ok, h.squares]
  by_cases ht : p.kernelType = .rbf
  · rw [if_pos ht]
    have hne : (vs.map (fun v => nodeDot (nodeList v) (nodeList v))).isEmpty = false := by
      cases vs with
      | nil => simp at hi
      | cons a vs => rfl
    rw [hne]
    simp only [Bool.false_eq_true, if_false]
    rw [hx, res_bind_ok]
    exact ⟨_, vs', rfl, e, ⟨h.type, h.degree, h.gamma, h.coefficient0, rfl, by simp [ht]⟩⟩
  · rw [if_neg ht]
    exact ⟨_, vs', rfl, e, ⟨h.type, h.degree, h.gamma, h.coefficient0, rfl, by simp [ht]⟩⟩

theorem function_over (p : SvmParam ℝ) (vs : List (List ℝ)) (k : Kern ℝ) (h : KernelOver p vs k)
    (i j : Nat) (hi : i < vs.length) (hj : j < vs.length) :
    k.function i j = .ok (kernelFormula p vs[i] vs[j]) := by
  have get : ∀ {β : Type} (f : List ℝ → β) (n : Nat) (hn : n < vs.length),
      idxR (vs.map f) n = .ok (f vs[n]) := by
    intro β f n hn
    rw [idxR_ok_of_lt (show n < (vs.map f).length by simpa using hn)]
    simp
  unfold Kern.function
  rw [h.rows, get nodeList i hi, res_bind_ok, get nodeList j hj, res_bind_ok]
  by_cases ht : p.kernelType = .rbf
  · rw [h.type, if_pos ht, h.squares, if_pos ht, get _ i hi, res_bind_ok, get _ j hj, res_bind_ok]
    rw [C66_dot, C66_dot, C66_dot]
    unfold Kern.value kernelFormula
    rw [ht, h.gamma]
    simp only [exp_real, mul_real, neg_real, sub_real, add_real, ofInt_real]
    have := sqDist_expand vs[i] vs[j]
    rw [← this]; rfl
  · rw [h.type, if_neg ht]
    rw [C66_dot]
    unfold Kern.value kernelFormula
    rw [h.gamma, h.degree, h.coefficient0]
    cases hk : p.kernelType <;> simp_all

theorem swapKernel_over (p : SvmParam ℝ) (vs : List (List ℝ)) (k : Kern ℝ) (h : KernelOver p vs k)
    (swaps : List (Nat × Nat)) (hs : ∀ s ∈ swaps, s.1 < vs.length ∧ s.2 < vs.length) :
    ∃ k' vs', swapKernel swaps k = .ok k' ∧ Exchanged swaps vs vs' ∧ KernelOver p vs' k' := by
  unfold swapKernel
  induction swaps using List.reverseRecOn with
  | nil => exact ⟨k, vs, rfl, Exchanged.refl vs, h⟩
  | append_singleton t s ih =>
    obtain ⟨k1, v1, e1, x1, o1⟩ := ih (fun s hs' => hs s (by simp [hs']))
    obtain ⟨h1, h2⟩ := hs s (by simp)
    obtain ⟨k2, v2, e2, w2, o2⟩ := swapIndex_over p v1 k1 o1 s.1 s.2 (by rw [x1.1]; exact h1) (by rw [x1.1]; exact h2)
    obtain ⟨v3, e3, l3, g3⟩ := swapR_ok v1 s.1 s.2 (by rw [x1.1]; exact h1) (by rw [x1.1]; exact h2)
    have : v3 = v2 := by rw [e3] at w2; exact Except.ok.inj w2
    subst this
    refine ⟨k2, v3, ?_, x1.snoc l3 g3, o2⟩
    rw [List.foldlM_append, e1, res_bind_ok]
    simp only [List.foldlM_cons, List.foldlM_nil]
    rw [e2]; rfl

/-- **C67** (kernels used while training): the kernel object built over any vectors, after any
history of index exchanges, returns for the rows `i` and `j` the stated function of the vectors
now standing there; by `C67_predict_kernel` this is what prediction computes for these
vectors. -/
theorem C67_training_kernel (p : SvmParam ℝ) (vs : List (List ℝ)) (swaps : List (Nat × Nat))
    (hs : ∀ s ∈ swaps, s.1 < vs.length ∧ s.2 < vs.length) :
    ∃ k k', Kern.make vs.length (vs.map nodeList) p = .ok k ∧ swapKernel swaps k = .ok k' ∧
      ∀ i j, i < vs.length → j < vs.length →
        ∃ u v, vs[rowAfter swaps i]? = some u ∧ vs[rowAfter swaps j]? = some v ∧
          k'.function i j = .ok (kernelFormula p u v) ∧
          k'.function i j = .ok (kernelValue p (nodeList u) (nodeList v)) := by
  obtain ⟨k, e, o⟩ := make_over p vs
  obtain ⟨k', vs', e', x, o'⟩ := swapKernel_over p vs k o swaps hs
  refine ⟨k, k', e, e', ?_⟩
  intro i j hi hj
  have hi' : i < vs'.length := by rw [x.1]; exact hi
  have hj' : j < vs'.length := by rw [x.1]; exact hj
  refine ⟨vs'[i], vs'[j], ?_, ?_, function_over p vs' k' o' i j hi' hj', ?_⟩
  · rw [← x.2, List.getElem?_eq_getElem hi']
  · rw [← x.2, List.getElem?_eq_getElem hj']
  · rw [C67_predict_kernel]; exact function_over p vs' k' o' i j hi' hj'

/-- three vectors, two exchanges: the rows are the second, the third and the first vector -/
example : ∀ s ∈ [(0, 1), (1, 2)], s.1 < ([[1, 0], [0, 2], [3]] : List (List ℝ)).length ∧
    s.2 < ([[1, 0], [0, 2], [3]] : List (List ℝ)).length := by decide

example : (List.range 3).map (rowAfter [(0, 1), (1, 2)]) = [1, 2, 0] := by decide

end Verif
