import Verif.Props.SvmBlocks

/-! # C125: the trained SVM computes the decision functions of its two-class problems -/

set_option linter.unusedSectionVars false
set_option linter.unusedVariables false

namespace Verif
open Dbl

/-! ## marking support vectors -/

theorem fabsD_real_pos (a : ℝ) : (Dbl.zero <. fabsD a) = decide (a ≠ 0) := by
  unfold fabsD
  simp only [lt_real, zero_real, neg_real, decide_eq_true_eq]
  split
  · rename_i h
    rw [decide_eq_decide]
    constructor
    · intro _ e; linarith
    · intro _; linarith
  · rename_i h
    rw [decide_eq_decide]
    constructor
    · intro h1 e; linarith
    · intro h1
      exact lt_of_le_of_ne (not_lt.mp h) (Ne.symm h1)

theorem getD_set_true (nz : List Bool) (a g : Nat) (h : nz.getD g false = true) :
    (nz.set a true).getD g false = true := by
  simp only [List.getD_eq_getElem?_getD, List.getElem?_set] at h ⊢
  by_cases hag : a = g
  · subst hag
    by_cases hl : a < nz.length
    · simp [hl]
    · simp [hl] at h
  · simpa [hag] using h

theorem markRows_ok (alpha : List ℝ) (s off c : Nat) (nz : List Bool) (h1 : s + c ≤ nz.length)
    (h2 : off + c ≤ alpha.length) :
    ∃ nz', (List.range c).foldlM (Svm.markRow alpha s off) nz = .ok nz' ∧ nz'.length = nz.length ∧
      (∀ g, nz.getD g false = true → nz'.getD g false = true) ∧
      ∀ k, k < c → nz'.getD (s + k) false = false → alpha.getD (off + k) 0 = 0 := by
  induction c with
  | zero => exact ⟨nz, rfl, rfl, fun _ h => h, by simp⟩
  | succ c ih =>
    obtain ⟨nz', e, l, mono, z⟩ := ih (by omega) (by omega)
    rw [List.range_succ, List.foldlM_append, e, res_bind_ok]
    simp only [List.foldlM_cons, List.foldlM_nil, Svm.markRow]
    have hb : s + c < nz'.length := by omega
    have e1 : idxR nz' (s + c) = .ok (nz'.getD (s + c) false) := by
      rw [idxR_eq_ok]; simp [hb]
    have e2 : idxR alpha (off + c) = .ok (alpha.getD (off + c) 0) := idxR_getD0 _ _ (by omega)
    rw [e1, res_bind_ok]
    cases hv : nz'.getD (s + c) false with
    | true =>
      refine ⟨nz', rfl, l, mono, ?_⟩
      intro k hk hf
      rcases Nat.lt_or_ge k c with h | h
      · exact z k h hf
      · have : k = c := by omega
        subst this; rw [hv] at hf; cases hf
    | false =>
      simp only [Bool.false_eq_true, if_false]
      rw [e2, res_bind_ok, fabsD_real_pos]
      by_cases ha : alpha.getD (off + c) 0 = 0
      · simp only [ha, ne_eq, not_true_eq_false, decide_false, Bool.false_eq_true, if_false]
        refine ⟨nz', rfl, l, mono, ?_⟩
        intro k hk hf
        rcases Nat.lt_or_ge k c with h | h
        · exact z k h hf
        · have : k = c := by omega
          subst this; exact ha
      · simp only [ha, ne_eq, not_false_eq_true, decide_true, if_true]
        refine ⟨nz'.set (s + c) true, rfl, by simp [l], fun g hg => getD_set_true _ _ _ (mono g hg), ?_⟩
        intro k hk hf
        rcases Nat.lt_or_ge k c with h | h
        · refine z k h ?_
          by_contra hne
          rw [Bool.not_eq_false] at hne
          rw [getD_set_true _ _ _ hne] at hf; cases hf
        · have : k = c := by omega
          subst this
          simp [hb] at hf

section
variable {solve : List (NodeL ℝ) → List ℝ → List ℝ → Res (ℝ × List ℝ)} {d : DD} {Xs : List (List (NodeL ℝ))}
  {W : Nat → Nat → ℝ × List ℝ}

/-- labels of the two-class problem with `a` positive and `b` negative instances -/
noncomputable def pairLabels (a b : Nat) : List ℝ := List.replicate a (Dbl.ofInt 1) ++ List.replicate b (Dbl.ofInt (-1))

/-- the blocks are those of the class distribution, and every two-class problem is solved, with result `W` -/
structure Solved (solve : List (NodeL ℝ) → List ℝ → List ℝ → Res (ℝ × List ℝ)) (d : DD)
    (Xs : List (List (NodeL ℝ))) (W : Nat → Nat → ℝ × List ℝ) : Prop where
  size : Xs.length = d.size
  pos : 0 < d.size
  count : ∀ i, i < d.size → Svm.classCount d i = .ok (blk Xs i).length
  solved : ∀ i j, i < j → j < d.size →
    Svm.solveSingle solve (blk Xs i ++ blk Xs j) (pairLabels (blk Xs i).length (blk Xs j).length) = .ok (W i j)
  length : ∀ i j, i < j → j < d.size → (W i j).2.length = (blk Xs i).length + (blk Xs j).length

/-- the marks cover all nonzero multipliers -/
def Covers (Xs : List (List (NodeL ℝ))) (W : Nat → Nat → ℝ × List ℝ) (nz : List Bool) (i j : Nat) : Prop :=
  (∀ k, k < (blk Xs i).length → nz.getD (offset Xs i + k) false = false → (W i j).2.getD k 0 = 0) ∧
  (∀ k, k < (blk Xs j).length → nz.getD (offset Xs j + k) false = false →
    (W i j).2.getD ((blk Xs i).length + k) 0 = 0)

theorem Covers.mono {nz nz' : List Bool} {i j : Nat} (h : Covers Xs W nz i j)
    (hm : ∀ g, nz.getD g false = true → nz'.getD g false = true) : Covers Xs W nz' i j := by
  have key : ∀ g, nz'.getD g false = false → nz.getD g false = false := by
    intro g hg
    by_contra hne
    rw [Bool.not_eq_false] at hne
    rw [hm g hne] at hg; cases hg
  exact ⟨fun k hk hf => h.1 k hk (key _ hf), fun k hk hf => h.2 k hk (key _ hf)⟩

theorem trainPair_ok (h : Solved solve d Xs W) (acc : Svm.PairAcc ℝ) (hl : acc.nonZero.length = Xs.flatten.length)
    (i j : Nat) (hij : i < j) (hj : j < d.size) :
    ∃ nz, Svm.trainPair solve d Xs.flatten ((List.range Xs.length).map (offset Xs)) acc (i, j) =
        .ok ⟨acc.weights ++ [W i j], nz⟩ ∧ nz.length = Xs.flatten.length ∧
      (∀ g, acc.nonZero.getD g false = true → nz.getD g false = true) ∧ Covers Xs W nz i j := by
  have hi' : i < Xs.length := by rw [h.size]; omega
  have hj' : j < Xs.length := by rw [h.size]; exact hj
  have oi := offset_le_flatten Xs i hi'
  have oj := offset_le_flatten Xs j hj'
  have hw := h.length i j hij hj
  obtain ⟨nz1, e1, l1, m1, z1⟩ := markRows_ok (W i j).2 (offset Xs i) 0 (blk Xs i).length acc.nonZero (by omega) (by omega)
  obtain ⟨nz2, e2, l2, m2, z2⟩ := markRows_ok (W i j).2 (offset Xs j) (blk Xs i).length (blk Xs j).length nz1 (by omega) (by omega)
  have hc1 : ∀ k, k < (blk Xs i).length → nz1.getD (offset Xs i + k) false = false → (W i j).2.getD k 0 = 0 := by
    intro k hk hf
    have := z1 k hk hf
    simpa using this
  refine ⟨nz2, ?_, by omega, fun g hg => m2 g (m1 g hg), ?_, z2⟩
  · unfold Svm.trainPair
    simp only
    rw [starts_get Xs i hi', res_bind_ok, starts_get Xs j hj', res_bind_ok, h.count i (by omega), res_bind_ok,
      h.count j hj, res_bind_ok, block_ok, res_bind_ok, block_ok, res_bind_ok]
    have := h.solved i j hij hj
    unfold pairLabels at this
    rw [this, res_bind_ok, e1, res_bind_ok, e2, res_bind_ok]; rfl
  · intro k hk hf
    apply hc1 k hk
    by_contra hne
    rw [Bool.not_eq_false] at hne
    rw [m2 _ hne] at hf; cases hf

theorem trainPairs_ok (h : Solved solve d Xs W) (ps : List (Nat × Nat)) :
    ∀ (acc : Svm.PairAcc ℝ), acc.nonZero.length = Xs.flatten.length → (∀ p ∈ ps, p.1 < p.2 ∧ p.2 < d.size) →
    ∃ nz, ps.foldlM (Svm.trainPair solve d Xs.flatten ((List.range Xs.length).map (offset Xs))) acc =
        .ok ⟨acc.weights ++ ps.map (fun p => W p.1 p.2), nz⟩ ∧ nz.length = Xs.flatten.length ∧
      (∀ g, acc.nonZero.getD g false = true → nz.getD g false = true) ∧ ∀ p ∈ ps, Covers Xs W nz p.1 p.2 := by
  induction ps with
  | nil => intro acc hl _; exact ⟨acc.nonZero, by simp [res_pure], hl, fun _ h => h, by simp⟩
  | cons p ps ih =>
    intro acc hl hp
    obtain ⟨i, j⟩ := p
    have hpp := hp (i, j) (by simp)
    obtain ⟨nz1, e1, l1, m1, c1⟩ := trainPair_ok h acc hl i j hpp.1 hpp.2
    obtain ⟨nz2, e2, l2, m2, c2⟩ := ih ⟨acc.weights ++ [W i j], nz1⟩ l1 (fun p hp' => hp p (by simp [hp']))
    refine ⟨nz2, ?_, l2, fun g hg => m2 g (m1 g hg), ?_⟩
    · rw [List.foldlM_cons, e1, res_bind_ok, e2]; simp
    · intro q hq
      rcases List.mem_cons.mp hq with rfl | hq
      · exact c1.mono m2
      · exact c2 q hq

/-! ## positions of the support vectors -/

/-- positions of the marked instances of class `i`, within the class -/
def kept (Xs : List (List (NodeL ℝ))) (nz : List Bool) (i : Nat) : List Nat :=
  (List.range (blk Xs i).length).filter (fun k => nz.getD (offset Xs i + k) false)

/-- support vectors, class by class -/
def svBlocks (Xs : List (List (NodeL ℝ))) (nz : List Bool) : List (List (NodeL ℝ)) :=
  (List.range Xs.length).map (fun i => (kept Xs nz i).map (fun k => (blk Xs i).getD k []))

theorem svBlocks_length (Xs : List (List (NodeL ℝ))) (nz : List Bool) : (svBlocks Xs nz).length = Xs.length := by
  simp [svBlocks]

theorem blk_svBlocks (Xs : List (List (NodeL ℝ))) (nz : List Bool) (i : Nat) (hi : i < Xs.length) :
    blk (svBlocks Xs nz) i = (kept Xs nz i).map (fun k => (blk Xs i).getD k []) := by
  show (svBlocks Xs nz).getD i [] = _
  unfold svBlocks
  simp [hi]

theorem countMarked_ok (h : Solved solve d Xs W) (nz : List Bool) (hl : nz.length = Xs.flatten.length) (i : Nat)
    (hi : i < d.size) :
    Svm.countMarked d ((List.range Xs.length).map (offset Xs)) nz i = .ok (blk (svBlocks Xs nz) i).length := by
  have hi' : i < Xs.length := by rw [h.size]; exact hi
  have oi := offset_le_flatten Xs i hi'
  have e : Svm.block nz (offset Xs i) (blk Xs i).length =
      .ok ((List.range (blk Xs i).length).map (fun k => nz.getD (offset Xs i + k) false)) := by
    unfold Svm.block
    apply mapM_ok
    intro k hk
    have := List.mem_range.mp hk
    rw [idxR_eq_ok]
    have : offset Xs i + k < nz.length := by omega
    simp [this]
  unfold Svm.countMarked
  rw [h.count i hi, res_bind_ok, starts_get Xs i hi', res_bind_ok, e, res_bind_ok, res_pure]
  rw [blk_svBlocks Xs nz i hi', List.length_map]
  unfold kept
  rw [List.count, List.countP_map, ← List.countP_eq_length_filter]
  congr 2
  funext k
  simp

theorem filter_marked {α : Type} (x : List α) (nz : List Bool) (a : α) (h : x.length = nz.length) :
    ((x.zip nz).filter Prod.snd).map Prod.fst =
      ((List.range x.length).filter (fun k => nz.getD k false)).map (fun k => x.getD k a) := by
  induction x using List.reverseRecOn generalizing nz with
  | nil => simp
  | append_singleton x y ih =>
    rcases List.eq_nil_or_concat nz with rfl | ⟨t, b, rfl⟩
    · simp at h
    · rw [List.concat_eq_append] at h ⊢
      have hl : x.length = t.length := by simpa using h
      rw [List.zip_append hl, List.filter_append, List.map_append, ih t hl, List.length_append, List.length_singleton,
        List.range_succ, List.filter_append, List.map_append]
      congr 1
      · have h1 : (List.range x.length).filter (fun k => t.getD k false) =
            (List.range x.length).filter (fun k => (t ++ [b]).getD k false) := by
          apply List.filter_congr
          intro k hk
          have : k < t.length := by rw [← hl]; exact List.mem_range.mp hk
          simp [List.getElem?_append, this]
        rw [h1]
        apply List.map_congr_left
        intro k hk
        have : k < x.length := List.mem_range.mp (List.mem_filter.mp hk).1
        simp [List.getElem?_append, this]
      · cases b <;> simp [hl]

theorem marked_flatten (Xs : List (List (NodeL ℝ))) (nz : List Bool) (hl : nz.length = Xs.flatten.length) :
    ((Xs.flatten.zip nz).filter Prod.snd).map Prod.fst = (svBlocks Xs nz).flatten := by
  induction Xs generalizing nz with
  | nil => simp [svBlocks]
  | cons X Xs ih =>
    have hlen : X.length ≤ nz.length := by rw [hl]; simp
    have hsplit : nz = nz.take X.length ++ nz.drop X.length := (List.take_append_drop _ _).symm
    have h1 : (nz.take X.length).length = X.length := by simp [hlen]
    have h2 : (nz.drop X.length).length = Xs.flatten.length := by
      rw [List.length_drop, hl]; simp
    have e1 : (X ++ Xs.flatten).zip nz = X.zip (nz.take X.length) ++ Xs.flatten.zip (nz.drop X.length) := by
      conv_lhs => rw [hsplit]
      rw [List.zip_append h1.symm]
    rw [List.flatten_cons, e1, List.filter_append, List.map_append, ih _ h2, filter_marked X _ [] h1.symm]
    unfold svBlocks
    rw [List.length_cons, List.range_succ_eq_map, List.map_cons, List.flatten_cons, List.map_map]
    congr 1
    · have hb : blk (X :: Xs) 0 = X := rfl
      unfold kept
      rw [hb, offset_zero]
      congr 1
      apply List.filter_congr
      intro k hk
      have : k < X.length := List.mem_range.mp hk
      simp [this]
    · congr 1
      apply List.map_congr_left
      intro i _
      have hb : blk (X :: Xs) (i + 1) = blk Xs i := by simp [blk]
      have ho : offset (X :: Xs) (i + 1) = X.length + offset Xs i := by simp [offset]
      have hk : kept (X :: Xs) nz (i + 1) = kept Xs (nz.drop X.length) i := by
        unfold kept
        rw [hb, ho]
        apply List.filter_congr
        intro k _
        simp only [List.getD_eq_getElem?_getD, List.getElem?_drop]
        congr 2; omega
      simp only [Function.comp_apply, Nat.succ_eq_add_one]
      rw [hk, hb]

/-! ## the table of coefficients -/

/-- entry `q` of row `r` -/
def cell (c : List (List ℝ)) (r q : Nat) : Option ℝ := (c[r]?).bind (fun row => row[q]?)

/-- `R` rows of `T` entries -/
structure Shape (R T : Nat) (c : List (List ℝ)) : Prop where
  rows : c.length = R
  cols : ∀ row ∈ c, row.length = T

theorem cell_set (c : List (List ℝ)) (row q : Nat) (v : ℝ) (hr : row < c.length) (hq : q < c[row].length) (r q' : Nat) :
    cell (c.set row (c[row].set q v)) r q' = if r = row ∧ q' = q then some v else cell c r q' := by
  unfold cell
  rw [List.getElem?_set]
  by_cases h1 : row = r
  · subst h1
    rw [if_pos rfl, if_pos hr]
    simp only [Option.bind_some, true_and]
    rw [List.getElem?_set]
    by_cases h2 : q = q'
    · subst h2; simp [hq]
    · rw [if_neg h2, if_neg (fun e => h2 e.symm)]
      simp [hr]
  · rw [if_neg h1, if_neg (fun e => h1 e.1.symm)]

/-- marked positions among the first `c` after position `s` -/
def marks (nz : List Bool) (s c : Nat) : List Nat := (List.range c).filter (fun k => nz.getD (s + k) false)

theorem marks_succ (nz : List Bool) (s c : Nat) :
    marks nz s (c + 1) = marks nz s c ++ (if nz.getD (s + c) false then [c] else []) := by
  unfold marks
  rw [List.range_succ, List.filter_append]
  congr 1
  by_cases h : nz.getD (s + c) false = true
  · rw [if_pos h]; simp only [List.filter_cons, h, if_true, List.filter_nil]
  · rw [if_neg h]; simp only [List.filter_cons, h, List.filter_nil]; rfl

theorem fillRows_ok (alpha : List ℝ) (nz : List Bool) (s off row c q0 R T : Nat) (coefs : List (List ℝ))
    (hs : Shape R T coefs) (hrow : row < R) (h1 : s + c ≤ nz.length) (h2 : off + c ≤ alpha.length)
    (h3 : q0 + (marks nz s c).length ≤ T) :
    ∃ coefs', (List.range c).foldlM (Svm.fillRow alpha nz s off row) (coefs, q0) =
        .ok (coefs', q0 + (marks nz s c).length) ∧ Shape R T coefs' ∧
      (∀ (t : Nat) k, (marks nz s c)[t]? = some k → cell coefs' row (q0 + t) = some (alpha.getD (off + k) 0)) ∧
      ∀ r q, (r ≠ row ∨ q < q0 ∨ q0 + (marks nz s c).length ≤ q) → cell coefs' r q = cell coefs r q := by
  induction c with
  | zero => exact ⟨coefs, by simp [marks, res_pure], hs, by simp [marks], fun _ _ _ => rfl⟩
  | succ c ih =>
    rw [marks_succ] at h3 ⊢
    obtain ⟨c1, e1, s1, v1, u1⟩ := ih (by omega) (by omega) (by rw [List.length_append] at h3; omega)
    rw [List.range_succ, List.foldlM_append, e1, res_bind_ok]
    simp only [List.foldlM_cons, List.foldlM_nil, Svm.fillRow]
    have hb : s + c < nz.length := by omega
    have eb : idxR nz (s + c) = .ok (nz.getD (s + c) false) := by rw [idxR_eq_ok]; simp [hb]
    rw [eb, res_bind_ok]
    cases hv : nz.getD (s + c) false with
    | false =>
      simp only [Bool.false_eq_true, if_false, List.append_nil]
      exact ⟨c1, rfl, s1, v1, u1⟩
    | true =>
      rw [hv] at h3
      simp only [if_true] at h3 ⊢
      have hr : row < c1.length := by rw [s1.rows]; exact hrow
      have hT : c1[row].length = T := s1.cols _ (List.getElem_mem hr)
      have hq : q0 + (marks nz s c).length < c1[row].length := by
        rw [hT]; simp at h3; omega
      have ea : idxR alpha (off + c) = .ok (alpha.getD (off + c) 0) := idxR_getD0 _ _ (by omega)
      have er : idxR c1 row = .ok c1[row] := by rw [idxR_eq_ok]; simp
      have eq : idxR c1[row] (q0 + (marks nz s c).length) = .ok c1[row][q0 + (marks nz s c).length] := by
        rw [idxR_eq_ok]; simp
      rw [er, res_bind_ok, ea, res_bind_ok, eq, res_bind_ok]
      refine ⟨c1.set row (c1[row].set (q0 + (marks nz s c).length) (alpha.getD (off + c) 0)), ?_, ?_, ?_, ?_⟩
      · simp [res_pure, Nat.add_assoc]
      · refine ⟨by simp [s1.rows], ?_⟩
        intro r hr'
        rcases List.mem_or_eq_of_mem_set hr' with h | h
        · exact s1.cols r h
        · rw [h, List.length_set, hT]
      · intro t k hk
        rw [cell_set _ _ _ _ hr hq]
        rw [List.getElem?_append] at hk
        split at hk
        · rename_i ht
          rw [if_neg (by omega)]
          exact v1 t k hk
        · rename_i ht
          have : t - (marks nz s c).length = 0 := by
            by_contra hne
            rw [List.getElem?_eq_none (by simp; omega)] at hk; cases hk
          have htt : t = (marks nz s c).length := by omega
          rw [this] at hk
          have hkc : k = c := by simpa using hk.symm
          subst hkc
          rw [if_pos ⟨rfl, by rw [htt]⟩]
      · intro r q hrq
        rw [cell_set _ _ _ _ hr hq, List.length_append, List.length_singleton] at *
        rw [if_neg (by omega)]
        exact u1 r q (by omega)

/-- the coefficients of the pair `(i, j)` are in their places -/
def Filled (Xs : List (List (NodeL ℝ))) (W : Nat → Nat → ℝ × List ℝ) (nz : List Bool) (coefs : List (List ℝ))
    (i j : Nat) : Prop :=
  (∀ (t : Nat) k, (kept Xs nz i)[t]? = some k →
    cell coefs (j - 1) (offset (svBlocks Xs nz) i + t) = some ((W i j).2.getD k 0)) ∧
  (∀ (t : Nat) k, (kept Xs nz j)[t]? = some k →
    cell coefs i (offset (svBlocks Xs nz) j + t) = some ((W i j).2.getD ((blk Xs i).length + k) 0))

theorem kept_length (Xs : List (List (NodeL ℝ))) (nz : List Bool) (i : Nat) (hi : i < Xs.length) :
    (kept Xs nz i).length = (blk (svBlocks Xs nz) i).length := by
  rw [blk_svBlocks Xs nz i hi, List.length_map]

/-- cells of other blocks are outside the range written -/
theorem outside_block (Xs : List (List (NodeL ℝ))) (nz : List Bool) {a b t : Nat} (ha : a < Xs.length) (hb : b < Xs.length)
    (ht : t < (kept Xs nz a).length) (hab : a ≠ b) :
    offset (svBlocks Xs nz) a + t < offset (svBlocks Xs nz) b ∨
      offset (svBlocks Xs nz) b + (kept Xs nz b).length ≤ offset (svBlocks Xs nz) a + t := by
  rcases Nat.lt_or_gt_of_ne hab with h | h
  · left
    have := offset_le (bs := svBlocks Xs nz) h
    rw [kept_length Xs nz a ha] at ht
    omega
  · right
    have := offset_le (bs := svBlocks Xs nz) h
    rw [kept_length Xs nz b hb]
    omega

theorem lt_of_getElem? {α : Type} {l : List α} {t : Nat} {a : α} (h : l[t]? = some a) : t < l.length := by
  rcases Nat.lt_or_ge t l.length with h' | h'
  · exact h'
  · rw [List.getElem?_eq_none h'] at h; cases h

theorem fillPair_ok (h : Solved solve d Xs W) (nz : List Bool) (hl : nz.length = Xs.flatten.length)
    (weights : List (ℝ × List ℝ)) (p : Nat) (coefs : List (List ℝ)) (i j : Nat) (hij : i < j) (hj : j < d.size)
    (hp : weights[p]? = some (W i j)) (hs : Shape (d.size - 1) (svBlocks Xs nz).flatten.length coefs) :
    ∃ coefs', Svm.fillPair d ((List.range Xs.length).map (offset Xs))
        ((List.range (svBlocks Xs nz).length).map (offset (svBlocks Xs nz))) ⟨weights, nz⟩ (coefs, p) (i, j) =
          .ok (coefs', p + 1) ∧
      Shape (d.size - 1) (svBlocks Xs nz).flatten.length coefs' ∧ Filled Xs W nz coefs' i j ∧
      ∀ i' j', i' < j' → j' < d.size → (i', j') ≠ (i, j) → Filled Xs W nz coefs i' j' → Filled Xs W nz coefs' i' j' := by
  have hi' : i < Xs.length := by rw [h.size]; omega
  have hj' : j < Xs.length := by rw [h.size]; exact hj
  have oi := offset_le_flatten Xs i hi'
  have oj := offset_le_flatten Xs j hj'
  have hw := h.length i j hij hj
  have hsl := svBlocks_length Xs nz
  have ki := kept_length Xs nz i hi'
  have kj := kept_length Xs nz j hj'
  have soi := offset_le_flatten (svBlocks Xs nz) i (by rw [hsl]; exact hi')
  have soj := offset_le_flatten (svBlocks Xs nz) j (by rw [hsl]; exact hj')
  have mi : marks nz (offset Xs i) (blk Xs i).length = kept Xs nz i := rfl
  have mj : marks nz (offset Xs j) (blk Xs j).length = kept Xs nz j := rfl
  obtain ⟨c1, e1, s1, v1, u1⟩ := fillRows_ok (W i j).2 nz (offset Xs i) 0 (j - 1) (blk Xs i).length
    (offset (svBlocks Xs nz) i) (d.size - 1) (svBlocks Xs nz).flatten.length coefs hs (by omega) (by omega) (by omega)
    (by rw [mi]; omega)
  obtain ⟨c2, e2, s2, v2, u2⟩ := fillRows_ok (W i j).2 nz (offset Xs j) (blk Xs i).length i (blk Xs j).length
    (offset (svBlocks Xs nz) j) (d.size - 1) (svBlocks Xs nz).flatten.length c1 s1 (by omega) (by omega) (by omega)
    (by rw [mj]; omega)
  rw [mi] at v1 u1 e1
  rw [mj] at v2 u2 e2
  refine ⟨c2, ?_, s2, ⟨?_, v2⟩, ?_⟩
  · unfold Svm.fillPair
    simp only
    have ew : idxR weights p = .ok (W i j) := by rw [idxR_eq_ok]; exact hp
    rw [starts_get Xs i hi', res_bind_ok, starts_get Xs j hj', res_bind_ok, h.count i (by omega), res_bind_ok,
      h.count j hj, res_bind_ok, ew, res_bind_ok, starts_get _ i (by rw [hsl]; exact hi'), res_bind_ok, e1, res_bind_ok,
      starts_get _ j (by rw [hsl]; exact hj'), res_bind_ok]
    simp only
    rw [e2, res_bind_ok]; rfl
  · intro t k hk
    have ht := lt_of_getElem? hk
    rw [u2 _ _ (Or.inr (outside_block Xs nz hi' hj' ht (by omega)))]
    have := v1 t k hk
    simpa using this
  · intro i' j' hij' hj'' hne hf
    have hia : i' < Xs.length := by rw [h.size]; omega
    have hja : j' < Xs.length := by rw [h.size]; exact hj''
    have hne' : ¬ (i' = i ∧ j' = j) := by simpa using hne
    constructor
    · intro t k hk
      have ht := lt_of_getElem? hk
      have g1 : j' - 1 ≠ j - 1 ∨ i' ≠ i := by omega
      have g2 : j' - 1 ≠ i ∨ i' ≠ j := by omega
      rw [u2 _ _ (g2.imp id (fun e => outside_block Xs nz hia hj' ht e)),
        u1 _ _ (g1.imp id (fun e => outside_block Xs nz hia hi' ht e))]
      exact hf.1 t k hk
    · intro t k hk
      have ht := lt_of_getElem? hk
      have g1 : i' ≠ j - 1 ∨ j' ≠ i := by omega
      have g2 : i' ≠ i ∨ j' ≠ j := by omega
      rw [u2 _ _ (g2.imp id (fun e => outside_block Xs nz hja hj' ht e)),
        u1 _ _ (g1.imp id (fun e => outside_block Xs nz hja hi' ht e))]
      exact hf.2 t k hk

theorem fillPairs_ok (h : Solved solve d Xs W) (nz : List Bool) (hl : nz.length = Xs.flatten.length) (rest : List (Nat × Nat)) :
    ∀ (done : List (Nat × Nat)) (coefs : List (List ℝ)), (done ++ rest).Nodup →
      (∀ p ∈ done ++ rest, p.1 < p.2 ∧ p.2 < d.size) →
      Shape (d.size - 1) (svBlocks Xs nz).flatten.length coefs → (∀ p ∈ done, Filled Xs W nz coefs p.1 p.2) →
      ∃ coefs', rest.foldlM (Svm.fillPair d ((List.range Xs.length).map (offset Xs))
          ((List.range (svBlocks Xs nz).length).map (offset (svBlocks Xs nz)))
          ⟨(done ++ rest).map (fun p => W p.1 p.2), nz⟩) (coefs, done.length) = .ok (coefs', (done ++ rest).length) ∧
        Shape (d.size - 1) (svBlocks Xs nz).flatten.length coefs' ∧
        ∀ p ∈ done ++ rest, Filled Xs W nz coefs' p.1 p.2 := by
  induction rest with
  | nil => intro done coefs _ _ hs hf; exact ⟨coefs, by simp [res_pure], hs, by simpa using hf⟩
  | cons p rest ih =>
    intro done coefs hnd hp hs hf
    obtain ⟨i, j⟩ := p
    have hpp := hp (i, j) (by simp)
    obtain ⟨c1, e1, s1, f1, k1⟩ := fillPair_ok h nz hl ((done ++ (i, j) :: rest).map (fun p => W p.1 p.2)) done.length coefs i j
      hpp.1 hpp.2 (by simp) hs
    have happ : (done ++ [(i, j)]) ++ rest = done ++ (i, j) :: rest := by simp
    have hlen : (done ++ [(i, j)]).length = done.length + 1 := by simp
    obtain ⟨c2, e2, s2, f2⟩ := ih (done ++ [(i, j)]) c1 (by rw [happ]; exact hnd) (by rw [happ]; exact hp) s1 (by
      intro q hq
      rcases List.mem_append.mp hq with hq | hq
      · refine k1 q.1 q.2 (hp q (by simp [hq])).1 (hp q (by simp [hq])).2 ?_ (hf q hq)
        intro e
        have hne : q ≠ (i, j) := by
          intro e'
          subst e'
          rw [List.nodup_append] at hnd
          exact hnd.2.2 _ hq _ (by simp) rfl
        exact hne e
      · have : q = (i, j) := by simpa using hq
        subst this; exact f1)
    rw [happ] at e2 f2
    rw [hlen] at e2
    refine ⟨c2, ?_, s2, f2⟩
    rw [List.foldlM_cons, e1, res_bind_ok, e2]

end

end Verif
