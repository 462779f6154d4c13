import Verif.Props.Discriminant

/-! # Properties C137, C138: the Mahalanobis distance; one neighbour remembers the training data -/

set_option linter.unusedSectionVars false

namespace Verif
open Dbl

/-! ## C137 -/

theorem mahalanobis_eq {S : Mat ℝ} {x y : Inst ℝ} {u w : List ℝ} {n : Nat} (hu : x.toVector = .ok u)
    (hw : y.toVector = .ok w) (hun : u.length = n) (hwn : w.length = n) (hr : S.rows = n) (hc : S.cols = n) :
    mahalanobis S x y = .ok (mahSq n S u w) := by
  unfold mahalanobis
  rw [hu, hw]
  simp only [res_bind_ok, res_pure]
  congr 1
  have hlen : (List.zipWith (fun a b => a -. b) u w).length = n := by simp [hun, hwn]
  have hd : ∀ i : Nat, i < n → (List.zipWith (fun a b => a -. b) u w).getD i 0 = u.getD i 0 - w.getD i 0 := by
    intro i hi
    simp [List.getD_eq_getElem?_getD, hi, hun, hwn]
  have e1 : subChecked u w = some (List.zipWith (fun a b => a -. b) u w) := by
    unfold subChecked; rw [if_pos (by omega)]
  rw [e1]
  simp only [Option.bind_some]
  have e2 : S.mulLeft (List.zipWith (fun a b => a -. b) u w) = some ((List.range S.cols).map (fun (j : Nat) =>
      dotV (List.zipWith (fun a b => a -. b) u w) (S.col j))) := by
    unfold Mat.mulLeft; rw [if_pos (by omega)]
  rw [e2]
  simp only [Option.bind_some]
  unfold dotChecked
  rw [if_pos (by simp [hc, hun, hwn])]
  simp only [Option.getD_some]
  rw [dotV_eq n _ _ (by simp [hc]) hlen]
  unfold mahSq bilinear
  rw [Finset.sum_comm]
  refine Finset.sum_congr rfl (fun j hj => ?_)
  have hj := Finset.mem_range.1 hj
  have hg : ((List.range S.cols).map (fun (j : Nat) => dotV (List.zipWith (fun a b => a -. b) u w) (S.col j))).getD j 0 =
      dotV (List.zipWith (fun a b => a -. b) u w) (S.col j) := by
    simp [List.getD_eq_getElem?_getD, hc, hj]
  rw [hd j hj, hg]
  rw [dotV_eq n _ _ hlen (by simp [Mat.col, hr]), Finset.sum_mul]
  refine Finset.sum_congr rfl (fun i hi => ?_)
  have hi := Finset.mem_range.1 hi
  have hg : (S.col j).getD i 0 = S.e i j := by simp [List.getD_eq_getElem?_getD, Mat.col, hr, hi]
  rw [hd i hi, hg]

/-- **C137.** For instances whose attribute vectors are `u` and `w`, of the size of the matrix,
the Mahalanobis distance is the quadratic form of the matrix at `u - w`. It is the same in both
directions; it is non-negative if the matrix is positive semidefinite; if it is positive definite
it is zero only for equal vectors. -/
theorem C137_mahalanobis {S : Mat ℝ} {x y : Inst ℝ} {u w : List ℝ} {n : Nat} (hu : x.toVector = .ok u)
    (hw : y.toVector = .ok w) (hun : u.length = n) (hwn : w.length = n) (hr : S.rows = n) (hc : S.cols = n) :
    ∃ d, mahalanobis S x y = .ok d ∧ mahalanobis S y x = .ok d ∧
      d = ∑ i ∈ Finset.range n, ∑ j ∈ Finset.range n,
        (u.getD i 0 - w.getD i 0) * S.e i j * (u.getD j 0 - w.getD j 0) ∧
      ((∀ z : Nat → ℝ, 0 ≤ ∑ i ∈ Finset.range n, ∑ j ∈ Finset.range n, z i * S.e i j * z j) → 0 ≤ d) ∧
      ((∀ z : Nat → ℝ, (∃ i < n, z i ≠ 0) → 0 < ∑ i ∈ Finset.range n, ∑ j ∈ Finset.range n, z i * S.e i j * z j) →
        (d = 0 ↔ u = w)) := by
  refine ⟨mahSq n S u w, mahalanobis_eq hu hw hun hwn hr hc, ?_, rfl, fun h => h _, ?_⟩
  · rw [mahalanobis_eq hw hu hwn hun hr hc]
    congr 1
    unfold mahSq bilinear
    refine Finset.sum_congr rfl (fun i _ => Finset.sum_congr rfl (fun j _ => ?_))
    ring
  · intro h
    constructor
    · intro h0
      by_contra hne
      have : ∃ i < n, u.getD i 0 - w.getD i 0 ≠ 0 := by
        by_contra hno
        push Not at hno
        apply hne
        refine List.ext_getElem (by omega) (fun i h1 h2 => ?_)
        have := hno i (by omega)
        simp only [List.getD_eq_getElem?_getD, List.getElem?_eq_getElem h1, List.getElem?_eq_getElem h2, Option.getD_some] at this
        linarith
      have := h (fun i => u.getD i 0 - w.getD i 0) this
      unfold mahSq bilinear at h0
      rw [h0] at this
      exact lt_irrefl _ this
    · rintro rfl
      simp [mahSq, bilinear]

/-- **C137.** If the vectors differ in size, or do not fit the matrix, the distance is `INT_MAX`. -/
theorem C137_mismatch {F : Type} [Dbl F] {S : Mat F} {x y : Inst F} {u w : List F} (hu : x.toVector = .ok u)
    (hw : y.toVector = .ok w) (h : u.length ≠ w.length ∨ u.length ≠ S.rows ∨ S.rows ≠ S.cols) :
    mahalanobis S x y = .ok (Dbl.ofInt 2147483647) := by
  unfold mahalanobis
  rw [hu, hw]
  simp only [res_bind_ok, res_pure]
  congr 1
  unfold subChecked
  by_cases h1 : u.length = w.length
  · rw [if_pos h1]
    simp only [Option.bind_some]
    unfold Mat.mulLeft
    by_cases h2 : S.rows = (List.zipWith (fun a b => a -. b) u w).length
    · rw [if_pos h2]
      simp only [Option.bind_some]
      unfold dotChecked
      rw [if_neg]
      · rfl
      · simp only [List.length_zipWith, ← h1, Nat.min_self] at h2
        simp only [List.length_map, List.length_range, List.length_zipWith, ← h1, Nat.min_self]
        omega
    · rw [if_neg h2]; rfl
  · rw [if_neg h1]; rfl

/-- a positive definite matrix for the examples -/
def exMatrix : Mat ℝ := ⟨2, 2, fun i j => if i = j then 2 else 1⟩

example : ∀ z : Nat → ℝ, (∃ i < 2, z i ≠ 0) →
    0 < ∑ i ∈ Finset.range 2, ∑ j ∈ Finset.range 2, z i * exMatrix.e i j * z j := by
  rintro z ⟨i, hi, hz⟩
  simp only [Finset.sum_range_succ, Finset.range_zero, Finset.sum_empty, exMatrix]
  norm_num
  have h : 0 < z 0 ^ 2 + z 1 ^ 2 := by
    have : i = 0 ∨ i = 1 := by omega
    rcases this with rfl | rfl
    · have := sq_pos_of_ne_zero hz; positivity
    · have := sq_pos_of_ne_zero hz; positivity
  nlinarith [sq_nonneg (z 0 + z 1)]
example : mahalanobis (⟨2, 2, fun i j => if i = j then .fin 2 else .fin 1⟩ : Mat XR)
    ⟨"a", [.continuous (.fin 1), .continuous (.fin 0)], none⟩
    ⟨"b", [.continuous (.fin 3), .continuous (.fin 1)], none⟩ = .ok (.fin 14) := by decide +kernel
example : mahalanobis (⟨2, 2, fun i j => if i = j then .fin 2 else .fin 1⟩ : Mat XR)
    ⟨"a", [.continuous (.fin 1)], none⟩ ⟨"b", [.continuous (.fin 3)], none⟩ = .ok (.fin 2147483647) := by decide +kernel

/-! ## C138 -/

/-- **C138.** One nearest neighbour with the Euclidean distance remembers: for a plain instance
whose continuous and discrete attributes are those of a training instance, it predicts the label
`c` that the training instances with these attributes have (with probability 1). -/
theorem C138_one_neighbour (data : IList ℝ) (x : Inst ℝ) (hx : x.isComposite = false)
    (htypes : ∀ y ∈ data, List.Forall₂ SameKind y.attrs x.attrs)
    (hkinds : ∀ a ∈ x.attrs, a.isContinuous = true ∨ a.isDiscrete = true)
    (c : String) (hex : ∃ y ∈ data, y.attrs = x.attrs) (hc : ∀ y ∈ data, y.attrs = x.attrs → y.label = c) :
    (Knn.train ⟨[], 0, euclidean⟩ data 1 euclidean).predict x = .ok c ∧
    (Knn.train ⟨[], 0, euclidean⟩ data 1 euclidean).predictProbability x = .ok [(c, 1)] := by
  have hd : ∀ y ∈ data, ∃ d, euclidean y x = .ok d ∧ 0 ≤ d ∧ (d = 0 ↔ y.attrs = x.attrs) := by
    intro y hy
    obtain ⟨d, h1, _, h3, h4⟩ := C51_metric y x (htypes y hy)
    refine ⟨d, h1, h3, h4.trans ?_⟩
    have hz := List.forall₂_iff_zip.1 (htypes y hy)
    constructor
    · intro h
      refine List.ext_getElem hz.1 (fun i h1 h2 => ?_)
      have hm : (y.attrs[i], x.attrs[i]) ∈ y.attrs.zip x.attrs :=
        List.mem_iff_getElem.2 ⟨i, by simp [h1, h2], by simp⟩
      have hk := hz.2 hm
      have hx := hkinds _ (List.getElem_mem h2)
      refine h _ hm ?_
      simp only
      generalize y.attrs[i] = a at hk ⊢
      generalize x.attrs[i] = b at hk hx
      cases a <;> cases b <;> simp_all [SameKind, Attr.isContinuous, Attr.isDiscrete]
    · intro h p hp _
      rw [h] at hp
      obtain ⟨i, h1, h2⟩ := List.mem_iff_getElem.1 hp
      rw [← h2]
      simp
  choose! d hd1 hd2 hd3 using hd
  set m := Knn.train ⟨[], 0, euclidean⟩ data 1 euclidean with hm
  have hcand : candidates m.data x = data := by
    unfold candidates
    have : x.possible = none := by
      unfold Inst.isComposite at hx
      cases hp : x.possible with
      | none => rfl
      | some _ => rw [hp] at hx; cases hx
    rw [this]; rfl
  obtain ⟨ns, rest, h1, h2, h3, h4⟩ := C49_nearest m x d (by rw [hcand]; exact hd1) (fun y _ => ord_real _)
  rw [hcand] at h2 h3
  obtain ⟨y, hy, hyx⟩ := hex
  have hlen : ns.length = 1 := by
    rw [h3]
    have := List.length_pos_of_mem hy
    simp only [hm, Knn.train]
    show min 1 data.length = 1
    omega
  obtain ⟨a, ha⟩ := List.length_eq_one_iff.1 hlen
  subst ha
  have hda : d a = 0 := by
    refine le_antisymm ?_ (hd2 a (h2.perm.mem_iff.1 (by simp)))
    have hy0 : d y = 0 := (hd3 y hy).2 hyx
    rw [← hy0]
    rcases List.mem_append.1 (h2.perm.mem_iff.2 hy) with h | h
    · rw [List.mem_singleton.1 h]
    · simpa using h4 a (by simp) y h
  have had : a ∈ data := h2.perm.mem_iff.1 (by simp)
  have hac : a.label = c := hc a had ((hd3 a had).1 hda)
  constructor
  · obtain ⟨c', e, hmaj⟩ := (C50_vote m x [a] h1).1 (by simp)
    rw [e]
    have := hmaj.mem
    simp only [List.map_cons, List.map_nil, List.mem_singleton] at this
    rw [this, hac]
  · unfold Knn.predictProbability
    rw [h1]
    simp only [res_bind_ok, res_pure]
    rw [classDistribution_eq]
    simp only [List.map_cons, List.map_nil, hac]
    simp [DD.ofList, DD.addItem, DD.empty, DD.getProbabilityDistribution, Counter.put, OMap.find?, DD.getProbability,
      Counter.count, OMap.insert]

/-- the hypotheses are met, and the nearest of several neighbours decides -/
example : ((Knn.train ⟨[], 0, euclidean⟩ [⟨"a", [.continuous (.fin 1), .discrete "u"], none⟩,
      ⟨"b", [.continuous (.fin 1), .discrete "v"], none⟩, ⟨"a", [.continuous (.fin 2), .discrete "v"], none⟩] 1 euclidean).predict
    (⟨"?", [.continuous (.fin 1), .discrete "v"], none⟩ : Inst XR)) = .ok "b" := by decide +kernel
example : ∀ y ∈ ([⟨"a", [.continuous 1, .discrete "u"], none⟩, ⟨"b", [.continuous 1, .discrete "v"], none⟩] : IList ℝ),
    List.Forall₂ SameKind y.attrs [.continuous 1, .discrete "v"] := by
  intro y hy
  simp only [List.mem_cons, List.not_mem_nil, or_false] at hy
  rcases hy with rfl | rfl <;> exact .cons trivial (.cons trivial .nil)

end Verif
