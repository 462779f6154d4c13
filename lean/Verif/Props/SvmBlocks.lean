import Verif.Props.Svm

/-! # Lemmas on class blocks, and C73 -/

set_option linter.unusedSectionVars false
set_option linter.unusedVariables false

namespace Verif
open Dbl

variable {F : Type} [Dbl F] {α : Type}

/-- position where block `i` begins in the concatenation -/
def offset (bs : List (List α)) (i : Nat) : Nat := ((bs.map List.length).take i).sum

/-- block `i` -/
def blk (bs : List (List α)) (i : Nat) : List α := bs.getD i []

theorem offset_zero (bs : List (List α)) : offset bs 0 = 0 := by simp [offset]

theorem offset_succ (bs : List (List α)) (i : Nat) : offset bs (i + 1) = offset bs i + (blk bs i).length := by
  unfold offset blk
  induction bs generalizing i with
  | nil => simp
  | cons b bs ih =>
    cases i with
    | zero => simp
    | succ i =>
      have := ih i
      simp at this ⊢
      omega

theorem offset_le {bs : List (List α)} {i j : Nat} (h : i < j) : offset bs i + (blk bs i).length ≤ offset bs j := by
  rw [← offset_succ]
  obtain ⟨k, rfl⟩ : ∃ k, j = i + 1 + k := ⟨j - (i + 1), by omega⟩
  clear h
  induction k with
  | zero => exact le_refl _
  | succ k ih =>
    have := offset_succ bs (i + 1 + k)
    have e : i + 1 + (k + 1) = i + 1 + k + 1 := by omega
    rw [e, this]; omega

theorem offset_length (bs : List (List α)) : offset bs bs.length = bs.flatten.length := by
  unfold offset
  have : (bs.map List.length).take bs.length = bs.map List.length := by
    apply List.take_of_length_le; simp
  rw [this, List.length_flatten]

theorem offset_le_flatten (bs : List (List α)) (i : Nat) (hi : i < bs.length) :
    offset bs i + (blk bs i).length ≤ bs.flatten.length := by
  rw [← offset_length]; exact offset_le hi

theorem flatten_get (bs : List (List α)) (i k : Nat) (hk : k < (blk bs i).length) :
    bs.flatten[offset bs i + k]? = (blk bs i)[k]? := by
  induction bs generalizing i with
  | nil => simp [blk] at hk
  | cons b bs ih =>
    cases i with
    | zero =>
      have hk' : k < b.length := by simpa [blk] using hk
      simp [offset, blk, List.getElem?_append, hk']
    | succ i =>
      have hb : blk (b :: bs) (i + 1) = blk bs i := by simp [blk]
      rw [hb] at hk ⊢
      rw [← ih i hk]
      have : offset (b :: bs) (i + 1) = b.length + offset bs i := by simp [offset]
      rw [this, List.flatten_cons, List.getElem?_append_right (by omega)]
      congr 1; omega

theorem mapM_get (v : List α) (f : Nat → Res α) (h : ∀ k (hk : k < v.length), f k = .ok v[k]) :
    (List.range v.length).mapM f = .ok v := by
  cases v with
  | nil => rfl
  | cons a v =>
    rw [mapM_ok (g := fun k => (a :: v).getD k a) (by
      intro k hk
      have hk' : k < (a :: v).length := List.mem_range.mp hk
      rw [h k hk']
      simp only [List.getD_eq_getElem?_getD, List.getElem?_eq_getElem hk', Option.getD_some]), map_getD_range]

theorem block_ok (bs : List (List α)) (i : Nat) :
    Svm.block bs.flatten (offset bs i) (blk bs i).length = .ok (blk bs i) := by
  unfold Svm.block
  apply mapM_get
  intro k hk
  rw [idxR_eq_ok, flatten_get bs i k hk]; simp

theorem startsOf_ok (count : Nat → Res Nat) (bs : List (List α)) (hn : 0 < bs.length)
    (h : ∀ i, i < bs.length → count i = .ok (blk bs i).length) :
    startsOf count bs.length = .ok ((List.range bs.length).map (offset bs)) := by
  unfold startsOf
  have key : ∀ m, m < bs.length →
      (List.range' 1 m).foldlM (nextStart count) [0] = .ok ((List.range (m + 1)).map (offset bs)) := by
    intro m
    induction m with
    | zero => intro _; simp [offset_zero, res_pure]
    | succ m ih =>
      intro hm
      rw [List.range'_concat, List.foldlM_append, ih (by omega), res_bind_ok]
      simp only [List.foldlM_cons, List.foldlM_nil, nextStart]
      have e : 1 + 1 * m - 1 = m := by omega
      rw [e]
      have e1 : idxR ((List.range (m + 1)).map (offset bs)) m = .ok (offset bs m) := by
        rw [idxR_eq_ok]; simp
      rw [e1, res_bind_ok, h m (by omega), res_bind_ok, res_pure, res_bind_ok]
      rw [List.range_succ (n := m + 1), List.map_append, List.map_singleton, offset_succ]
      rfl
  have := key (bs.length - 1) (by omega)
  rw [this]
  congr 3
  omega

theorem starts_get (bs : List (List α)) (i : Nat) (hi : i < bs.length) :
    idxR ((List.range bs.length).map (offset bs)) i = .ok (offset bs i) := by
  rw [idxR_eq_ok]; simp [hi]

/-- the instances of `l`, class by class -/
def classBlocks (l : IList F) : List (IList F) :=
  l.classDistribution.getItems.map (fun c => l.filter (fun x => x.label == c))

theorem sort_flatten (l : IList F) : l.sortByClass = (classBlocks l).flatten := (C14_blocks l).1

theorem sort_distribution (l : IList F) : l.sortByClass.classDistribution = l.classDistribution := by
  rw [classDistribution_eq, classDistribution_eq]
  exact DD.ofList_perm ((stableSort_perm _ _).map _)

theorem items_length (d : DD) : d.getItems.length = d.size := by unfold DD.getItems DD.size OMap.keys; simp

theorem classBlocks_length (l : IList F) : (classBlocks l).length = l.classDistribution.size := by
  unfold classBlocks; rw [List.length_map, items_length]

theorem blk_classBlocks (l : IList F) (i : Nat) (hi : i < l.classDistribution.size) :
    ∃ c, l.classDistribution.getItems[i]? = some c ∧ blk (classBlocks l) i = l.filter (fun x => x.label == c) := by
  have h : i < l.classDistribution.getItems.length := by rw [items_length]; exact hi
  refine ⟨l.classDistribution.getItems[i], by simp, ?_⟩
  unfold blk classBlocks
  rw [List.getD_eq_getElem?_getD, List.getElem?_map, List.getElem?_eq_getElem h]
  rfl

theorem classCount_ok (l : IList F) (i : Nat) (hi : i < l.classDistribution.size) :
    Svm.classCount l.classDistribution i = .ok (blk (classBlocks l) i).length := by
  obtain ⟨c, h1, h2⟩ := blk_classBlocks l i hi
  unfold Svm.classCount
  have e : idxR l.classDistribution.getItems i = .ok c := by rw [idxR_eq_ok]; exact h1
  rw [e, res_bind_ok, h2, (C14_blocks l).2 c]; rfl

theorem distribution_size_pos (l : IList F) (h : l ≠ []) : 0 < l.classDistribution.size := by
  obtain ⟨x, t, rfl⟩ := List.exists_cons_of_ne_nil h
  have hm : x.label ∈ (IList.classDistribution (x :: t)).getItems := by
    rw [(C10_class_distribution (x :: t)).mem_items]; simp
  rw [← items_length]
  exact List.length_pos_of_mem hm

theorem groupClasses_ok (l : IList F) (h : l ≠ []) :
    Svm.groupClasses l.classDistribution l.classDistribution.size =
      .ok ((List.range (classBlocks l).length).map (offset (classBlocks l))) := by
  unfold Svm.groupClasses
  have := startsOf_ok (Svm.classCount l.classDistribution) (classBlocks l)
    (by rw [classBlocks_length]; exact distribution_size_pos l h)
    (fun i hi => classCount_ok l i (by rw [← classBlocks_length]; exact hi))
  rwa [classBlocks_length] at this ⊢

/-- **C73**: the block of the sorted list that training takes for the `i`-th class label consists of
exactly the instances with this label, in their original order. -/
theorem C73_class_blocks (l : IList F) (h : l ≠ []) :
    ∃ start, Svm.groupClasses l.sortByClass.classDistribution l.sortByClass.classDistribution.size = .ok start ∧
      start.length = l.classDistribution.size ∧
      ∀ (i : Nat) c, l.classDistribution.getItems[i]? = some c →
        ∃ s, start[i]? = some s ∧
          (l.sortByClass.drop s).take (l.classDistribution.getCount c) = l.filter (fun x => x.label == c) ∧
          Svm.block l.sortByClass s (l.classDistribution.getCount c) = .ok (l.filter (fun x => x.label == c)) := by
  rw [sort_distribution]
  refine ⟨_, groupClasses_ok l h, by simp [classBlocks_length], ?_⟩
  intro i c hc
  have hi : i < l.classDistribution.size := by
    rw [← items_length]
    rcases Nat.lt_or_ge i l.classDistribution.getItems.length with h | h
    · exact h
    · rw [List.getElem?_eq_none h] at hc; cases hc
  obtain ⟨c', h1, h2⟩ := blk_classBlocks l i hi
  rw [hc] at h1
  have : c = c' := by simpa using h1
  subst this
  have hi' : i < (classBlocks l).length := by rw [classBlocks_length]; exact hi
  have hcount : l.classDistribution.getCount c = (blk (classBlocks l) i).length := by
    rw [h2, (C14_blocks l).2 c]
  refine ⟨offset (classBlocks l) i, by simp [hi'], ?_, ?_⟩
  · rw [sort_flatten, hcount, ← h2]
    apply List.ext_getElem?
    intro k
    rw [List.getElem?_take]
    split
    · rename_i hk
      rw [List.getElem?_drop, flatten_get _ _ _ hk]
    · rename_i hk
      rw [List.getElem?_eq_none (by omega)]
  · rw [sort_flatten, hcount, ← h2]
    exact block_ok _ _

example : Svm.groupClasses (IList.classDistribution ([⟨"b", [], none⟩, ⟨"a", [], none⟩, ⟨"b", [], none⟩,
    ⟨"c", [], none⟩] : IList XR)) 3 = .ok [0, 1, 3] := by decide +kernel

end Verif
