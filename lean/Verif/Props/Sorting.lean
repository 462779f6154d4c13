import Verif.Model.Knn
import Verif.Model.DataSet
import Verif.Model.DblXR
import Verif.Lemmas.Basic
import Verif.Props.InstanceList
import Verif.Props.Knn
import Verif.Props.UnitsGauss
import Verif.Props.DataFile
import Verif.Spec.Sorting

/-!
# C200: the sorts are called within the contract of `std::stable_sort`

`InstanceList::sort(i)` (used by every decision tree), `InstanceList::sort()` and the k-nearest
neighbour model hand a comparison to `std::stable_sort`. A comparison of class labels always
meets the contract. A comparison of numbers meets it exactly when no value is NaN, or the values
that are not NaN are all equal. Nothing keeps NaN out: `stod("nan")` is NaN.
-/

namespace Verif
open Dbl

section
variable {F : Type} [Dbl F] [LawfulOrd F] {α : Type}

private theorem lt_ord {a b : F} (h : (a <. b) = true) : Dbl.Ord a ∧ Dbl.Ord b := by
  have h1 := ((LawfulOrd.lt_iff a b).1 h).1
  exact ⟨LawfulOrd.ord_left _ _ h1, LawfulOrd.ord_right _ _ h1⟩

private theorem lt_of_not_ord_left {a b : F} (h : ¬ Dbl.Ord a) : (a <. b) = false := by
  rcases hc : (a <. b) with _ | _
  · rfl
  · exact absurd (lt_ord hc).1 h

private theorem lt_of_not_ord_right {a b : F} (h : ¬ Dbl.Ord b) : (a <. b) = false := by
  rcases hc : (a <. b) with _ | _
  · rfl
  · exact absurd (lt_ord hc).2 h

private theorem nan_iff {v : F} : NotANumber v ↔ ¬ Dbl.Ord v := by
  unfold NotANumber
  rw [← Bool.not_eq_true, not_iff_not, LawfulOrd.eq_iff, and_self]
  rfl

/-- sorting by a number: the contract holds exactly when no number is NaN, or nothing is less
than anything -/
theorem maySort_key (key : α → F) (l : List α) :
    MaySort (fun a b => key a <. key b) l ↔
      (∀ a ∈ l, ¬ NotANumber (key a)) ∨ ∀ a ∈ l, ∀ b ∈ l, (key a <. key b) = false := by
  constructor
  · intro h
    by_cases hn : ∀ a ∈ l, ¬ NotANumber (key a)
    · exact Or.inl hn
    · right
      push Not at hn
      obtain ⟨c, hc, hnc⟩ := hn
      have hnc' := nan_iff.1 hnc
      intro a ha b hb
      exact (h.tie a ha c hc b hb (lt_of_not_ord_right hnc') (lt_of_not_ord_left hnc')
        (lt_of_not_ord_left hnc') (lt_of_not_ord_right hnc')).1
  · rintro (h | h)
    · have ho : ∀ a ∈ l, Dbl.Ord (key a) := fun a ha => by
        by_contra hc
        exact h a ha (nan_iff.2 hc)
      have sw := strictWeak_key (F := F) key
      refine ⟨fun a ha => ?_, fun a ha b hb c hc h1 h2 => ?_, fun a ha b hb c hc h1 h2 h3 h4 => ?_⟩
      · rcases hq : (key a <. key a) with _ | _
        · rfl
        · have := sw.asymm a a (ho a ha) (ho a ha) hq
          rw [hq] at this
          exact this
      · by_contra hq
        rw [Bool.not_eq_true] at hq
        have h3 := sw.asymm b c (ho b hb) (ho c hc) h2
        have := sw.negtrans b c a (ho b hb) (ho c hc) (ho a ha) h3 hq
        rw [h1] at this
        cases this
      · exact ⟨sw.negtrans c b a (ho c hc) (ho b hb) (ho a ha) h3 h1,
          sw.negtrans a b c (ho a ha) (ho b hb) (ho c hc) h2 h4⟩
    · refine ⟨fun a ha => h a ha a ha, fun a ha b hb c hc h1 _ => ?_,
        fun a ha b hb c hc _ _ _ _ => ⟨h a ha c hc, h c hc a ha⟩⟩
      rw [h a ha b hb] at h1
      cases h1

omit [LawfulOrd F] in
theorem sortByAttribute_value (l : IList F) (i : Nat) (value : Inst F → F)
    (hv : ∀ x ∈ l, ContAt x i (value x)) :
    l.sortByAttribute i = .ok (stableSort (fun x y => value x <. value y) l) := by
  have hm : l.mapM (fun x => do
      let v ← x.contAt i
      (pure (v, x) : Res (F × Inst F))) = .ok (l.map (fun x => (value x, x))) :=
    mapM_ok (fun x hx => by rw [contAt_ok (hv x hx)]; rfl)
  unfold IList.sortByAttribute
  rw [hm]
  show Except.ok ((stableSort (fun p q : F × Inst F => p.1 <. q.1) (l.map fun x => (value x, x))).map Prod.snd) = _
  rw [stableSort_map (fun x : Inst F => (value x, x)) (fun x y => value x <. value y) _ l
    (fun _ _ _ _ => rfl), List.map_map]
  exact congrArg _ (List.map_id _)

omit [LawfulOrd F] in
theorem nearestNeighbors_distance (m : Knn F) (x : Inst F) (distance : Inst F → F)
    (hd : ∀ y ∈ candidates m.data x, m.dist y x = .ok (distance y)) :
    m.nearestNeighbors x = .ok ((stableSort (fun y z => distance y <. distance z)
      (candidates m.data x)).take m.k.toNat) := by
  have key : ∀ (l : IList F) (r : List (Inst F × F)),
      (∀ y ∈ candidates l x, m.dist y x = .ok (distance y)) →
      l.foldlM (fun (r : List (Inst F × F)) y =>
        if Knn.eligible x y then do
          let d ← m.dist y x
          pure (r ++ [(y, d)])
        else (pure r : Res (List (Inst F × F)))) r =
      .ok (r ++ (candidates l x).map (fun y => (y, distance y))) := by
    intro l
    induction l with
    | nil => intro r _; rw [candidates_eq]; simp
    | cons y l ih =>
      intro r h
      rw [candidates_eq] at h ih ⊢
      rw [List.foldlM_cons]
      rw [List.filter_cons] at h ⊢
      by_cases he : Knn.eligible x y = true
      · rw [if_pos he] at h ⊢
        rw [if_pos he, h y (by simp), res_bind_ok]
        refine (ih _ (fun z hz => h z (by simp [hz]))).trans ?_
        simp
      · rw [if_neg he] at h ⊢
        rw [if_neg he]
        exact ih _ h
  unfold Knn.nearestNeighbors
  rw [key m.data [] hd, res_bind_ok, List.nil_append,
    stableSort_map (fun y : Inst F => (y, distance y)) (fun y z => distance y <. distance z) _ _
      (fun _ _ _ _ => rfl)]
  show Except.ok (List.map Prod.fst (List.take _ (List.map _ _))) = _
  rw [← List.map_take, List.map_map]
  exact congrArg _ (List.map_id _)

/-- **C200**: `sort(i)` of a list whose column `i` holds the numbers `value x` hands
`std::stable_sort` the comparison of these numbers. The call is within the contract exactly when
no value is NaN, or no value is less than another. -/
theorem C200_attribute_sort_partial (l : IList F) (i : Nat) (value : Inst F → F)
    (hv : ∀ x ∈ l, ContAt x i (value x)) :
    l.sortByAttribute i = .ok (stableSort (fun x y => value x <. value y) l) ∧
    (MaySort (fun x y => value x <. value y) l ↔
      (∀ x ∈ l, ¬ NotANumber (value x)) ∨ ∀ x ∈ l, ∀ y ∈ l, (value x <. value y) = false) :=
  ⟨sortByAttribute_value l i value hv, maySort_key value l⟩

/-- **C200**: the k-nearest neighbour model hands `std::stable_sort` the comparison of the
distances of the instances that can be neighbours; same condition. -/
theorem C200_neighbour_sort_partial (m : Knn F) (x : Inst F) (distance : Inst F → F)
    (hd : ∀ y ∈ candidates m.data x, m.dist y x = .ok (distance y)) :
    m.nearestNeighbors x = .ok ((stableSort (fun y z => distance y <. distance z)
      (candidates m.data x)).take m.k.toNat) ∧
    (MaySort (fun y z => distance y <. distance z) (candidates m.data x) ↔
      (∀ y ∈ candidates m.data x, ¬ NotANumber (distance y)) ∨
      ∀ y ∈ candidates m.data x, ∀ z ∈ candidates m.data x, (distance y <. distance z) = false) :=
  ⟨nearestNeighbors_distance m x distance hd, maySort_key distance _⟩

end

/-- **C200**: sorting by class label is always within the contract. -/
theorem C200_label_sort {F : Type} [Dbl F] (l : IList F) :
    l.sortByClass = stableSort (fun x y => decide (x.label < y.label)) l ∧
    MaySort (fun x y : Inst F => decide (x.label < y.label)) l := by
  refine ⟨rfl, fun a _ => by simp, fun a _ b _ c _ h1 h2 => ?_, fun a _ b _ c _ h1 h2 h3 h4 => ?_⟩
  · rw [decide_eq_true_eq] at *
    exact lt_trans h1 h2
  · simp only [decide_eq_false_iff_not, not_lt] at *
    exact ⟨h3.trans h1, h2.trans h4⟩

/-- **C200 refuted (files).** A data file may hold the text `nan` in a numeric column. Whatever
the numbers are: when `stod` reads it as NaN, and `1` and `2` as numbers with `1 < 2`, the file is
accepted, and sorting by that column, which every decision tree does, is outside the contract
of `std::stable_sort`. -/
theorem C200_file_refuted {F : Type} [Dbl F] [LawfulOrd F] (split : String → String → List String)
    (stod : String → Res F) (n a b : F) (hn : stod "nan" = .ok n) (ha : stod "1" = .ok a)
    (hb : stod "2" = .ok b) (hnan : NotANumber n) (hab : (a <. b) = true)
    (h1 : split "nan,p" "," = ["nan", "p"]) (h2 : split "1,p" "," = ["1", "p"])
    (h3 : split "2,q" "," = ["2", "q"]) :
    ∃ (l : IList F) (value : Inst F → F),
      IList.ofFile split stod ⟨[.continuous], []⟩ "," "nan,p\n1,p\n2,q\n".toList = .ok l ∧
      (∀ x ∈ l, ContAt x 0 (value x)) ∧
      ¬ MaySort (fun x y => value x <. value y) l := by
  refine ⟨[⟨"p", [.continuous n], none⟩, ⟨"p", [.continuous a], none⟩, ⟨"q", [.continuous b], none⟩],
    fun x => match x.attrs with
      | .continuous v :: _ => v
      | _ => n, ?_, ?_, ?_⟩
  · have hs : (splitLines "nan,p\n1,p\n2,q\n".toList []).1 = ["nan,p", "1,p", "2,q"] := by
      decide +kernel
    unfold IList.ofFile
    rw [hs]
    simp only [List.foldlM_cons, List.foldlM_nil, readLine, h1, h2, h3]
    simp [DataDef.attributeCount, readRow, idxR, readCell, DataDef.getAttributeType, hn, ha, hb,
      List.range_succ, Inst.addAttribute, atR]
  · intro x hx
    simp only [List.mem_cons, List.not_mem_nil, or_false] at hx
    rcases hx with rfl | rfl | rfl <;> rfl
  · rw [maySort_key]
    rintro (h | h)
    · exact h ⟨"p", [.continuous n], none⟩ (by simp) hnan
    · have := h ⟨"p", [.continuous a], none⟩ (by simp) ⟨"q", [.continuous b], none⟩ (by simp)
      rw [hab] at this
      cases this

/-- **C200 refuted (neighbours).** A NaN in the training data does the same to the k-nearest
neighbour model. -/
theorem C200_neighbours_refuted :
    ∃ (data : IList XR) (x : Inst XR) (distance : Inst XR → XR),
      (∀ y ∈ candidates data x, euclidean y x = .ok (distance y)) ∧
      ¬ MaySort (fun y z => distance y <. distance z) (candidates data x) := by
  refine ⟨[⟨"p", [.continuous .nan], none⟩, ⟨"p", [.continuous (.fin 1)], none⟩,
      ⟨"q", [.continuous (.fin 2)], none⟩], ⟨"", [.continuous (.fin 0)], none⟩,
    fun y => match euclidean y ⟨"", [.continuous (.fin 0)], none⟩ with
      | .ok d => d
      | .error _ => .nan, ?_, ?_⟩
  · intro y hy
    simp only [candidates, List.mem_cons, List.not_mem_nil, or_false] at hy
    rcases hy with rfl | rfl | rfl <;> decide +kernel
  · rw [maySort_key]
    rintro (h | h)
    · exact h ⟨"p", [.continuous .nan], none⟩ (by simp [candidates])
        (by unfold NotANumber; decide +kernel)
    · have := h ⟨"p", [.continuous (.fin 1)], none⟩ (by simp [candidates])
        ⟨"q", [.continuous (.fin 2)], none⟩ (by simp [candidates])
      revert this
      decide +kernel

/-- The hypotheses can be met: `stod` of the extended rationals, and the list sorted without NaN
is within the contract. -/
example : NotANumber XR.nan ∧ (XR.fin 1 <. XR.fin 2) = true ∧
    exSplit "nan,p" "," = ["nan", "p"] ∧ exSplit "1,p" "," = ["1", "p"] ∧
    exSplit "2,q" "," = ["2", "q"] := by
  unfold NotANumber; decide +kernel

example : MaySort (fun x y : Inst XR => (match x.attrs, y.attrs with
      | [.continuous v], [.continuous w] => v <. w
      | _, _ => false))
    [⟨"p", [.continuous .pinf], none⟩, ⟨"q", [.continuous (.fin 1)], none⟩] := by
  constructor <;> decide +kernel

end Verif
