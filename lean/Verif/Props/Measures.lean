import Verif.Props.Performance
import Verif.Props.TestOrder
import Verif.Props.Inner
import Verif.Props.PerfFloat

/-! # Property C229: the names of the classes and the roles of actual and predicted class in the performance measures -/

set_option linter.unusedSectionVars false

namespace Verif
open Dbl

/-! ## the measures by counting -/

theorem precision_counts (ls : List String) (h : List (String × String)) :
    ((afterHistory ls h).precision : List (Option ℝ)) =
      ls.map (fun c => if 0 < nActual h c then some ((nCell h c c : ℝ) / nPredicted h c) else none) := by
  have hm := afterHistory_isMatrix ls h
  unfold ConfMat.precision
  rw [afterHistory_labels]
  refine List.map_congr_left (fun c _ => ?_)
  by_cases hc : 0 < nActual h c
  · rw [(find_row hm c).1 hc, if_pos hc]
    simp only [Counter.count_ofList, count_predsOf, columnSum_real hm, div_real, ofNat_real]
    rfl
  · rw [(find_row hm c).2 (by omega), if_neg hc]

theorem recall_counts (ls : List String) (h : List (String × String)) :
    ((afterHistory ls h).recall : List (Option ℝ)) =
      ls.map (fun c => if 0 < nActual h c then some ((nCell h c c : ℝ) / nActual h c) else none) := by
  have hm := afterHistory_isMatrix ls h
  unfold ConfMat.recall
  rw [afterHistory_labels]
  refine List.map_congr_left (fun c _ => ?_)
  by_cases hc : 0 < nActual h c
  · rw [(find_row hm c).1 hc, if_pos hc]
    simp only [Counter.count_ofList, count_predsOf, Counter.sumOfCounts_ofList, div_real, ofNat_real, add_real, zero_real, add_zero]
    simp [nCell, predsOf, nActual, List.countP_eq_length_filter]
  · rw [(find_row hm c).2 (by omega), if_neg hc]

/-! ## any arithmetic -/

section
variable {F : Type} [Dbl F]

theorem precision_counts_any (ls : List String) (h : List (String × String)) :
    ((afterHistory ls h).precision : List (Option F)) =
      ls.map (fun c => if 0 < nActual h c then some ((Dbl.ofNat (nCell h c c) : F) /. (afterHistory ls h).columnSum c) else none) := by
  have hm := afterHistory_isMatrix ls h
  unfold ConfMat.precision
  rw [afterHistory_labels]
  refine List.map_congr_left (fun c _ => ?_)
  by_cases hc : 0 < nActual h c
  · rw [(find_row hm c).1 hc, if_pos hc]
    simp only [Counter.count_ofList, count_predsOf]
    rfl
  · rw [(find_row hm c).2 (by omega), if_neg hc]

theorem recall_counts_any (ls : List String) (h : List (String × String)) :
    ((afterHistory ls h).recall : List (Option F)) =
      ls.map (fun c => if 0 < nActual h c then some (((Dbl.ofNat (nCell h c c) : F) +. Dbl.zero) /. Dbl.ofNat (nActual h c)) else none) := by
  have hm := afterHistory_isMatrix ls h
  unfold ConfMat.recall
  rw [afterHistory_labels]
  refine List.map_congr_left (fun c _ => ?_)
  by_cases hc : 0 < nActual h c
  · rw [(find_row hm c).1 hc, if_pos hc]
    simp only [Counter.count_ofList, count_predsOf, Counter.sumOfCounts_ofList]
    simp [nCell, predsOf, nActual, List.countP_eq_length_filter]
  · rw [(find_row hm c).2 (by omega), if_neg hc]

theorem weightedStep_counts (ls : List String) (h : List (String × String)) (f : List F) (s : F) (i : Nat) (c : String) (hi : ls[i]? = some c) :
    (afterHistory ls h).weightedStep f s i = (idxR f i >>= fun fi =>
      if 0 < nActual h c then pure (s +. (fi *. Dbl.ofNat (nActual h c))) else .error (.ub "dereference of end()")) := by
  have hm := afterHistory_isMatrix ls h
  unfold ConfMat.weightedStep
  rw [afterHistory_labels]
  have : atR ls i = .ok c := by simp [atR, hi]
  rw [this, res_bind_ok]
  refine bind_congr_res (fun fi _ => ?_)
  by_cases hc : 0 < nActual h c
  · rw [(find_row hm c).1 hc, if_pos hc]
    simp only [Counter.sumOfCounts_ofList]
    simp [predsOf, nActual, List.countP_eq_length_filter]
  · rw [(find_row hm c).2 (by omega), if_neg hc]

end

/-! ## names -/

section
variable (f : String → String) (ls : List String) (h : List (String × String))

/-- all names that occur: the labels the matrix was made with, the actual and the predicted classes -/
def namesUsed : List String := ls ++ h.map Prod.fst ++ h.map Prod.snd

/-- the calls with other names -/
def renamedCalls : List (String × String) := h.map (fun q => (f q.1, f q.2))

variable {f ls h}

theorem renamed_counts (hf : Set.InjOn f {c | c ∈ namesUsed ls h}) :
    nCorrect (renamedCalls f h) = nCorrect h ∧ ∀ c ∈ ls, nCell (renamedCalls f h) (f c) (f c) = nCell h c c ∧
      nActual (renamedCalls f h) (f c) = nActual h c ∧ nPredicted (renamedCalls f h) (f c) = nPredicted h c := by
  have m1 : ∀ q ∈ h, q.1 ∈ namesUsed ls h := fun q hq => by
    unfold namesUsed
    exact List.mem_append_left _ (List.mem_append_right _ (List.mem_map_of_mem hq))
  have m2 : ∀ q ∈ h, q.2 ∈ namesUsed ls h := fun q hq => by
    unfold namesUsed
    exact List.mem_append_right _ (List.mem_map_of_mem hq)
  have m3 : ∀ c ∈ ls, c ∈ namesUsed ls h := fun c hc => by
    unfold namesUsed
    exact List.mem_append_left _ (List.mem_append_left _ hc)
  have e : ∀ a b, a ∈ namesUsed ls h → b ∈ namesUsed ls h → ((f a == f b) = (a == b)) := by
    intro a b ha hb
    rw [Bool.eq_iff_iff, beq_iff_eq, beq_iff_eq]
    exact hf.eq_iff ha hb
  refine ⟨?_, fun c hc => ⟨?_, ?_, ?_⟩⟩
  · unfold nCorrect renamedCalls
    rw [List.countP_map]
    exact List.countP_congr (fun q hq => by simp only [Function.comp_apply, e _ _ (m1 q hq) (m2 q hq)])
  · unfold nCell renamedCalls
    rw [countP_pair, countP_pair, List.countP_map]
    exact List.countP_congr (fun q hq => by
      simp only [Function.comp_apply, e _ _ (m1 q hq) (m3 c hc), e _ _ (m2 q hq) (m3 c hc)])
  · unfold nActual renamedCalls
    rw [List.countP_map]
    exact List.countP_congr (fun q hq => by simp only [Function.comp_apply, e _ _ (m1 q hq) (m3 c hc)])
  · unfold nPredicted renamedCalls
    rw [List.countP_map]
    exact List.countP_congr (fun q hq => by simp only [Function.comp_apply, e _ _ (m2 q hq) (m3 c hc)])

theorem fMeasure_of_slots {F : Type} [Dbl F] {c c' : ConfMat} (hl : c'.labels.length = c.labels.length)
    (hp : (c'.precision : List (Option F)) = c.precision) (hr : (c'.recall : List (Option F)) = c.recall) :
    (c'.fMeasure : Res (List F)) = c.fMeasure := by
  unfold ConfMat.fMeasure
  rw [hl, hp, hr]

/-- the measures of two matrices agree when the counts and the sums of counts do -/
theorem names_of_sums {F : Type} [Dbl F] (hf : Set.InjOn f {c | c ∈ namesUsed ls h})
    (h1 : ((afterHistory (ls.map f) (renamedCalls f h)).sumOfElements : F) = (afterHistory ls h).sumOfElements)
    (h2 : ((afterHistory (ls.map f) (renamedCalls f h)).trace : F) = (afterHistory ls h).trace)
    (h3 : ∀ c ∈ ls, ((afterHistory (ls.map f) (renamedCalls f h)).columnSum (f c) : F) = (afterHistory ls h).columnSum c) :
    ((afterHistory (ls.map f) (renamedCalls f h)).getAccuracy : F) = (afterHistory ls h).getAccuracy ∧
    ((afterHistory (ls.map f) (renamedCalls f h)).precision : List (Option F)) = (afterHistory ls h).precision ∧
    ((afterHistory (ls.map f) (renamedCalls f h)).recall : List (Option F)) = (afterHistory ls h).recall ∧
    ((afterHistory (ls.map f) (renamedCalls f h)).fMeasure : Res (List F)) = (afterHistory ls h).fMeasure ∧
    ((afterHistory (ls.map f) (renamedCalls f h)).weightedFMeasure : Res F) = (afterHistory ls h).weightedFMeasure := by
  obtain ⟨n1, n2⟩ := renamed_counts hf
  have hp : ((afterHistory (ls.map f) (renamedCalls f h)).precision : List (Option F)) = (afterHistory ls h).precision := by
    rw [precision_counts_any, precision_counts_any, List.map_map]
    refine List.map_congr_left (fun c hc => ?_)
    obtain ⟨a, b, _⟩ := n2 c hc
    simp only [Function.comp_apply, a, b, h3 c hc]
  have hr : ((afterHistory (ls.map f) (renamedCalls f h)).recall : List (Option F)) = (afterHistory ls h).recall := by
    rw [recall_counts_any, recall_counts_any, List.map_map]
    refine List.map_congr_left (fun c hc => ?_)
    obtain ⟨a, b, _⟩ := n2 c hc
    simp only [Function.comp_apply, a, b]
  have hfm : ((afterHistory (ls.map f) (renamedCalls f h)).fMeasure : Res (List F)) = (afterHistory ls h).fMeasure :=
    fMeasure_of_slots (by simp [afterHistory_labels]) hp hr
  refine ⟨?_, hp, hr, hfm, ?_⟩
  · unfold ConfMat.getAccuracy
    rw [h1, h2]
  · unfold ConfMat.weightedFMeasure
    rw [hfm, h1, afterHistory_labels, afterHistory_labels, List.length_map]
    refine bind_congr_res (fun fm _ => ?_)
    have : (List.range ls.length).foldlM ((afterHistory (ls.map f) (renamedCalls f h)).weightedStep fm) (Dbl.zero : F) =
        (List.range ls.length).foldlM ((afterHistory ls h).weightedStep fm) Dbl.zero := by
      refine foldlM_congr_on _ _ (fun s i hi => ?_)
      have hi' := List.mem_range.1 hi
      have e1 : ls[i]? = some ls[i] := List.getElem?_eq_getElem hi'
      rw [weightedStep_counts ls h fm s i _ e1, weightedStep_counts (ls.map f) (renamedCalls f h) fm s i (f ls[i]) (by rw [List.getElem?_map, e1]; rfl),
        (n2 _ (List.getElem_mem hi')).2.1]
    rw [this]

/-- **C229.** Names of classes are only names: when the classes are given other, still different names in all calls and in the list of labels, the
accuracy, the precision, recall and F-measure of each class and the weighted F-measure stay as they were, and where one of them is not defined it is
not defined afterwards. -/
theorem C229_names (hf : Set.InjOn f {c | c ∈ namesUsed ls h}) :
    ((afterHistory (ls.map f) (renamedCalls f h)).getAccuracy : ℝ) = (afterHistory ls h).getAccuracy ∧
    ((afterHistory (ls.map f) (renamedCalls f h)).precision : List (Option ℝ)) = (afterHistory ls h).precision ∧
    ((afterHistory (ls.map f) (renamedCalls f h)).recall : List (Option ℝ)) = (afterHistory ls h).recall ∧
    ((afterHistory (ls.map f) (renamedCalls f h)).fMeasure : Res (List ℝ)) = (afterHistory ls h).fMeasure ∧
    ((afterHistory (ls.map f) (renamedCalls f h)).weightedFMeasure : Res ℝ) = (afterHistory ls h).weightedFMeasure := by
  obtain ⟨n1, n2⟩ := renamed_counts hf
  have hl : (renamedCalls f h).length = h.length := by simp [renamedCalls]
  refine names_of_sums hf ?_ ?_ (fun c hc => ?_)
  · rw [(C33_sums _ _).1, (C33_sums _ _).1, hl]
  · rw [(C33_sums _ _).2.1, (C33_sums _ _).2.1, n1]
  · rw [(C33_sums _ _).2.2, (C33_sums _ _).2.2, (n2 c hc).2.2]

/-- **C229** in double precision: the same to the last bit, although the rows of the matrix are added in another order, for up to 2^53 calls. -/
theorem C229_names_double {L : CMath} (hf : Set.InjOn f {c | c ∈ namesUsed ls h}) (hn : h.length ≤ 2 ^ 53) :
    ((afterHistory (ls.map f) (renamedCalls f h)).getAccuracy : D53 L) = (afterHistory ls h).getAccuracy ∧
    ((afterHistory (ls.map f) (renamedCalls f h)).precision : List (Option (D53 L))) = (afterHistory ls h).precision ∧
    ((afterHistory (ls.map f) (renamedCalls f h)).recall : List (Option (D53 L))) = (afterHistory ls h).recall ∧
    ((afterHistory (ls.map f) (renamedCalls f h)).fMeasure : Res (List (D53 L))) = (afterHistory ls h).fMeasure ∧
    ((afterHistory (ls.map f) (renamedCalls f h)).weightedFMeasure : Res (D53 L)) = (afterHistory ls h).weightedFMeasure := by
  obtain ⟨n1, n2⟩ := renamed_counts hf
  have hl : (renamedCalls f h).length = h.length := by simp [renamedCalls]
  obtain ⟨a1, a2, a3⟩ := sums_double (L := L) ls h hn
  obtain ⟨b1, b2, b3⟩ := sums_double (L := L) (ls.map f) (renamedCalls f h) (by rw [hl]; exact hn)
  have same : ∀ (x y : D53 L) (q : ℚ), D53.Is x q → D53.Is y q → x = y := by
    rintro ⟨x, hx⟩ ⟨y, hy⟩ q h1 h2
    have : x = y := h1.trans h2.symm
    subst this
    rfl
  refine names_of_sums hf ?_ ?_ (fun c hc => ?_)
  · rw [hl] at b1; exact same _ _ _ b1 a1
  · rw [n1] at b2; exact same _ _ _ b2 a2
  · have := b3 (f c)
    rw [(n2 c hc).2.2] at this
    exact same _ _ _ this (a3 c)

/-! ## exchanging actual and predicted class -/

/-- the calls with actual and predicted class exchanged -/
def exchangedCalls (h : List (String × String)) : List (String × String) := h.map (fun q => (q.2, q.1))

theorem exchanged_counts (h : List (String × String)) : nCorrect (exchangedCalls h) = nCorrect h ∧
    ∀ c, nCell (exchangedCalls h) c c = nCell h c c ∧ nActual (exchangedCalls h) c = nPredicted h c ∧
      nPredicted (exchangedCalls h) c = nActual h c := by
  refine ⟨?_, fun c => ⟨?_, ?_, ?_⟩⟩
  · unfold nCorrect exchangedCalls
    rw [List.countP_map]
    exact List.countP_congr (fun q _ => by
      simp only [Function.comp_apply, beq_iff_eq]
      exact eq_comm)
  · unfold nCell exchangedCalls
    rw [countP_pair, countP_pair, List.countP_map]
    exact List.countP_congr (fun q _ => by
      simp only [Function.comp_apply, Bool.and_eq_true, beq_iff_eq]
      exact and_comm)
  · unfold nActual nPredicted exchangedCalls
    rw [List.countP_map]
    rfl
  · unfold nActual nPredicted exchangedCalls
    rw [List.countP_map]
    rfl

/-- **C229.** When actual and predicted class are exchanged in all calls, the accuracy stays; and when every label occurs both as an actual and as a
predicted class, precision and recall are exchanged and the F-measures stay. -/
theorem C229_exchanged (ls : List String) (h : List (String × String)) :
    ((afterHistory ls (exchangedCalls h)).getAccuracy : ℝ) = (afterHistory ls h).getAccuracy ∧
    ((∀ c ∈ ls, 0 < nActual h c ∧ 0 < nPredicted h c) →
      ((afterHistory ls (exchangedCalls h)).precision : List (Option ℝ)) = (afterHistory ls h).recall ∧
      ((afterHistory ls (exchangedCalls h)).recall : List (Option ℝ)) = (afterHistory ls h).precision ∧
      ((afterHistory ls (exchangedCalls h)).fMeasure : Res (List ℝ)) = (afterHistory ls h).fMeasure) := by
  obtain ⟨n1, n2⟩ := exchanged_counts h
  refine ⟨?_, fun hall => ?_⟩
  · rw [C35_accuracy, C35_accuracy, n1]
    simp [exchangedCalls]
  have hp : ((afterHistory ls (exchangedCalls h)).precision : List (Option ℝ)) = (afterHistory ls h).recall := by
    rw [precision_counts, recall_counts]
    refine List.map_congr_left (fun c hc => ?_)
    obtain ⟨a, b, d⟩ := n2 c
    rw [a, b, d, if_pos (hall c hc).1, if_pos (hall c hc).2]
  have hr : ((afterHistory ls (exchangedCalls h)).recall : List (Option ℝ)) = (afterHistory ls h).precision := by
    rw [precision_counts, recall_counts]
    refine List.map_congr_left (fun c hc => ?_)
    obtain ⟨a, b, _⟩ := n2 c
    rw [a, b, if_pos (hall c hc).1, if_pos (hall c hc).2]
  refine ⟨hp, hr, ?_⟩
  unfold ConfMat.fMeasure
  rw [hp, hr, afterHistory_labels, afterHistory_labels]
  have slots : ∀ i ∈ List.range ls.length, ∃ p q : ℝ, ConfMat.slot (afterHistory ls h).precision i = .ok p ∧
      ConfMat.slot (afterHistory ls h).recall i = .ok q := by
    intro i hi
    have hi' := List.mem_range.1 hi
    obtain ⟨p, r, h1, h2, _⟩ := C36_precision_recall ls h i ls[i] (List.getElem?_eq_getElem hi') (hall _ (List.getElem_mem hi')).1
    exact ⟨p, r, by simp [ConfMat.slot, idxR, h1], by simp [ConfMat.slot, idxR, h2]⟩
  refine foldlM_congr_on _ _ (fun r i hi => ?_)
  obtain ⟨p, q, h1, h2⟩ := slots i hi
  rw [h1, h2]
  simp only [res_bind_ok, add_real]
  rw [add_comm]

theorem D53_add_comm {L : CMath} (a b : D53 L) : a +. b = b +. a := by
  apply D53.ext'
  show XR.rnd (XR.add a.val b.val) = XR.rnd (XR.add b.val a.val)
  congr 1
  cases a.val <;> cases b.val <;> simp [XR.add, add_comm]

/-- **C229** in double precision: the same to the last bit, for up to 2^53 calls. -/
theorem C229_exchanged_double {L : CMath} (ls : List String) (h : List (String × String)) (hn : h.length ≤ 2 ^ 53) :
    ((afterHistory ls (exchangedCalls h)).getAccuracy : D53 L) = (afterHistory ls h).getAccuracy ∧
    ((∀ c ∈ ls, 0 < nActual h c ∧ 0 < nPredicted h c) →
      ((afterHistory ls (exchangedCalls h)).precision : List (Option (D53 L))) = (afterHistory ls h).recall ∧
      ((afterHistory ls (exchangedCalls h)).recall : List (Option (D53 L))) = (afterHistory ls h).precision ∧
      ((afterHistory ls (exchangedCalls h)).fMeasure : Res (List (D53 L))) = (afterHistory ls h).fMeasure) := by
  obtain ⟨n1, n2⟩ := exchanged_counts h
  have hl : (exchangedCalls h).length = h.length := by simp [exchangedCalls]
  obtain ⟨a1, a2, a3⟩ := sums_double (L := L) ls h hn
  obtain ⟨b1, b2, b3⟩ := sums_double (L := L) ls (exchangedCalls h) (by rw [hl]; exact hn)
  have same : ∀ (x y : D53 L) (q : ℚ), D53.Is x q → D53.Is y q → x = y := by
    rintro ⟨x, hx⟩ ⟨y, hy⟩ q h1 h2
    have : x = y := h1.trans h2.symm
    subst this
    rfl
  have nat : ∀ n : ℕ, n ≤ 2 ^ 53 → D53.Is (Dbl.ofNat n : D53 L) n := fun n hn => D53.is_nat hn
  have plus : ∀ x : D53 L, x +. Dbl.zero = x := fun x => by rw [D53_add_comm, D53.zero_add]
  refine ⟨?_, fun hall => ?_⟩
  · unfold ConfMat.getAccuracy
    rw [hl] at b1
    rw [n1] at b2
    rw [same _ _ _ b1 a1, same _ _ _ b2 a2]
  have le1 : ∀ c, nActual h c ≤ 2 ^ 53 := fun c => le_trans List.countP_le_length hn
  have le2 : ∀ c, nPredicted h c ≤ 2 ^ 53 := fun c => le_trans List.countP_le_length hn
  have hp : ((afterHistory ls (exchangedCalls h)).precision : List (Option (D53 L))) = (afterHistory ls h).recall := by
    rw [precision_counts_any, recall_counts_any]
    refine List.map_congr_left (fun c hc => ?_)
    obtain ⟨a, b, d⟩ := n2 c
    have e := b3 c
    rw [d] at e
    rw [a, b, if_pos (hall c hc).1, if_pos (hall c hc).2, plus, same _ _ _ e (nat _ (le1 c))]
  have hr : ((afterHistory ls (exchangedCalls h)).recall : List (Option (D53 L))) = (afterHistory ls h).precision := by
    rw [precision_counts_any, recall_counts_any]
    refine List.map_congr_left (fun c hc => ?_)
    obtain ⟨a, b, _⟩ := n2 c
    rw [a, b, if_pos (hall c hc).1, if_pos (hall c hc).2, plus, same _ _ _ (a3 c) (nat _ (le2 c))]
  refine ⟨hp, hr, ?_⟩
  unfold ConfMat.fMeasure
  rw [hp, hr, afterHistory_labels, afterHistory_labels]
  have slots : ∀ i ∈ List.range ls.length, ∃ p q : D53 L, ConfMat.slot (afterHistory ls h).precision i = .ok p ∧
      ConfMat.slot (afterHistory ls h).recall i = .ok q := by
    intro i hi
    have hi' := List.mem_range.1 hi
    have e1 : ls[i]? = some ls[i] := List.getElem?_eq_getElem hi'
    have h0 := (hall _ (List.getElem_mem hi')).1
    refine ⟨(Dbl.ofNat (nCell h ls[i] ls[i]) : D53 L) /. (afterHistory ls h).columnSum ls[i],
      ((Dbl.ofNat (nCell h ls[i] ls[i]) : D53 L) +. Dbl.zero) /. Dbl.ofNat (nActual h ls[i]), ?_, ?_⟩
    · rw [precision_counts_any]
      simp only [ConfMat.slot, idxR, List.getElem?_map, e1, Option.map_some, if_pos h0]
      rfl
    · rw [recall_counts_any]
      simp only [ConfMat.slot, idxR, List.getElem?_map, e1, Option.map_some, if_pos h0]
      rfl
  refine foldlM_congr_on _ _ (fun r i hi => ?_)
  obtain ⟨p, q, h1, h2⟩ := slots i hi
  rw [h1, h2]
  simp only [res_bind_ok]
  rw [D53_add_comm]

end

/-! ## the hypotheses are met -/

/-- two classes exchange their names: the order of the names changes, and the measures of the first label stay its measures -/
example : Set.InjOn (fun c => if c = "a" then "b" else if c = "b" then "a" else c) {c | c ∈ namesUsed ["a", "b"] exHistory} ∧
    renamedCalls (fun c => if c = "a" then "b" else if c = "b" then "a" else c) exHistory ≠ exHistory := by
  refine ⟨?_, by decide⟩
  intro x hx y hy e
  have m : ∀ z ∈ namesUsed ["a", "b"] exHistory, z = "a" ∨ z = "b" := by decide
  rcases m x hx with rfl | rfl <;> rcases m y hy with rfl | rfl <;> simp_all

example : (∀ c ∈ ["a", "b"], 0 < nActual exHistory c ∧ 0 < nPredicted exHistory c) ∧ exchangedCalls exHistory ≠ exHistory ∧
    ((afterHistory ["a", "b"] (exchangedCalls exHistory)).precision : List (Option XR)) = [some (.fin (2 / 3)), some (.fin 1)] := by
  decide +kernel

/-- the names have to stay different: with one name for both classes every call is correct -/
example : ((afterHistory (["a", "b"].map (fun _ => "a")) (renamedCalls (fun _ => "a") exHistory)).getAccuracy : XR) = .fin 1 ∧
    ((afterHistory ["a", "b"] exHistory).getAccuracy : XR) = .fin (3 / 4) := by decide +kernel

end Verif
