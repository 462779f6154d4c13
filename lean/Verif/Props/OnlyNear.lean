import Verif.Props.Knn
import Verif.Props.RuledOut

/-! # Property C218: only near training instances count for nearest neighbours -/

namespace Verif
open Dbl

set_option linter.unusedSectionVars false

variable {F : Type} [Dbl F]

/-- in a sorted list the small elements come first -/
theorem take_filter_sorted {α : Type} (p : α → Bool) : ∀ (s : List α) (k : Nat),
    s.Pairwise (fun a b => p b = true → p a = true) → k ≤ (s.filter p).length → s.take k = (s.filter p).take k := by
  intro s
  induction s with
  | nil => intro k _ _; rfl
  | cons a s ih =>
    intro k hs hk
    rw [List.pairwise_cons] at hs
    by_cases ha : p a = true
    · rw [List.filter_cons_of_pos ha] at hk ⊢
      cases k with
      | zero => rfl
      | succ k =>
        rw [List.take_succ_cons, List.take_succ_cons, ih k hs.2 (by simpa using hk)]
    · have hnil : s.filter p = [] := List.filter_eq_nil_iff.2 (fun b hb h => ha (hs.1 b hb h))
      rw [List.filter_cons_of_neg ha, hnil] at hk ⊢
      simp only [List.length_nil, Nat.le_zero] at hk
      subst hk; rfl

/-- **C218.** Two training lists with the same instances (in the same order) up to distance `r` from the query, at least `k`
of them: the `k` nearest neighbours are the same, and so are class and probabilities. What the lists contain farther away
has no influence. Any distance, any arithmetic with IEEE-754 comparisons; distances are not NaN. -/
theorem C218_only_near [LawfulOrd F] {l l' : IList F} (k : Int) (dist : Inst F → Inst F → Res F) (old old' : Knn F) (x : Inst F)
    (d : Inst F → F) (hd : ∀ y ∈ l ++ l', dist y x = .ok (d y)) (hord : ∀ y ∈ l ++ l', Dbl.Ord (d y)) (r : F)
    (hnear : l.filter (fun y => d y <=. r) = l'.filter (fun y => d y <=. r))
    (hk : k ≤ ((l.filter (fun y => d y <=. r)).filter (fun y => !x.isComposite || decide (y.label ∈ x.possibleLabels))).length) :
    (old.train l k dist).nearestNeighbors x = (old'.train l' k dist).nearestNeighbors x ∧
    (old.train l k dist).predict x = (old'.train l' k dist).predict x ∧
    ((old.train l k dist).predictProbability x : Res (OMap F)) = (old'.train l' k dist).predictProbability x := by
  have hsub : ∀ (l : IList F), ∀ y ∈ candidates l x, y ∈ l := by
    intro l y hy
    rw [candidates_eq] at hy
    exact (List.mem_filter.1 hy).1
  have main : ∀ (old : Knn F) (l : IList F), (∀ y ∈ l, dist y x = .ok (d y)) → (∀ y ∈ l, Dbl.Ord (d y)) →
      k ≤ ((l.filter (fun y => d y <=. r)).filter (fun y => !x.isComposite || decide (y.label ∈ x.possibleLabels))).length →
      (old.train l k dist).nearestNeighbors x =
        .ok ((stableSort (fun a b => d a <. d b) ((l.filter (fun y => d y <=. r)).filter
          (fun y => !x.isComposite || decide (y.label ∈ x.possibleLabels)))).take k.toNat) := by
    intro old l hd hord hk
    rw [nearest_eq (old.train l k dist) x d (fun y hy => hd y (hsub l y hy))]
    have e1 : ((l.filter (fun y => d y <=. r)).filter
        (fun y => !x.isComposite || decide (y.label ∈ x.possibleLabels))) = (candidates l x).filter (fun y => d y <=. r) := by
      rw [candidates_eq, List.filter_filter, List.filter_filter]
      apply List.filter_congr
      intro y _
      rw [Bool.and_comm]; rfl
    rw [e1] at hk ⊢
    have hk' : (old.train l k dist).k = k := rfl
    have hdata : (old.train l k dist).data = l := rfl
    rw [hk', hdata]
    have hordC : ∀ y ∈ candidates l x, Dbl.Ord (d y) := fun y hy => hord y (hsub l y hy)
    have hp := stableSort_perm (fun a b => d a <. d b) (candidates l x)
    have hs := stableSort_sorted (strictWeak_key d) (l := candidates l x) hordC
    rw [stableSort_filter (strictWeak_key d) (fun y => d y <=. r) _ hordC]
    congr 1
    apply take_filter_sorted
    · refine hs.imp_of_mem ?_
      intro a b ha hb h hbr
      exact LawfulOrd.le_trans _ _ _ ((not_lt_iff_le (hordC _ (hp.mem_iff.1 ha)) (hordC _ (hp.mem_iff.1 hb))).1 h) hbr
    · rw [← stableSort_filter (strictWeak_key d) (fun y => d y <=. r) _ hordC, (stableSort_perm _ _).length_eq]
      omega
  have h1 := main old l (fun y hy => hd y (by simp [hy])) (fun y hy => hord y (by simp [hy])) hk
  have h2 := main old' l' (fun y hy => hd y (by simp [hy])) (fun y hy => hord y (by simp [hy])) (by rw [← hnear]; exact hk)
  rw [← hnear] at h2
  refine ⟨by rw [h1, h2], ?_, ?_⟩
  · unfold Knn.predict; rw [h1, h2]
  · unfold Knn.predictProbability; rw [h1, h2]

/-- **C218.** In particular a training instance farther away than the `k` neighbours can be added anywhere, or removed. -/
theorem C218_far_instance [LawfulOrd F] {a b : IList F} {w : Inst F} (k : Int) (dist : Inst F → Inst F → Res F)
    (old old' : Knn F) (x : Inst F) (d : Inst F → F) (hd : ∀ y ∈ w :: (a ++ b), dist y x = .ok (d y))
    (hord : ∀ y ∈ w :: (a ++ b), Dbl.Ord (d y)) {ns : IList F}
    (hns : (old.train (a ++ b) k dist).nearestNeighbors x = .ok ns) (hk : ns.length = k) (hfar : ∀ y ∈ ns, (d y <. d w) = true) :
    (old'.train (a ++ w :: b) k dist).nearestNeighbors x = .ok ns ∧
    (old'.train (a ++ w :: b) k dist).predict x = (old.train (a ++ b) k dist).predict x ∧
    ((old'.train (a ++ w :: b) k dist).predictProbability x : Res (OMap F)) =
      (old.train (a ++ b) k dist).predictProbability x := by
  have hsub : ∀ (l : IList F), ∀ y ∈ candidates l x, y ∈ l := by
    intro l y hy
    rw [candidates_eq] at hy
    exact (List.mem_filter.1 hy).1
  have hd' : ∀ y ∈ a ++ b, dist y x = .ok (d y) := fun y hy => hd y (by simp only [List.mem_cons]; exact .inr hy)
  have hord' : ∀ y ∈ a ++ b, Dbl.Ord (d y) := fun y hy => hord y (by simp only [List.mem_cons]; exact .inr hy)
  obtain ⟨ns', rest, e, hsort, _, _⟩ := C49_nearest (old.train (a ++ b) k dist) x d
    (fun y hy => hd' y (hsub _ y hy)) (fun y hy => hord' y (hsub _ y hy))
  rw [hns] at e
  cases e
  have hdata : (old.train (a ++ b) k dist).data = a ++ b := rfl
  rw [hdata] at hsort
  have hin : ∀ y ∈ ns, y ∈ candidates (a ++ b) x := fun y hy => hsort.perm.mem_iff.1 (by simp [hy])
  have hall : ∀ y ∈ a ++ b ++ (a ++ w :: b), y ∈ w :: (a ++ b) := by
    intro y hy
    simp only [List.mem_append, List.mem_cons] at hy ⊢
    tauto
  cases hlast : ns.getLast? with
  | none =>
    rw [List.getLast?_eq_none_iff] at hlast
    subst hlast
    have h0 : k.toNat = 0 := by simp at hk; omega
    have e2 : (old'.train (a ++ w :: b) k dist).nearestNeighbors x = .ok [] := by
      rw [nearest_eq (old'.train (a ++ w :: b) k dist) x d (fun y hy => hd y (hall y (by
        exact List.mem_append_right _ (hsub _ y hy))))]
      have : (old'.train (a ++ w :: b) k dist).k = k := rfl
      rw [this, h0]; rfl
    refine ⟨e2, ?_, ?_⟩
    · unfold Knn.predict; rw [e2, hns]
    · unfold Knn.predictProbability; rw [e2, hns]
  | some q =>
    obtain ⟨init, hinit⟩ : ∃ init, ns = init ++ [q] := by
      obtain ⟨hne, hq⟩ := List.getLast?_eq_some_iff.1 hlast
      exact ⟨hne, hq⟩
    have hqin : q ∈ ns := by rw [hinit]; simp
    have hle : ∀ y ∈ ns, (d y <=. d q) = true := by
      intro y hy
      have hs := (List.pairwise_append.1 hsort.sorted).1
      rw [hinit] at hs hy
      rcases List.mem_append.1 hy with hy | hy
      · exact (List.pairwise_append.1 hs).2.2 y hy q (by simp)
      · rw [List.mem_singleton.1 hy]
        rcases LawfulOrd.total (d q) (d q) (hord' q (hsub _ q (hin q hqin))) (hord' q (hsub _ q (hin q hqin))) with h | h <;> exact h
    have hw : (d w <=. d q) = false := by
      have := (LawfulOrd.lt_iff _ _).1 (hfar q hqin)
      simpa using this.2
    have hlen : (ns.length : Int) ≤ (((a ++ b).filter (fun y => d y <=. d q)).filter
        (fun y => !x.isComposite || decide (y.label ∈ x.possibleLabels))).length := by
      have e1 : ((a ++ b).filter (fun y => d y <=. d q)).filter
          (fun y => !x.isComposite || decide (y.label ∈ x.possibleLabels)) =
          (candidates (a ++ b) x).filter (fun y => d y <=. d q) := by
        rw [candidates_eq, List.filter_filter, List.filter_filter]
        apply List.filter_congr
        intro y _
        rw [Bool.and_comm]; rfl
      rw [e1, ← (hsort.perm.filter _).length_eq, List.filter_append, List.filter_eq_self.2 hle, List.length_append]
      omega
    have := C218_only_near (l := a ++ b) (l' := a ++ w :: b) k dist old old' x d (fun y hy => hd y (hall y hy))
      (fun y hy => hord y (hall y hy)) (d q)
      (by rw [List.filter_append, List.filter_append, List.filter_cons_of_neg (by simp [hw])]) (by rw [← hk]; exact hlen)
    exact ⟨by rw [← this.1]; exact hns, this.2.1.symm, this.2.2.symm⟩

/-! ## a case -/

/-- ages at which two products are bought -/
def buyers : IList XR :=
  [⟨"tea", [.continuous (.fin 30)], none⟩, ⟨"tea", [.continuous (.fin 34)], none⟩, ⟨"juice", [.continuous (.fin 10)], none⟩]

/-- with two neighbours somebody of 33 is not concerned by a buyer of 99 -/
example : ((⟨[], 0, euclidean⟩ : Knn XR).train
      ([⟨"tea", [.continuous (.fin 30)], none⟩] ++ ⟨"rum", [.continuous (.fin 99)], none⟩ ::
        [⟨"tea", [.continuous (.fin 34)], none⟩, ⟨"juice", [.continuous (.fin 10)], none⟩]) 2 euclidean).predict
      ⟨"", [.continuous (.fin 33)], none⟩ =
    ((⟨[], 0, euclidean⟩ : Knn XR).train buyers 2 euclidean).predict ⟨"", [.continuous (.fin 33)], none⟩ := by
  refine (C218_far_instance (F := XR) (a := [⟨"tea", [.continuous (.fin 30)], none⟩])
    (b := [⟨"tea", [.continuous (.fin 34)], none⟩, ⟨"juice", [.continuous (.fin 10)], none⟩])
    (ns := [⟨"tea", [.continuous (.fin 34)], none⟩, ⟨"tea", [.continuous (.fin 30)], none⟩]) 2 euclidean ⟨[], 0, euclidean⟩
    ⟨[], 0, euclidean⟩ _ (fun y => match y.attrs with | [.continuous v] => Dbl.ofInt 0 +. Dbl.pow (v -. .fin 33) 2 | _ => .fin 0)
    ?_ ?_ ?_ rfl ?_).2.1
  · intro y hy
    simp only [List.cons_append, List.nil_append, List.mem_cons, List.not_mem_nil, or_false] at hy
    rcases hy with rfl | rfl | rfl | rfl <;> rfl
  · intro y hy
    simp only [List.cons_append, List.nil_append, List.mem_cons, List.not_mem_nil, or_false] at hy
    rcases hy with rfl | rfl | rfl | rfl <;> (unfold Dbl.Ord; decide +kernel)
  · decide +kernel
  · intro y hy
    simp only [List.mem_cons, List.not_mem_nil, or_false] at hy
    rcases hy with rfl | rfl <;> decide +kernel

end Verif
