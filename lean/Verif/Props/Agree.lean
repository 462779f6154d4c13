import Verif.Props.Knn
import Verif.Props.TreePrune
import Verif.Model.DblXR

/-! # Property C181: agreeing evidence does not change an answer -/

set_option linter.unusedSectionVars false

namespace Verif
open Dbl

variable {F : Type} [Dbl F]

/-- a majority stays one if it gains and the others do not -/
theorem IsMajority.stays {l l' : List String} {c : String} (h : IsMajority l c) (hc : l.count c ≤ l'.count c)
    (ho : ∀ s, s ≠ c → l'.count s ≤ l.count s) : IsMajority l' c := by
  have pos : 0 < l.count c := List.count_pos_iff.2 h.mem
  refine ⟨List.count_pos_iff.1 (by omega), fun s => ?_, fun s hs he => ?_⟩
  · by_cases e : s = c
    · rw [e]
    · have := ho s e; have := h.max s; omega
  · by_cases e : s = c
    · rw [e]
    · have h1 := ho s e
      have h2 := h.max s
      have h3 : 0 < l'.count s := List.count_pos_iff.2 hs
      exact h.tie s (List.count_pos_iff.1 (by omega)) (by omega)

/-- inserting before an element of a sorted list keeps the element's absence irrelevant -/
theorem insertBy_extra {α : Type} {S : α → Prop} {lt : α → α → Bool} (h : StrictWeakOn S lt) {x y : α} (hx : S x) (hy : S y) :
    ∀ (s1 s2 : List α), (∀ z ∈ s1 ++ s2, S z) → (s1 ++ y :: s2).Pairwise (fun a b => lt b a = false) →
    ∃ t1 t2, insertBy lt x (s1 ++ s2) = t1 ++ t2 ∧ insertBy lt x (s1 ++ y :: s2) = t1 ++ y :: t2 := by
  intro s1
  induction s1 with
  | nil =>
    intro s2 hS hs
    simp only [List.nil_append] at hS hs ⊢
    by_cases hyx : lt y x = true
    · refine ⟨[], insertBy lt x s2, rfl, ?_⟩
      rw [insertBy, if_pos hyx]; rfl
    · have hyx' : lt y x = false := by simpa using hyx
      refine ⟨[x], s2, ?_, ?_⟩
      · cases s2 with
        | nil => rfl
        | cons z s2 =>
          have hzy : lt z y = false := (List.pairwise_cons.1 hs).1 z (by simp)
          have hzx : lt z x = false := h.negtrans x y z hx hy (hS z (by simp)) hyx' hzy
          rw [insertBy, if_neg (by simp [hzx])]; rfl
      · rw [insertBy, if_neg hyx]; rfl
  | cons a s1 ih =>
    intro s2 hS hs
    simp only [List.cons_append] at hS hs ⊢
    by_cases hax : lt a x = true
    · obtain ⟨t1, t2, e1, e2⟩ := ih s2 (fun z hz => hS z (by simp [hz])) (List.pairwise_cons.1 hs).2
      refine ⟨a :: t1, t2, ?_, ?_⟩
      · rw [insertBy, if_pos hax, e1]; rfl
      · rw [insertBy, if_pos hax, e2]; rfl
    · refine ⟨x :: a :: s1, s2, ?_, ?_⟩
      · rw [insertBy, if_neg hax]; rfl
      · rw [insertBy, if_neg hax]; rfl

/-- sorting with one more element: the others stay in the same order -/
theorem stableSort_extra {α : Type} {S : α → Prop} {lt : α → α → Bool} (h : StrictWeakOn S lt) {y : α} (hy : S y) :
    ∀ (a b : List α), (∀ z ∈ a ++ b, S z) →
    ∃ t1 t2, stableSort lt (a ++ b) = t1 ++ t2 ∧ stableSort lt (a ++ y :: b) = t1 ++ y :: t2 := by
  intro a
  induction a with
  | nil =>
    intro b _
    show ∃ t1 t2, stableSort lt b = t1 ++ t2 ∧ insertBy lt y (stableSort lt b) = t1 ++ y :: t2
    generalize stableSort lt b = s
    induction s with
    | nil => exact ⟨[], [], rfl, rfl⟩
    | cons z s ih =>
      by_cases hz : lt z y = true
      · obtain ⟨t1, t2, e1, e2⟩ := ih
        exact ⟨z :: t1, t2, by rw [e1]; rfl, by rw [insertBy, if_pos hz, e2]; rfl⟩
      · exact ⟨[], z :: s, rfl, by rw [insertBy, if_neg hz]; rfl⟩
  | cons x a ih =>
    intro b hS
    obtain ⟨t1, t2, e1, e2⟩ := ih b (fun z hz => hS z (by simp only [List.cons_append, List.mem_cons]; exact Or.inr hz))
    have hx : S x := hS x (by simp)
    have hall : ∀ z ∈ a ++ y :: b, S z := by
      intro z hz
      rw [List.mem_append, List.mem_cons] at hz
      rcases hz with hz | rfl | hz
      · exact hS z (by simp [hz])
      · exact hy
      · exact hS z (by simp [hz])
    have hs := stableSort_sorted h hall
    rw [e2] at hs
    have hmem : ∀ z ∈ t1 ++ t2, S z := by
      intro z hz
      rw [← e1] at hz
      have := (stableSort_perm lt (a ++ b)).mem_iff.1 hz
      exact hS z (by simp only [List.cons_append, List.mem_cons]; exact Or.inr this)
    obtain ⟨u1, u2, f1, f2⟩ := insertBy_extra h hx hy t1 t2 hmem hs
    refine ⟨u1, u2, ?_, ?_⟩
    · show insertBy lt x (stableSort lt (a ++ b)) = _
      rw [e1, f1]
    · show insertBy lt x (stableSort lt (a ++ y :: b)) = _
      rw [e2, f2]

/-- the first `k` of a list with one more element: the same, or the extra one instead of the last -/
theorem take_extra {α : Type} (t1 t2 : List α) (y : α) (k : Nat) :
    (t1 ++ y :: t2).take k = (t1 ++ t2).take k ∨
    ∃ s1 s2, (t1 ++ y :: t2).take k = s1 ++ y :: s2 ∧ (s1 ++ s2 = (t1 ++ t2).take k ∨ ∃ z, s1 ++ s2 ++ [z] = (t1 ++ t2).take k) := by
  by_cases hk : k ≤ t1.length
  · left
    rw [List.take_append_of_le_length hk, List.take_append_of_le_length hk]
  · right
    have hk' : t1.length < k := not_le.1 hk
    obtain ⟨j, rfl⟩ : ∃ j, k = t1.length + (j + 1) := ⟨k - t1.length - 1, by omega⟩
    refine ⟨t1, t2.take j, ?_, ?_⟩
    · rw [List.take_length_add_append, List.take_succ_cons]
    · rw [List.take_length_add_append]
      by_cases hj : j < t2.length
      · right
        exact ⟨t2[j], by rw [List.append_assoc, List.take_append_getElem hj]⟩
      · left
        rw [List.take_of_length_le (by omega), List.take_of_length_le (by omega)]

/-- **C181.** Nearest neighbours: one more training instance, at any place of the list and at any distance, whose
class is the one predicted so far, does not change the prediction. -/
theorem C181_neighbours [LawfulOrd F] (a b : IList F) (y : Inst F) (k : Int) (hk : 1 ≤ k) (dist : Inst F → Inst F → Res F)
    (x : Inst F) (d : Inst F → F) (hd : ∀ z ∈ a ++ y :: b, dist z x = .ok (d z)) (hord : ∀ z ∈ a ++ y :: b, Dbl.Ord (d z))
    (c : String) (hc : (⟨a ++ b, k, dist⟩ : Knn F).predict x = .ok c)
    (hy : y.label = c) :
    (⟨a ++ y :: b, k, dist⟩ : Knn F).predict x = .ok c := by
  have sub : ∀ z ∈ a ++ b, z ∈ a ++ y :: b := by
    intro z hz
    rw [List.mem_append] at hz ⊢
    rcases hz with hz | hz
    · exact Or.inl hz
    · exact Or.inr (List.mem_cons_of_mem _ hz)
  have cm : ∀ (l : IList F), ∀ z ∈ candidates l x, z ∈ l := by
    intro l z hz
    rw [candidates_eq] at hz
    exact (List.mem_filter.1 hz).1
  set m : Knn F := ⟨a ++ b, k, dist⟩ with hm
  set m' : Knn F := ⟨a ++ y :: b, k, dist⟩ with hm'
  have n1 := nearest_eq m x d (fun z hz => hd z (sub z (cm _ z hz)))
  have n2 := nearest_eq m' x d (fun z hz => hd z (cm _ z hz))
  obtain ⟨v1, v2⟩ := C50_vote m x _ n1
  obtain ⟨w1, w2⟩ := C50_vote m' x _ n2
  by_cases he : Knn.eligible x y = true
  · -- the new instance may vote
    have c1 : candidates (a ++ b) x = candidates a x ++ candidates b x := by simp only [candidates_eq, List.filter_append]
    have c2 : candidates (a ++ y :: b) x = candidates a x ++ y :: candidates b x := by
      simp only [candidates_eq, List.filter_append, List.filter_cons_of_pos he]
    obtain ⟨t1, t2, e1, e2⟩ := stableSort_extra (strictWeak_key d) (S := fun z => Dbl.Ord (d z)) (y := y) (hord y (by simp))
      (candidates a x) (candidates b x) (by
        intro z hz
        rw [← c1] at hz
        exact hord z (sub z (cm _ z hz)))
    have hkn : 1 ≤ k.toNat := by omega
    have hne2 : (stableSort (fun a b => d a <. d b) (candidates m'.data x)).take m'.k.toNat ≠ [] := by
      show (stableSort _ (candidates (a ++ y :: b) x)).take k.toNat ≠ []
      rw [c2, e2]
      intro h0
      have := congrArg List.length h0
      rw [List.length_take] at this
      simp at this
      omega
    obtain ⟨c', p1, p2⟩ := w1 hne2
    rw [p1]
    congr 1
    by_cases hne1 : (stableSort (fun a b => d a <. d b) (candidates m.data x)).take m.k.toNat = []
    · -- nobody voted before
      have hempty : candidates a x ++ candidates b x = [] := by
        have : (stableSort (fun a b => d a <. d b) (candidates (a ++ b) x)).take k.toNat = [] := hne1
        rw [List.take_eq_nil_iff] at this
        rcases this with h0 | h0
        · omega
        · rw [← c1]
          have hpm := stableSort_perm (fun a b => d a <. d b) (candidates (a ++ b) x)
          rw [h0] at hpm
          exact List.nil_perm.1 hpm
      have ht : t1 = [] ∧ t2 = [] := by
        rw [hempty] at e1
        have : stableSort (fun a b => d a <. d b) ([] : IList F) = [] := rfl
        rw [this] at e1
        simpa using e1.symm
      have hls : (stableSort (fun a b => d a <. d b) (candidates m'.data x)).take m'.k.toNat = [y] := by
        show (stableSort _ (candidates (a ++ y :: b) x)).take k.toNat = [y]
        rw [c2, e2, ht.1, ht.2]
        exact List.take_of_length_le (by simpa using hkn)
      rw [hls] at p2
      have := p2.mem
      simp at this
      rw [this, hy]
    · obtain ⟨c0, q1, q2⟩ := v1 hne1
      rw [hc] at q1
      have hcc : c = c0 := by injection q1
      subst hcc
      refine p2.unique (q2.stays ?_ ?_)
      · show List.count c (((stableSort _ (candidates (a ++ b) x)).take k.toNat).map Inst.label) ≤
          List.count c (((stableSort _ (candidates (a ++ y :: b) x)).take k.toNat).map Inst.label)
        rw [c1, c2, e1, e2]
        rcases take_extra t1 t2 y k.toNat with h | ⟨s1, s2, h, h' | ⟨z, h'⟩⟩
        · rw [h]
        · rw [h, ← h']; simp [hy]
        · rw [h, ← h']
          simp only [List.map_append, List.map_cons, List.map_nil, List.count_append, List.count_cons, List.count_nil, hy]
          split <;> simp
      · intro s hs
        show List.count s (((stableSort _ (candidates (a ++ y :: b) x)).take k.toNat).map Inst.label) ≤
          List.count s (((stableSort _ (candidates (a ++ b) x)).take k.toNat).map Inst.label)
        rw [c1, c2, e1, e2]
        have hys : ¬ (y.label == s) = true := by rw [hy]; simpa using fun e => hs e.symm
        rcases take_extra t1 t2 y k.toNat with h | ⟨s1, s2, h, h' | ⟨z, h'⟩⟩
        · rw [h]
        · rw [h, ← h']
          simp only [List.map_append, List.map_cons, List.count_append, List.count_cons, if_neg hys]
          omega
        · rw [h, ← h']
          simp only [List.map_append, List.map_cons, List.map_nil, List.count_append, List.count_cons, List.count_nil, if_neg hys]
          omega
  · -- it may not
    have c2 : candidates (a ++ y :: b) x = candidates (a ++ b) x := by
      simp only [candidates_eq, List.filter_append, List.filter_cons_of_neg he]
    have : m'.nearestNeighbors x = m.nearestNeighbors x := by
      rw [n1, n2]
      show Except.ok ((stableSort _ (candidates (a ++ y :: b) x)).take k.toNat) = _
      rw [c2]
    unfold Knn.predict at hc ⊢
    rw [this]; exact hc

theorem IsFirstMax.unique {w : String → Nat} {l : List String} {r s : String} (hr : IsFirstMax w l r) (hs : IsFirstMax w l s) :
    r = s := by
  obtain ⟨l1, l2, e, f1, f2⟩ := hr.split
  obtain ⟨k1, k2, e', g1, g2⟩ := hs.split
  rw [e] at e'
  rcases List.append_eq_append_iff.1 e' with ⟨m, h1, h2⟩ | ⟨m, h1, h2⟩
  · cases m with
    | nil => simp at h2; exact h2.1
    | cons z m =>
      simp only [List.cons_append, List.cons.injEq] at h2
      have a1 : w r < w s := g1 r (by rw [h1, h2.1]; simp)
      have a2 : w s ≤ w r := f2 s (by rw [h2.2]; simp)
      omega
  · cases m with
    | nil => simp at h2; exact h2.1.symm
    | cons z m =>
      simp only [List.cons_append, List.cons.injEq] at h2
      have a1 : w s < w r := f1 s (by rw [h1, h2.1]; simp)
      have a2 : w r ≤ w s := g2 r (by rw [h2.2]; simp)
      omega

/-- **C181.** The dummy classifier, plain and composite instances. -/
theorem C181_dummy (train : IList F) (hne : train ≠ []) (x y : Inst F) (hp : x.isComposite = true → x.possibleLabels ≠ [])
    (hy : y.label = dummyPredict train.classDistribution x) :
    dummyPredict (train.add y).classDistribution x = dummyPredict train.classDistribution x := by
  have hl : (train.add y).map Inst.label = train.map Inst.label ++ [y.label] := by simp [IList.add]
  cases hx : x.isComposite with
  | false =>
    have h1 := C46_plain train x hne hx
    have h2 := C46_plain (train.add y) x (by simp [IList.add]) hx
    refine h2.unique (h1.stays ?_ ?_)
    · rw [hl, List.count_append]; omega
    · intro s hs
      rw [hl, List.count_append, List.count_singleton, if_neg (by rw [hy]; simpa using fun e => hs e.symm)]
      omega
  | true =>
    have h1 := C46_composite train x hx (hp hx)
    have h2 := C46_composite (train.add y) x hx (hp hx)
    rw [hl] at h2
    refine h2.unique ?_
    obtain ⟨l1, l2, e, f1, f2⟩ := h1.split
    have grow : ∀ s, s ≠ y.label → (train.map Inst.label ++ [y.label]).count s = (train.map Inst.label).count s := by
      intro s hs
      rw [List.count_append, List.count_singleton, if_neg (by simpa using fun e => hs e.symm)]
      omega
    have up : (train.map Inst.label).count y.label ≤ (train.map Inst.label ++ [y.label]).count y.label := by
      rw [List.count_append]; omega
    rw [hy] at grow up
    refine ⟨l1, l2, e, fun s hs => ?_, fun s hs => ?_⟩
    · have h3 := f1 s hs
      have hne' : s ≠ dummyPredict train.classDistribution x := by rintro rfl; omega
      simp only [hy] at grow up ⊢
      rw [grow s hne']
      omega
    · have h3 := f2 s hs
      by_cases hs' : s = dummyPredict train.classDistribution x
      · rw [hs']
      · simp only [hy] at grow up ⊢
        rw [grow s hs']
        omega

theorem votes_defined {x : Inst F} : ∀ (forest : List (Node F)) (d d' : DD),
    forest.foldlM (fun d t => do
      let p ← treePredict t x
      pure (d.addItem p)) d = (.ok d' : Res DD) → ∀ t ∈ forest, ∃ c, treePredict t x = .ok c := by
  intro forest
  induction forest with
  | nil => intro d d' _ t ht; cases ht
  | cons u forest ih =>
    intro d d' h t ht
    rw [List.foldlM_cons, bind_ok_iff] at h
    obtain ⟨d1, h1, h2⟩ := h
    rw [bind_ok_iff] at h1
    obtain ⟨c, h1, -⟩ := h1
    rw [List.mem_cons] at ht
    rcases ht with rfl | ht
    · exact ⟨c, h1⟩
    · exact ih _ _ h2 t ht

/-- **C181.** Ensembles: one more tree that votes for the class predicted so far does not change the prediction. -/
theorem C181_ensembles (forest : List (Node F)) (hne : forest ≠ []) (t : Node F) (x : Inst F) (c : String)
    (hc : ensemblePredict forest x = .ok c) (ht : treePredict t x = .ok c) :
    ensemblePredict (forest ++ [t]) x = .ok c := by
  have hdef : ∀ u ∈ forest, ∃ c, treePredict u x = .ok c := by
    unfold ensemblePredict at hc
    rw [bind_ok_iff] at hc
    obtain ⟨d, h, -⟩ := hc
    exact votes_defined forest _ d h
  set p : Node F → String := fun u => ((treePredict u x).toOption).getD "" with hpdef
  have hp : ∀ u ∈ forest ++ [t], treePredict u x = .ok (p u) := by
    intro u hu
    have : ∃ c, treePredict u x = .ok c := by
      rw [List.mem_append, List.mem_singleton] at hu
      rcases hu with hu | rfl
      · exact hdef u hu
      · exact ⟨c, ht⟩
    obtain ⟨c', h⟩ := this
    rw [h, hpdef]
    simp only [h]
    rfl
  obtain ⟨s1, a1, b1⟩ := C64_majority_vote hne (fun u hu => hp u (List.mem_append_left _ hu))
  obtain ⟨s2, a2, b2⟩ := C64_majority_vote (forest := forest ++ [t]) (by simp) hp
  have e1 : s1 = c := by rw [a1] at hc; injection hc
  have e2 : p t = c := by
    have := hp t (by simp)
    rw [ht] at this
    injection this with h; exact h.symm
  subst e1
  rw [a2]
  congr 1
  refine b2.unique (b1.stays ?_ ?_)
  · rw [List.map_append, List.count_append]; omega
  · intro s hs
    rw [List.map_append, List.count_append, List.map_singleton, e2, List.count_singleton, if_neg (by simpa using fun e => hs e.symm)]
    omega

/-! ## concrete cases -/

/-- two of three neighbours say "a"; a fourth, far away, does not matter, and one that is nearest displaces a neighbour -/
example :
    let near : List (Inst XR) := [⟨"a", [.continuous (.fin 1)], none⟩, ⟨"b", [.continuous (.fin 2)], none⟩, ⟨"a", [.continuous (.fin 3)], none⟩,
      ⟨"b", [.continuous (.fin 4)], none⟩]
    let q : Inst XR := ⟨"?", [.continuous (.fin 0)], none⟩
    (⟨near, 3, euclidean⟩ : Knn XR).predict q = .ok "a" ∧
    (⟨near ++ [⟨"a", [.continuous (.fin 0)], none⟩], 3, euclidean⟩ : Knn XR).nearestNeighbors q =
      .ok [⟨"a", [.continuous (.fin 0)], none⟩, ⟨"a", [.continuous (.fin 1)], none⟩, ⟨"b", [.continuous (.fin 2)], none⟩] ∧
    (⟨near ++ [⟨"a", [.continuous (.fin 0)], none⟩], 3, euclidean⟩ : Knn XR).predict q = .ok "a" := by decide +kernel

/-- the dummy classifier on a tie -/
example : dummyPredict (IList.classDistribution ([⟨"b", [], none⟩, ⟨"a", [], none⟩] : IList XR)) (⟨"?", [], none⟩ : Inst XR) = "a" ∧
    dummyPredict (IList.classDistribution ([⟨"b", [], none⟩, ⟨"a", [], none⟩, ⟨"a", [], none⟩] : IList XR)) (⟨"?", [], none⟩ : Inst XR) = "a" := by
  decide +kernel

end Verif
