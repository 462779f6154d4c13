import Verif.Props.Agree
import Verif.Props.TreeProb
import Verif.Props.NeuralNetwork
import Verif.Model.SoftTree
import Verif.Model.Svm
import Verif.Props.SingleClass

/-!
# Possible classes (C192) and ruling out classes (C193)
-/

namespace Verif
open Dbl

/-- the same instance, asked about with the possible classes `S` (a `CompositeInstance` with the same attributes) -/
def asked {F : Type} (x : Inst F) (S : List String) : Inst F := { x with possible := some S }

@[simp] theorem asked_possibleLabels {F : Type} (x : Inst F) (S : List String) : (asked x S).possibleLabels = S := rfl
@[simp] theorem asked_isComposite {F : Type} (x : Inst F) (S : List String) : (asked x S).isComposite = true := rfl

section
variable {F : Type} [Dbl F]

/-! ## C192 -/

/-- **C192** refuted for the support vector machine: it gives every composite instance the answer it gives to the plain one,
possible or not -/
theorem C192_svm_refuted (m : Svm F) (x : Inst F) (c : String) (h : m.predict x = .ok c) (S : List String) (hc : c ∉ S) :
    ∃ r, m.predict (asked x S) = .ok r ∧ r ∉ S := ⟨c, h, hc⟩

theorem calcOutput_asked (S : List String) (x : Inst F) (n : SoftNode F) : calcOutput (asked x S) n = calcOutput x n := by
  induction n with
  | leaf d => rfl
  | split d l r ihl ihr => unfold calcOutput; rw [ihl, ihr]; rfl

theorem softPredict_asked (t : SoftTree F) (x : Inst F) (S : List String) : softPredict t (asked x S) = softPredict t x := by
  unfold softPredict; rw [calcOutput_asked]

/-- **C192** refuted for the soft decision tree in the same way -/
theorem C192_soft_tree_refuted (t : SoftTree F) (x : Inst F) (c : String) (h : softPredict t x = .ok c) (S : List String)
    (hc : c ∉ S) : ∃ r, softPredict t (asked x S) = .ok r ∧ r ∉ S := ⟨c, by rw [softPredict_asked]; exact h, hc⟩

theorem gaussStep_mem (prior : DD) (metric : String → Res F) (S : List String) : ∀ (l : List String) (b r : String × F),
    b.1 ∈ S → (∀ c ∈ l, c ∈ S) → l.foldlM (gaussStep prior metric) b = .ok r → r.1 ∈ S := by
  intro l
  induction l with
  | nil => intro b r hb _ h; cases h; exact hb
  | cons c l ih =>
    intro b r hb hl h
    rw [List.foldlM_cons] at h
    obtain ⟨b', h1, h2⟩ := bind_ok_iff.1 h
    refine ih b' r ?_ (fun c hc => hl c (by simp [hc])) h2
    unfold gaussStep at h1
    split at h1
    · obtain ⟨v, _, h1⟩ := bind_ok_iff.1 h1
      cases h1
      split
      · exact hl c (by simp)
      · exact hb
    · cases h1; exact hb

theorem compositeStep_mem (S : List String) (y : List F) : ∀ (l : List (String × Nat)) (b r : String × F),
    b.1 ∈ S → l.foldlM (compositeStep S y) b = .ok r → r.1 ∈ S := by
  intro l
  induction l with
  | nil => intro b r hb h; cases h; exact hb
  | cons c l ih =>
    intro b r hb h
    rw [List.foldlM_cons] at h
    obtain ⟨b', h1, h2⟩ := bind_ok_iff.1 h
    refine ih b' r ?_ h2
    unfold compositeStep at h1
    split at h1
    · obtain ⟨v, _, h1⟩ := bind_ok_iff.1 h1
      cases h1
      split
      · assumption
      · exact hb
    · cases h1; exact hb

theorem ensembleVotes_inv (x : Inst F) : ∀ (forest : List (Node F)) (d0 d : DD),
    forest.foldlM (fun d t => do
      let p ← treePredict t x
      pure (d.addItem p)) d0 = (.ok d : Res DD) → ∃ p : Node F → String, ∀ t ∈ forest, treePredict t x = .ok (p t) := by
  intro forest d0 d h
  have hall : ∀ t ∈ forest, ∃ s, treePredict t x = .ok s := by
    induction forest generalizing d0 with
    | nil => intro t ht; cases ht
    | cons a forest ih =>
      rw [List.foldlM_cons] at h
      obtain ⟨d1, h1, h2⟩ := bind_ok_iff.1 h
      obtain ⟨s, hs, _⟩ := bind_ok_iff.1 h1
      intro t ht
      rcases List.mem_cons.1 ht with rfl | ht
      · exact ⟨s, hs⟩
      · exact ih d1 h2 t ht
  refine ⟨fun t => (treePredict t x).toOption.getD "", fun t ht => ?_⟩
  obtain ⟨s, hs⟩ := hall t ht
  simp [hs, Except.toOption]

/-- **C192** what does hold: the other classifiers, in every state, with any numbers, answer with a possible class whenever
they answer (an ensemble: if it has a tree) -/
theorem C192_possible_partial (x : Inst F) (hx : x.isComposite = true) (hne : x.possibleLabels ≠ []) :
    (∀ prior metric r, gaussPredict prior metric x = .ok r → r ∈ x.possibleLabels) ∧
    (∀ (m : Knn F) r, m.predict x = .ok r → r ∈ x.possibleLabels) ∧
    (∀ (n : Node F) r, treePredict n x = .ok r → r ∈ x.possibleLabels) ∧
    (∀ (forest : List (Node F)) r, forest ≠ [] → ensemblePredict forest x = .ok r → r ∈ x.possibleLabels) ∧
    (∀ labels output r, netPredict labels output x = .ok r → r ∈ x.possibleLabels) ∧
    (∀ d, dummyPredict d x ∈ x.possibleLabels) ∧
    (∀ labels k r, randomPredict labels k x = .ok r → r ∈ x.possibleLabels) := by
  refine ⟨?_, fun m r h => C50_possible m x hx hne r h, fun n r h => C63_composite_label hx hne h, ?_, ?_, ?_, ?_⟩
  · intro prior metric r h
    unfold gaussPredict gaussInit at h
    simp only [hx, if_true] at h
    obtain ⟨i, h1, h⟩ := bind_ok_iff.1 h
    obtain ⟨b, h2, h⟩ := bind_ok_iff.1 h
    cases h
    exact gaussStep_mem prior _ _ _ _ b (List.mem_of_getElem? (atR_eq_ok.1 h1)) (fun c hc => hc) h2
  · intro forest r hf h
    have h0 := h
    unfold ensemblePredict at h
    obtain ⟨d, h1, _⟩ := bind_ok_iff.1 h
    obtain ⟨p, hp⟩ := ensembleVotes_inv x forest _ d h1
    obtain ⟨s, h2, h3⟩ := C64_majority_vote hf hp
    rw [h2] at h0; cases h0
    obtain ⟨t, ht, rfl⟩ := List.mem_map.1 h3.mem
    exact C63_composite_label hx hne (hp t ht)
  · intro labels output r h
    unfold netPredict at h
    obtain ⟨v, _, h⟩ := bind_ok_iff.1 h
    obtain ⟨y, _, h⟩ := bind_ok_iff.1 h
    rw [if_pos hx] at h
    unfold predictWithComposite at h
    obtain ⟨f, h1, h⟩ := bind_ok_iff.1 h
    obtain ⟨b, h2, h⟩ := bind_ok_iff.1 h
    cases h
    exact compositeStep_mem _ y _ _ b (List.mem_of_getElem? (atR_eq_ok.1 h1)) h2
  · intro d
    unfold dummyPredict
    rw [if_pos hx]
    exact (getMaxItemOf_first d _ hne).mem
  · intro labels k r h
    unfold randomPredict at h
    simp only [hx, if_true] at h
    split at h
    · cases h
    · exact List.mem_of_getElem? (atR_eq_ok.1 h)

/-! ## C193 -/

/-- **C193**, nearest mean, naive Bayes, LDA, QDA: if the plain instance is answered `c` because of its score (some class
has a score above `-DBL_MAX`), then with any possible classes that include `c` the answer is `c` or a class whose score
ties with that of `c`. Scores may be NaN. -/
theorem C193_parametric_partial [LawfulOrd F] (prior : DD) (metric : Inst F → String → Res F) (x : Inst F)
    (hx : x.isComposite = false) (S : List String) (μ : String → F)
    (hμ : ∀ c ∈ prior.getItems, metric x c = .ok (μ c) ∧ metric (asked x S) c = .ok (μ c))
    (hp : ∃ c ∈ prior.getItems, (Dbl.neg (Dbl.maxVal : F) <. μ c) = true)
    (c : String) (hc : gaussPredict prior metric x = .ok c) (hS : c ∈ S) :
    c ∈ prior.getItems ∧ ∃ r ∈ S, gaussPredict prior metric (asked x S) = .ok r ∧
      (r = c ∨ (μ c <. μ r) = false ∧ (μ r <. μ c) = false) := by
  have hd1 : discCandidates prior x = prior.getItems := by
    unfold discCandidates
    cases h : x.possible with
    | none => rfl
    | some l => simp [Inst.isComposite, h] at hx
  have hd2 : discCandidates prior (asked x S) = S.filter (fun c => prior.getItems.contains c) := rfl
  -- the plain instance
  obtain ⟨b, hb, hcase⟩ := gauss_fold prior (metric x) μ prior.getItems (fun d hd _ => (hμ d hd).1)
    (prior.getMaxItem, Dbl.neg (Dbl.maxVal : F))
  have hf : prior.getItems.filter prior.containsItem = prior.getItems := by
    have := discCandidates_eq prior x
    rw [hx] at this
    simpa [hd1] using this
  have hcb : c = b.1 := by
    unfold gaussPredict gaussInit at hc
    simp only [hx, Bool.false_eq_true, if_false, res_pure, res_bind_ok, hb] at hc
    exact (Except.ok.inj hc).symm
  rw [hf] at hcase
  have hfacts : c ∈ prior.getItems ∧ (Dbl.neg (Dbl.maxVal : F) <. μ c) = true ∧ ∀ s ∈ prior.getItems, (μ c <. μ s) = false := by
    rcases hcase with ⟨_, h2⟩ | ⟨l1, q, l2, h1, h2, h3, h4, h5⟩
    · obtain ⟨d, hd, hlt⟩ := hp
      rw [h2 d hd] at hlt; cases hlt
    · have : c = q := by rw [hcb, h2]
      subst this
      refine ⟨by rw [h1]; simp, h3, ?_⟩
      intro s hs
      rw [h1] at hs
      rcases List.mem_append.1 hs with hs | hs
      · exact (h4 s hs).1
      · rcases List.mem_cons.1 hs with rfl | hs
        · exact lt_irrefl' _
        · exact h5 s hs
  obtain ⟨k1, k2, k3⟩ := hfacts
  refine ⟨k1, ?_⟩
  obtain ⟨r, hr, ha⟩ := C52_argmax prior metric (asked x S) μ (by
    intro d hd
    rw [hd2, List.mem_filter] at hd
    exact (hμ d (by simpa using hd.2)).2) ⟨c, by rw [hd2, List.mem_filter]; exact ⟨hS, by simpa using k1⟩, k2⟩
  obtain ⟨l1, l2, hsplit, _⟩ := ha.split
  have hrm : r ∈ discCandidates prior (asked x S) := by rw [hsplit]; simp
  rw [hd2, List.mem_filter] at hrm
  refine ⟨r, hrm.1, hr, Or.inr ⟨k3 r (by simpa using hrm.2), ha.max c ?_⟩⟩
  rw [hd2, List.mem_filter]; exact ⟨hS, by simpa using k1⟩

/-- **C193** for the predictions of the nearest mean, naive Bayes, LDA and QDA in any state -/
theorem C193_models_partial [LawfulOrd F] (x : Inst F) (hx : x.isComposite = false) (S : List String) (μ : String → F)
    (c : String) (hS : c ∈ S) :
    (∀ prior means, let m : KMeans F := ⟨prior, means, euclidean⟩
      (∀ c ∈ m.prior.getItems, m.metric x c = .ok (μ c)) → (∃ c ∈ m.prior.getItems, (Dbl.neg (Dbl.maxVal : F) <. μ c) = true) →
      m.predict x = .ok c → ∃ r ∈ S, m.predict (asked x S) = .ok r ∧ (r = c ∨ (μ c <. μ r) = false ∧ (μ r <. μ c) = false)) ∧
    (∀ m : NaiveBayes F,
      (∀ c ∈ m.prior.getItems, m.metric x c = .ok (μ c)) → (∃ c ∈ m.prior.getItems, (Dbl.neg (Dbl.maxVal : F) <. μ c) = true) →
      m.predict x = .ok c → ∃ r ∈ S, m.predict (asked x S) = .ok r ∧ (r = c ∨ (μ c <. μ r) = false ∧ (μ r <. μ c) = false)) ∧
    (∀ m : Lda F,
      (∀ c ∈ m.prior.getItems, m.metric x c = .ok (μ c)) → (∃ c ∈ m.prior.getItems, (Dbl.neg (Dbl.maxVal : F) <. μ c) = true) →
      m.predict x = .ok c → ∃ r ∈ S, m.predict (asked x S) = .ok r ∧ (r = c ∨ (μ c <. μ r) = false ∧ (μ r <. μ c) = false)) ∧
    (∀ m : Qda F,
      (∀ c ∈ m.prior.getItems, m.metric x c = .ok (μ c)) → (∃ c ∈ m.prior.getItems, (Dbl.neg (Dbl.maxVal : F) <. μ c) = true) →
      m.predict x = .ok c → ∃ r ∈ S, m.predict (asked x S) = .ok r ∧ (r = c ∨ (μ c <. μ r) = false ∧ (μ r <. μ c) = false)) := by
  refine ⟨fun prior means h1 h2 h3 => ?_, fun m h1 h2 h3 => ?_, fun m h1 h2 h3 => ?_, fun m h1 h2 h3 => ?_⟩
  · exact (C193_parametric_partial _ _ x hx S μ (fun d hd => ⟨h1 d hd, h1 d hd⟩) h2 c h3 hS).2
  · exact (C193_parametric_partial _ _ x hx S μ (fun d hd => ⟨h1 d hd, h1 d hd⟩) h2 c h3 hS).2
  · exact (C193_parametric_partial _ _ x hx S μ (fun d hd => ⟨h1 d hd, h1 d hd⟩) h2 c h3 hS).2
  · exact (C193_parametric_partial _ _ x hx S μ (fun d hd => ⟨h1 d hd, h1 d hd⟩) h2 c h3 hS).2

/-- **C193**, the dummy classifier: the answer stays or becomes a possible class just as frequent -/
theorem C193_dummy (train : IList F) (hne : train ≠ []) (x : Inst F) (hx : x.isComposite = false) (S : List String)
    (hS : dummyPredict train.classDistribution x ∈ S) :
    dummyPredict train.classDistribution (asked x S) ∈ S ∧
    (train.map Inst.label).count (dummyPredict train.classDistribution (asked x S)) =
      (train.map Inst.label).count (dummyPredict train.classDistribution x) := by
  have h1 := C46_plain train x hne hx
  have h2 := C46_composite train (asked x S) rfl (by
    rw [asked_possibleLabels]; rintro rfl; cases hS)
  exact ⟨h2.mem, le_antisymm (h1.max _) (h2.max _ hS)⟩

/-- **C193**, networks: the answer stays, if the outputs for the instance are numbers above `-DBL_MAX` -/
theorem C193_network [LawfulOrd F] (labels : List String) (output : List F → Res (List F)) (x : Inst F) (v y : List F)
    (hx : x.isComposite = false) (hv : inputVector x = .ok v) (hy : output v = .ok y) (hlen : y.length = labels.length)
    (hmax : Dbl.Ord (Dbl.neg (Dbl.maxVal : F))) (hb : ∀ a ∈ y, (Dbl.neg (Dbl.maxVal : F) <. a) = true)
    (c : String) (hc : netPredict labels output x = .ok c) (S : List String) (hS : c ∈ S) :
    netPredict labels output (asked x S) = .ok c := by
  have ho : ∀ a ∈ y, Dbl.Ord a := fun a ha => LawfulOrd.ord_right _ _ ((LawfulOrd.lt_iff _ _).1 (hb a ha)).1
  have hne : labels ≠ [] := by
    rintro rfl
    unfold netPredict at hc
    simp only [hv, hy, hx, res_bind_ok, Bool.false_eq_true, if_false] at hc
    cases y with
    | nil => cases hc
    | cons a l => simp at hlen
  obtain ⟨k, c1, u, h1, h2, h3, h4, h5⟩ := C76_plain labels output x v y hx hv hy hlen hne ho
  rw [h1] at hc; cases hc
  obtain ⟨p, ps, rfl⟩ : ∃ p ps, S = p :: ps := List.exists_cons_of_ne_nil (List.ne_nil_of_mem hS)
  obtain ⟨c2, g1, _, g3⟩ := C76_composite labels y p ps hlen hmax hb
  have hrun : netPredict labels output (asked x (p :: ps)) = .ok c2 := by
    unfold netPredict
    have e : inputVector (asked x (p :: ps)) = inputVector x := rfl
    rw [e, hv]
    simp only [res_bind_ok, hy, asked_isComposite, if_true, asked_possibleLabels, g1]
  rw [hrun]
  rcases g3 with ⟨hno, _⟩ | ⟨k2, w, g4, g5, g6, g7⟩
  · exact absurd hS (hno c (List.mem_of_getElem? h2))
  · have huw : (u <=. w) = true := g6 k c u h2 hS h3
    have hwu : (w <=. u) = true := h4 w (List.mem_of_getElem? g5)
    rcases Nat.lt_trichotomy k k2 with hlt | rfl | hlt
    · have := g7 k c u hlt h2 hS h3
      exact absurd hwu ((LawfulOrd.lt_iff _ _).1 this).2
    · rw [h2] at g4; cases g4; rfl
    · have := h5 k2 w hlt g5
      exact absurd huw ((LawfulOrd.lt_iff _ _).1 this).2

/-- **C193**, support vector machine and soft decision tree: the possible classes are ignored -/
theorem C193_ignored (x : Inst F) (S : List String) :
    (∀ m : Svm F, m.predict (asked x S) = m.predict x) ∧ (∀ t : SoftTree F, softPredict t (asked x S) = softPredict t x) :=
  ⟨fun _ => rfl, fun t => softPredict_asked t x S⟩

/-! ### neighbours -/

theorem insertBy_filter {α : Type} {P : α → Prop} {lt : α → α → Bool} (h : StrictWeakOn P lt) (p : α → Bool) {x : α} (hx : P x) :
    ∀ s : List α, (∀ z ∈ s, P z) → s.Pairwise (fun a b => lt b a = false) →
    (insertBy lt x s).filter p = if p x then insertBy lt x (s.filter p) else s.filter p := by
  intro s
  induction s with
  | nil => intro _ _; by_cases hp : p x = true <;> simp [insertBy, hp]
  | cons b s ih =>
    intro hP hs
    have ih' := ih (fun z hz => hP z (by simp [hz])) (List.pairwise_cons.1 hs).2
    rw [insertBy]
    by_cases hlt : lt b x = true
    · rw [if_pos hlt]
      by_cases hb : p b = true
      · rw [List.filter_cons_of_pos hb, List.filter_cons_of_pos hb, ih']
        by_cases hp : p x = true
        · rw [if_pos hp, if_pos hp, insertBy, if_pos hlt]
        · rw [if_neg hp, if_neg hp]
      · rw [List.filter_cons_of_neg hb, List.filter_cons_of_neg hb, ih']
    · rw [if_neg hlt]
      have hlt' : lt b x = false := by simpa using hlt
      by_cases hp : p x = true
      · rw [if_pos hp, List.filter_cons_of_pos hp]
        cases hq : (b :: s).filter p with
        | nil => rfl
        | cons z t =>
          have hz : z ∈ b :: s := List.mem_of_mem_filter (p := p) (by rw [hq]; simp)
          have hzx : lt z x = false := by
            rcases List.mem_cons.1 hz with rfl | hz'
            · exact hlt'
            · exact h.negtrans x b z hx (hP b (by simp)) (hP z hz) hlt' ((List.pairwise_cons.1 hs).1 z hz')
          rw [insertBy, if_neg (by simp [hzx])]
      · rw [if_neg hp, List.filter_cons_of_neg hp]

theorem stableSort_filter {α : Type} {P : α → Prop} {lt : α → α → Bool} (h : StrictWeakOn P lt) (p : α → Bool) :
    ∀ l : List α, (∀ z ∈ l, P z) → stableSort lt (l.filter p) = (stableSort lt l).filter p := by
  intro l
  induction l with
  | nil => intro _; rfl
  | cons a l ih =>
    intro hP
    have hl : ∀ z ∈ l, P z := fun z hz => hP z (by simp [hz])
    have e : stableSort lt (a :: l) = insertBy lt a (stableSort lt l) := rfl
    rw [e, insertBy_filter h p (hP a (by simp)) _ (fun z hz => hl z ((stableSort_perm lt l).mem_iff.1 hz))
      (stableSort_sorted h hl), ← ih hl]
    by_cases ha : p a = true
    · rw [if_pos ha, List.filter_cons_of_pos ha]; rfl
    · rw [if_neg ha, List.filter_cons_of_neg ha]

theorem take_filter {α : Type} (p : α → Bool) : ∀ (k : Nat) (l : List α), (∀ y ∈ l.take k, p y = true) →
    (l.filter p).take k = l.take k := by
  intro k
  induction k with
  | zero => intro l _; simp
  | succ k ih =>
    intro l h
    cases l with
    | nil => rfl
    | cons a l =>
      rw [List.filter_cons_of_pos (h a (by simp)), List.take_succ_cons, List.take_succ_cons,
        ih l (fun y hy => h y (by simp [hy]))]

/-- **C193**, nearest neighbours: the answer stays if the classes of all the neighbours it is based on are possible -/
theorem C193_neighbours_partial [LawfulOrd F] (m : Knn F) (x : Inst F) (hx : x.isComposite = false) (S : List String)
    (d : Inst F → F) (hd : ∀ y ∈ m.data, m.dist y x = .ok (d y) ∧ m.dist y (asked x S) = .ok (d y))
    (hord : ∀ y ∈ m.data, Dbl.Ord (d y)) (ns : IList F) (hns : m.nearestNeighbors x = .ok ns) (hne : ns ≠ [])
    (hS : ∀ y ∈ ns, y.label ∈ S) :
    m.nearestNeighbors (asked x S) = .ok ns ∧ m.predict (asked x S) = m.predict x := by
  have hc1 : candidates m.data x = m.data := by
    rw [candidates_eq, List.filter_eq_self]
    intro y _; simp [Knn.eligible, hx]
  have hc2 : candidates m.data (asked x S) = m.data.filter (fun y => decide (y.label ∈ S)) := by
    rw [candidates_eq]
    refine List.filter_congr (fun y _ => ?_)
    unfold Knn.eligible
    rw [asked_isComposite, asked_possibleLabels]
    rfl
  rw [nearest_eq m x d (by rw [hc1]; exact fun y hy => (hd y hy).1), hc1] at hns
  have hns' := Except.ok.inj hns
  have h2 : m.nearestNeighbors (asked x S) = .ok ns := by
    rw [nearest_eq m (asked x S) d (by rw [hc2]; exact fun y hy => (hd y (List.mem_of_mem_filter hy)).2), hc2,
      stableSort_filter (strictWeak_key d) _ _ hord, take_filter _ _ _ (by rw [hns']; simpa using hS), hns']
  refine ⟨h2, ?_⟩
  have h1 : m.nearestNeighbors x = .ok ns := by
    rw [nearest_eq m x d (by rw [hc1]; exact fun y hy => (hd y hy).1), hc1]; exact hns
  have h0 : (ns.length == 0) = false := by
    rw [beq_eq_false_iff_ne]; exact fun e => hne (List.length_eq_zero_iff.1 e)
  unfold Knn.predict
  rw [h1, h2]
  simp only [res_bind_ok, h0, Bool.and_false]
  rfl

/-- **C193**, one nearest neighbour: the answer stays -/
theorem C193_one_neighbour [LawfulOrd F] (m : Knn F) (hk : m.k = 1) (hdata : m.data ≠ []) (x : Inst F)
    (hx : x.isComposite = false) (S : List String)
    (d : Inst F → F) (hd : ∀ y ∈ m.data, m.dist y x = .ok (d y) ∧ m.dist y (asked x S) = .ok (d y))
    (hord : ∀ y ∈ m.data, Dbl.Ord (d y)) (c : String) (hc : m.predict x = .ok c) (hS : c ∈ S) :
    m.predict (asked x S) = .ok c := by
  have hc1 : candidates m.data x = m.data := by
    rw [candidates_eq, List.filter_eq_self]
    intro y _; simp [Knn.eligible, hx]
  have h1 := nearest_eq m x d (by rw [hc1]; exact fun y hy => (hd y hy).1)
  rw [hc1, hk] at h1
  obtain ⟨y, t, hy⟩ : ∃ y t, stableSort (fun a b => d a <. d b) m.data = y :: t := by
    refine List.exists_cons_of_ne_nil fun e => hdata ?_
    have := (stableSort_perm (fun a b => d a <. d b) m.data).length_eq
    rw [e] at this
    exact List.length_eq_zero_iff.1 this.symm
  rw [hy] at h1
  have h1 : m.nearestNeighbors x = .ok [y] := h1
  obtain ⟨c', e1, e2⟩ := (C50_vote m x [y] h1).1 (by simp)
  rw [e1] at hc; cases hc
  have hcy : c = y.label := by simpa using e2.mem
  rw [(C193_neighbours_partial m x hx S d hd hord [y] h1 (by simp) (by
    intro z hz; rw [List.mem_singleton] at hz; subst hz; rw [← hcy]; exact hS)).2, e1]

/-! ### trees -/

theorem predictCompositeIn_firstMax {pc : String} {x : Inst F} : ∀ {ch : List (Node F)} {k : Nat} {c : Node F},
    ch[k]? = some c → c.cond.satisfy x = .ok true → (∀ j < k, ∀ q, ch[j]? = some q → q.cond.satisfy x = .ok false) →
    ∀ {s : String}, s ≠ "" → c.predictComposite x = .ok s → Node.predictCompositeIn pc ch x = .ok s := by
  intro ch
  induction ch with
  | nil => intro k c h; cases h
  | cons a ch ih =>
    intro k c hc hsat hfirst s hs hp
    cases k with
    | zero =>
      simp only [List.getElem?_cons_zero, Option.some.injEq] at hc
      subst hc
      rw [Node.predictCompositeIn, hsat]
      simp [hp, hs]
    | succ k =>
      rw [Node.predictCompositeIn, hfirst 0 (by omega) a rfl]
      simp only [res_bind_ok, Bool.false_eq_true, if_false]
      exact ih (k := k) (c := c) (by simpa using hc) hsat
        (fun j hj q hq => hfirst (j + 1) (by omega) q (by simpa using hq)) hs hp

theorem predictCompositeIn_noneMax {pc : String} {x : Inst F} : ∀ {ch : List (Node F)},
    (∀ c ∈ ch, c.cond.satisfy x = .ok false) → Node.predictCompositeIn pc ch x = .ok pc := by
  intro ch
  induction ch with
  | nil => intro _; rfl
  | cons a ch ih =>
    intro h
    rw [Node.predictCompositeIn, h a (by simp)]
    simpa using ih (fun c hc => h c (by simp [hc]))

theorem StopsAt.composite {n m : Node F} {x : Inst F} {path : List Nat} (h : StopsAt n x path m)
    (hs : m.dist.getMaxItemOf x.possibleLabels ≠ "") : n.predictComposite x = .ok (m.dist.getMaxItemOf x.possibleLabels) := by
  obtain ⟨h, hend⟩ := h
  induction h with
  | here n x =>
    cases n with
    | mk c l s d ch =>
      cases l with
      | true => rw [Node.predictComposite]; rfl
      | false =>
        rcases hend with hend | hend
        · cases hend
        · rw [Node.predictComposite]
          simp only [Bool.false_eq_true, if_false]
          exact predictCompositeIn_noneMax hend
  | step n x k c path m hl hk hsat hfirst hf ih =>
    have := ih hs hend
    cases n with
    | mk c0 l s d ch =>
      have hl' : l = false := hl
      subst hl'
      rw [Node.predictComposite]
      simp only [Bool.false_eq_true, if_false]
      exact predictCompositeIn_firstMax hk hsat hfirst hs this

theorem Follows.asked {n m : Node F} {x : Inst F} {path : List Nat} (h : Follows n x path m) (S : List String) :
    Follows n (asked x S) path m := by
  induction h with
  | here n x => exact .here _ _
  | step n x k c path m hl hk hsat hfirst _ ih => exact .step _ _ k c path m hl hk hsat hfirst ih

end

/-- **C193**, trees: trained with or without pruning, stumps: if the plain instance is answered `c`, then with any possible
classes that include `c` the answer is `c` or a possible class the tree finds just as probable for the instance -/
theorem C193_tree {ts : List AttrType} {data grown : IList ℝ} (hne : grown ≠ [])
    (hts : ∀ x ∈ data, typesOf x = ts) {n : Node ℝ}
    (h : (treeTrain data none = .ok n ∧ grown = data) ∨ (stumpTrain data = .ok n ∧ grown = data) ∨
      ∃ r σ held, IsPermutation σ data.length ∧ Parts.byRatioStratified data r σ = .ok [held, grown] ∧
        treeTrain data (some (r, σ)) = .ok n)
    (x : Inst ℝ) (hx : typesOf x = ts) (hplain : x.isComposite = false) (S : List String) (hempty : "" ∉ S)
    (c : String) (hc : treePredict n x = .ok c) (hS : c ∈ S) :
    ∃ r ∈ S, treePredict n (asked x S) = .ok r ∧
      ∃ p q, n.predictProbability x = .ok p ∧ (c, q) ∈ p ∧ (r, q) ∈ p := by
  obtain ⟨g, hg, hpr⟩ : ∃ g, Grown ts grown g ∧ PrunedFrom g n := by
    have hv : ValidParam none := by intro _ _ h; cases h
    rcases h with ⟨h, rfl⟩ | ⟨h, rfl⟩ | ⟨r, σ, held, hσ, hps, h⟩
    · exact ⟨n, grow_grown_real hv hne hts (by omega) h, .same _⟩
    · exact ⟨n, grow_grown_real hv hne hts (by omega) h, .same _⟩
    · simp only [treeTrain, hps, res_bind_ok, bind_ok_iff] at h
      obtain ⟨p1, e1, g, hg, p0, e0, h⟩ := h
      cases e1; cases e0
      obtain ⟨q0, q1, e, hperm, _⟩ := C25_stratified_split data r σ hσ
      rw [hps] at e
      cases e
      exact ⟨g, grow_grown_real hv hne (fun y hy => hts y (hperm.mem_iff.1 (by simp [hy]))) (by omega) hg,
        C62_prune_only_cuts h⟩
  obtain ⟨path, m, hstop⟩ := (hpr.defOn hg.defOn).stops x hx
  obtain ⟨h1, h2, h3⟩ := pruned_node_data hg hpr hstop.1
  obtain ⟨e1, e2⟩ := hstop.predict
  have hcm : c = m.label := by
    unfold treePredict Node.predict at hc
    simp [hplain, e1] at hc
    exact hc.symm
  have hSne : S ≠ [] := List.ne_nil_of_mem hS
  have hmax := getMaxItemOf_first m.dist S hSne
  set r := m.dist.getMaxItemOf S with hr
  have hrne : r ≠ "" := fun e => hempty (e ▸ hmax.mem)
  have hcomp : n.predictComposite (asked x S) = .ok r :=
    StopsAt.composite (x := asked x S) ⟨hstop.1.asked S, hstop.2⟩ hrne
  have hmaj := C44_majority ((passing n grown path).map Inst.label) (by simpa using h1)
  rw [← h3, ← hcm] at hmaj
  have hcount : ∀ k, m.dist.getCount k = ((passing n grown path).map Inst.label).count k := by
    intro k; rw [h2]; exact (DD.counts_ofList _).count k
  have heq : ((passing n grown path).map Inst.label).count r = ((passing n grown path).map Inst.label).count c := by
    refine le_antisymm (hmaj.max r) ?_
    rw [← hcount, ← hcount]
    exact hmax.max c hS
  have hrmem : r ∈ (passing n grown path).map Inst.label := by
    rw [← List.count_pos_iff, heq, List.count_pos_iff]; exact hmaj.mem
  obtain ⟨k1, _, k3, _⟩ := C47_dummy (passing n grown path) h1
  have hd : m.dist = (passing n grown path).classDistribution := by rw [classDistribution_eq]; exact h2
  have hin : ∀ a ∈ (passing n grown path).map Inst.label,
      (a, (((passing n grown path).map Inst.label).count a : ℝ) / (passing n grown path).length) ∈
        ((passing n grown path).classDistribution.getProbabilityDistribution : OMap ℝ) := by
    intro a ha
    obtain ⟨y, hy, hya⟩ := List.mem_map.1 ha
    obtain ⟨⟨a', q'⟩, hq', e⟩ := List.mem_map.1 ((k3 a).2 ⟨y, hy, hya⟩)
    simp only at e
    subst e
    rw [← (k1 a' q' hq').1]
    exact hq'
  refine ⟨r, hmax.mem, ?_, _, (((passing n grown path).map Inst.label).count c : ℝ) / (passing n grown path).length, e2, ?_, ?_⟩
  · unfold treePredict Node.predict
    simp [hcomp, hrne]
  · rw [hd]; exact hin c hmaj.mem
  · rw [hd, ← heq]; exact hin r hrmem

/-! ## counterexamples -/

/-- seven instances on a line -/
def sevenOnALine : IList XR :=
  [⟨"c", [.continuous (.fin 1)], none⟩, ⟨"c", [.continuous (.fin 2)], none⟩, ⟨"a", [.continuous (.fin 3)], none⟩,
   ⟨"e", [.continuous (.fin 4)], none⟩, ⟨"b", [.continuous (.fin 5)], none⟩, ⟨"b", [.continuous (.fin 6)], none⟩,
   ⟨"b", [.continuous (.fin 7)], none⟩]

/-- **C193** refuted for nearest neighbours: five neighbours answer "c"; if only "c" and "b" are possible, they answer "b",
because other neighbours are asked -/
theorem C193_neighbours_refuted :
    (Knn.train ⟨[], 0, euclidean⟩ sevenOnALine 5 euclidean).predict ⟨"?", [.continuous (.fin 0)], none⟩ = .ok "c" ∧
    (Knn.train ⟨[], 0, euclidean⟩ sevenOnALine 5 euclidean).predict (asked ⟨"?", [.continuous (.fin 0)], none⟩ ["c", "b"]) = .ok "b" := by
  decide +kernel

/-- four instances that cannot be told apart by their attribute -/
def fourAlike : IList XR :=
  [⟨"c", [.discrete "u"], none⟩, ⟨"a", [.discrete "u"], none⟩, ⟨"a", [.discrete "u"], none⟩, ⟨"b", [.discrete "u"], none⟩]

/-- samples for seven trees -/
def sevenSamples (i : Nat) : List Nat :=
  if i < 3 then [0, 0, 0, 0] else if i < 5 then [1, 2, 1, 3] else [3, 3, 3, 3]

/-- **C193** refuted for ensembles: three trees vote for "c", two for "a", two for "b", so the answer is "c"; if only "c" and
"b" are possible, the two trees for "a" change to "b", and the answer is "b" -/
theorem C193_ensemble_refuted :
    (ensembleTrain none sevenSamples [] fourAlike 7 >>= fun f => ensemblePredict f ⟨"?", [.discrete "u"], none⟩) = .ok "c" ∧
    (ensembleTrain none sevenSamples [] fourAlike 7 >>= fun f => ensemblePredict f (asked ⟨"?", [.discrete "u"], none⟩ ["c", "b"])) =
      .ok "b" := by
  decide +kernel

/-- **C193** refuted for LDA without a score: all discriminants are NaN (C190), so that the plain instance is given the most
frequent class and the composite one the first possible class -/
theorem C193_lda_refuted :
    let inverse : Mat (D53 coarseMath) → Mat (D53 coarseMath) := fun S => ⟨S.rows, S.cols, fun i j => Dbl.one /. S.e i j⟩
    let x : Inst (D53 coarseMath) := ⟨"?", [.continuous (Dbl.ofInt 0)], none⟩
    (do (← Lda.train inverse Lda.new loneData).predict x) = .ok "a" ∧
    (do (← Lda.train inverse Lda.new loneData).predict (asked x ["b", "a"])) = .ok "b" := by
  decide +kernel

/-! ### the hypotheses can be met -/

/-- a soft decision tree without a split -/
def softLeaf : SoftTree XR := ⟨["a", "b"], .leaf ⟨[.fin 1, .fin 2], [], [.fin 1, .fin 2], .fin 1⟩⟩

example : softPredict softLeaf ⟨"?", [.continuous (.fin 0)], none⟩ = .ok "b" ∧
    softPredict softLeaf (asked ⟨"?", [.continuous (.fin 0)], none⟩ ["a"]) = .ok "b" := by decide +kernel

/-- two classes on a line -/
def twoOnALine : IList XR :=
  [⟨"a", [.continuous (.fin 0)], none⟩, ⟨"a", [.continuous (.fin 2)], none⟩, ⟨"b", [.continuous (.fin 10)], none⟩,
   ⟨"d", [.continuous (.fin 20)], none⟩]

/-- the nearest mean answers, ties aside, the same when a class is ruled out -/
example : let m : KMeans XR := ⟨⟨[("a", 2), ("b", 1), ("d", 1)], 4⟩, [⟨"a", [some (.continuous (.fin 1))]⟩,
      ⟨"b", [some (.continuous (.fin 10))]⟩, ⟨"d", [some (.continuous (.fin 20))]⟩], euclidean⟩
    (KMeans.train ⟨⟨[], 0⟩, [], euclidean⟩ twoOnALine euclidean >>= fun t => pure t.prior) = .ok m.prior ∧
    (∀ c ∈ m.prior.getItems, ∃ v, m.metric ⟨"?", [.continuous (.fin 7)], none⟩ c = .ok v ∧
      (Dbl.neg (Dbl.maxVal : XR) <. v) = true) ∧
    m.predict ⟨"?", [.continuous (.fin 7)], none⟩ = .ok "b" ∧
    m.predict (asked ⟨"?", [.continuous (.fin 7)], none⟩ ["d", "b"]) = .ok "b" := by
  refine ⟨by decide +kernel, ?_, by decide +kernel, by decide +kernel⟩
  intro c hc
  rcases (by simpa [DD.getItems, OMap.keys] using hc : c = "a" ∨ c = "b" ∨ c = "d") with rfl | rfl | rfl
  · exact ⟨.fin (-36), by decide +kernel, by decide +kernel⟩
  · exact ⟨.fin (-9), by decide +kernel, by decide +kernel⟩
  · exact ⟨.fin (-169), by decide +kernel, by decide +kernel⟩

/-- three neighbours of two classes: a third class can be ruled out -/
example : let m := Knn.train ⟨[], 0, euclidean⟩ sevenOnALine 3 euclidean
    m.predict ⟨"?", [.continuous (.fin 0)], none⟩ = .ok "c" ∧
    m.predict (asked ⟨"?", [.continuous (.fin 0)], none⟩ ["b", "a", "c"]) = .ok "c" := by
  refine ⟨by decide +kernel, by decide +kernel⟩

/-- a grown tree and an instance with possible classes meet the hypotheses for trees -/
example : ∃ n c, treeTrain fourPoints none = .ok n ∧ treePredict n ⟨"?", [.continuous 4], none⟩ = .ok c ∧
    ∃ r ∈ [c, "zz"], treePredict n (asked ⟨"?", [.continuous 4], none⟩ [c, "zz"]) = .ok r := by
  obtain ⟨n, hn, _⟩ := (C56_training_terminates (by simp [fourPoints]) fourPoints_types).1
  obtain ⟨path, m, p, _, _, _, h3, h4⟩ := C134_trained_probabilities (grown := fourPoints) (by simp [fourPoints])
    fourPoints_types (.inl ⟨hn, rfl⟩) ⟨"?", [.continuous 4], none⟩ rfl
  obtain ⟨c, q, hc, hq, _⟩ := h4 rfl
  obtain ⟨x, hx, hxc⟩ := List.mem_map.1 ((h3.mem c q).1 hq).1
  have hmem : x ∈ fourPoints := by unfold passing at hx; exact (List.mem_filter.1 hx).1
  have hcne : c ≠ "" := by
    rintro rfl
    simp only [fourPoints, List.mem_cons, List.not_mem_nil, or_false] at hmem
    rcases hmem with rfl | rfl | rfl | rfl <;> simp at hxc
  obtain ⟨r, hr, h, _⟩ := C193_tree (grown := fourPoints) (by simp [fourPoints]) fourPoints_types (.inl ⟨hn, rfl⟩)
    ⟨"?", [.continuous 4], none⟩ rfl rfl [c, "zz"] (by simp [hcne.symm]) c hc (by simp)
  exact ⟨n, c, hn, hc, r, hr, h⟩

/-- a perceptron with three outputs -/
example : let W : Mat XR := ⟨3, 2, fun i j => .fin (i * j)⟩
    netPredict ["a", "b", "d"] (percOutput W) ⟨"?", [.continuous (.fin 1)], none⟩ = .ok "d" ∧
    netPredict ["a", "b", "d"] (percOutput W) (asked ⟨"?", [.continuous (.fin 1)], none⟩ ["b", "d"]) = .ok "d" := by
  decide +kernel

end Verif
