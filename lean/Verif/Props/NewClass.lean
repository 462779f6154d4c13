import Verif.Props.Agree
import Verif.Props.Gaussian
import Verif.Props.CutFiles

/-! # Property C190: an instance of a new class, for the nearest mean and the nearest neighbour -/

namespace Verif
open Dbl

variable {F : Type} [Dbl F]

/-- a trained nearest-mean classifier: the averages of the classes -/
theorem kmeans_state {old m : KMeans F} {l : IList F} {dist : Inst F → Inst F → Res F} (h : KMeans.train old l dist = .ok m) :
    ∃ M : String → List (Option (Attr F)), m = ⟨l.classDistribution, l.getDistinctClassLabels.map (fun c => (c, M c)), dist⟩ ∧
      ∀ c ∈ l.map Inst.label, IList.average (l.filter (fun x => x.label == c)) = .ok (c, M c) := by
  obtain ⟨cs, ps, hfo, e, hps, -, -⟩ := C20_partition_by_class l
  have hcs : cs = l.getDistinctClassLabels := hfo.unique (C07_distinct_class_labels l)
  unfold KMeans.train at h
  rw [e] at h
  simp only [res_bind_ok] at h
  obtain ⟨means, h1, h2⟩ := bind_ok_iff.1 h
  have hav : ∀ c ∈ l.map Inst.label, ∃ as, IList.average (l.filter (fun x => x.label == c)) = .ok (c, as) := by
    intro c hc
    have hmem : l.filter (fun x => x.label == c) ∈ ps := by
      rw [hps]; exact List.mem_map.2 ⟨c, (hfo.mem_iff c).2 hc, rfl⟩
    obtain ⟨r, hr⟩ : ∃ r, IList.average (l.filter (fun x => x.label == c)) = .ok r := by
      have hall := mapM_ok_inv h1
      clear h h1 h2 hps e
      induction hall with
      | nil => cases hmem
      | cons h _ ih =>
        rcases List.mem_cons.1 hmem with h' | h'
        · exact ⟨_, by rw [h']; exact h⟩
        · exact ih h'
    have hr' := hr
    unfold IList.average at hr
    obtain ⟨f, hf, hr⟩ := bind_ok_iff.1 hr
    obtain ⟨as, _, hr⟩ := bind_ok_iff.1 hr
    cases hr
    have : f.label = c := by
      have hfm : f ∈ l.filter (fun x => x.label == c) := by
        cases hq : l.filter (fun x => x.label == c) with
        | nil => rw [hq] at hf; cases hf
        | cons z q =>
          rw [hq] at hf
          cases hf
          simp
      simpa using (List.mem_filter.1 hfm).2
    rw [this] at hr'
    exact ⟨as, hr'⟩
  have hM : ∀ c, ∃ as, c ∈ l.map Inst.label → IList.average (l.filter (fun x => x.label == c)) = .ok (c, as) := by
    intro c
    by_cases hc : c ∈ l.map Inst.label
    · obtain ⟨as, h⟩ := hav c hc; exact ⟨as, fun _ => h⟩
    · exact ⟨[], fun h => absurd h hc⟩
  choose M hM using hM
  refine ⟨M, ?_, hM⟩
  have : ps.mapM (fun p => IList.average p) = .ok (cs.map (fun c => (c, M c))) := by
    rw [hps, List.mapM_map]
    exact mapM_ok (fun c hc => hM c ((hfo.mem_iff c).1 hc))
  rw [h1] at this
  cases this
  cases h2
  rw [hcs]
  rfl

/-- the discriminants of the candidates are defined if the prediction is -/
theorem gauss_metrics {prior : DD} {metric : Inst F → String → Res F} {x : Inst F} {r : String}
    (h : gaussPredict prior metric x = .ok r) : ∀ c ∈ discCandidates prior x, ∃ s, metric x c = .ok s := by
  intro c hc
  rw [← discCandidates_eq] at hc
  obtain ⟨h1, h2⟩ := List.mem_filter.1 hc
  unfold gaussPredict at h
  obtain ⟨i, _, h⟩ := bind_ok_iff.1 h
  obtain ⟨b, hb, h⟩ := bind_ok_iff.1 h
  obtain ⟨b1, b2, hs⟩ := foldlM_ok_step _ _ _ hb c h1
  unfold gaussStep at hs
  rw [if_pos h2] at hs
  obtain ⟨s, hs, _⟩ := bind_ok_iff.1 hs
  exact ⟨s, hs⟩

/-- what is predicted: the default, or the first candidate with the greatest discriminant -/
theorem gauss_cases [LawfulOrd F] {prior : DD} {metric : Inst F → String → Res F} {x : Inst F} {r : String}
    (h : gaussPredict prior metric x = .ok r) (μ : String → F) (hμ : ∀ c ∈ discCandidates prior x, metric x c = .ok (μ c)) :
    (gaussInit prior x = .ok r ∧ ∀ c ∈ discCandidates prior x, (Dbl.neg (Dbl.maxVal : F) <. μ c) = false) ∨
    ∃ l1 l2, discCandidates prior x = l1 ++ r :: l2 ∧ (Dbl.neg (Dbl.maxVal : F) <. μ r) = true ∧
      (∀ s ∈ l1, (μ r <. μ s) = false ∧ (Dbl.Ord (μ s) → (μ s <. μ r) = true)) ∧ ∀ s ∈ l2, (μ r <. μ s) = false := by
  have hd := discCandidates_eq prior x
  unfold gaussPredict at h
  obtain ⟨i, hi, h⟩ := bind_ok_iff.1 h
  obtain ⟨b, hb, h⟩ := bind_ok_iff.1 h
  obtain ⟨r', hr', hc⟩ := gauss_fold prior (metric x) μ (if x.isComposite then x.possibleLabels else prior.getItems) (by
    intro c hc hc'
    apply hμ
    rw [← hd, List.mem_filter]; exact ⟨hc, hc'⟩) (i, Dbl.neg (Dbl.maxVal : F))
  rw [hb] at hr'
  cases hr'
  cases h
  rw [hd] at hc
  rcases hc with ⟨h1, h2⟩ | ⟨l1, q, l2, h1, h2, h3, h4, h5⟩
  · left
    rw [h1]
    exact ⟨hi, h2⟩
  · right
    rw [h2]
    exact ⟨l1, l2, h1, h3, h4, h5⟩

/-- **C190 (partial).** Nearest mean, in any arithmetic: one more training instance, of a class that is not in the training
data, at any place of the list, changes no answer except to the new class. -/
theorem C190_nearest_mean_partial [LawfulOrd F] (a b : IList F) (y : Inst F) (hy : y.label ∉ (a ++ b).map Inst.label)
    (old m m' : KMeans F) (dist : Inst F → Inst F → Res F) (h : KMeans.train old (a ++ b) dist = .ok m)
    (h' : KMeans.train old (a ++ y :: b) dist = .ok m') (hab : a ++ b ≠ []) (x : Inst F) (r r' : String)
    (hr : m.predict x = .ok r) (hr' : m'.predict x = .ok r') : r' = r ∨ r' = y.label := by
  obtain ⟨M, rfl, hM⟩ := kmeans_state h
  obtain ⟨M', rfl, hM'⟩ := kmeans_state h'
  set l := a ++ b with hl
  set l' := a ++ y :: b with hl'
  have hlab : ∀ c, c ∈ l'.map Inst.label ↔ c = y.label ∨ c ∈ l.map Inst.label := by
    intro c
    simp only [hl, hl', List.map_append, List.map_cons, List.mem_append, List.mem_cons]
    tauto
  have hfil : ∀ c, c ≠ y.label → l'.filter (fun x => x.label == c) = l.filter (fun x => x.label == c) := by
    intro c hc
    simp only [hl, hl', List.filter_append]
    rw [List.filter_cons_of_neg (by simpa using fun e => hc e.symm)]
  have hcount : ∀ c, c ≠ y.label → (l'.map Inst.label).count c = (l.map Inst.label).count c := by
    intro c hc
    simp only [hl, hl', List.map_append, List.map_cons, List.count_append]
    rw [List.count_cons_of_ne (fun e => hc e.symm)]
  have hcd := C10_class_distribution l
  have hcd' := C10_class_distribution l'
  have hfo := C07_distinct_class_labels l
  have hfo' := C07_distinct_class_labels l'
  -- the discriminants of the old classes have not changed
  have hmet : ∀ c ∈ l.map Inst.label, KMeans.metric ⟨l'.classDistribution, l'.getDistinctClassLabels.map (fun c => (c, M' c)), dist⟩ x c =
      KMeans.metric ⟨l.classDistribution, l.getDistinctClassLabels.map (fun c => (c, M c)), dist⟩ x c := by
    intro c hc
    have hcy : c ≠ y.label := fun e => hy (e ▸ hc)
    unfold KMeans.metric
    simp only
    rw [kmeans_find _ _ c ((hfo.mem_iff c).2 hc), kmeans_find _ _ c ((hfo'.mem_iff c).2 ((hlab c).2 (.inr hc)))]
    have e := hM' c ((hlab c).2 (.inr hc))
    rw [hfil c hcy, hM c hc] at e
    simp only [Except.ok.injEq, Prod.mk.injEq, true_and] at e
    rw [e]
  -- the candidates
  have hcand : discCandidates l.classDistribution x = (discCandidates l'.classDistribution x).filter (fun c => c ≠ y.label) := by
    unfold discCandidates
    cases x.possible with
    | none =>
      simp only
      have s1 : (l.classDistribution.getItems).Pairwise (· < ·) := hcd.sorted
      have s2 : ((l'.classDistribution.getItems).filter (fun c => c ≠ y.label)).Pairwise (· < ·) := hcd'.sorted.filter _
      refine List.Perm.eq_of_pairwise (le := (· < ·)) (fun a b _ _ h1 h2 => absurd (lt_trans h1 h2) (lt_irrefl a)) s1 s2 ?_
      refine (List.perm_ext_iff_of_nodup (s1.imp (fun h => ne_of_lt h)) (s2.imp (fun h => ne_of_lt h))).2 ?_
      intro c
      rw [hcd.mem_items, List.mem_filter, hcd'.mem_items, hlab]
      constructor
      · intro hc
        exact ⟨.inr hc, by
          have : c ≠ y.label := fun e => hy (e ▸ hc)
          simpa using this⟩
      · rintro ⟨h1, h2⟩
        rcases h1 with h1 | h1
        · simp [h1] at h2
        · exact h1
    | some ls =>
      simp only [List.filter_filter]
      refine List.filter_congr (fun c _ => ?_)
      rw [Bool.eq_iff_iff]
      simp only [List.contains_iff_mem, Bool.and_eq_true, decide_eq_true_eq, hcd.mem_items, hcd'.mem_items, hlab]
      constructor
      · intro hc
        exact ⟨fun e => hy (e ▸ hc), .inr hc⟩
      · rintro ⟨h1, h2⟩
        exact h2.resolve_left h1
  have hmem : ∀ c, c ∈ discCandidates l.classDistribution x → c ∈ l.map Inst.label := by
    intro c hc
    rw [← discCandidates_eq, List.mem_filter] at hc
    have := hc.2
    rw [containsItem_eq] at this
    exact (hcd.mem_items c).1 (by simpa using this)
  have hdef' := gauss_metrics hr'
  have hμ : ∀ c, ∃ s : F, c ∈ discCandidates l'.classDistribution x →
      KMeans.metric ⟨l'.classDistribution, l'.getDistinctClassLabels.map (fun c => (c, M' c)), dist⟩ x c = .ok s := by
    intro c
    by_cases hc : c ∈ discCandidates l'.classDistribution x
    · obtain ⟨s, hs⟩ := hdef' c hc; exact ⟨s, fun _ => hs⟩
    · exact ⟨Dbl.zero, fun h => absurd h hc⟩
  choose μ hμ using hμ
  have hμ0 : ∀ c ∈ discCandidates l.classDistribution x,
      KMeans.metric ⟨l.classDistribution, l.getDistinctClassLabels.map (fun c => (c, M c)), dist⟩ x c = .ok (μ c) := by
    intro c hc
    rw [← hmet c (hmem c hc)]
    refine hμ c ?_
    rw [hcand] at hc
    exact (List.mem_filter.1 hc).1
  have k1 := gauss_cases hr μ hμ0
  have k2 := gauss_cases hr' μ hμ
  by_cases hry : r' = y.label
  · exact .inr hry
  left
  rcases k2 with ⟨e2, n2⟩ | ⟨p1, p2, c2, g2, f2, t2⟩
  · rcases k1 with ⟨e1, n1⟩ | ⟨q1, q2, c1, g1, f1, t1⟩
    · -- both the default
      unfold gaussInit at e1 e2
      cases hx : x.isComposite with
      | true =>
        rw [hx] at e1 e2
        simp only [if_true] at e1 e2
        rw [e1] at e2
        cases e2
        rfl
      | false =>
        rw [hx] at e1 e2
        simp only [Bool.false_eq_true, if_false, res_pure, Except.ok.injEq] at e1 e2
        have m1 : IsMajority (l.map Inst.label) r := by
          have := C46_plain l (⟨"", [], none⟩ : Inst F) hab rfl
          rw [← e1]
          exact this
        have m2 : IsMajority (l'.map Inst.label) r' := by
          have := C46_plain l' (⟨"", [], none⟩ : Inst F) (by simp [hl']) rfl
          rw [← e2]
          exact this
        refine IsMajority.unique (l := l.map Inst.label) ⟨?_, ?_, ?_⟩ m1
        · exact ((hlab r').1 m2.mem).resolve_left hry
        · intro s
          by_cases hs : s = y.label
          · rw [hs, List.count_eq_zero_of_not_mem hy]; omega
          · rw [← hcount s hs, ← hcount r' hry]; exact m2.max s
        · intro s hs he
          have hsy : s ≠ y.label := fun e => hy (e ▸ hs)
          rw [← hcount s hsy, ← hcount r' hry] at he
          exact m2.tie s ((hlab s).2 (.inr hs)) he
    · -- the old winner is still a candidate
      have : r ∈ discCandidates l'.classDistribution x := by
        have : r ∈ discCandidates l.classDistribution x := by rw [c1]; simp
        rw [hcand] at this
        exact (List.mem_filter.1 this).1
      rw [n2 r this] at g1
      cases g1
  · -- the new winner was a candidate before
    have hr'0 : r' ∈ discCandidates l.classDistribution x := by
      rw [hcand, List.mem_filter, c2]
      exact ⟨by simp, by simpa using hry⟩
    rcases k1 with ⟨e1, n1⟩ | ⟨q1, q2, c1, g1, f1, t1⟩
    · rw [n1 r' hr'0] at g2
      cases g2
    · have ordr : Dbl.Ord (μ r) := LawfulOrd.ord_right _ _ ((LawfulOrd.lt_iff _ _).1 g1).1
      have ordr' : Dbl.Ord (μ r') := LawfulOrd.ord_right _ _ ((LawfulOrd.lt_iff _ _).1 g2).1
      have c2' : discCandidates l.classDistribution x =
          p1.filter (fun c => c ≠ y.label) ++ r' :: p2.filter (fun c => c ≠ y.label) := by
        rw [hcand, c2, List.filter_append, List.filter_cons_of_pos (by simpa using hry)]
      rw [c1] at c2'
      -- the same place in the list
      rcases List.append_eq_append_iff.1 c2' with ⟨z, e1, e2⟩ | ⟨z, e1, e2⟩
      · cases z with
        | nil => simp only [List.nil_append, List.cons.injEq] at e2; exact e2.1.symm
        | cons w z =>
          simp only [List.cons_append, List.cons.injEq] at e2
          have hrp : r ∈ p1 := by
            have : r ∈ p1.filter (fun c => c ≠ y.label) := by rw [e1, e2.1]; simp
            exact (List.mem_filter.1 this).1
          have a1 := (f2 r hrp).2 ordr
          have a2 := t1 r' (by rw [e2.2]; simp)
          rw [a2] at a1
          cases a1
      · cases z with
        | nil => simp only [List.nil_append, List.cons.injEq] at e2; exact e2.1
        | cons w z =>
          simp only [List.cons_append, List.cons.injEq] at e2
          have hrq : r' ∈ q1 := by rw [e1, e2.1]; simp
          have a1 := (f1 r' hrq).2 ordr'
          have hrp : r ∈ p2 := by
            have : r ∈ p2.filter (fun c => c ≠ y.label) := by rw [e2.2]; simp
            exact (List.mem_filter.1 this).1
          have a2 := t2 r hrp
          rw [a2] at a1
          cases a1

/-- **C190 (partial).** The nearest neighbour, in any arithmetic: one more training instance changes no answer except to
its own class. -/
theorem C190_nearest_neighbour_partial [LawfulOrd F] (a b : IList F) (y : Inst F) (dist : Inst F → Inst F → Res F)
    (x : Inst F) (d : Inst F → F) (hd : ∀ z ∈ a ++ y :: b, dist z x = .ok (d z)) (hord : ∀ z ∈ a ++ y :: b, Dbl.Ord (d z))
    (r r' : String) (hr : (⟨a ++ b, 1, dist⟩ : Knn F).predict x = .ok r)
    (hr' : (⟨a ++ y :: b, 1, dist⟩ : Knn F).predict x = .ok r') : r' = r ∨ r' = y.label := by
  have sub : ∀ z ∈ a ++ b, z ∈ a ++ y :: b := by
    intro z hz
    rw [List.mem_append] at hz ⊢
    rcases hz with hz | hz
    · exact Or.inl hz
    · exact Or.inr (List.mem_cons_of_mem _ hz)
  have cm : ∀ (l : IList F), ∀ z ∈ candidates l x, z ∈ l := by
    intro l z hz
    rw [candidates_eq] at hz
    exact (List.mem_filter.1 hz).1
  have n1 := nearest_eq ⟨a ++ b, 1, dist⟩ x d (fun z hz => hd z (sub z (cm _ z hz)))
  have n2 := nearest_eq ⟨a ++ y :: b, 1, dist⟩ x d (fun z hz => hd z (cm _ z hz))
  have same : (⟨a ++ y :: b, 1, dist⟩ : Knn F).nearestNeighbors x = (⟨a ++ b, 1, dist⟩ : Knn F).nearestNeighbors x ∨
      (⟨a ++ y :: b, 1, dist⟩ : Knn F).nearestNeighbors x = .ok [y] := by
    rw [n1, n2]
    by_cases he : Knn.eligible x y = true
    · have c1 : candidates (a ++ b) x = candidates a x ++ candidates b x := by simp only [candidates_eq, List.filter_append]
      have c2 : candidates (a ++ y :: b) x = candidates a x ++ y :: candidates b x := by
        simp only [candidates_eq, List.filter_append, List.filter_cons_of_pos he]
      obtain ⟨t1, t2, e1, e2⟩ := stableSort_extra (strictWeak_key d) (S := fun z => Dbl.Ord (d z)) (y := y) (hord y (by simp))
        (candidates a x) (candidates b x) (by
          intro z hz
          rw [← c1] at hz
          exact hord z (sub z (cm _ z hz)))
      simp only
      rw [c1, c2, e1, e2]
      cases t1 with
      | nil => right; rfl
      | cons z t1 => left; rfl
    · left
      have c2 : candidates (a ++ y :: b) x = candidates (a ++ b) x := by
        simp only [candidates_eq, List.filter_append, List.filter_cons_of_neg he]
      simp only
      rw [c2]
  rcases same with e | e
  · left
    unfold Knn.predict at hr hr'
    rw [e, hr] at hr'
    cases hr'
    rfl
  · right
    obtain ⟨c', p1, p2⟩ := (C50_vote _ x _ e).1 (by simp)
    rw [hr'] at p1
    cases p1
    simpa using p2.mem

/-- two classes, and a third one with a single instance -/
def newClassData : IList XR :=
  [⟨"a", [.continuous (.fin 0)], none⟩, ⟨"a", [.continuous (.fin 2)], none⟩, ⟨"b", [.continuous (.fin 10)], none⟩]
def newClassInst : Inst XR := ⟨"c", [.continuous (.fin 5)], none⟩
/-- the absolute difference of the first attributes -/
def newClassDist : Inst XR → Inst XR → Res XR := fun x y => do
  let u ← x.contAt 0
  let w ← y.contAt 0
  pure (if u <. w then w -. u else u -. w)

/-- the hypotheses of the two theorems are met; one answer changes to the new class, the others stay -/
example : newClassInst.label ∉ newClassData.map Inst.label ∧
    (do let m ← KMeans.train ⟨DD.empty, [], newClassDist⟩ newClassData newClassDist
        let m' ← KMeans.train ⟨DD.empty, [], newClassDist⟩ (newClassData ++ [newClassInst]) newClassDist
        [0, 4, 7, 9].mapM (fun q => do
          let x : Inst XR := ⟨"?", [.continuous (.fin q)], none⟩
          let r ← m.predict x
          let r' ← m'.predict x
          pure (r, r'))) = Except.ok [("a", "a"), ("a", "c"), ("b", "c"), ("b", "b")] ∧
    [0, 4, 7, 9].mapM (fun q => do
          let x : Inst XR := ⟨"?", [.continuous (.fin q)], none⟩
          let r ← (⟨newClassData, 1, newClassDist⟩ : Knn XR).predict x
          let r' ← (⟨newClassData ++ [newClassInst], 1, newClassDist⟩ : Knn XR).predict x
          pure (r, r')) = Except.ok [("a", "a"), ("a", "c"), ("b", "c"), ("b", "b")] := by decide +kernel

end Verif
