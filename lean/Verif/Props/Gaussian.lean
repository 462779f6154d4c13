import Verif.Model.Parametric
import Verif.Props.Knn
import Verif.Props.Stats
import Verif.Props.Partition

/-! # Properties C52, C53: maximising a discriminant; nearest class mean -/

set_option linter.unusedSectionVars false

namespace Verif
open Dbl

section general
variable {F : Type} [Dbl F]

/-- `r` is the first element of `cands` with the greatest `μ`: nothing in the list is
greater, and everything before it is smaller (values that are NaN aside). -/
structure IsArgmax (μ : String → F) (cands : List String) (r : String) : Prop where
  split : ∃ l1 l2, cands = l1 ++ r :: l2 ∧ ∀ s ∈ l1, Dbl.Ord (μ s) → (μ s <. μ r) = true
  max : ∀ s ∈ cands, (μ r <. μ s) = false

theorem lt_trans' [LawfulOrd F] {a b c : F} (h1 : (a <. b) = true) (h2 : (b <. c) = true) :
    (a <. c) = true := by
  rw [LawfulOrd.lt_iff] at *
  exact ⟨LawfulOrd.le_trans _ _ _ h1.1 h2.1, fun h => h1.2 (LawfulOrd.le_trans _ _ _ h2.1 h)⟩

theorem lt_of_le_of_lt' [LawfulOrd F] {a b c : F} (h1 : (a <=. b) = true) (h2 : (b <. c) = true) :
    (a <. c) = true := by
  rw [LawfulOrd.lt_iff] at *
  exact ⟨LawfulOrd.le_trans _ _ _ h1 h2.1, fun h => h2.2 (LawfulOrd.le_trans _ _ _ h h1)⟩

theorem lt_irrefl' [LawfulOrd F] (a : F) : (a <. a) = false := by
  rw [← Bool.not_eq_true, LawfulOrd.lt_iff]; tauto

theorem gauss_fold [LawfulOrd F] (prior : DD) (metric : String → Res F) (μ : String → F)
    (labels : List String) (hμ : ∀ c ∈ labels, prior.containsItem c = true → metric c = .ok (μ c)) :
    ∀ b : String × F, ∃ r, labels.foldlM (gaussStep prior metric) b = .ok r ∧
    ((r = b ∧ ∀ c ∈ labels.filter prior.containsItem, (b.2 <. μ c) = false) ∨
     ∃ l1 q l2, labels.filter prior.containsItem = l1 ++ q :: l2 ∧ r = (q, μ q) ∧
      (b.2 <. μ q) = true ∧
      (∀ s ∈ l1, (μ q <. μ s) = false ∧ (Dbl.Ord (μ s) → (μ s <. μ q) = true)) ∧
      ∀ s ∈ l2, (μ q <. μ s) = false) := by
  induction labels with
  | nil => intro b; exact ⟨b, rfl, .inl ⟨rfl, by simp⟩⟩
  | cons c labels ih =>
    intro b
    have ih' := ih (fun c' hc' => hμ c' (by simp [hc']))
    rw [List.foldlM_cons]
    by_cases hc : prior.containsItem c = true
    · have hm := hμ c (by simp) hc
      rw [List.filter_cons_of_pos hc]
      by_cases hlt : (b.2 <. μ c) = true
      · have hs : gaussStep prior metric b c = .ok (c, μ c) := by
          simp [gaussStep, hc, hm, hlt]
        rw [hs]
        obtain ⟨r, hr, h⟩ := ih' (c, μ c)
        refine ⟨r, hr, .inr ?_⟩
        rcases h with ⟨rfl, h2⟩ | ⟨l1, q, l2, h1, h2, h3, h4, h5⟩
        · exact ⟨[], c, _, rfl, rfl, hlt, by simp, h2⟩
        · refine ⟨c :: l1, q, l2, by rw [h1]; rfl, h2, lt_trans' hlt h3, ?_, h5⟩
          intro s hs
          rcases List.mem_cons.1 hs with rfl | hs
          · refine ⟨?_, fun _ => h3⟩
            rw [← Bool.not_eq_true]; intro h6
            have := lt_trans' h3 h6
            rw [lt_irrefl'] at this; cases this
          · exact h4 s hs
      · have hlt' : (b.2 <. μ c) = false := by simpa using hlt
        have hs : gaussStep prior metric b c = .ok b := by
          simp [gaussStep, hc, hm, hlt']
        rw [hs]
        obtain ⟨r, hr, h⟩ := ih' b
        refine ⟨r, hr, ?_⟩
        rcases h with ⟨rfl, h2⟩ | ⟨l1, q, l2, h1, h2, h3, h4, h5⟩
        · left
          refine ⟨rfl, ?_⟩
          intro s hs
          rcases List.mem_cons.1 hs with rfl | hs
          · exact hlt'
          · exact h2 s hs
        · right
          refine ⟨c :: l1, q, l2, by rw [h1]; rfl, h2, h3, ?_, h5⟩
          intro s hs
          rcases List.mem_cons.1 hs with rfl | hs
          · have hob : Dbl.Ord b.2 := LawfulOrd.ord_left _ _ ((LawfulOrd.lt_iff _ _).1 h3).1
            constructor
            · rw [← Bool.not_eq_true]; intro h6
              exact hlt (lt_trans' h3 h6)
            · intro hos
              exact lt_of_le_of_lt' ((not_lt_iff_le hos hob).1 hlt') h3
          · exact h4 s hs
    · have hs : gaussStep prior metric b c = .ok b := by simp [gaussStep, hc]
      rw [hs, List.filter_cons_of_neg hc]
      exact ih' b

/-- The labels the prediction chooses from: the training labels, for a composite instance
those of its possible labels that occur in training. -/
def discCandidates (prior : DD) (x : Inst F) : List String :=
  match x.possible with
  | none => prior.getItems
  | some ls => ls.filter (fun c => prior.getItems.contains c)

theorem containsItem_eq (d : DD) (c : String) : d.containsItem c = d.getItems.contains c := by
  unfold DD.containsItem OMap.contains DD.getItems
  rw [Bool.eq_iff_iff, OMap.find?_isSome_iff]
  simp

theorem discCandidates_eq (prior : DD) (x : Inst F) :
    (if x.isComposite then x.possibleLabels else prior.getItems).filter prior.containsItem =
      discCandidates prior x := by
  unfold discCandidates Inst.isComposite Inst.possibleLabels
  cases x.possible with
  | none =>
    simp only [Option.isSome_none, Bool.false_eq_true, if_false]
    rw [List.filter_eq_self]
    intro c hc; rw [containsItem_eq]; simpa using hc
  | some ls =>
    simp only [Option.isSome_some, if_true]
    congr 1; funext c; exact containsItem_eq prior c

/-- **C52.** The prediction is the first candidate with the greatest discriminant, provided
some candidate's discriminant exceeds `-DBL_MAX`. -/
theorem C52_argmax [LawfulOrd F] (prior : DD) (metric : Inst F → String → Res F) (x : Inst F)
    (μ : String → F) (hμ : ∀ c ∈ discCandidates prior x, metric x c = .ok (μ c))
    (hp : ∃ c ∈ discCandidates prior x, (Dbl.neg (Dbl.maxVal : F) <. μ c) = true) :
    ∃ r, gaussPredict prior metric x = .ok r ∧ IsArgmax μ (discCandidates prior x) r := by
  obtain ⟨c0, hc0, hlt0⟩ := hp
  have hinit : ∃ s, gaussInit prior x = .ok s := by
    unfold gaussInit
    by_cases hx : x.isComposite = true
    · rw [if_pos hx]
      cases hl : x.possibleLabels with
      | nil =>
        rw [← discCandidates_eq, if_pos hx, hl] at hc0
        simp at hc0
      | cons a r => exact ⟨a, rfl⟩
    · rw [if_neg hx]; exact ⟨_, rfl⟩
  obtain ⟨s, hs⟩ := hinit
  obtain ⟨r, hr, h⟩ := gauss_fold prior (metric x) μ
    (if x.isComposite then x.possibleLabels else prior.getItems) (by
      intro c hc hc'
      apply hμ
      rw [← discCandidates_eq, List.mem_filter]; exact ⟨hc, hc'⟩) (s, Dbl.neg (Dbl.maxVal : F))
  rw [discCandidates_eq] at h
  refine ⟨r.1, ?_, ?_⟩
  · unfold gaussPredict
    rw [hs]
    simp only [res_bind_ok, hr, res_pure]
  · rcases h with ⟨_, h2⟩ | ⟨l1, q, l2, h1, h2, h3, h4, h5⟩
    · rw [h2 c0 hc0] at hlt0; cases hlt0
    · rw [h2]
      refine ⟨⟨l1, l2, h1, fun s hs => (h4 s hs).2⟩, ?_⟩
      intro s hs
      rw [h1] at hs
      rcases List.mem_append.1 hs with hs | hs
      · exact (h4 s hs).1
      · rcases List.mem_cons.1 hs with rfl | hs
        · exact lt_irrefl' _
        · exact h5 s hs

/-- **C52.** Without such a candidate the prediction is the first possible label (composite)
or the majority label (plain). -/
theorem C52_default [LawfulOrd F] (prior : DD) (metric : Inst F → String → Res F) (x : Inst F)
    (μ : String → F) (hμ : ∀ c ∈ discCandidates prior x, metric x c = .ok (μ c))
    (hp : ∀ c ∈ discCandidates prior x, (Dbl.neg (Dbl.maxVal : F) <. μ c) = false) :
    (x.isComposite = false → gaussPredict prior metric x = .ok prior.getMaxItem) ∧
    (∀ a rest, x.possible = some (a :: rest) → gaussPredict prior metric x = .ok a) ∧
    (x.possible = some [] → gaussPredict prior metric x = .error (.throw "out_of_range")) := by
  have key : ∀ s, ∃ b, (if x.isComposite then x.possibleLabels else prior.getItems).foldlM
      (gaussStep prior (metric x)) (s, Dbl.neg (Dbl.maxVal : F)) = .ok (s, b) := by
    intro s
    obtain ⟨r, hr, h⟩ := gauss_fold prior (metric x) μ
      (if x.isComposite then x.possibleLabels else prior.getItems) (by
        intro c hc hc'
        apply hμ
        rw [← discCandidates_eq, List.mem_filter]; exact ⟨hc, hc'⟩) (s, Dbl.neg (Dbl.maxVal : F))
    rw [discCandidates_eq] at h
    rcases h with ⟨rfl, _⟩ | ⟨l1, q, l2, h1, h2, h3, h4, h5⟩
    · exact ⟨_, hr⟩
    · have := hp q (by rw [h1]; simp)
      simp only at h3
      rw [h3] at this; cases this
  refine ⟨?_, ?_, ?_⟩
  · intro hx
    obtain ⟨b, hb⟩ := key prior.getMaxItem
    unfold gaussPredict gaussInit
    rw [hx] at hb ⊢
    simp only [Bool.false_eq_true, if_false, res_bind_ok, res_pure] at hb ⊢
    rw [hb]; rfl
  · intro a rest hx
    obtain ⟨b, hb⟩ := key a
    have hc : x.isComposite = true := by simp [Inst.isComposite, hx]
    have hl : x.possibleLabels = a :: rest := by simp [Inst.possibleLabels, hx]
    unfold gaussPredict gaussInit
    rw [hc] at hb ⊢
    simp only [if_true] at hb ⊢
    rw [hl] at hb ⊢
    simp only [atR_cons_zero, res_bind_ok, hb, res_pure]
  · intro hx
    have hc : x.isComposite = true := by simp [Inst.isComposite, hx]
    have hl : x.possibleLabels = [] := by simp [Inst.possibleLabels, hx]
    unfold gaussPredict gaussInit
    rw [hc, if_pos rfl, hl]
    rfl

example : gaussPredict (⟨[("a", 2), ("b", 1), ("c", 1)], 4⟩ : DD)
    (fun _ c => .ok (if c = "a" then .fin 1 else if c = "b" then .fin 3 else .fin 3) : Inst XR → String → Res XR)
    ⟨"?", [], none⟩ = .ok "b" := by decide +kernel

/-! ## C53 -/

theorem mapM_pair {V : Type} (cs : List String) (g : String → Res V) (v : String → V)
    (h : ∀ c ∈ cs, g c = .ok (v c)) : cs.mapM g = .ok (cs.map v) := mapM_ok h

theorem kmeans_find {V : Type} (cs : List String) (v : String → V) (c : String) (hc : c ∈ cs) :
    (cs.map (fun c => (c, v c))).find? (fun p => p.1 == c) = some (c, v c) := by
  induction cs with
  | nil => simp at hc
  | cons a cs ih =>
    rw [List.map_cons, List.find?_cons]
    by_cases h : a = c
    · subst h; simp
    · have : ((a, v a).1 == c) = false := by simpa using h
      rw [this]
      exact ih (by rcases List.mem_cons.1 hc with rfl | hc; exact absurd rfl h; exact hc)

theorem kmeans_trained (old : KMeans F) (l : IList F) (dist : Inst F → Inst F → Res F)
    (means : String → List (Attr F))
    (hmean : ∀ c ∈ l.map Inst.label,
      IList.average (l.filter (fun x => x.label == c)) = .ok (c, (means c).map some)) :
    KMeans.train old l dist = .ok ⟨l.classDistribution,
      l.getDistinctClassLabels.map (fun c => (c, (means c).map some)), dist⟩ := by
  have hfo := C07_distinct_class_labels l
  obtain ⟨cs, ps, hfo', e, hps, _, _⟩ := C20_partition_by_class l
  have hcs : cs = l.getDistinctClassLabels := hfo'.unique hfo
  unfold KMeans.train
  rw [e]
  simp only [res_bind_ok]
  have : ps.mapM (fun p => IList.average p) = .ok (cs.map (fun c => (c, (means c).map some))) := by
    rw [hps, List.mapM_map]
    exact mapM_ok (fun c hc => hmean c ((hfo'.mem_iff c).1 hc))
  rw [this, hcs]; rfl

theorem nonNull_some (as : List (Attr F)) : nonNull (as.map some) = .ok as := by
  unfold nonNull
  rw [List.mapM_map]
  have := mapM_ok (f := fun (a : Attr F) => (Except.ok a : Res (Attr F))) (g := id) (l := as)
    (fun _ _ => rfl)
  rw [List.map_id] at this
  exact this

end general

/-- **C53.** Trained on `l`, the nearest-mean classifier assigns a plain instance to a class
whose mean is nearest; among nearest means the smallest label wins. `means c` are the
attributes of the average instance of class `c` (see C16). -/
theorem C53_nearest_mean_partial (old : KMeans ℝ) (l : IList ℝ) (dist : Inst ℝ → Inst ℝ → Res ℝ)
    (means : String → List (Attr ℝ)) (hne : l ≠ [])
    (hmean : ∀ c ∈ l.map Inst.label,
      IList.average (l.filter (fun x => x.label == c)) = .ok (c, (means c).map some))
    (x : Inst ℝ) (hx : x.isComposite = false) (d : String → ℝ)
    (hd : ∀ c ∈ l.map Inst.label, dist x ⟨c, means c, none⟩ = .ok (d c))
    (hmax : ∀ c ∈ l.map Inst.label, d c < Dbl.maxVal) :
    ∃ m r, KMeans.train old l dist = .ok m ∧ m.predict x = .ok r ∧ r ∈ l.map Inst.label ∧
      (∀ c ∈ l.map Inst.label, d r ≤ d c) ∧
      (∀ c ∈ l.map Inst.label, d c = d r → r ≤ c) := by
  have ht := kmeans_trained old l dist means hmean
  have hfo := C07_distinct_class_labels l
  have hcd := C10_class_distribution l
  have hcand : discCandidates l.classDistribution x = l.classDistribution.getItems := by
    unfold discCandidates
    cases h : x.possible with
    | none => rfl
    | some ls => simp [Inst.isComposite, h] at hx
  obtain ⟨r, hr, ham⟩ := C52_argmax l.classDistribution
    (KMeans.metric ⟨l.classDistribution,
      l.getDistinctClassLabels.map (fun c => (c, (means c).map some)), dist⟩) x
    (fun c => - d c) (by
      intro c hc
      rw [hcand, hcd.mem_items] at hc
      unfold KMeans.metric
      simp only
      rw [kmeans_find _ (fun c => (means c).map some) c ((hfo.mem_iff c).2 hc)]
      simp only [nonNull_some, res_bind_ok, hd c hc, res_pure, neg_real]) (by
      cases l with
      | nil => exact absurd rfl hne
      | cons y l =>
        refine ⟨y.label, ?_, ?_⟩
        · rw [hcand, hcd.mem_items]; simp
        · simp only [neg_real, lt_real, decide_eq_true_eq, neg_lt_neg_iff]
          exact hmax _ (by simp))
  rw [hcand] at ham
  obtain ⟨⟨l1, l2, hs, h1⟩, h2⟩ := ham
  refine ⟨_, r, ht, hr, ?_, ?_, ?_⟩
  · rw [← hcd.mem_items, hs]; simp
  · intro c hc
    have := h2 c ((hcd.mem_items c).2 hc)
    simp only [lt_real, decide_eq_false_iff_not, neg_lt_neg_iff, not_lt] at this
    exact this
  · intro c hc he
    have hmem := (hcd.mem_items c).2 hc
    have hsort := hcd.sorted
    rw [hs] at hmem hsort
    rw [List.pairwise_append, List.pairwise_cons] at hsort
    rcases List.mem_append.1 hmem with h3 | h3
    · have := h1 c h3 (by simp)
      simp [he] at this
    · rcases List.mem_cons.1 h3 with rfl | h3
      · exact le_rfl
      · exact le_of_lt (hsort.2.1.1 c h3)

/-- the average instance of a class of purely continuous instances: column means -/
theorem average_continuous (c : String) (p : IList ℝ) (hne : p ≠ []) (n : Nat)
    (hl : ∀ x ∈ p, x.label = c) (v : Inst ℝ → List ℝ)
    (hv : ∀ x ∈ p, x.attrs = (v x).map Attr.continuous ∧ (v x).length = n) :
    IList.average p = .ok (c, ((List.range n).map (fun (i : Nat) =>
      (.continuous (mean (p.map (fun x => (v x).getD i 0))) : Attr ℝ))).map some) := by
  obtain ⟨x, hx, h0⟩ := first_of_ne hne
  unfold IList.average
  rw [h0]
  simp only [res_bind_ok, Inst.attributeSize]
  have hlen : x.attrs.length = n := by rw [(hv x hx).1, List.length_map, (hv x hx).2]
  rw [hlen]
  rw [foldlM_ok (g := fun (r : List (Option (Attr ℝ))) (i : Nat) =>
    r ++ [some (.continuous (mean (p.map (fun x => (v x).getD i 0))))])]
  · rw [foldl_push_map]
    simp [hl x hx, Function.comp_def]
  · intro i hi s
    rw [List.mem_range] at hi
    rw [C16_mean p hne i (fun x => (v x).getD i 0)]
    · rfl
    · intro y hy
      obtain ⟨h1, h2⟩ := hv y hy
      unfold ContAt
      rw [h1, List.getElem?_map, List.getElem?_eq_getElem (by omega)]
      simp [List.getD_eq_getElem?_getD, List.getElem?_eq_getElem (show i < (v y).length by omega)]

/-- column means of a class -/
noncomputable def classMean (l : IList ℝ) (v : Inst ℝ → List ℝ) (n : Nat) (c : String) : List ℝ :=
  (List.range n).map (fun (i : Nat) =>
    mean ((l.filter (fun x => x.label == c)).map (fun x => (v x).getD i 0)))

/-- squared Euclidean distance of vectors -/
noncomputable def sqDist (u w : List ℝ) : ℝ := (List.zipWith (fun a b => (a - b) ^ 2) u w).sum

/-- **C53.** With purely continuous data and the Euclidean metric: the class whose vector of
column means is nearest (squared distance) is predicted. -/
theorem C53_euclidean_partial (old : KMeans ℝ) (l : IList ℝ) (hne : l ≠ []) (n : Nat) (v : Inst ℝ → List ℝ)
    (hv : ∀ x ∈ l, x.attrs = (v x).map Attr.continuous ∧ (v x).length = n)
    (x : Inst ℝ) (hx : x.isComposite = false) (u : List ℝ)
    (hu : x.attrs = u.map Attr.continuous) (hlen : u.length = n)
    (hmax : ∀ c ∈ l.map Inst.label, sqDist u (classMean l v n c) < Dbl.maxVal) :
    ∃ m r, KMeans.train old l euclidean = .ok m ∧ m.predict x = .ok r ∧ r ∈ l.map Inst.label ∧
      ∀ c ∈ l.map Inst.label, sqDist u (classMean l v n r) ≤ sqDist u (classMean l v n c) := by
  obtain ⟨m, r, h1, h2, h3, h4, _⟩ := C53_nearest_mean_partial old l euclidean
    (fun c => (classMean l v n c).map Attr.continuous) hne (by
      intro c hc
      have hne' : l.filter (fun x => x.label == c) ≠ [] := by
        obtain ⟨y, hy, rfl⟩ := List.mem_map.1 hc
        intro h
        have : y ∈ l.filter (fun x => x.label == y.label) := by simp [hy]
        rw [h] at this; simp at this
      rw [average_continuous c _ hne' n (by intro y hy; simpa using (List.mem_filter.1 hy).2) v
        (fun y hy => hv y (List.mem_filter.1 hy).1)]
      simp [classMean, Function.comp_def]) x hx (fun c => sqDist u (classMean l v n c)) (by
      intro c hc
      rw [C51_sum]
      · congr 2
        simp only [hu]
        rw [List.zipWith_map]
        rfl
      · simp [hu, classMean, hlen]) hmax
  exact ⟨m, r, h1, h2, h3, h4⟩

/-- training data for the examples -/
def exClusters : IList XR :=
  [⟨"b", [.continuous (.fin 0)], none⟩, ⟨"a", [.continuous (.fin 9)], none⟩,
   ⟨"b", [.continuous (.fin 2)], none⟩]

example : (KMeans.train ⟨DD.empty, [], euclidean⟩ exClusters euclidean >>= fun m =>
    m.predict ⟨"?", [.continuous (.fin 4)], none⟩) = .ok "b" := by decide +kernel

/-- **C53 is false for binary and indexed attributes**: the class mean has a null attribute
for such a column, which prediction dereferences. -/
theorem C53_refuted : ∃ (l : IList XR) (x : Inst XR) (m : KMeans XR), l ≠ [] ∧
    KMeans.train ⟨DD.empty, [], euclidean⟩ l euclidean = .ok m ∧
    m.predict x = .error (.ub "null attribute") :=
  ⟨[⟨"a", [.indexed "u" 0 2], none⟩], ⟨"a", [.indexed "u" 0 2], none⟩,
   ⟨⟨[("a", 1)], 1⟩, [("a", [none])], euclidean⟩, by simp, rfl, by decide +kernel⟩

end Verif
