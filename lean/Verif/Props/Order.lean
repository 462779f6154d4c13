import Verif.Props.TreeOrder
import Verif.Props.NaiveBayes
import Verif.Props.Distance

/-! # Properties C140, C141: other classifiers and the order of the training instances -/

set_option linter.unusedSectionVars false

namespace Verif
open Dbl

/-! ## C140 -/

section
variable {F : Type} [Dbl F]

theorem classDistribution_perm {l l' : IList F} (h : l.Perm l') : l.classDistribution = l'.classDistribution := by
  rw [classDistribution_eq, classDistribution_eq]; exact DD.ofList_perm (h.map _)

/-- a prediction by discriminants uses them for the training labels only -/
theorem gaussPredict_congr {prior : DD} {f g : Inst F → String → Res F} {x : Inst F}
    (h : ∀ c, prior.containsItem c = true → f x c = g x c) : gaussPredict prior f x = gaussPredict prior g x := by
  unfold gaussPredict
  have hs : gaussStep prior (f x) = gaussStep prior (g x) := by
    funext b c
    unfold gaussStep
    by_cases hc : prior.containsItem c = true
    · rw [if_pos hc, if_pos hc, h c hc]
    · rw [if_neg hc, if_neg hc]
  rw [hs]

theorem containsItem_iff (l : IList F) (c : String) : l.classDistribution.containsItem c = true ↔ c ∈ l.map Inst.label := by
  rw [containsItem_eq]
  simp only [List.contains_iff_mem]
  rw [(C10_class_distribution l).mem_items]

/-- **C140.** The dummy classifier does not depend on the order of the training instances. -/
theorem C140_dummy {l l' : IList F} (h : l.Perm l') (x : Inst F) :
    dummyPredict l.classDistribution x = dummyPredict l'.classDistribution x ∧
    (dummyProbability l.classDistribution : OMap F) = dummyProbability l'.classDistribution := by
  rw [classDistribution_perm h]
  exact ⟨rfl, rfl⟩

end

theorem classSize_perm {F : Type} {l l' : IList F} (h : l.Perm l') (c : String) : classSize l c = classSize l' c :=
  (h.map _).count_eq c

theorem classColumn_perm {F α : Type} [Inhabited α] {l l' : IList F} (h : l.Perm l') (v : Inst F → List α) (c : String) (i : Nat) :
    (classColumn l v c i).Perm (classColumn l' v c i) := (h.filter _).map _

theorem smoothed_perm {l l' : IList ℝ} (h : l.Perm l') (v : Inst ℝ → List String) (c : String) (i : Nat) (u : String) :
    smoothed l v c i u = smoothed l' v c i u := by
  unfold smoothed
  rw [(classColumn_perm h v c i).count_eq, classSize_perm h, ((classColumn_perm h v c i).dedup).length_eq]

theorem classMean_perm {l l' : IList ℝ} (h : l.Perm l') (v : Inst ℝ → List ℝ) (n : Nat) (c : String) :
    classMean l v n c = classMean l' v n c := by
  unfold classMean
  exact List.map_congr_left (fun i _ => mean_perm ((h.filter _).map _))

theorem classSD_perm {l l' : IList ℝ} (h : l.Perm l') (v : Inst ℝ → List ℝ) (n : Nat) (c : String) :
    classSD l v n c = classSD l' v n c := by
  unfold classSD
  exact List.map_congr_left (fun i _ => sampleSD_perm ((h.filter _).map _))

theorem scatter_perm {l l' : IList ℝ} (h : l.Perm l') (v : Inst ℝ → List ℝ) (n : Nat) (c : String) (i j : Nat) :
    scatter l v n c i j = scatter l' v n c i j := by
  unfold scatter
  rw [classMean_perm h]
  exact ((h.filter _).map _).sum_eq

theorem distinctLabels_perm {F : Type} [Dbl F] {l l' : IList F} (h : l.Perm l') :
    l.getDistinctClassLabels.Perm l'.getDistinctClassLabels := by
  have h1 := C07_distinct_class_labels l
  have h2 := C07_distinct_class_labels l'
  rw [List.perm_ext_iff_of_nodup h1.nodup h2.nodup]
  intro a
  rw [h1.mem_iff, h2.mem_iff]
  exact (h.map _).mem_iff

theorem pooledEntry_perm {l l' : IList ℝ} (h : l.Perm l') (v : Inst ℝ → List ℝ) (n i j : Nat) :
    pooledEntry l v n i j = pooledEntry l' v n i j := by
  unfold pooledEntry
  have hd := distinctLabels_perm h
  rw [(hd.map _).sum_eq, hd.length_eq, h.length_eq]
  congr 2
  exact List.map_congr_left (fun c _ => scatter_perm h v n c i j)

/-- **C140.** Naive Bayes on discrete data predicts alike when trained on the same instances in
another order. -/
theorem C140_naive_bayes_discrete {l l' : IList ℝ} (hperm : l.Perm l') (hne : l ≠ []) (v : Inst ℝ → List String) (n : Nat) (hn : 0 < n)
    (hv : ∀ x ∈ l, x.attrs = (v x).map Attr.discrete ∧ (v x).length = n) :
    ∃ m m', NaiveBayes.train NaiveBayes.new l = .ok m ∧ NaiveBayes.train NaiveBayes.new l' = .ok m' ∧
      ∀ (x : Inst ℝ) (u : List String), x.attrs = u.map Attr.discrete → u.length = n → m.predict x = m'.predict x := by
  have hne' : l' ≠ [] := fun h => hne (by rw [h] at hperm; exact hperm.eq_nil)
  obtain ⟨m, e, hp, hs⟩ := C54_score l hne v n hn hv
  obtain ⟨m', e', hp', hs'⟩ := C54_score l' hne' v n hn (fun x hx => hv x (hperm.mem_iff.2 hx))
  refine ⟨m, m', e, e', ?_⟩
  intro x u hx hu
  unfold NaiveBayes.predict
  rw [hp, hp', ← classDistribution_perm hperm]
  refine gaussPredict_congr (fun c hc => ?_)
  have hc := (containsItem_iff l c).1 hc
  rw [(hs x u hx hu c hc).1, (hs' x u hx hu c ((hperm.map _).mem_iff.1 hc)).1, classSize_perm hperm, hperm.length_eq]
  simp only [smoothed_perm hperm]

/-- **C140.** Naive Bayes on continuous data, with at least two instances of every class. -/
theorem C140_naive_bayes_continuous {l l' : IList ℝ} (hperm : l.Perm l') (hne : l ≠ []) (v : Inst ℝ → List ℝ) (n : Nat) (hn : 0 < n)
    (hv : ∀ x ∈ l, x.attrs = (v x).map Attr.continuous ∧ (v x).length = n)
    (h2 : ∀ c ∈ l.map Inst.label, 2 ≤ classSize l c) :
    ∃ m m', NaiveBayes.train NaiveBayes.new l = .ok m ∧ NaiveBayes.train NaiveBayes.new l' = .ok m' ∧
      ∀ (x : Inst ℝ) (u : List ℝ), x.attrs = u.map Attr.continuous → u.length = n → m.predict x = m'.predict x := by
  have hne' : l' ≠ [] := fun h => hne (by rw [h] at hperm; exact hperm.eq_nil)
  obtain ⟨m, e, hp, hs⟩ := C106_partial l hne v n hn hv h2
  obtain ⟨m', e', hp', hs'⟩ := C106_partial l' hne' v n hn (fun x hx => hv x (hperm.mem_iff.2 hx))
    (fun c hc => by rw [← classSize_perm hperm]; exact h2 c ((hperm.map _).mem_iff.2 hc))
  refine ⟨m, m', e, e', ?_⟩
  intro x u hx hu
  unfold NaiveBayes.predict
  rw [hp, hp', ← classDistribution_perm hperm]
  refine gaussPredict_congr (fun c hc => ?_)
  have hc := (containsItem_iff l c).1 hc
  rw [hs x u hx hu c hc, hs' x u hx hu c ((hperm.map _).mem_iff.1 hc), classSize_perm hperm, hperm.length_eq,
    classMean_perm hperm, classSD_perm hperm]

theorem kmeans_continuous (old : KMeans ℝ) (l : IList ℝ) (dist : Inst ℝ → Inst ℝ → Res ℝ) (n : Nat) (v : Inst ℝ → List ℝ)
    (hv : ∀ x ∈ l, x.attrs = (v x).map Attr.continuous ∧ (v x).length = n) :
    KMeans.train old l dist = .ok ⟨l.classDistribution,
      l.getDistinctClassLabels.map (fun c => (c, ((classMean l v n c).map Attr.continuous).map some)), dist⟩ := by
  refine kmeans_trained old l dist _ (fun c hc => ?_)
  have hne' : l.filter (fun x => x.label == c) ≠ [] := by
    obtain ⟨y, hy, rfl⟩ := List.mem_map.1 hc
    intro h
    have : y ∈ l.filter (fun x => x.label == y.label) := by simp [hy]
    rw [h] at this; simp at this
  rw [average_continuous c _ hne' n (by intro y hy; simpa using (List.mem_filter.1 hy).2) v
    (fun y hy => hv y (List.mem_filter.1 hy).1)]
  simp [classMean, Function.comp_def]

/-- **C140.** The nearest-mean classifier on continuous data, with any distance. -/
theorem C140_kmeans {l l' : IList ℝ} (hperm : l.Perm l') (old old' : KMeans ℝ) (dist : Inst ℝ → Inst ℝ → Res ℝ) (n : Nat) (v : Inst ℝ → List ℝ)
    (hv : ∀ x ∈ l, x.attrs = (v x).map Attr.continuous ∧ (v x).length = n) :
    ∃ m m', KMeans.train old l dist = .ok m ∧ KMeans.train old' l' dist = .ok m' ∧
      ∀ x : Inst ℝ, m.predict x = m'.predict x := by
  refine ⟨_, _, kmeans_continuous old l dist n v hv, kmeans_continuous old' l' dist n v (fun x hx => hv x (hperm.mem_iff.2 hx)), ?_⟩
  intro x
  unfold KMeans.predict
  simp only [← classDistribution_perm hperm]
  refine gaussPredict_congr (fun c hc => ?_)
  have hc := (containsItem_iff l c).1 hc
  unfold KMeans.metric
  simp only
  rw [kmeans_find _ _ c (((C07_distinct_class_labels l).mem_iff c).2 hc),
    kmeans_find _ _ c (((C07_distinct_class_labels l').mem_iff c).2 ((hperm.map _).mem_iff.1 hc)), classMean_perm hperm]

/-- two matrices of the same size with the same entries -/
def SameMatrix (n : Nat) (A B : Mat ℝ) : Prop :=
  A.rows = n ∧ A.cols = n ∧ B.rows = n ∧ B.cols = n ∧ ∀ i j, i < n → j < n → A.e i j = B.e i j

theorem bilinear_same {n : Nat} {A B : Mat ℝ} (h : SameMatrix n A B) (u w : Nat → ℝ) : bilinear n A u w = bilinear n B u w := by
  unfold bilinear
  refine Finset.sum_congr rfl (fun i hi => Finset.sum_congr rfl (fun j hj => ?_))
  rw [h.2.2.2.2 i j (Finset.mem_range.1 hi) (Finset.mem_range.1 hj)]

/-- **C140.** Linear discriminant analysis on continuous data with at least two instances of every
class. `inverse` is the library's inversion: symmetric for symmetric matrices, and a function of
the entries of the matrix. -/
theorem C140_lda {l l' : IList ℝ} (hperm : l.Perm l') (hne : l ≠ []) (v : Inst ℝ → List ℝ) (n : Nat)
    (hv : ∀ x ∈ l, x.attrs = (v x).map Attr.continuous ∧ (v x).length = n)
    (h2 : ∀ c ∈ l.map Inst.label, 2 ≤ classSize l c) (inverse : Mat ℝ → Mat ℝ)
    (hinv : ∀ S, IsSymm n S → IsSymm n (inverse S))
    (hext : ∀ S S', SameMatrix n S S' → SameMatrix n (inverse S) (inverse S')) :
    ∃ m m', Lda.train inverse Lda.new l = .ok m ∧ Lda.train inverse Lda.new l' = .ok m' ∧
      ∀ (x : Inst ℝ) (u : List ℝ), x.attrs = u.map Attr.continuous → u.length = n → m.predict x = m'.predict x := by
  have hne' : l' ≠ [] := fun h => hne (by rw [h] at hperm; exact hperm.eq_nil)
  obtain ⟨m, S, e, hp, hS, hSe, hs⟩ := C104_lda l v n hv h2 hne inverse hinv
  obtain ⟨m', S', e', hp', hS', hSe', hs'⟩ := C104_lda l' v n (fun x hx => hv x (hperm.mem_iff.2 hx))
    (fun c hc => by rw [← classSize_perm hperm]; exact h2 c ((hperm.map _).mem_iff.2 hc)) hne' inverse hinv
  have hsame : SameMatrix n (inverse S) (inverse S') := by
    refine hext S S' ⟨hS.1, hS.2.1, hS'.1, hS'.2.1, fun i j hi hj => ?_⟩
    rw [hSe i j hi hj, hSe' i j hi hj, pooledEntry_perm hperm]
  refine ⟨m, m', e, e', ?_⟩
  intro x u hx hu
  unfold Lda.predict
  rw [hp, hp', ← classDistribution_perm hperm]
  refine gaussPredict_congr (fun c hc => ?_)
  have hc := (containsItem_iff l c).1 hc
  rw [hs x u hx hu c hc, hs' x u hx hu c ((hperm.map _).mem_iff.1 hc), classSize_perm hperm, hperm.length_eq,
    classMean_perm hperm]
  unfold mahSq
  rw [bilinear_same hsame, bilinear_same hsame]

/-- **C140.** Quadratic discriminant analysis on continuous data with at least two instances of
every class; `det` is the library's determinant, a function of the entries too. -/
theorem C140_qda {l l' : IList ℝ} (hperm : l.Perm l') (hne : l ≠ []) (v : Inst ℝ → List ℝ) (n : Nat)
    (hv : ∀ x ∈ l, x.attrs = (v x).map Attr.continuous ∧ (v x).length = n)
    (h2 : ∀ c ∈ l.map Inst.label, 2 ≤ classSize l c) (inverse : Mat ℝ → Mat ℝ) (det : Mat ℝ → ℝ)
    (hinv : ∀ S, IsSymm n S → IsSymm n (inverse S))
    (hext : ∀ S S', SameMatrix n S S' → SameMatrix n (inverse S) (inverse S'))
    (hdet : ∀ S S', SameMatrix n S S' → det S = det S') :
    ∃ m m', Qda.train inverse det Qda.new l = .ok m ∧ Qda.train inverse det Qda.new l' = .ok m' ∧
      ∀ (x : Inst ℝ) (u : List ℝ), x.attrs = u.map Attr.continuous → u.length = n → m.predict x = m'.predict x := by
  have hne' : l' ≠ [] := fun h => hne (by rw [h] at hperm; exact hperm.eq_nil)
  obtain ⟨m, S, e, hp, hS, hs⟩ := C105_qda l v n hv h2 hne inverse det hinv
  obtain ⟨m', S', e', hp', hS', hs'⟩ := C105_qda l' v n (fun x hx => hv x (hperm.mem_iff.2 hx))
    (fun c hc => by rw [← classSize_perm hperm]; exact h2 c ((hperm.map _).mem_iff.2 hc)) hne' inverse det hinv
  refine ⟨m, m', e, e', ?_⟩
  intro x u hx hu
  unfold Qda.predict
  rw [hp, hp', ← classDistribution_perm hperm]
  refine gaussPredict_congr (fun c hc => ?_)
  have hc := (containsItem_iff l c).1 hc
  have hc' := (hperm.map _).mem_iff.1 hc
  have hSS : SameMatrix n (S c) (S' c) := by
    refine ⟨(hS c hc).1.1, (hS c hc).1.2.1, (hS' c hc').1.1, (hS' c hc').1.2.1, fun i j hi hj => ?_⟩
    rw [(hS c hc).2 i j hi hj, (hS' c hc').2 i j hi hj, scatter_perm hperm, classSize_perm hperm]
  rw [hs x u hx hu c hc, hs' x u hx hu c hc', classSize_perm hperm, hperm.length_eq, classMean_perm hperm, hdet _ _ hSS]
  unfold mahSq
  rw [bilinear_same (hext _ _ hSS)]

/-- the hypotheses are met, by training data in two orders and an inversion that keeps the matrix -/
example : nbWitness ≠ [] ∧ (nbWitness).Perm nbWitness.reverse ∧ nbWitness ≠ nbWitness.reverse ∧
    (∀ x ∈ nbWitness, x.attrs = (contValues x).map Attr.continuous ∧ (contValues x).length = 1) ∧
    (∀ c ∈ nbWitness.map Inst.label, 2 ≤ classSize nbWitness c) ∧
    (∀ S S' : Mat ℝ, SameMatrix 1 S S' → SameMatrix 1 (id S) (id S')) := by
  refine ⟨by simp [nbWitness], (List.reverse_perm _).symm, ?_, ?_, ?_, fun _ _ h => h⟩
  · simp [nbWitness]
  · intro x hx
    simp only [nbWitness, List.mem_cons, List.not_mem_nil, or_false] at hx
    rcases hx with rfl | rfl | rfl | rfl <;> simp [contValues, contOf]
  · intro c hc
    simp only [nbWitness, List.map_cons, List.map_nil, List.mem_cons, List.not_mem_nil, or_false] at hc
    rcases hc with rfl | rfl | rfl | rfl <;> simp [classSize, nbWitness]
/-- the nearest-mean classifier, trained in two orders -/
example : (KMeans.train ⟨DD.empty, [], euclidean⟩ exClusters euclidean >>= fun m =>
      m.predict ⟨"?", [.continuous (.fin 4)], none⟩) = .ok "b" ∧
    (KMeans.train ⟨DD.empty, [], euclidean⟩ exClusters.reverse euclidean >>= fun m =>
      m.predict ⟨"?", [.continuous (.fin 4)], none⟩) = .ok "b" := by decide +kernel

/-! ## C141 -/

theorem SwapEq.map_eq {α β : Type} {key : α → ℝ} {l l' : List α} (h : SwapEq key l l') (f : α → β)
    (hf : ∀ a ∈ l, ∀ b ∈ l, key a = key b → f a = f b) : l.map f = l'.map f := by
  induction h with
  | refl l => rfl
  | cons a h ih => rw [List.map_cons, List.map_cons, ih (fun x hx y hy => hf x (by simp [hx]) y (by simp [hy]))]
  | swap a b l hk =>
    have := hf a (by simp) b (by simp) hk
    simp [this]
  | trans h1 h2 ih1 ih2 =>
    rw [ih1 hf]
    exact ih2 (fun x hx y hy => hf x (h1.perm.mem_iff.2 hx) y (h1.perm.mem_iff.2 hy))

/-- a sorted list is its part below a bound, at the bound and above it -/
theorem key_blocks {α : Type} (key : α → ℝ) (t : ℝ) : ∀ s : List α, s.Pairwise (fun a b => key a ≤ key b) →
    s = s.filter (fun a => key a < t) ++ (s.filter (fun a => key a = t) ++ s.filter (fun a => t < key a)) := by
  intro s
  induction s with
  | nil => intro _; rfl
  | cons a s ih =>
    intro h
    rw [List.pairwise_cons] at h
    have hs := ih h.2
    rcases lt_trichotomy (key a) t with hat | hat | hat
    · have h1 : decide (key a < t) = true := decide_eq_true hat
      have h2 : decide (key a = t) = false := decide_eq_false hat.ne
      have h3 : decide (t < key a) = false := decide_eq_false (not_lt.2 hat.le)
      simp only [List.filter_cons, h1, h2, h3, if_true, Bool.false_eq_true, if_false, List.cons_append]
      rw [← hs]
    · have h0 : s.filter (fun a => decide (key a < t)) = [] := by
        rw [List.filter_eq_nil_iff]
        intro b hb
        simpa using hat.symm.le.trans (h.1 b hb)
      rw [h0] at hs
      have h1 : decide (key a < t) = false := decide_eq_false hat.not_lt
      have h2 : decide (key a = t) = true := decide_eq_true hat
      have h3 : decide (t < key a) = false := decide_eq_false hat.not_gt
      simp only [List.filter_cons, h0, h1, h2, h3, if_true, Bool.false_eq_true, if_false, List.cons_append, List.nil_append] at hs ⊢
      rw [← hs]
    · have h0 : s.filter (fun a => decide (key a < t)) = [] := by
        rw [List.filter_eq_nil_iff]
        intro b hb
        simpa using hat.le.trans (h.1 b hb)
      have h0' : s.filter (fun a => decide (key a = t)) = [] := by
        rw [List.filter_eq_nil_iff]
        intro b hb
        simpa using (lt_of_lt_of_le hat (h.1 b hb)).ne'
      rw [h0, h0'] at hs
      have h1 : decide (key a < t) = false := decide_eq_false (not_lt.2 hat.le)
      have h2 : decide (key a = t) = false := decide_eq_false hat.ne'
      have h3 : decide (t < key a) = true := decide_eq_true hat
      simp only [List.filter_cons, h0, h0', h1, h2, h3, if_true, Bool.false_eq_true, if_false, List.nil_append] at hs ⊢
      rw [← hs]

/-- The first `k` of two sorted orders of the same things have the same values of `f`, each equally often, if things with
equal keys and different values of `f` are all among the first `k` or all behind. -/
theorem sorted_take_perm {α β : Type} (key : α → ℝ) (f : α → β) (k : Nat) {s s' : List α} (hp : s.Perm s')
    (hs : s.Pairwise (fun a b => key a ≤ key b)) (hs' : s'.Pairwise (fun a b => key a ≤ key b))
    (htie : ∀ a ∈ s, ∀ b ∈ s, key a = key b → f a = f b ∨ (s.filter (fun c => key c ≤ key a)).length ≤ k ∨
      k ≤ (s.filter (fun c => key c < key a)).length) :
    ((s.take k).map f).Perm ((s'.take k).map f) := by
  rcases Nat.lt_or_ge k s.length with hk | hk
  · have hlen := hp.length_eq
    -- the key of the first one behind
    obtain ⟨t, ht⟩ : ∃ t, t = key s[k] := ⟨_, rfl⟩
    have hb := key_blocks key t s hs
    have hb' := key_blocks key t s' hs'
    have hpf : ∀ q : α → Bool, (s.filter q).Perm (s'.filter q) := fun q => hp.filter q
    have hl := (hpf (fun a => key a < t)).length_eq
    have he := (hpf (fun a => key a = t)).length_eq
    have hmem : s[k] ∈ s := List.getElem_mem _
    -- at most `k` are below
    have hlt : (s.filter (fun a => decide (key a < t))).length ≤ k := by
      by_contra hc
      have hk' : k < (s.filter (fun a => decide (key a < t))).length := by omega
      have h1 : s[k]? = (s.filter (fun a => decide (key a < t)))[k]? := by
        conv_lhs => rw [hb]
        rw [List.getElem?_append_left hk']
      rw [List.getElem?_eq_getElem hk, List.getElem?_eq_getElem hk'] at h1
      have h2 := (List.mem_filter.1 (List.getElem_mem hk')).2
      rw [← Option.some.inj h1] at h2
      have h3 : key s[k] < t := by simpa using h2
      rw [ht] at h3; exact lt_irrefl _ h3
    -- more than `k` are below or at it
    have hge : k < (s.filter (fun a => decide (key a < t))).length + (s.filter (fun a => decide (key a = t))).length := by
      by_contra hc
      have h1 : s[k]? = (s.filter (fun a => decide (t < key a)))[k - (s.filter (fun a => decide (key a < t))).length -
          (s.filter (fun a => decide (key a = t))).length]? := by
        conv_lhs => rw [hb]
        rw [List.getElem?_append_right (by omega), List.getElem?_append_right (by omega)]
      rw [List.getElem?_eq_getElem hk] at h1
      have h2 := (List.mem_filter.1 (List.mem_of_getElem? h1.symm)).2
      have h3 : t < key s[k] := by simpa using h2
      rw [ht] at h3; exact lt_irrefl _ h3
    have htk : ∀ (u : List α), u = u.filter (fun a => key a < t) ++ (u.filter (fun a => key a = t) ++ u.filter (fun a => t < key a)) →
        (u.filter (fun a => decide (key a < t))).length = (s.filter (fun a => decide (key a < t))).length →
        (u.filter (fun a => decide (key a = t))).length = (s.filter (fun a => decide (key a = t))).length →
        u.take k = u.filter (fun a => key a < t) ++
          (u.filter (fun a => key a = t)).take (k - (s.filter (fun a => decide (key a < t))).length) := by
      intro u hu h1 h2
      conv_lhs => rw [hu]
      rw [List.take_append, List.take_of_length_le (by omega), h1, List.take_append, List.append_right_inj, h2,
        show k - (s.filter (fun a => decide (key a < t))).length - (s.filter (fun a => decide (key a = t))).length = 0 by omega,
        List.take_zero, List.append_nil]
    rw [htk s hb rfl rfl, htk s' hb' hl.symm he.symm, List.map_append, List.map_append]
    refine ((hpf _).map f).append ?_
    -- the ones at the key
    generalize hj : k - (s.filter (fun a => decide (key a < t))).length = j
    rcases Nat.eq_zero_or_pos j with rfl | hj0
    · simp
    · have hsame : ∀ a ∈ s, key a = t → f a = f s[k] := by
        intro a ha hka
        rcases htie a ha s[k] hmem (by rw [hka, ht]) with h | h | h
        · exact h
        · exfalso
          have h1 : (s.filter (fun c => decide (key c ≤ key a))).length =
              (s.filter (fun a => decide (key a < t))).length + (s.filter (fun a => decide (key a = t))).length := by
            rw [hka]
            clear * -
            induction s with
            | nil => rfl
            | cons b s ih =>
              simp only [List.filter_cons]
              rcases lt_trichotomy (key b) t with h | h | h
              · simp [h, h.le, h.ne]; omega
              · simp [h]; omega
              · simp [h.ne', not_le.2 h, not_lt.2 h.le]; omega
          omega
        · exfalso
          rw [hka] at h
          omega
      have hconst : ∀ (u : List α), (∀ a ∈ u, a ∈ s) →
          ((u.filter (fun a => decide (key a = t))).take j).map f =
            List.replicate ((u.filter (fun a => decide (key a = t))).take j).length (f s[k]) := by
        intro u hu
        rw [List.eq_replicate_iff]
        refine ⟨by simp, fun b hb => ?_⟩
        obtain ⟨a, ha, rfl⟩ := List.mem_map.1 hb
        have := List.mem_filter.1 (List.mem_of_mem_take ha)
        exact hsame a (hu a this.1) (by simpa using this.2)
      rw [hconst s (fun a h => h), hconst s' (fun a h => hp.mem_iff.2 h), List.length_take, List.length_take, he]
  · rw [List.take_of_length_le hk, List.take_of_length_le (by rw [← hp.length_eq]; exact hk)]
    exact hp.map f

/-- **C141, partial.** The k-nearest-neighbour classifier predicts alike when trained on the same
instances in another order, unless two instances that may vote have different labels and the same distance, and
this is the distance at which the `k` neighbours end: fewer than `k` instances are nearer and more than `k` are as near
or nearer. -/
theorem C141_knn_partial {l l' : IList ℝ} (hperm : l.Perm l') (k : Int) (dist : Inst ℝ → Inst ℝ → Res ℝ)
    (old old' : Knn ℝ) (x : Inst ℝ) (d : Inst ℝ → ℝ) (hd : ∀ y ∈ candidates l x, dist y x = .ok (d y))
    (htie : ∀ y ∈ candidates l x, ∀ z ∈ candidates l x, d y = d z → y.label = z.label ∨
      ((candidates l x).filter (fun w => d w ≤ d y)).length ≤ k ∨ k ≤ ((candidates l x).filter (fun w => d w < d y)).length) :
    (Knn.train old l k dist).predict x = (Knn.train old' l' k dist).predict x ∧
    (Knn.train old l k dist).predictProbability x = (Knn.train old' l' k dist).predictProbability x := by
  have hcp : (candidates l x).Perm (candidates l' x) := by
    rw [candidates_eq, candidates_eq]; exact hperm.filter _
  have e := nearest_eq (Knn.train old l k dist) x d hd
  have e' := nearest_eq (Knn.train old' l' k dist) x d (fun y hy => hd y (hcp.mem_iff.2 hy))
  have hs : ∀ c : IList ℝ, (stableSort (fun a b => d a <. d b) c).Perm c ∧
      (stableSort (fun a b => d a <. d b) c).Pairwise (fun a b => d a ≤ d b) := by
    intro c
    refine ⟨stableSort_perm _ _, ?_⟩
    simpa using stableSort_sorted (strictWeak_key d) (l := c) (fun y _ => ord_real _)
  have hns : (((stableSort (fun a b => d a <. d b) (candidates l x)).take k.toNat).map Inst.label).Perm
      (((stableSort (fun a b => d a <. d b) (candidates l' x)).take k.toNat).map Inst.label) := by
    refine sorted_take_perm d Inst.label k.toNat ((hs _).1.trans (hcp.trans (hs _).1.symm)) (hs _).2 (hs _).2 ?_
    intro a ha b hb hab
    have hp1 := (hs (candidates l x)).1
    rw [(hp1.filter (fun c => decide (d c ≤ d a))).length_eq, (hp1.filter (fun c => decide (d c < d a))).length_eq]
    rcases htie a (hp1.mem_iff.1 ha) b (hp1.mem_iff.1 hb) hab with h | h | h
    · exact .inl h
    · exact .inr (.inl (by omega))
    · exact .inr (.inr (by omega))
  have hlen := hns.length_eq
  rw [List.length_map, List.length_map] at hlen
  constructor
  · unfold Knn.predict
    rw [e, e']
    simp only [res_bind_ok, Knn.train, getClassLabels_eq]
    have hm : ∀ {u u' : List String}, u.Perm u' → getMaximum u = getMaximum u' := by
      intro u u' h
      by_cases hu : u = []
      · subst hu; rw [List.nil_perm.1 h]
      · have hm := C44_majority u hu
        refine IsMajority.unique (l := u') ⟨h.mem_iff.1 hm.mem, fun t => ?_, fun t ht he => ?_⟩
          (C44_majority u' (fun e => hu (by rw [e] at h; exact List.perm_nil.1 h)))
        · rw [← h.count_eq, ← h.count_eq]; exact hm.max t
        · rw [← h.count_eq, ← h.count_eq] at he; exact hm.tie t (h.mem_iff.2 ht) he
    rw [hlen, hm hns]
  · unfold Knn.predictProbability
    rw [e, e']
    simp only [res_bind_ok, Knn.train, classDistribution_eq]
    rw [DD.ofList_perm hns]

/-- the two nearest of three, which are equally distant and have different labels -/
example (l' : IList ℝ) (h : [⟨"a", [.continuous 0], none⟩, ⟨"b", [.continuous 2], none⟩, ⟨"a", [.continuous 9], none⟩].Perm l')
    (old : Knn ℝ) :
    (Knn.train old [⟨"a", [.continuous 0], none⟩, ⟨"b", [.continuous 2], none⟩, ⟨"a", [.continuous 9], none⟩] 2 euclidean).predict
      ⟨"?", [.continuous 1], none⟩ = (Knn.train old l' 2 euclidean).predict ⟨"?", [.continuous 1], none⟩ := by
  refine (C141_knn_partial h 2 euclidean old old ⟨"?", [.continuous 1], none⟩
    (fun y => (List.zipWith sqDiff y.attrs [.continuous 1]).sum) ?_ ?_).1
  · intro y hy
    rw [candidates_eq] at hy
    have hy := (List.mem_filter.1 hy).1
    simp only [List.mem_cons, List.not_mem_nil, or_false] at hy
    rcases hy with rfl | rfl | rfl <;> exact C51_sum _ _ (by simp)
  · intro y hy z hz hyz
    rw [candidates_eq] at hy hz ⊢
    have hy := (List.mem_filter.1 hy).1
    have hz := (List.mem_filter.1 hz).1
    simp only [List.mem_cons, List.not_mem_nil, or_false] at hy hz
    rcases hy with rfl | rfl | rfl <;> rcases hz with rfl | rfl | rfl <;>
      first
        | exact .inl rfl
        | (exfalso; revert hyz; simp [sqDiff]; done)
        | (exfalso; revert hyz; simp [sqDiff]; norm_num; done)
        | (refine .inr (.inl ?_); simp [sqDiff, Knn.eligible, Inst.isComposite, List.filter_cons]; norm_num)

/-- **C141 is false**: among equally distant neighbours the earlier training instance is taken, so
exchanging two training instances changes the prediction. -/
theorem C141_refuted : ∃ (l l' : IList XR) (x : Inst XR) (a b : String), l.Perm l' ∧ a ≠ b ∧
    (Knn.train ⟨[], 0, euclidean⟩ l 1 euclidean).predict x = .ok a ∧
    (Knn.train ⟨[], 0, euclidean⟩ l' 1 euclidean).predict x = .ok b :=
  ⟨[⟨"a", [.continuous (.fin 0)], none⟩, ⟨"b", [.continuous (.fin 2)], none⟩],
   [⟨"b", [.continuous (.fin 2)], none⟩, ⟨"a", [.continuous (.fin 0)], none⟩],
   ⟨"?", [.continuous (.fin 1)], none⟩, "a", "b", .swap _ _ _, by decide, by decide +kernel, by decide +kernel⟩

/-- with distinct distances the order does not matter -/
example : (Knn.train ⟨[], 0, euclidean⟩ exClusters 1 euclidean).predict ⟨"?", [.continuous (.fin 5)], none⟩ = .ok "b" ∧
    (Knn.train ⟨[], 0, euclidean⟩ exClusters.reverse 1 euclidean).predict ⟨"?", [.continuous (.fin 5)], none⟩ = .ok "b" := by
  decide +kernel

end Verif
