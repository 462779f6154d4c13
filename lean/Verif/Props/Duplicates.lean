import Verif.Props.Agree
import Verif.Props.TreeColumns
import Verif.Props.Order
import Verif.Spec.Repeat

/-! # Property C182: repeating every training instance the same number of times -/

set_option linter.unusedSectionVars false

namespace Verif
open Dbl

/-! ## repeated lists -/

section lists
variable {α β : Type}

theorem eachTimes_cons (n : Nat) (a : α) (l : List α) : eachTimes n (a :: l) = List.replicate n a ++ eachTimes n l := rfl

theorem eachTimes_map (n : Nat) (f : α → β) (l : List α) : (eachTimes n l).map f = eachTimes n (l.map f) := by
  unfold eachTimes
  rw [List.map_flatMap, List.flatMap_map]
  simp

theorem eachTimes_length (n : Nat) (l : List α) : (eachTimes n l).length = n * l.length := by
  induction l with
  | nil => rfl
  | cons a l ih => rw [eachTimes_cons, List.length_append, List.length_replicate, ih, List.length_cons]; ring

theorem eachTimes_count [DecidableEq α] (n : Nat) (l : List α) (a : α) : (eachTimes n l).count a = n * l.count a := by
  induction l with
  | nil => rfl
  | cons b l ih =>
    rw [eachTimes_cons, List.count_append, ih, List.count_replicate, List.count_cons]
    by_cases h : b = a
    · simp [h]; ring
    · simp [h]

theorem eachTimes_filter (n : Nat) (p : α → Bool) (l : List α) : (eachTimes n l).filter p = eachTimes n (l.filter p) := by
  induction l with
  | nil => rfl
  | cons a l ih =>
    rw [eachTimes_cons, List.filter_append, ih, List.filter_replicate, List.filter_cons]
    by_cases h : p a = true
    · rw [if_pos h, if_pos h, eachTimes_cons]
    · rw [if_neg h, if_neg h]; rfl

theorem mem_eachTimes {n : Nat} (hn : 0 < n) {l : List α} {a : α} : a ∈ eachTimes n l ↔ a ∈ l := by
  unfold eachTimes
  rw [List.mem_flatMap]
  constructor
  · rintro ⟨b, hb, h⟩
    rw [(List.mem_replicate.1 h).2]; exact hb
  · intro h
    exact ⟨a, h, List.mem_replicate.2 ⟨by omega, rfl⟩⟩

theorem eachTimes_append (n : Nat) (l l' : List α) : eachTimes n (l ++ l') = eachTimes n l ++ eachTimes n l' := by
  unfold eachTimes; exact List.flatMap_append

theorem eachTimes_take (n k : Nat) (l : List α) : (eachTimes n l).take (n * k) = eachTimes n (l.take k) := by
  induction l generalizing k with
  | nil => simp [eachTimes]
  | cons a l ih =>
    cases k with
    | zero => simp [eachTimes]
    | succ k =>
      rw [List.take_succ_cons, eachTimes_cons, eachTimes_cons, List.take_append, List.length_replicate,
        List.take_of_length_le (by rw [List.length_replicate]; exact Nat.le_mul_of_pos_right _ (Nat.succ_pos _)), ← ih]
      congr 2
      rw [Nat.mul_succ]; omega

theorem eachTimes_sum (n : Nat) (l : List ℝ) : (eachTimes n l).sum = n * l.sum := by
  induction l with
  | nil => simp [eachTimes]
  | cons a l ih => rw [eachTimes_cons, List.sum_append, ih, List.sum_replicate, List.sum_cons, nsmul_eq_mul]; ring

theorem eachTimes_perm (n : Nat) {l l' : List α} (h : l.Perm l') : (eachTimes n l).Perm (eachTimes n l') := h.flatMap_right _

end lists

/-! ## what is counted -/

theorem IsMajority.times {n : Nat} (hn : 0 < n) {l l' : List String} {r : String} (h : IsMajority l r)
    (hp : l'.Perm (eachTimes n l)) : IsMajority l' r := by
  have hc : ∀ s, l'.count s = n * l.count s := fun s => by rw [hp.count_eq, eachTimes_count]
  refine ⟨hp.mem_iff.2 ((mem_eachTimes hn).2 h.mem), fun s => ?_, fun s hs he => ?_⟩
  · rw [hc, hc]; exact Nat.mul_le_mul_left _ (h.max s)
  · rw [hc, hc] at he
    exact h.tie s ((mem_eachTimes hn).1 (hp.mem_iff.1 hs)) (Nat.eq_of_mul_eq_mul_left hn he)

theorem items_times {n : Nat} (hn : 0 < n) {d d' : DD} {l l' : List String} (h : Counts d l) (h' : Counts d' l')
    (hp : l'.Perm (eachTimes n l)) : d'.getItems = d.getItems := by
  refine List.Perm.eq_of_pairwise (le := (· < ·)) (fun a b _ _ h1 h2 => absurd (h1.trans h2) (lt_irrefl _)) h'.sorted h.sorted ?_
  refine (List.perm_ext_iff_of_nodup (h'.sorted.imp ne_of_lt) (h.sorted.imp ne_of_lt)).2 (fun a => ?_)
  rw [h.mem_items, h'.mem_items, hp.mem_iff, mem_eachTimes hn]

theorem probability_count {d : DD} {l : List String} (h : Counts d l) {k : String} (hk : k ∈ d.getItems) :
    (d.getProbability k : ℝ) = (l.count k : ℝ) / l.length := by
  have hf : ∃ c, OMap.find? d.m k = some c := by
    cases e : OMap.find? d.m k with
    | none => exact absurd hk ((OMap.find?_eq_none_iff _ _).1 e)
    | some c => exact ⟨c, rfl⟩
  obtain ⟨c, e⟩ := hf
  have hc : d.getCount k = c := by
    unfold DD.getCount Counter.count
    rw [e]; rfl
  unfold DD.getProbability
  rw [e]
  simp only
  rw [← hc, h.count, show d.sum = l.length from h.sum]
  rfl

theorem shares_times {n : Nat} (hn : 0 < n) {d d' : DD} {l l' : List String} (h : Counts d l) (h' : Counts d' l')
    (hp : l'.Perm (eachTimes n l)) : (d'.getProbabilityDistribution : OMap ℝ) = d.getProbabilityDistribution := by
  have hi := items_times hn h h' hp
  have key : ∀ e : DD, (e.getProbabilityDistribution : OMap ℝ) = e.getItems.map (fun k => (k, e.getProbability k)) := by
    intro e
    unfold DD.getProbabilityDistribution DD.getItems OMap.keys
    rw [List.map_map]; rfl
  rw [key, key, hi]
  refine List.map_congr_left (fun k hk => ?_)
  rw [probability_count h hk, probability_count h' (by rw [hi]; exact hk), hp.count_eq, eachTimes_count, hp.length_eq, eachTimes_length]
  have : (n : ℝ) ≠ 0 := by exact_mod_cast hn.ne'
  push_cast
  rw [mul_div_mul_left _ _ this]

theorem labels_times {F : Type} {n : Nat} {l l' : IList F} (hp : l'.Perm (eachTimes n l)) :
    (l'.map Inst.label).Perm (eachTimes n (l.map Inst.label)) := by
  rw [← eachTimes_map]; exact hp.map _

theorem maxItemOf_times {n : Nat} (hn : 0 < n) {d d' : DD} {l l' : List String} (h : Counts d l) (h' : Counts d' l')
    (hp : l'.Perm (eachTimes n l)) (ls : List String) : d'.getMaxItemOf ls = d.getMaxItemOf ls := by
  by_cases hls : ls = []
  · rw [hls]; rfl
  · have h1 := getMaxItemOf_first d ls hls
    have h2 := getMaxItemOf_first d' ls hls
    have hc : ∀ s, d'.getCount s = n * d.getCount s := fun s => by
      rw [h.count, h'.count, hp.count_eq, eachTimes_count]
    refine h2.unique ?_
    obtain ⟨a, b, e, f1, f2⟩ := h1.split
    refine ⟨a, b, e, fun s hs => ?_, fun s hs => ?_⟩
    · simp only [hc]; exact Nat.mul_lt_mul_of_pos_left (f1 s hs) hn
    · simp only [hc]; exact Nat.mul_le_mul_left _ (f2 s hs)

/-! ## dummy and random classifiers -/

/-- **C182.** Dummy classifier: the prediction for every plain and composite instance, and in exact arithmetic the class
probabilities, stay the same. -/
theorem C182_dummy {n : Nat} (hn : 0 < n) (l : IList ℝ) (hne : l ≠ []) (x : Inst ℝ) :
    dummyPredict (IList.classDistribution (eachTimes n l)) x = dummyPredict l.classDistribution x ∧
    (dummyProbability (IList.classDistribution (eachTimes n l)) : OMap ℝ) = dummyProbability l.classDistribution := by
  have hp := labels_times (List.Perm.refl (eachTimes n l))
  refine ⟨?_, shares_times hn (C10_class_distribution l) (C10_class_distribution _) hp⟩
  cases hx : x.isComposite with
  | false =>
    refine (C46_plain (eachTimes n l) x ?_ hx).unique ((C46_plain l x hne hx).times hn hp)
    intro h
    obtain ⟨a, ha⟩ := List.exists_mem_of_ne_nil _ hne
    rw [← mem_eachTimes hn, h] at ha; cases ha
  | true =>
    unfold dummyPredict
    rw [hx, if_pos rfl, if_pos rfl, maxItemOf_times hn (C10_class_distribution l) (C10_class_distribution _) hp]

/-- **C182.** Random classifier: the labels it draws from, so its prediction for every drawn number and its class
probabilities, stay the same. -/
theorem C182_random {F : Type} [Dbl F] {n : Nat} (hn : 0 < n) (l : IList F) (r : Nat) (x : Inst F) :
    randomPredict (randomTrain (eachTimes n l)) r x = randomPredict (randomTrain l) r x ∧
    (randomProbability (randomTrain (eachTimes n l)) : OMap F) = randomProbability (randomTrain l) := by
  have : randomTrain (eachTimes n l) = randomTrain l :=
    items_times hn (C10_class_distribution l) (C10_class_distribution _) (labels_times (List.Perm.refl _))
  rw [this]; exact ⟨rfl, rfl⟩

/-! ## nearest mean -/

theorem mean_times {n : Nat} (hn : 0 < n) (l : List ℝ) : mean (eachTimes n l) = mean l := by
  unfold mean
  have : (n : ℝ) ≠ 0 := by exact_mod_cast hn.ne'
  rw [eachTimes_sum, eachTimes_length]
  push_cast
  rw [mul_div_mul_left _ _ this]

theorem gaussPredict_times {n : Nat} (hn : 0 < n) {d d' : DD} {l l' : List String} (h : Counts d l) (h' : Counts d' l')
    (hp : l'.Perm (eachTimes n l)) (hmax : d'.getMaxItem = d.getMaxItem) {f g : Inst ℝ → String → Res ℝ} {x : Inst ℝ}
    (hfg : ∀ c ∈ l, f x c = g x c) : gaussPredict d' f x = gaussPredict d g x := by
  have hi := items_times hn h h' hp
  have hci : ∀ c, d'.containsItem c = d.containsItem c := by
    intro c
    have key : ∀ e : DD, e.containsItem c = true ↔ c ∈ e.getItems := by
      intro e
      unfold DD.containsItem OMap.contains DD.getItems
      rw [Option.isSome_iff_ne_none, ne_eq, OMap.find?_eq_none_iff, not_not]
    rw [Bool.eq_iff_iff, key, key, hi]
  have e1 : gaussPredict d' f x = gaussPredict d f x := by
    unfold gaussPredict
    have hs : gaussStep d' (f x) = gaussStep d (f x) := by
      funext b c
      unfold gaussStep
      rw [hci]
    have h0 : gaussInit d' x = gaussInit d x := by
      unfold gaussInit
      rw [hmax]
    rw [hs, h0, hi]
  rw [e1]
  refine gaussPredict_congr (fun c hc => hfg c ?_)
  rw [← h.mem_items]
  unfold DD.containsItem OMap.contains at hc
  rw [Option.isSome_iff_ne_none, ne_eq, OMap.find?_eq_none_iff, not_not] at hc
  exact hc

/-- **C182.** Nearest class mean, on continuous data, in exact arithmetic. -/
theorem C182_nearest_mean {n : Nat} (hn : 0 < n) (l : IList ℝ) (hne : l ≠ []) (old old' : KMeans ℝ)
    (dist : Inst ℝ → Inst ℝ → Res ℝ) (w : Nat) (v : Inst ℝ → List ℝ)
    (hv : ∀ x ∈ l, x.attrs = (v x).map Attr.continuous ∧ (v x).length = w) :
    ∃ m m', KMeans.train old l dist = .ok m ∧ KMeans.train old' (eachTimes n l) dist = .ok m' ∧
      ∀ x : Inst ℝ, m'.predict x = m.predict x := by
  have hp := labels_times (List.Perm.refl (eachTimes n l))
  refine ⟨_, _, kmeans_continuous old l dist w v hv, kmeans_continuous old' (eachTimes n l) dist w v
    (fun x hx => hv x ((mem_eachTimes hn).1 hx)), fun x => ?_⟩
  unfold KMeans.predict
  refine gaussPredict_times hn (C10_class_distribution l) (C10_class_distribution _) hp ?_ (fun c hc => ?_)
  · have := (C182_dummy hn l hne ⟨"", [], none⟩).1
    simpa [dummyPredict, Inst.isComposite] using this
  · unfold KMeans.metric
    simp only
    have hc' : c ∈ (eachTimes n l).map Inst.label := hp.mem_iff.2 ((mem_eachTimes hn).2 hc)
    rw [kmeans_find _ _ c (((C07_distinct_class_labels l).mem_iff c).2 hc),
      kmeans_find _ _ c (((C07_distinct_class_labels _).mem_iff c).2 hc')]
    have : classMean (eachTimes n l) v w c = classMean l v w c := by
      unfold classMean
      refine List.map_congr_left (fun i _ => ?_)
      rw [eachTimes_filter, eachTimes_map, mean_times hn]
    rw [this]

/-! ## nearest neighbours -/

theorem insertBy_front {α : Type} (lt : α → α → Bool) (x : α) : ∀ (a b : List α), (∀ z ∈ a, lt z x = true) →
    (∀ z ∈ b.head?, lt z x = false) → insertBy lt x (a ++ b) = a ++ x :: b := by
  intro a
  induction a with
  | nil =>
    intro b _ hb
    cases b with
    | nil => rfl
    | cons z b => rw [List.nil_append, insertBy, if_neg (by rw [hb z (by simp)]; simp)]; rfl
  | cons y a ih =>
    intro b ha hb
    rw [List.cons_append, insertBy, if_pos (ha y (by simp)), ih b (fun z hz => ha z (by simp [hz])) hb]; rfl

theorem insertBy_split {α : Type} (lt : α → α → Bool) (x : α) : ∀ s : List α,
    ∃ a b, s = a ++ b ∧ (∀ z ∈ a, lt z x = true) ∧ ∀ z ∈ b.head?, lt z x = false := by
  intro s
  induction s with
  | nil => exact ⟨[], [], rfl, by simp, by simp⟩
  | cons y s ih =>
    by_cases h : lt y x = true
    · obtain ⟨a, b, e, h1, h2⟩ := ih
      refine ⟨y :: a, b, by rw [e]; rfl, ?_, h2⟩
      intro z hz
      rcases List.mem_cons.1 hz with rfl | hz
      · exact h
      · exact h1 z hz
    · exact ⟨[], y :: s, rfl, by simp, by simpa using h⟩

theorem insertBy_times {α : Type} (lt : α → α → Bool) (x : α) (hx : lt x x = false) (n : Nat) (hn : 0 < n) (s : List α) :
    (List.replicate n x).foldr (insertBy lt) (eachTimes n s) = eachTimes n (insertBy lt x s) := by
  obtain ⟨a, b, e, h1, h2⟩ := insertBy_split lt x s
  rw [e, insertBy_front lt x a b h1 h2, eachTimes_append, eachTimes_append, eachTimes_cons]
  have key : ∀ k, (List.replicate k x).foldr (insertBy lt) (eachTimes n a ++ eachTimes n b) =
      eachTimes n a ++ (List.replicate k x ++ eachTimes n b) := by
    intro k
    induction k with
    | zero => rfl
    | succ k ih =>
      rw [List.replicate_succ, List.foldr_cons, ih]
      refine insertBy_front lt x _ _ (fun z hz => h1 z ((mem_eachTimes hn).1 hz)) (fun z hz => ?_)
      cases k with
      | zero =>
        cases b with
        | nil => simp [eachTimes] at hz
        | cons y b =>
          rw [eachTimes_cons] at hz
          obtain ⟨m, rfl⟩ : ∃ m, n = m + 1 := ⟨n - 1, by omega⟩
          simp [List.replicate_succ] at hz
          rw [← hz]; exact h2 y (by simp)
      | succ k =>
        simp [List.replicate_succ] at hz
        rw [← hz]; exact hx
  exact key n

theorem stableSort_times {α : Type} (lt : α → α → Bool) (n : Nat) (hn : 0 < n) (l : List α) (hx : ∀ x ∈ l, lt x x = false) :
    stableSort lt (eachTimes n l) = eachTimes n (stableSort lt l) := by
  induction l with
  | nil => rfl
  | cons a l ih =>
    unfold stableSort at ih ⊢
    rw [eachTimes_cons, List.foldr_append, ih (fun x h => hx x (by simp [h])), List.foldr_cons,
      insertBy_times lt a (hx a (by simp)) n hn]

/-- **C182.** Nearest neighbours, with `n` times as many neighbours looked at. -/
theorem C182_neighbours {n : Nat} (hn : 0 < n) (l : IList ℝ) (k : Nat) (dist : Inst ℝ → Inst ℝ → Res ℝ)
    (x : Inst ℝ) (d : Inst ℝ → ℝ) (hd : ∀ y ∈ l, dist y x = .ok (d y)) (old old' : Knn ℝ) :
    (Knn.train old' (eachTimes n l) ((n * k : Nat) : Int) dist).predict x = (Knn.train old l (k : Int) dist).predict x ∧
    (Knn.train old' (eachTimes n l) ((n * k : Nat) : Int) dist).predictProbability x =
      (Knn.train old l (k : Int) dist).predictProbability x := by
  have hsub : ∀ y ∈ candidates l x, y ∈ l := fun y hy => by rw [candidates_eq] at hy; exact (List.mem_filter.1 hy).1
  have hcand : candidates (eachTimes n l) x = eachTimes n (candidates l x) := by
    rw [candidates_eq, candidates_eq, eachTimes_filter]
  have e := nearest_eq (Knn.train old l (k : Int) dist) x d (fun y hy => hd y (hsub y hy))
  have e' := nearest_eq (Knn.train old' (eachTimes n l) ((n * k : Nat) : Int) dist) x d (fun y hy => by
    refine hd y (hsub y ?_)
    have : y ∈ candidates (eachTimes n l) x := hy
    rw [hcand, mem_eachTimes hn] at this; exact this)
  simp only [Knn.train, Int.toNat_natCast] at e e'
  rw [hcand, stableSort_times _ n hn _ (fun y _ => by simp), eachTimes_take] at e'
  unfold Knn.predict Knn.predictProbability
  simp only [Knn.train] at e e' ⊢
  rw [e, e']
  simp only [res_bind_ok, res_pure]
  set s := (stableSort (fun a b => d a <. d b) (candidates l x)).take k with hs
  have hp := labels_times (List.Perm.refl (eachTimes n s))
  constructor
  · have hl : (eachTimes n s).length = 0 ↔ s.length = 0 := by
      rw [eachTimes_length, Nat.mul_eq_zero]; omega
    by_cases h0 : s.length = 0
    · have h1 := List.length_eq_zero_iff.1 h0
      have h2 := List.length_eq_zero_iff.1 (hl.2 h0)
      rw [h2, h1]
    · have hb : ∀ m, m ≠ 0 → (m == 0) = false := fun m h => by simpa using h
      rw [hb _ h0, hb _ (fun h => h0 (hl.1 h)), Bool.and_false, if_neg (by simp), if_neg (by simp)]
      rw [getClassLabels_eq, getClassLabels_eq]
      have hne : s.map Inst.label ≠ [] := by
        intro h; exact h0 (by simpa using congrArg List.length h)
      have hne' : (eachTimes n s).map Inst.label ≠ [] := by
        intro h; exact h0 (hl.1 (by simpa using congrArg List.length h))
      rw [(C44_majority _ hne').unique ((C44_majority _ hne).times hn hp)]
  · rw [shares_times hn (C10_class_distribution s) (C10_class_distribution _) hp]

/-! ## decision trees -/

theorem shannon_times {n : Nat} (hn : 0 < n) {l l' : List String} (hp : l'.Perm (eachTimes n l)) : shannon l' = shannon l := by
  rw [shannon_perm hp]
  unfold shannon
  have hn0 : (n : ℝ) ≠ 0 := by exact_mod_cast hn.ne'
  have hf : (eachTimes n l).toFinset = l.toFinset := by
    ext a; rw [List.mem_toFinset, List.mem_toFinset, mem_eachTimes hn]
  rw [hf]
  refine Finset.sum_congr rfl (fun s _ => ?_)
  rw [eachTimes_count, eachTimes_length]
  push_cast
  rw [mul_div_mul_left _ _ hn0]

theorem condEntropy_times {κ : Type} [DecidableEq κ] {n : Nat} (hn : 0 < n) {data data' : IList ℝ}
    (hp : data'.Perm (eachTimes n data)) (key : Inst ℝ → κ) : condEntropy data' key = condEntropy data key := by
  rw [condEntropy_perm hp]
  unfold condEntropy
  have hn0 : (n : ℝ) ≠ 0 := by exact_mod_cast hn.ne'
  have hf : ((eachTimes n data).map key).toFinset = (data.map key).toFinset := by
    ext a; rw [List.mem_toFinset, List.mem_toFinset, eachTimes_map, mem_eachTimes hn]
  rw [hf]
  refine Finset.sum_congr rfl (fun a _ => ?_)
  rw [eachTimes_filter, shannon_times hn (labels_times (List.Perm.refl _)), eachTimes_length, eachTimes_length]
  push_cast
  rw [mul_div_mul_left _ _ hn0]

theorem entropy_times {n : Nat} (hn : 0 < n) {data data' : IList ℝ} (hp : data'.Perm (eachTimes n data)) (S : Split) :
    S.entropy data' = S.entropy data := by
  cases S <;> exact condEntropy_times hn hp _

theorem mem_times {n : Nat} (hn : 0 < n) {data data' : IList ℝ} (hp : data'.Perm (eachTimes n data)) (x : Inst ℝ) :
    x ∈ data' ↔ x ∈ data := by rw [hp.mem_iff, mem_eachTimes hn]

theorem candidate_times {ts : List AttrType} {n : Nat} (hn : 0 < n) {data data' : IList ℝ} (hp : data'.Perm (eachTimes n data))
    (S : Split) : S.Candidate ts data' ↔ S.Candidate ts data := by
  cases S with
  | discrete i => rfl
  | indexed i k => simp only [Split.Candidate, mem_times hn hp]
  | threshold i t => simp only [Split.Candidate, mem_times hn hp]

/-- a branch, with its data repeated -/
def timesBranch (n : Nat) (b : Cond ℝ × IList ℝ) : Cond ℝ × IList ℝ := (b.1, eachTimes n b.2)

theorem branches_times {n : Nat} (hn : 0 < n) {data data' : IList ℝ} (hp : data'.Perm (eachTimes n data)) (S : Split)
    (bs : List (Cond ℝ × IList ℝ)) (hb : S.Branches data bs) : S.Branches data' (bs.map (timesBranch n)) := by
  refine branches_perm hp.symm S _ ?_
  cases S with
  | discrete i =>
    obtain ⟨vs, h1, h2, h3⟩ := hb
    refine ⟨vs, h1, fun a => ?_, ?_⟩
    · rw [h2, eachTimes_map, mem_eachTimes hn]
    · rw [List.forall₂_map_right_iff]
      refine h3.imp (fun a b hab => ⟨hab.1, ?_⟩)
      rw [eachTimes_filter]; exact eachTimes_perm n hab.2
  | indexed i k =>
    obtain ⟨p, q, m, rfl, h1, h2⟩ := hb
    refine ⟨eachTimes n p, eachTimes n q, m, rfl, ?_, ?_⟩
    · rw [eachTimes_filter]; exact eachTimes_perm n h1
    · rw [eachTimes_filter]; exact eachTimes_perm n h2
  | threshold i t =>
    obtain ⟨p, q, rfl, h1, h2⟩ := hb
    refine ⟨eachTimes n p, eachTimes n q, rfl, ?_, ?_⟩
    · rw [eachTimes_filter]; exact eachTimes_perm n h1
    · rw [eachTimes_filter]; exact eachTimes_perm n h2

/-- of two candidate splits neither of which comes before the other, both are the same -/
theorem split_unique {ts : List AttrType} {tried : List Nat} {data : IList ℝ} {S T : Split}
    (hS : Considered ts tried data S) (hT : Considered ts tried data T)
    (h1 : ¬ Split.Before tried S T) (h2 : ¬ Split.Before tried T S) : S = T := by
  have hi : S.attr = T.attr := by
    have a1 : ¬ tried.idxOf S.attr < tried.idxOf T.attr := fun h => h1 (.inl h)
    have a2 : ¬ tried.idxOf T.attr < tried.idxOf S.attr := fun h => h2 (.inl h)
    have e : tried.idxOf S.attr = tried.idxOf T.attr := by omega
    exact (List.idxOf_inj hS.2).1 e
  obtain ⟨cS, _⟩ := hS
  obtain ⟨cT, _⟩ := hT
  cases S with
  | discrete i =>
    cases T with
    | discrete j => simp only [Split.attr] at hi; rw [hi]
    | indexed j k =>
      have e1 : ts[i]? = _ := cS
      have e2 : ts[j]? = _ := cT.1
      simp only [Split.attr] at hi
      rw [hi, e2] at e1; cases e1
    | threshold j t =>
      have e1 : ts[i]? = _ := cS
      have e2 : ts[j]? = _ := cT.1
      simp only [Split.attr] at hi
      rw [hi, e2] at e1; cases e1
  | indexed i k =>
    cases T with
    | discrete j =>
      have e1 : ts[i]? = _ := cS.1
      have e2 : ts[j]? = _ := cT
      simp only [Split.attr] at hi
      rw [hi, e2] at e1; cases e1
    | indexed j k' =>
      simp only [Split.attr] at hi
      subst hi
      rcases lt_trichotomy k k' with h | h | h
      · exact absurd (.inr (.inl ⟨i, k, k', rfl, rfl, h⟩)) h1
      · rw [h]
      · exact absurd (.inr (.inl ⟨i, k', k, rfl, rfl, h⟩)) h2
    | threshold j t =>
      have e1 : ts[i]? = _ := cS.1
      have e2 : ts[j]? = _ := cT.1
      simp only [Split.attr] at hi
      rw [hi, e2] at e1; cases e1
  | threshold i t =>
    cases T with
    | discrete j =>
      have e1 : ts[i]? = _ := cS.1
      have e2 : ts[j]? = _ := cT
      simp only [Split.attr] at hi
      rw [hi, e2] at e1; cases e1
    | indexed j k' =>
      have e1 : ts[i]? = _ := cS.1
      have e2 : ts[j]? = _ := cT.1
      simp only [Split.attr] at hi
      rw [hi, e2] at e1; cases e1
    | threshold j t' =>
      simp only [Split.attr] at hi
      subst hi
      rcases lt_trichotomy t t' with h | h | h
      · exact absurd (.inr (.inr ⟨i, t, t', rfl, rfl, h⟩)) h1
      · rw [h]
      · exact absurd (.inr (.inr ⟨i, t', t, rfl, rfl, h⟩)) h2

theorem mixed_times {n : Nat} (hn : 0 < n) {data data' : IList ℝ} (hp : data'.Perm (eachTimes n data)) :
    (∃ x ∈ data', ∃ y ∈ data', x.label ≠ y.label) ↔ ∃ x ∈ data, ∃ y ∈ data, x.label ≠ y.label := by
  simp only [mem_times hn hp]

theorem leaf_times {n : Nat} (hn : 0 < n) {data data' : IList ℝ} (hp : data'.Perm (eachTimes n data)) {c c' : Cond ℝ}
    {lab lab' : String} {d d' : DD} (hlab : IsMajority (data.map Inst.label) lab) (hd : Counts d (data.map Inst.label))
    (hlab' : IsMajority (data'.map Inst.label) lab') (hd' : Counts d' (data'.map Inst.label)) (x : Inst ℝ) :
    SameAnswers (.mk c true lab d []) (.mk c' true lab' d' []) x x := by
  have hlp := labels_times hp
  have e1 := hlab'.unique (hlab.times hn hlp)
  subst e1
  unfold SameAnswers
  simp only [Node.predictPlain, Node.predictComposite, Node.predictProbability, if_true]
  rw [shares_times hn hd hd' hlp, maxItemOf_times hn hd hd' hlp]
  exact ⟨trivial, rfl, rfl⟩

theorem same_times {ts : List AttrType} {tried : List Nat} {n : Nat} (hn : 0 < n) {data : IList ℝ} {t : Node ℝ}
    (ho : OptimalTree (Considered ts tried) (Split.Before tried) data t) :
    ∀ (data' : IList ℝ) (t' : Node ℝ), OptimalTree (Considered ts tried) (Split.Before tried) data' t' →
      data'.Perm (eachTimes n data) → DefOn ts t → DefOn ts t' →
      ∀ x, typesOf x = ts → SameAnswers t t' x x := by
  induction ho with
  | pure data c lab d hne hlab hd h =>
    intro data' t' ho' hp _ _ x hx
    have hnm : ¬ ∃ x ∈ data', ∃ y ∈ data', x.label ≠ y.label := by
      rw [mixed_times hn hp]
      rintro ⟨x, hx, y, hy, hne⟩; exact hne (h x hx y hy)
    cases ho' with
    | pure _ c' lab' d' _ hlab' hd' _ => exact leaf_times hn hp hlab hd hlab' hd' x
    | stop _ _ _ _ _ _ hm _ => exact absurd hm hnm
    | split _ _ _ _ _ _ _ _ _ hm => exact absurd hm hnm
  | stop data c lab d hlab hd hmixed h =>
    intro data' t' ho' hp _ _ x hx
    cases ho' with
    | pure _ c' lab' d' _ _ _ hp' =>
      obtain ⟨x, hx, y, hy, hne⟩ := (mixed_times hn hp).2 hmixed
      exact absurd (hp' x hx y hy) hne
    | stop _ c' lab' d' hlab' hd' _ _ => exact leaf_times hn hp hlab hd hlab' hd' x
    | split _ c' lab' d' S' _ _ _ _ _ hS' hless' =>
      have := h _ ⟨(candidate_times hn hp S').1 hS'.1, hS'.2⟩
      rw [← entropy_times hn hp, ← shannon_times hn (labels_times hp)] at this
      exact absurd hless' (not_lt.2 this)
  | split data c lab d S bs ch hlab hd hmixed hS hless hmin hfirst hbs hlen hcond hch ih =>
    intro data' t' ho' hp hdn hdn' x hx
    have hlp := labels_times hp
    cases ho' with
    | pure _ c' lab' d' _ _ _ hp' =>
      obtain ⟨x, hx, y, hy, hne⟩ := (mixed_times hn hp).2 hmixed
      exact absurd (hp' x hx y hy) hne
    | stop _ c' lab' d' _ _ _ h' =>
      have := h' _ ⟨(candidate_times hn hp S).2 hS.1, hS.2⟩
      rw [entropy_times hn hp, shannon_times hn hlp] at this
      exact absurd hless (not_lt.2 this)
    | split _ c' lab' d' S' bs' ch' hlab' hd' hmixed' hS' hless' hmin' hfirst' hbs' hlen' hcond' hch' =>
      have e1 := hlab'.unique (hlab.times hn hlp)
      subst e1
      have hSc : Considered ts tried data' S := ⟨(candidate_times hn hp S).2 hS.1, hS.2⟩
      have hSc' : Considered ts tried data S' := ⟨(candidate_times hn hp S').1 hS'.1, hS'.2⟩
      have heq : S.entropy data = S'.entropy data := by
        refine le_antisymm (hmin _ hSc') ?_
        rw [← entropy_times hn hp, ← entropy_times hn hp]
        exact hmin' _ hSc
      have hsame : S' = S := by
        refine split_unique hSc' hS (fun hb => ?_) (fun hb => ?_)
        · have := hfirst _ hSc' hb
          rw [heq] at this; exact lt_irrefl _ this
        · have := hfirst' _ hSc hb
          rw [entropy_times hn hp, entropy_times hn hp, heq] at this; exact lt_irrefl _ this
      subst hsame
      have hmv := branches_times hn hp _ bs hbs
      obtain ⟨m1, m2⟩ := branches_match hS'.1 hmv hbs' x hx
      cases hdn with
      | mk _ _ _ _ _ hdef hdch =>
      cases hdn' with
      | mk _ _ _ _ _ hdef' hdch' =>
      unfold SameAnswers
      simp only [Node.predictPlain, Node.predictComposite, Node.predictProbability, Bool.false_eq_true, if_false]
      rcases first_true ch (fun n hn => hdef n hn x hx) with h | ⟨k, a, f1, f2, f3⟩
      · have hb0 := (none_iff hlen hcond).1 h
        have hb1 : ∀ b ∈ bs.map (timesBranch n), b.1.satisfy x = .ok false := by
          intro b hb
          obtain ⟨q, hq, rfl⟩ := List.mem_map.1 hb
          exact hb0 q hq
        have h' := (none_iff hlen' hcond').2 (m1.1 hb1)
        obtain ⟨e1, e2⟩ := predictIn_none (lab := lab') (d := d) h
        obtain ⟨e1', e2'⟩ := predictIn_none (lab := lab') (d := d') h'
        rw [e1, e2, e1', e2', predictCompositeIn_none h, predictCompositeIn_none h', shares_times hn hd hd' hlp,
          maxItemOf_times hn hd hd' hlp]
        exact ⟨rfl, rfl, rfl⟩
      · obtain ⟨b, hbk, hfo⟩ := firstIn_firstOf hlen hcond ⟨f1, f2, f3⟩
        have hfm : FirstOf (bs.map (timesBranch n)) x k (timesBranch n b) := by
          refine ⟨by rw [List.getElem?_map, hbk]; rfl, hfo.2.1, fun j hj q hq => ?_⟩
          rw [List.getElem?_map, Option.map_eq_some_iff] at hq
          obtain ⟨q0, hq0, rfl⟩ := hq
          exact hfo.2.2 j hj q0 hq0
        rcases first_true ch' (fun n hn => hdef' n hn x hx) with h' | ⟨k', a', f1', f2', f3'⟩
        · have := m1.2 ((none_iff hlen' hcond').1 h') _ (List.mem_of_getElem? hfm.1)
          rw [hfm.2.1] at this; cases this
        · obtain ⟨b', hbk', hfo'⟩ := firstIn_firstOf hlen' hcond' ⟨f1', f2', f3'⟩
          have hperm := (m2 _ _ _ _ hfm hfo').1
          obtain ⟨i1, i2, i3⟩ := ih k b a hbk f1 b'.2 a' (hch' k' b' a' hbk' f1') hperm.symm
            (hdch a (List.mem_of_getElem? f1)) (hdch' a' (List.mem_of_getElem? f1')) x hx
          rw [predictPlainIn_first f1 f2 f3, predictPlainIn_first f1' f2' f3', predictProbabilityIn_first f1 f2 f3,
            predictProbabilityIn_first f1' f2' f3', predictCompositeIn_first ⟨f1, f2, f3⟩,
            predictCompositeIn_first ⟨f1', f2', f3'⟩, i1, i2, i3, maxItemOf_times hn hd hd' hlp]
          exact ⟨rfl, rfl, rfl⟩

/-- **C182.** Decision trees grown without pruning, in exact arithmetic: training on the repeated data succeeds too, and
every plain or composite instance of the types of the data gets the same label and the same class probabilities. -/
theorem C182_tree {n : Nat} (hn : 0 < n) {ts : List AttrType} {data : IList ℝ} (hne : data ≠ [])
    (hts : ∀ x ∈ data, typesOf x = ts) (hbd : IndexBounded data) :
    ∃ t t', treeTrain data none = .ok t ∧ treeTrain (eachTimes n data) none = .ok t' ∧
      ∀ x : Inst ℝ, typesOf x = ts →
        treePredict t' x = treePredict t x ∧ t'.predictProbability x = t.predictProbability x := by
  have hv : ValidParam none := by intro _ _ h; cases h
  have hm : ∀ x, x ∈ eachTimes n data ↔ x ∈ data := fun x => mem_eachTimes hn
  have hne' : eachTimes n data ≠ [] := by
    intro h
    obtain ⟨a, ha⟩ := List.exists_mem_of_ne_nil _ hne
    rw [← hm, h] at ha; cases ha
  obtain ⟨t, ht, ho, _, hg, _⟩ := grow_ok hv (show Node.triedIndices none ts.length = .ok (List.range ts.length) from rfl)
    false (data.length + 1) data Cond.root hne hts (by omega)
  obtain ⟨t', ht', ho', _, hg', _⟩ := grow_ok hv (show Node.triedIndices none ts.length = .ok (List.range ts.length) from rfl)
    false ((eachTimes n data).length + 1) (eachTimes n data) Cond.root hne' (fun x hx => hts x ((hm x).1 hx)) (by omega)
  refine ⟨t, t', ht, ht', fun x hx => ?_⟩
  obtain ⟨h1, h2, h3⟩ := same_times hn (ho rfl hbd) _ t' (ho' rfl (hbd.mono (fun x hx => (hm x).1 hx))) (List.Perm.refl _)
    hg.defOn hg'.defOn x hx
  refine ⟨?_, h3⟩
  unfold treePredict Node.predict
  rw [h1, h2]

/-! ## naive Bayes -/

/-- five instances of one class and one of another, which differ in their only attribute -/
def sixInstances : IList ℝ :=
  ⟨"B", [.discrete "x"], none⟩ :: List.replicate 5 ⟨"A", [.discrete "w"], none⟩

/-- the values of discrete attributes -/
def discVals (x : Inst ℝ) : List String := x.attrs.map (fun a => match a with | .discrete v => v | _ => "")

theorem gaussPredict_two {d : DD} {metric : Inst ℝ → String → Res ℝ} {x : Inst ℝ} {a b : ℝ} (hd : d.getItems = ["A", "B"])
    (hx : x.isComposite = false) (hA : metric x "A" = .ok a) (hB : metric x "B" = .ok b)
    (hma : -(2 ^ 1024 : ℝ) < a) :
    gaussPredict d metric x = .ok (if a < b then "B" else "A") := by
  have hci : ∀ c ∈ d.getItems, d.containsItem c = true := by
    intro c hc
    unfold DD.containsItem OMap.contains
    rw [Option.isSome_iff_ne_none, ne_eq, OMap.find?_eq_none_iff, not_not]; exact hc
  have h1 := hci "A" (by rw [hd]; simp)
  have h2 := hci "B" (by rw [hd]; simp)
  have hm : (Dbl.neg (Dbl.maxVal : ℝ)) = -(2 ^ 1024 : ℝ) := by rw [← maxVal_real]; simp
  unfold gaussPredict gaussInit
  rw [hx]
  simp only [Bool.false_eq_true, if_false, hd, List.foldlM_cons, List.foldlM_nil, gaussStep, h1, h2, hA, hB, if_true, res_bind_ok,
    res_pure, hm]
  have e1 : ((-(2 ^ 1024 : ℝ)) <. a) = true := by simpa using hma
  rw [e1, if_pos rfl]
  by_cases h : a < b
  · have e2 : (a <. b) = true := by simpa using h
    simp only [e2, if_true, if_pos h]
  · have e2 : (a <. b) = false := by simpa using h
    simp only [e2, if_neg h, Bool.false_eq_true, if_false]

theorem log_bound {y : ℝ} (h : 1 / 100 ≤ y) : -(2 ^ 1024 : ℝ) < Real.log y := by
  have h0 : 0 < y := by linarith
  have h1 := Real.one_sub_inv_le_log_of_pos h0
  have h2 : y⁻¹ ≤ 100 := by
    rw [inv_le_comm₀ h0 (by norm_num)]; linarith
  have h3 : (2 : ℝ) ^ 8 ≤ 2 ^ 1024 := pow_le_pow_right₀ (by norm_num) (by norm_num)
  have h4 : (2 : ℝ) ^ 8 = 256 := by norm_num
  rw [h4] at h3
  generalize (2 : ℝ) ^ 1024 = M at h3 ⊢
  linarith

theorem nb_six {l : IList ℝ} (hne : l ≠ []) (hv : ∀ x ∈ l, x.attrs = (discVals x).map Attr.discrete ∧ (discVals x).length = 1)
    (hA : "A" ∈ l.map Inst.label) (hB : "B" ∈ l.map Inst.label) (hi : l.classDistribution.getItems = ["A", "B"]) {a b : ℝ}
    (ha : (classSize l "A" / l.length : ℝ) * smoothed l discVals "A" 0 "x" = a)
    (hb : (classSize l "B" / l.length : ℝ) * smoothed l discVals "B" 0 "x" = b) (hal : 1 / 100 ≤ a) (hbl : 1 / 100 ≤ b) :
    ∃ m, NaiveBayes.train NaiveBayes.new l = .ok m ∧ m.predict ⟨"", [.discrete "x"], none⟩ = .ok (if a < b then "B" else "A") := by
  obtain ⟨m, e, hp, hs⟩ := C54_score l hne discVals 1 (by omega) hv
  refine ⟨m, e, ?_⟩
  have key : ∀ c ∈ l.map Inst.label, ∀ r, (classSize l c / l.length : ℝ) * smoothed l discVals c 0 "x" = r → 1 / 100 ≤ r →
      m.metric ⟨"", [.discrete "x"], none⟩ c = .ok (Real.log r) := by
    intro c hc r hr hl
    obtain ⟨h1, h2⟩ := hs ⟨"", [.discrete "x"], none⟩ ["x"] rfl rfl c hc
    rw [h1]
    have h3 := (h2 0).1
    simp only [List.range_one, List.map_cons, List.map_nil, List.sum_cons, List.sum_nil, add_zero, List.getD_cons_zero] at h3 ⊢
    rw [← Real.log_mul ?_ h3.ne', hr]
    intro h0
    rw [h0, zero_mul] at hr
    rw [← hr] at hl; norm_num at hl
  unfold NaiveBayes.predict
  rw [hp]
  rw [gaussPredict_two hi rfl (key "A" hA a ha hal) (key "B" hB b hb hbl) (log_bound hal)]
  have : Real.log a < Real.log b ↔ a < b := Real.log_lt_log_iff (by linarith) (by linarith)
  simp only [this]

/-- **C182.** Naive Bayes is different. Six instances, five of class A: an instance with the value seen only in class B is
classified A, but B when every instance was given twice. The counts of a class are smoothed by adding one, whatever the
number of instances. -/
theorem C182_naive_bayes_differs : ∃ (l : IList ℝ) (x : Inst ℝ) (m m' : NaiveBayes ℝ), NaiveBayes.train NaiveBayes.new l = .ok m ∧
    NaiveBayes.train NaiveBayes.new (eachTimes 2 l) = .ok m' ∧ m.predict x = .ok "A" ∧ m'.predict x = .ok "B" := by
  obtain ⟨m, e, hp⟩ := nb_six (l := sixInstances) (a := 5 / 42) (b := 1 / 9) (by simp [sixInstances])
    (by intro x hx; simp [sixInstances] at hx; rcases hx with rfl | rfl <;> simp [discVals])
    (by simp [sixInstances]) (by simp [sixInstances]) (by decide +kernel)
    (by simp [classSize, smoothed, classColumn, sixInstances, discVals, List.replicate]; norm_num)
    (by simp [classSize, smoothed, classColumn, sixInstances, discVals, List.replicate]; norm_num) (by norm_num) (by norm_num)
  obtain ⟨m', e', hp'⟩ := nb_six (l := eachTimes 2 sixInstances) (a := 5 / 72) (b := 1 / 8) (by simp [sixInstances, eachTimes])
    (by intro x hx; rw [mem_eachTimes (by omega)] at hx; simp [sixInstances] at hx; rcases hx with rfl | rfl <;> simp [discVals])
    (by simp [sixInstances, eachTimes]) (by simp [sixInstances, eachTimes]) (by decide +kernel)
    (by simp [classSize, smoothed, classColumn, sixInstances, eachTimes, discVals, List.replicate]; norm_num)
    (by simp [classSize, smoothed, classColumn, sixInstances, eachTimes, discVals, List.replicate]; norm_num) (by norm_num) (by norm_num)
  refine ⟨sixInstances, ⟨"", [.discrete "x"], none⟩, m, m', e, e', ?_, ?_⟩
  · rw [hp, if_neg (by norm_num)]
  · rw [hp', if_pos (by norm_num)]

/-! ## the hypotheses are met -/

example : ∃ t t', treeTrain treeWitness none = .ok t ∧ treeTrain (eachTimes 3 treeWitness) none = .ok t' ∧
    ∀ x : Inst ℝ, typesOf x = treeWitnessTypes →
      treePredict t' x = treePredict t x ∧ t'.predictProbability x = t.predictProbability x :=
  C182_tree (by omega) (by simp [treeWitness]) treeWitness_types treeWitness_bounded

/-- a line with two classes -/
def lineTwo : IList ℝ := [⟨"a", [.continuous 0], none⟩, ⟨"b", [.continuous 4], none⟩, ⟨"a", [.continuous 1], none⟩]

example : ∃ m m', KMeans.train (⟨DD.empty, [], euclidean⟩ : KMeans ℝ) lineTwo euclidean = .ok m ∧
    KMeans.train (⟨DD.empty, [], euclidean⟩ : KMeans ℝ) (eachTimes 2 lineTwo) euclidean = .ok m' ∧
    ∀ x : Inst ℝ, m'.predict x = m.predict x :=
  C182_nearest_mean (by omega) lineTwo (by simp [lineTwo]) _ _ euclidean 1
    (fun x => x.attrs.map (fun a => match a with | .continuous v => v | _ => 0))
    (by intro x hx; simp [lineTwo] at hx; rcases hx with rfl | rfl | rfl <;> simp)

example (d : Inst ℝ → ℝ) : (Knn.train ⟨[], 0, fun y _ => .ok (d y)⟩ (eachTimes 2 lineTwo) ((2 * 1 : Nat) : Int) (fun y _ => .ok (d y))).predict
      ⟨"", [.continuous 3], none⟩ =
    (Knn.train ⟨[], 0, fun y _ => .ok (d y)⟩ lineTwo ((1 : Nat) : Int) (fun y _ => .ok (d y))).predict ⟨"", [.continuous 3], none⟩ :=
  (C182_neighbours (by omega) lineTwo 1 _ _ d (fun _ _ => rfl) _ _).1

example : eachTimes 2 ["a", "b", "c"] = ["a", "a", "b", "b", "c", "c"] := rfl

example : dummyPredict (IList.classDistribution (eachTimes 5 lineTwo)) (⟨"", [], none⟩ : Inst ℝ) =
    dummyPredict lineTwo.classDistribution (⟨"", [], none⟩ : Inst ℝ) :=
  (C182_dummy (by omega) lineTwo (by simp [lineTwo]) _).1

end Verif
