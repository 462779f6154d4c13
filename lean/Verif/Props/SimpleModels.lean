import Verif.Props.ExpPerf

/-! # Properties C45–C48: discrete check, dummy and random classifiers -/

set_option linter.unusedSectionVars false

namespace Verif
open Dbl

section general
variable {F : Type} [Dbl F]

/-! ## C45 -/

/-- **C45.** The check fails exactly when some attribute is a plain discrete one. -/
theorem C45_discrete_check (x : Inst F) :
    discreteCheck x = false ↔ ∃ v, Attr.discrete v ∈ x.attrs := by
  unfold discreteCheck
  rw [List.all_eq_false]
  constructor
  · rintro ⟨a, ha, h⟩
    cases a with
    | discrete v => exact ⟨v, ha⟩
    | continuous v => simp [Attr.isDiscrete] at h
    | binary v => simp [Attr.isDiscrete] at h
    | indexed v i m => simp [Attr.isDiscrete] at h
  · rintro ⟨v, hv⟩
    exact ⟨_, hv, by simp [Attr.isDiscrete, Attr.isDiscreteIndexed]⟩

example : discreteCheck (⟨"a", [.continuous (.fin 1), .indexed "x" 0 2, .binary "true"], none⟩ : Inst XR) = true := by
  decide
example : discreteCheck (⟨"a", [.continuous (.fin 1), .discrete "x"], none⟩ : Inst XR) = false := by
  decide

/-! ## C46 -/

/-- `getMaxItem` scans like `max` -/
theorem getMaxItem_fold (m : Counter) : ∀ b : String × Int, (∀ p ∈ m, (0 : Int) < p.2) →
    let r := m.foldl (fun (b : String × Int) p => if (p.2 : Int) > b.2 then (p.1, (p.2 : Int)) else b) b
    (r = b ∧ ∀ p ∈ m, (p.2 : Int) ≤ b.2) ∨
    (∃ l1 q l2, m = l1 ++ q :: l2 ∧ r = (q.1, (q.2 : Int)) ∧ b.2 < q.2 ∧ (∀ p ∈ l1, p.2 < q.2) ∧
      ∀ p ∈ l2, p.2 ≤ q.2) := by
  induction m with
  | nil => intro b _; left; simp
  | cons p m ih =>
    intro b hpos
    simp only [List.foldl_cons]
    by_cases h : (p.2 : Int) > b.2
    · rw [if_pos h]
      rcases ih (p.1, (p.2 : Int)) (fun q hq => hpos q (by simp [hq])) with ⟨h1, h2⟩ | ⟨l1, q, l2, h1, h2, h3, h4, h5⟩
      · right
        exact ⟨[], p, m, rfl, h1, h, by simp, fun q hq => by have := h2 q hq; simp at this; exact this⟩
      · right
        refine ⟨p :: l1, q, l2, by rw [List.cons_append, ← h1], h2, by simp at h3; omega, ?_, h5⟩
        intro q' hq'
        rcases List.mem_cons.1 hq' with rfl | hq'
        · simp at h3; exact h3
        · exact h4 q' hq'
    · rw [if_neg h]
      rcases ih b (fun q hq => hpos q (by simp [hq])) with ⟨h1, h2⟩ | ⟨l1, q, l2, h1, h2, h3, h4, h5⟩
      · left
        refine ⟨h1, ?_⟩
        intro q hq
        rcases List.mem_cons.1 hq with rfl | hq
        · omega
        · exact h2 q hq
      · right
        refine ⟨p :: l1, q, l2, by rw [List.cons_append, ← h1], h2, h3, ?_, h5⟩
        intro q' hq'
        rcases List.mem_cons.1 hq' with rfl | hq'
        · omega
        · exact h4 q' hq'

theorem getMaxItem_majority (l : List String) (hl : l ≠ []) :
    IsMajority l (DD.ofList l).getMaxItem := by
  have hw := DD.wf_ofList l
  have hc := DD.counts_ofList l
  have hcnt : ∀ k v, (k, v) ∈ (DD.ofList l).m → l.count k = v := by
    intro k v hkv
    rw [← hc.count k, DD.getCount, Counter.count, OMap.find?_of_mem hw.m.sorted hkv]; rfl
  have hpos : ∀ p ∈ (DD.ofList l).m, (0 : Int) < p.2 := by
    intro p hp
    have := hw.m.pos p.1 p.2 (OMap.find?_of_mem hw.m.sorted hp)
    omega
  unfold DD.getMaxItem
  rcases getMaxItem_fold (DD.ofList l).m ("", -1) hpos with ⟨h1, h2⟩ | ⟨l1, q, l2, h1, h2, h3, h4, h5⟩
  · exfalso
    have : (DD.ofList l).m = [] := by
      cases hm : (DD.ofList l).m with
      | nil => rfl
      | cons p m =>
        have a := h2 p (by rw [hm]; simp)
        have b := hpos p (by rw [hm]; simp)
        simp at a; omega
    cases l with
    | nil => exact hl rfl
    | cons a l =>
      have := (hc.mem_items a).2 (by simp)
      simp [DD.getItems, OMap.keys, *] at this
  · rw [h2]
    have hqm : (q.1, q.2) ∈ (DD.ofList l).m := by rw [h1]; simp
    have hq := hcnt q.1 q.2 hqm
    have hmem : ∀ s ∈ l, ∃ v, (s, v) ∈ (DD.ofList l).m := by
      intro s hs
      have := (hc.mem_items s).2 hs
      rw [DD.getItems, OMap.keys, List.mem_map] at this
      obtain ⟨p, hp, rfl⟩ := this
      exact ⟨p.2, hp⟩
    refine ⟨?_, ?_, ?_⟩
    · rw [← hc.mem_items]; exact List.mem_map_of_mem (f := Prod.fst) hqm
    · intro s
      by_cases hs : s ∈ l
      · obtain ⟨v, hv⟩ := hmem s hs
        rw [hcnt s v hv]; simp only [hq]
        rw [h1] at hv
        rcases List.mem_append.1 hv with hv | hv
        · exact le_of_lt (h4 _ hv)
        · rcases List.mem_cons.1 hv with hv | hv
          · rw [← hv]
          · exact h5 _ hv
      · rw [List.count_eq_zero.2 hs]; exact Nat.zero_le _
    · intro s hs he
      obtain ⟨v, hv⟩ := hmem s hs
      rw [hcnt s v hv] at he; simp only [hq] at he
      have hsort := hc.sorted
      rw [DD.getItems, OMap.keys, h1, List.map_append, List.map_cons, List.pairwise_append,
        List.pairwise_cons] at hsort
      rw [h1] at hv
      rcases List.mem_append.1 hv with hv | hv
      · have := h4 _ hv; simp at this; omega
      · rcases List.mem_cons.1 hv with hv | hv
        · rw [← hv]
        · exact le_of_lt (hsort.2.1.1 s (List.mem_map_of_mem (f := Prod.fst) hv))

/-- first element of `l` with the greatest `w` -/
structure IsFirstMax {α : Type} (w : α → Nat) (l : List α) (r : α) : Prop where
  split : ∃ l1 l2, l = l1 ++ r :: l2 ∧ (∀ s ∈ l1, w s < w r) ∧ ∀ s ∈ l2, w s ≤ w r

theorem firstMax_fold (w : String → Nat) (l : List String) : ∀ b : String × Int,
    let r := l.foldl (fun (b : String × Int) k => if (w k : Int) > b.2 then (k, (w k : Int)) else b) b
    (r = b ∧ ∀ k ∈ l, (w k : Int) ≤ b.2) ∨
    (∃ l1 q l2, l = l1 ++ q :: l2 ∧ r = (q, (w q : Int)) ∧ b.2 < w q ∧ (∀ p ∈ l1, w p < w q) ∧
      ∀ p ∈ l2, w p ≤ w q) := by
  induction l with
  | nil => intro b; left; simp
  | cons p m ih =>
    intro b
    simp only [List.foldl_cons]
    by_cases h : (w p : Int) > b.2
    · rw [if_pos h]
      rcases ih (p, (w p : Int)) with ⟨h1, h2⟩ | ⟨l1, q, l2, h1, h2, h3, h4, h5⟩
      · right
        exact ⟨[], p, m, rfl, h1, h, by simp, fun q hq => by have := h2 q hq; simp at this; exact this⟩
      · right
        refine ⟨p :: l1, q, l2, by rw [List.cons_append, ← h1], h2, by simp at h3; omega, ?_, h5⟩
        intro q' hq'
        rcases List.mem_cons.1 hq' with rfl | hq'
        · simp at h3; exact h3
        · exact h4 q' hq'
    · rw [if_neg h]
      rcases ih b with ⟨h1, h2⟩ | ⟨l1, q, l2, h1, h2, h3, h4, h5⟩
      · left
        refine ⟨h1, ?_⟩
        intro q hq
        rcases List.mem_cons.1 hq with rfl | hq
        · omega
        · exact h2 q hq
      · right
        refine ⟨p :: l1, q, l2, by rw [List.cons_append, ← h1], h2, h3, ?_, h5⟩
        intro q' hq'
        rcases List.mem_cons.1 hq' with rfl | hq'
        · omega
        · exact h4 q' hq'

theorem getMaxItemOf_first (d : DD) (l : List String) (hl : l ≠ []) :
    IsFirstMax d.getCount l (d.getMaxItemOf l) := by
  unfold DD.getMaxItemOf
  rcases firstMax_fold d.getCount l ("", -1) with ⟨h1, h2⟩ | ⟨l1, q, l2, h1, h2, h3, h4, h5⟩
  · exfalso
    cases l with
    | nil => exact hl rfl
    | cons a l => have := h2 a (by simp); simp at this; omega
  · rw [h2]; exact ⟨l1, l2, h1, h4, h5⟩

theorem IsFirstMax.mem {α : Type} {w : α → Nat} {l : List α} {r : α} (h : IsFirstMax w l r) :
    r ∈ l := by
  obtain ⟨l1, l2, e, _⟩ := h.split; rw [e]; simp

theorem IsFirstMax.max {α : Type} {w : α → Nat} {l : List α} {r : α} (h : IsFirstMax w l r) :
    ∀ s ∈ l, w s ≤ w r := by
  obtain ⟨l1, l2, e, h1, h2⟩ := h.split
  intro s hs
  rw [e] at hs
  rcases List.mem_append.1 hs with hs | hs
  · exact le_of_lt (h1 s hs)
  · rcases List.mem_cons.1 hs with rfl | hs
    · exact le_rfl
    · exact h2 s hs

/-- **C46.** For a plain instance the dummy classifier predicts the majority training label. -/
theorem C46_plain (train : IList F) (x : Inst F) (hne : train ≠ []) (hx : x.isComposite = false) :
    IsMajority (train.map Inst.label) (dummyPredict train.classDistribution x) := by
  unfold dummyPredict
  rw [hx, classDistribution_eq]
  exact getMaxItem_majority _ (by simpa using hne)

/-- **C46.** For a composite instance it predicts the first possible label with the greatest
training frequency. -/
theorem C46_composite (train : IList F) (x : Inst F) (hx : x.isComposite = true)
    (hp : x.possibleLabels ≠ []) :
    IsFirstMax (fun c => (train.map Inst.label).count c) x.possibleLabels
      (dummyPredict train.classDistribution x) := by
  unfold dummyPredict
  rw [hx]
  have := getMaxItemOf_first train.classDistribution x.possibleLabels hp
  have e : train.classDistribution.getCount = fun c => (train.map Inst.label).count c := by
    funext c; exact (C10_class_distribution train).count c
  rw [e] at this
  exact this

example : dummyPredict (IList.classDistribution ([⟨"b", [], none⟩, ⟨"a", [], none⟩, ⟨"b", [], none⟩] :
    IList XR)) (⟨"z", [], some ["c", "a"]⟩ : Inst XR) = "a" := by decide +kernel

/-! ## C48 -/

/-- **C48.** The random classifier stays within the allowed labels whatever the generator
returns. -/
theorem C48_random (labels : List String) (r : Nat) (x : Inst F)
    (hl : x.isComposite = false → labels ≠ []) (hp : x.isComposite = true → x.possibleLabels ≠ []) :
    ∃ c, randomPredict labels r x = .ok c ∧
      (x.isComposite = false → c ∈ labels) ∧ (x.isComposite = true → c ∈ x.possibleLabels) := by
  unfold randomPredict
  cases hx : x.isComposite with
  | true =>
    have h := hp hx
    have hlen : 0 < x.possibleLabels.length := List.length_pos_iff.2 h
    simp only [if_true, Nat.ne_of_gt hlen, if_false]
    rw [atR_ok_of_lt (Nat.mod_lt _ hlen)]
    exact ⟨_, rfl, by simp, fun _ => List.getElem_mem _⟩
  | false =>
    have h := hl hx
    have hlen : 0 < labels.length := List.length_pos_iff.2 h
    simp only [Bool.false_eq_true, if_false, Nat.ne_of_gt hlen]
    rw [atR_ok_of_lt (Nat.mod_lt _ hlen)]
    exact ⟨_, rfl, fun _ => List.getElem_mem _, by simp⟩

/-- **C48.** Every allowed label is reachable: for each there is a generator value giving it. -/
theorem C48_all_labels (labels : List String) (x : Inst F) (hx : x.isComposite = false) (c : String)
    (hc : c ∈ labels) : ∃ r, randomPredict labels r x = .ok c := by
  obtain ⟨i, hi, e⟩ := List.getElem_of_mem hc
  refine ⟨i, ?_⟩
  unfold randomPredict
  have : labels.length ≠ 0 := by omega
  simp only [hx, Bool.false_eq_true, if_false, this, Nat.mod_eq_of_lt hi]
  rw [atR_ok_of_lt hi, e]

/-- **C48.** Trained on a list, the allowed labels are exactly the training labels. -/
theorem C48_trained_labels (train : IList F) (c : String) :
    c ∈ randomTrain train ↔ ∃ x ∈ train, x.label = c := by
  unfold randomTrain
  rw [(C10_class_distribution train).mem_items, List.mem_map]

example : randomPredict ["a", "b"] 7 (⟨"z", [], none⟩ : Inst XR) = .ok "b" := by decide

end general

/-! ## C47 -/

/-- **C47.** Class probabilities of the dummy classifier: relative training frequencies. -/
theorem C47_dummy (train : IList ℝ) (hne : train ≠ []) :
    (∀ c p, (c, p) ∈ (dummyProbability train.classDistribution : OMap ℝ) →
      p = ((train.map Inst.label).count c : ℝ) / train.length ∧ 0 < p) ∧
    ((dummyProbability train.classDistribution : OMap ℝ).map Prod.fst).Pairwise (· < ·) ∧
    (∀ c, c ∈ (dummyProbability train.classDistribution : OMap ℝ).map Prod.fst ↔
      ∃ x ∈ train, x.label = c) ∧
    ((dummyProbability train.classDistribution : OMap ℝ).map Prod.snd).sum = 1 := by
  have hc := C10_class_distribution train
  have hw : DD.WF train.classDistribution := by rw [classDistribution_eq]; exact DD.wf_ofList _
  have hlen : 0 < train.length := List.length_pos_iff.2 hne
  have hkeys : (dummyProbability train.classDistribution : OMap ℝ).map Prod.fst =
      train.classDistribution.getItems := by
    simp [dummyProbability, DD.getProbabilityDistribution, DD.getItems, OMap.keys, Function.comp_def]
  have hval : ∀ q ∈ train.classDistribution.m,
      (train.classDistribution.getProbability q.1 : ℝ) = (q.2 : ℝ) / train.length := by
    intro q hq
    unfold DD.getProbability
    rw [OMap.find?_of_mem hw.m.sorted hq]
    have := hc.sum
    simp only [DD.getSum, List.length_map] at this
    simp [this]
  refine ⟨?_, by rw [hkeys]; exact hc.sorted, ?_, ?_⟩
  · intro c p h
    unfold dummyProbability DD.getProbabilityDistribution at h
    rw [List.mem_map] at h
    obtain ⟨q, hq, e⟩ := h
    cases e
    have hcount : (train.map Inst.label).count q.1 = q.2 := by
      rw [← hc.count q.1, DD.getCount, Counter.count, OMap.find?_of_mem hw.m.sorted hq]; rfl
    rw [hval q hq, hcount]
    refine ⟨rfl, ?_⟩
    have := hw.m.pos q.1 q.2 (OMap.find?_of_mem hw.m.sorted hq)
    positivity
  · intro c
    rw [hkeys, hc.mem_items, List.mem_map]
  · have e : (dummyProbability train.classDistribution : OMap ℝ).map Prod.snd =
        train.classDistribution.m.map (fun q => (q.2 : ℝ) / train.length) := by
      simp only [dummyProbability, DD.getProbabilityDistribution, List.map_map]
      apply List.map_congr_left
      intro q hq
      exact hval q hq
    rw [e]
    have hs : ∀ m : Counter, (m.map (fun q => (q.2 : ℝ) / train.length)).sum =
        ((m.map Prod.snd).sum : ℕ) / (train.length : ℝ) := by
      intro m
      induction m with
      | nil => simp
      | cons q m ih => rw [List.map_cons, List.sum_cons, ih]; push_cast [List.map_cons, List.sum_cons]; ring
    rw [hs, ← Counter.sumOfCounts_eq, ← hw.sum]
    have := hc.sum
    simp only [DD.getSum, List.length_map] at this
    rw [this]
    field_simp

theorem insert_new_sum (m : OMap ℝ) (k : String) (v : ℝ) (h : k ∉ OMap.keys m) :
    ((OMap.insert m k v).map Prod.snd).sum = (m.map Prod.snd).sum + v := by
  induction m with
  | nil => simp [OMap.insert]
  | cons p m ih =>
    obtain ⟨k', v'⟩ := p
    simp only [OMap.keys, List.map_cons, List.mem_cons, not_or] at h
    unfold OMap.insert
    rw [if_neg h.1]
    split
    · simp; ring
    · simp only [List.map_cons, List.sum_cons]
      rw [ih (by simpa [OMap.keys] using h.2)]; ring

theorem random_fold (n : ℝ) (ls : List String) : ∀ m : OMap ℝ, OMap.Sorted m → ls.Nodup →
    (∀ c ∈ ls, c ∉ OMap.keys m) →
    let r := ls.foldl (fun m l => OMap.insert m l n) m
    OMap.Sorted r ∧ (∀ c, c ∈ OMap.keys r ↔ c ∈ ls ∨ c ∈ OMap.keys m) ∧
    (∀ c, OMap.find? r c = if c ∈ ls then some n else OMap.find? m c) ∧
    (r.map Prod.snd).sum = (m.map Prod.snd).sum + ls.length * n := by
  induction ls with
  | nil => intro m h _ _; simp [h]
  | cons a ls ih =>
    intro m h hnd hm
    rw [List.nodup_cons] at hnd
    obtain ⟨h1, h2, h3, h4⟩ := ih (OMap.insert m a n) (OMap.sorted_insert h a n) hnd.2 (by
      intro c hc hcm
      rw [OMap.mem_keys_insert] at hcm
      rcases hcm with rfl | hcm
      · exact hnd.1 hc
      · exact hm c (by simp [hc]) hcm)
    simp only [List.foldl_cons]
    refine ⟨h1, ?_, ?_, ?_⟩
    · intro c; rw [h2, OMap.mem_keys_insert, List.mem_cons]; tauto
    · intro c
      rw [h3, OMap.find?_insert]
      by_cases h5 : c ∈ ls <;> by_cases h6 : c = a <;> simp [h5, h6]
    · rw [h4, insert_new_sum _ _ _ (hm a (by simp))]
      push_cast [List.length_cons]; ring

/-- **C47.** The random classifier gives each of its n distinct labels the probability 1/n. -/
theorem C47_random (labels : List String) (hnd : labels.Nodup) (hne : labels ≠ []) :
    (∀ c, OMap.find? (randomProbability labels : OMap ℝ) c =
      if c ∈ labels then some (1 / (labels.length : ℝ)) else none) ∧
    ((randomProbability labels : OMap ℝ).map Prod.snd).sum = 1 := by
  have hlen : 0 < labels.length := List.length_pos_iff.2 hne
  unfold randomProbability
  obtain ⟨_, _, h3, h4⟩ := random_fold ((Dbl.ofInt 1 : ℝ) /. Dbl.ofNat labels.length) labels []
    OMap.sorted_nil hnd (by simp [OMap.keys])
  refine ⟨?_, ?_⟩
  · intro c; rw [h3 c]; simp
  · rw [h4]
    simp
    field_simp

/-- **C47.** A trained random classifier has distinct labels, so C47_random applies. -/
theorem C47_random_trained (train : IList ℝ) : (randomTrain train).Nodup := by
  unfold randomTrain
  exact (C10_class_distribution train).sorted.imp (fun h => ne_of_lt h)

example : (dummyProbability (IList.classDistribution ([⟨"b", [], none⟩, ⟨"a", [], none⟩, ⟨"b", [], none⟩] :
    IList XR)) : OMap XR) = [("a", .fin (1/3)), ("b", .fin (2/3))] := by decide +kernel
example : (randomProbability ["b", "a"] : OMap XR) = [("a", .fin (1/2)), ("b", .fin (1/2))] := by
  decide +kernel

end Verif
