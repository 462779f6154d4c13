import Verif.Props.PerfFloat
import Verif.Props.TreeFloat
import Verif.Props.MostProbable
import Verif.Props.SoftmaxFloat

/-! # Property C180: class probabilities obtained by counting, in double precision -/

set_option linter.unusedSectionVars false

namespace Verif
open Dbl
variable {L : CMath}

/-- the class probabilities `p` computed in double precision from a list of labels: exactly the labels that occur have
one, each the `double` nearest to its share; a probability is positive and at most 1, and 1 only if there is no other label;
the exact sum of the computed probabilities differs from 1 by at most `2^-53` -/
structure RoundedShares (p : OMap (D53 L)) (ls : List String) : Prop where
  keys : (p.map Prod.fst).Pairwise (· < ·) ∧ ∀ c, c ∈ p.map Prod.fst ↔ c ∈ ls
  value : ∀ c q, (c, q) ∈ p → q.val = .fin (D53.rnd ((ls.count c : ℚ) / ls.length))
  range : ∀ c q, (c, q) ∈ p → (Dbl.zero <. q) = true ∧ (q <=. Dbl.one) = true
  certain : ∀ c q, (c, q) ∈ p → (q = Dbl.one ↔ ∀ b ∈ ls, b = c)
  sum : ∃ qs : List ℚ, p.map (fun e => e.2.val) = qs.map XR.fin ∧ |qs.sum - 1| ≤ 1 / 2 ^ 53

/-- the order of the computed probabilities is that of the numbers of occurrences -/
def OrderedAs (p : OMap (D53 L)) (ls : List String) : Prop :=
  ∀ a q b r, (a, q) ∈ p → (b, r) ∈ p → ((q <. r) = true ↔ ls.count a < ls.count b) ∧ (q = r ↔ ls.count a = ls.count b)

/-- `c` has the largest probability -/
def Largest (p : OMap (D53 L)) (c : String) : Prop :=
  ∃ q, (c, q) ∈ p ∧ ∀ b r, (b, r) ∈ p → (r <=. q) = true

theorem sum_rounded (n : ℚ) (hn : 0 < n) (ks : List ℕ) :
    |(ks.map (fun k : ℕ => D53.rnd ((k : ℚ) / n))).sum - (ks.sum : ℕ) / n| ≤ ((ks.sum : ℕ) / n) / 2 ^ 53 := by
  induction ks with
  | nil => simp
  | cons k ks ih =>
    rw [List.map_cons, List.sum_cons, List.sum_cons]
    have h1 := D53.rnd_err ((k : ℚ) / n)
    rw [abs_of_nonneg (by positivity : (0 : ℚ) ≤ (k : ℚ) / n)] at h1
    rw [Nat.cast_add]
    have e : D53.rnd ((k : ℚ) / n) + (ks.map (fun k : ℕ => D53.rnd ((k : ℚ) / n))).sum - ((k : ℚ) + ks.sum) / n =
        (D53.rnd ((k : ℚ) / n) - k / n) + ((ks.map (fun k : ℕ => D53.rnd ((k : ℚ) / n))).sum - ks.sum / n) := by ring
    rw [e]
    refine (abs_add_le _ _).trans ((add_le_add h1 ih).trans (le_of_eq (by ring)))

theorem counted (ls : List String) (hne : ls ≠ []) (hn : ls.length ≤ 2 ^ 53) :
    RoundedShares ((DD.ofList ls).getProbabilityDistribution : OMap (D53 L)) ls := by
  set l : IList (D53 L) := ls.map (fun c => ⟨c, [], none⟩) with hl
  have hlab : l.map Inst.label = ls := by rw [hl, List.map_map]; exact List.map_id _
  have hcd : l.classDistribution = DD.ofList ls := by rw [classDistribution_eq, hlab]
  have hc := C10_class_distribution l
  rw [hcd, hlab] at hc
  have hw : DD.WF (DD.ofList ls) := DD.wf_ofList _
  have hpos : 0 < ls.length := List.length_pos_iff.2 hne
  have hnq : (0 : ℚ) < ls.length := by exact_mod_cast hpos
  have hsum : (DD.ofList ls).sum = ls.length := hc.sum
  have hkeys : ((DD.ofList ls).getProbabilityDistribution : OMap (D53 L)).map Prod.fst = (DD.ofList ls).getItems := by
    simp [DD.getProbabilityDistribution, DD.getItems, OMap.keys, Function.comp_def]
  have hcount : ∀ q ∈ (DD.ofList ls).m, ls.count q.1 = q.2 := by
    intro q hq
    rw [← hc.count q.1, DD.getCount, Counter.count, OMap.find?_of_mem hw.m.sorted hq]; rfl
  have hle : ∀ c, ls.count c ≤ ls.length := fun c => List.count_le_length
  have hval : ∀ q ∈ (DD.ofList ls).m,
      D53.Is ((DD.ofList ls).getProbability q.1 : D53 L) (D53.rnd ((ls.count q.1 : ℚ) / ls.length)) := by
    intro q hq
    unfold DD.getProbability
    rw [OMap.find?_of_mem hw.m.sorted hq, hsum]
    have h1 := D53.is_nat (L := L) (n := q.2) (by have := hle q.1; rw [hcount q hq] at this; omega)
    have h2 := D53.is_nat (L := L) (n := ls.length) hn
    rw [hcount q hq]
    exact h1.div h2 hnq.ne'
  have hmem : ∀ c q, (c, q) ∈ ((DD.ofList ls).getProbabilityDistribution : OMap (D53 L)) →
      D53.Is q (D53.rnd ((ls.count c : ℚ) / ls.length)) ∧ 0 < ls.count c := by
    intro c q h
    unfold DD.getProbabilityDistribution at h
    rw [List.mem_map] at h
    obtain ⟨e, he, h⟩ := h
    cases h
    refine ⟨hval e he, ?_⟩
    rw [hcount e he]
    exact hw.m.pos e.1 e.2 (OMap.find?_of_mem hw.m.sorted he)
  refine ⟨⟨by rw [hkeys]; exact hc.sorted, fun c => by rw [hkeys, hc.mem_items]⟩, fun c q h => (hmem c q h).1, ?_, ?_, ?_⟩
  · intro c q h
    obtain ⟨h1, h2⟩ := hmem c q h
    obtain ⟨r0, r1, -, r3⟩ := rnd_fraction hpos hn (hle c)
    rw [D53.is_zero.lt h1, h1.le D53.is_one]
    refine ⟨?_, by simpa using r1⟩
    rw [decide_eq_true_iff]
    exact lt_of_le_of_ne r0 (fun e => by have := r3.1 e.symm; omega)
  · intro c q h
    obtain ⟨h1, h2⟩ := hmem c q h
    obtain ⟨-, -, r2, -⟩ := rnd_fraction hpos hn (hle c)
    have : q = Dbl.one ↔ ls.count c = ls.length := by
      rw [← r2]
      exact ⟨fun e => h1.unique (e ▸ D53.is_one), fun e => (e ▸ h1).ext D53.is_one⟩
    rw [this, List.count_eq_length]
    exact ⟨fun e b hb => (e b hb).symm, fun e b hb => (e b hb).symm⟩
  · refine ⟨(DD.ofList ls).m.map (fun q => D53.rnd ((q.2 : ℚ) / ls.length)), ?_, ?_⟩
    · unfold DD.getProbabilityDistribution
      rw [List.map_map, List.map_map]
      apply List.map_congr_left
      intro q hq
      have := hval q hq
      rw [hcount q hq] at this
      exact this
    · have h := sum_rounded ls.length hnq ((DD.ofList ls).m.map Prod.snd)
      rw [← Counter.sumOfCounts_eq, ← hw.sum, hsum, div_self hnq.ne', List.map_map] at h
      exact h

theorem ordered {p : OMap (D53 L)} {ls : List String} (h : RoundedShares p ls) (hb : ls.length < 2 ^ 53) : OrderedAs p ls := by
  intro a q b r ha hr
  have ia : D53.Is q _ := h.value a q ha
  have ib : D53.Is r _ := h.value b r hr
  have hpos : 0 < ls.length := by
    have := (h.keys.2 a).1 (List.mem_map.2 ⟨_, ha, rfl⟩)
    exact List.length_pos_of_mem this
  have hnq : (0 : ℚ) < ls.length := by exact_mod_cast hpos
  have key : ∀ k k' : ℕ, k < k' → k' ≤ ls.length → D53.rnd ((k : ℚ) / ls.length) < D53.rnd ((k' : ℚ) / ls.length) := by
    intro k k' hk hk'
    refine D53.rnd_lt_unit (by positivity) ?_ ?_
    · rw [div_le_one hnq]; exact_mod_cast hk'
    · have h2 : (k : ℚ) + 1 ≤ k' := by exact_mod_cast hk
      have h3 : (k' : ℚ) / ls.length - k / ls.length = (k' - k) / ls.length := by ring
      rw [h3, div_lt_div_iff₀ (by positivity) hnq]
      have : (ls.length : ℚ) < 2 ^ 53 := by exact_mod_cast hb
      nlinarith
  have la : ls.count a ≤ ls.length := List.count_le_length
  have lb : ls.count b ≤ ls.length := List.count_le_length
  refine ⟨?_, ?_⟩
  · rw [ia.lt ib, decide_eq_true_iff]
    constructor
    · intro hlt
      by_contra hc
      rcases (not_lt.1 hc).eq_or_lt with e | e
      · rw [e] at hlt; exact lt_irrefl _ hlt
      · exact lt_asymm hlt (key _ _ e la)
    · exact fun hlt => key _ _ hlt lb
  · constructor
    · intro e
      subst e
      have := ia.unique ib
      rcases lt_trichotomy (ls.count a) (ls.count b) with h1 | h1 | h1
      · exact absurd this (key _ _ h1 lb).ne
      · exact h1
      · exact absurd this (key _ _ h1 la).ne'
    · intro e
      rw [e] at ia
      exact ia.ext ib

theorem largest_of_majority {p : OMap (D53 L)} {ls : List String} (h : RoundedShares p ls) {c : String}
    (hc : IsMajority ls c) : Largest p c := by
  obtain ⟨⟨c', q⟩, hq, e⟩ := List.mem_map.1 ((h.keys.2 c).2 hc.mem)
  simp only at e
  subst e
  refine ⟨q, hq, fun b r hr => ?_⟩
  have ia : D53.Is q _ := h.value _ q hq
  have ib : D53.Is r _ := h.value b r hr
  rw [ib.le ia, decide_eq_true_iff]
  refine D53.rnd_mono ?_
  have := hc.max b
  gcongr

/-- **C180.** The dummy classifier, trained on 1 to `2^53 - 1` instances: the computed class probabilities are the
rounded shares of the classes, in the order of the numbers of instances; on a plain instance the predicted class has the
largest one. -/
theorem C180_dummy (train : IList (D53 L)) (hne : train ≠ []) (hn : train.length < 2 ^ 53) :
    RoundedShares (dummyProbability train.classDistribution : OMap (D53 L)) (train.map Inst.label) ∧
    OrderedAs (dummyProbability train.classDistribution : OMap (D53 L)) (train.map Inst.label) ∧
    ∀ x : Inst (D53 L), x.isComposite = false →
      Largest (dummyProbability train.classDistribution : OMap (D53 L)) (dummyPredict train.classDistribution x) := by
  have h : RoundedShares (dummyProbability train.classDistribution : OMap (D53 L)) (train.map Inst.label) := by
    unfold dummyProbability
    rw [classDistribution_eq]
    exact counted _ (by simpa using hne) (by rw [List.length_map]; omega)
  exact ⟨h, ordered h (by rw [List.length_map]; omega), fun x hx => largest_of_majority h (C46_plain train x hne hx)⟩

/-- **C180.** Nearest neighbours: the same, counted over the neighbours. -/
theorem C180_neighbours (m : Knn (D53 L)) (x : Inst (D53 L)) (ns : IList (D53 L)) (h : m.nearestNeighbors x = .ok ns)
    (hne : ns ≠ []) (hn : ns.length < 2 ^ 53) :
    ∃ c p, m.predict x = .ok c ∧ m.predictProbability x = .ok p ∧ RoundedShares p (ns.map Inst.label) ∧
      OrderedAs p (ns.map Inst.label) ∧ Largest p c := by
  obtain ⟨c, h1, h2⟩ := (C50_vote m x ns h).1 hne
  have hs : RoundedShares (ns.classDistribution.getProbabilityDistribution : OMap (D53 L)) (ns.map Inst.label) := by
    rw [classDistribution_eq]
    exact counted _ (by simpa using hne) (by rw [List.length_map]; omega)
  refine ⟨c, _, h1, ?_, hs, ordered hs (by rw [List.length_map]; omega), largest_of_majority hs h2⟩
  unfold Knn.predictProbability
  rw [h]; rfl

/-- **C180.** Ensembles: the same, counted over the trees. -/
theorem C180_ensembles {forest : List (Node (D53 L))} (hne : forest ≠ []) (hn : forest.length < 2 ^ 53)
    {x : Inst (D53 L)} {vote : Node (D53 L) → String} (h : ∀ t ∈ forest, treePredict t x = .ok (vote t)) :
    ∃ c p, ensemblePredict forest x = .ok c ∧ ensembleProbability forest x = .ok p ∧ RoundedShares p (forest.map vote) ∧
      OrderedAs p (forest.map vote) ∧ Largest p c := by
  obtain ⟨c, h1, h2⟩ := C64_majority_vote hne h
  have hs := counted (L := L) (forest.map vote) (by simpa using hne) (by rw [List.length_map]; omega)
  refine ⟨c, _, h1, ?_, hs, ordered hs (by rw [List.length_map]; omega), largest_of_majority hs h2⟩
  unfold ensembleProbability
  rw [ensembleVotes_ok h]; rfl

/-- **C180.** A tree that was grown in double precision from fewer than `2^53` instances, and then possibly pruned: the
same, counted over the training instances that pass through the node where the way of the instance ends. -/
theorem C180_trees {param : Node.SubsetParam} (hp : ValidParam param) {ts : List AttrType} {data : IList (D53 L)}
    (hn : data.length < 2 ^ 53) (hts : ∀ x ∈ data, typesOf x = ts)
    (hfin : ∀ x ∈ data, ∀ (i : Nat) v, x.attrs[i]? = some (.continuous v) → ∃ q, v.val = .fin q)
    {fuel : Nat} {c : Cond (D53 L)} {g n : Node (D53 L)} (h : Node.grow param false fuel data c = .ok g) (hpr : PrunedFrom g n)
    (x : Inst (D53 L)) (hx : typesOf x = ts) :
    ∃ path m p, StopsAt n x path m ∧ n.predictProbability x = .ok p ∧
      RoundedShares p ((passing n data path).map Inst.label) ∧ OrderedAs p ((passing n data path).map Inst.label) ∧
      (x.isComposite = false → ∃ a, treePredict n x = .ok a ∧ Largest p a) := by
  have hord : DataOrd ts data := by
    intro y hy i hi
    have hty : typesOf y = ts := hts y hy
    rw [← hty, typesOf, List.getElem?_map] at hi
    cases ha : y.attrs[i]? with
    | none => rw [ha] at hi; cases hi
    | some a =>
      rw [ha] at hi
      cases a with
      | continuous v =>
        obtain ⟨q, hq⟩ := hfin y hy i v ha
        have : contValAt y i = v := by unfold contValAt; rw [ha]
        rw [this]
        show XR.le v.val v.val = true
        rw [hq]; simp [XR.le]
      | discrete _ => cases hi
      | indexed _ _ _ => cases hi
      | binary _ => cases hi
  have hg := grow_grown hp fuel data c g hts hord h
  obtain ⟨path, m, hstop⟩ := (hpr.defOn hg.defOn).stops x hx
  obtain ⟨h1, h2, h3⟩ := pruned_node_data hg hpr hstop.1
  obtain ⟨e1, e2⟩ := hstop.predict
  have hlen : (passing n data path).length ≤ data.length := List.length_filter_le _ _
  have hs := counted (L := L) ((passing n data path).map Inst.label) (by simpa using h1) (by rw [List.length_map]; omega)
  rw [h2] at e2
  refine ⟨path, m, _, hstop, e2, hs, ordered hs (by rw [List.length_map]; omega), ?_⟩
  intro hplain
  refine ⟨m.label, ?_, largest_of_majority hs ?_⟩
  · unfold treePredict Node.predict
    simp [hplain, e1]
  · rw [h3]
    exact C44_majority _ (by simpa using h1)

/-! ## concrete cases -/

/-- one instance of three: the computed probability is the `double` nearest to 1/3, which is less than 1/3 -/
example : (dummyProbability (IList.classDistribution
      ([⟨"b", [], none⟩, ⟨"a", [], none⟩, ⟨"b", [], none⟩] : IList (D53 coarseMath))) : OMap (D53 coarseMath)).map
        (fun e => (e.1, e.2.val)) =
    [("a", .fin (6004799503160661 / 2 ^ 54)), ("b", .fin (6004799503160661 / 2 ^ 53))] := by decide +kernel

/-- a tree grown in double precision meets the hypotheses -/
example : ∃ (n : Node (D53 L)) (path : List Nat) (m : Node (D53 L)) (p : OMap (D53 L)), Node.grow none false 3 (spreadData L) ⟨-1, '=', none⟩ = .ok n ∧
    StopsAt n ⟨"?", [.continuous (Dbl.ofInt 5), .discrete "x"], none⟩ path m ∧
    n.predictProbability ⟨"?", [.continuous (Dbl.ofInt 5), .discrete "x"], none⟩ = .ok p := by
  have hts : ∀ x ∈ spreadData L, typesOf x = [.continuous, .discrete] := by
    intro x hx
    simp only [spreadData, List.mem_cons, List.not_mem_nil, or_false] at hx
    rcases hx with rfl | rfl | rfl <;> rfl
  have hv : ValidParam none := by intro _ _ h; cases h
  obtain ⟨n, hn⟩ := C168_double_partial (ts := [.continuous, .discrete]) hv false (by simp [spreadData]) hts
    (spreadData_spread L) (by intro h; simp at h) ⟨-1, '=', none⟩ (fuel := 3) (by simp [spreadData])
  obtain ⟨path, m, p, h1, h2, -⟩ := C180_trees hv (by simp [spreadData]) hts (spreadData_spread L).fin hn (.same n)
    ⟨"?", [.continuous (Dbl.ofInt 5), .discrete "x"], none⟩ rfl
  exact ⟨n, path, m, p, hn, h1, h2⟩

/-- two neighbours of three -/
example : ∃ ns, (⟨[⟨"b", [.continuous (Dbl.ofInt 1)], none⟩, ⟨"a", [.continuous (Dbl.ofInt 2)], none⟩, ⟨"b", [.continuous (Dbl.ofInt 9)], none⟩],
      2, fun a b => match a.attrs, b.attrs with
        | [.continuous v], [.continuous w] => .ok ((v -. w) *. (v -. w))
        | _, _ => .ok Dbl.zero⟩ : Knn (D53 coarseMath)).nearestNeighbors ⟨"?", [.continuous (Dbl.ofInt 0)], none⟩ = .ok ns ∧
    ns.map Inst.label = ["b", "a"] := ⟨_, rfl, by decide +kernel⟩

end Verif
