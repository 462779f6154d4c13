import Verif.Props.TreePrune
import Verif.Props.NetTrain

/-! # C134-C136: class probabilities of trees and networks, training with pruning -/

set_option linter.unusedSectionVars false

namespace Verif
open Dbl

section
variable {F : Type} [Dbl F]

/-! ## the way of an instance through a tree -/

theorem predictProbabilityIn_first {d : DD} {x : Inst F} : ∀ {ch : List (Node F)} {k : Nat} {c : Node F},
    ch[k]? = some c → c.cond.satisfy x = .ok true →
    (∀ j < k, ∀ q, ch[j]? = some q → q.cond.satisfy x = .ok false) →
    Node.predictProbabilityIn d ch x = Node.predictProbability c x := by
  intro ch
  induction ch with
  | nil => intro k c h; cases h
  | cons a ch ih =>
    intro k c hc hsat hfirst
    cases k with
    | zero =>
      simp only [List.getElem?_cons_zero, Option.some.injEq] at hc
      subst hc
      rw [Node.predictProbabilityIn, hsat]; rfl
    | succ k =>
      rw [Node.predictProbabilityIn, hfirst 0 (by omega) a rfl]
      simp only [res_bind_ok, Bool.false_eq_true, if_false]
      exact ih (k := k) (c := c) (by simpa using hc) hsat
        (fun j hj q hq => hfirst (j + 1) (by omega) q (by simpa using hq))

theorem predictIn_none {lab : String} {d : DD} {x : Inst F} : ∀ {ch : List (Node F)},
    (∀ c ∈ ch, c.cond.satisfy x = .ok false) →
    Node.predictPlainIn lab ch x = .ok lab ∧ Node.predictProbabilityIn d ch x = .ok d.getProbabilityDistribution := by
  intro ch
  induction ch with
  | nil => intro _; exact ⟨rfl, rfl⟩
  | cons a ch ih =>
    intro h
    have ha := h a (by simp)
    obtain ⟨h1, h2⟩ := ih (fun c hc => h c (by simp [hc]))
    constructor
    · rw [Node.predictPlainIn, ha]
      simpa using h1
    · rw [Node.predictProbabilityIn, ha]
      simpa using h2

/-- both kinds of prediction use the node where the instance stops -/
theorem StopsAt.predict {n m : Node F} {x : Inst F} {path : List Nat} (h : StopsAt n x path m) :
    n.predictPlain x = .ok m.label ∧ n.predictProbability x = .ok m.dist.getProbabilityDistribution := by
  obtain ⟨h, hend⟩ := h
  induction h with
  | here n x =>
    cases n with
    | mk c l s d ch =>
      cases l with
      | true => exact ⟨rfl, rfl⟩
      | false =>
        rcases hend with h | h
        · cases h
        · rw [Node.predictPlain, Node.predictProbability]
          simp only [Bool.false_eq_true, if_false]
          exact predictIn_none h
  | step n x k c path m hl hc hsat hfirst hrest ih =>
    obtain ⟨i1, i2⟩ := ih hend
    cases n with
    | mk c' l s d ch =>
      simp only [Node.isLeaf] at hl
      subst hl
      rw [Node.predictPlain, Node.predictProbability]
      simp only [Bool.false_eq_true, if_false]
      rw [predictPlainIn_first (ch := ch) hc hsat hfirst, predictProbabilityIn_first (ch := ch) hc hsat hfirst]
      exact ⟨i1, i2⟩

/-- the conditions below a node are defined for all instances of the types `ts` -/
inductive DefOn (ts : List AttrType) : Node F → Prop
  | mk (c : Cond F) (l : Bool) (s : String) (d : DD) (ch : List (Node F))
      (h : ∀ n ∈ ch, ∀ x : Inst F, typesOf x = ts → ∃ b, n.cond.satisfy x = .ok b)
      (hch : ∀ n ∈ ch, DefOn ts n) : DefOn ts (.mk c l s d ch)

theorem PrunedFrom.cond_eq {g n : Node F} (h : PrunedFrom g n) : n.cond = g.cond := by
  cases h <;> rfl

theorem PrunedFrom.defOn {ts : List AttrType} {g n : Node F} (h : PrunedFrom g n) (hg : DefOn ts g) : DefOn ts n := by
  induction h with
  | same n => exact hg
  | cut c s d ch => cases hg with | mk _ _ _ _ _ h1 h2 => exact .mk _ _ _ _ _ h1 h2
  | inner c s d ch ch' hlen hch ih =>
    cases hg with
    | mk _ _ _ _ _ h1 h2 =>
      have key : ∀ n' ∈ ch', ∃ n ∈ ch, PrunedFrom n n' ∧ DefOn ts n' := by
        intro n' hn'
        obtain ⟨i, hi, rfl⟩ := List.mem_iff_getElem.1 hn'
        have e1 : ch[i]? = some (ch[i]'(by omega)) := List.getElem?_eq_getElem _
        have e2 : ch'[i]? = some ch'[i] := List.getElem?_eq_getElem _
        exact ⟨ch[i]'(by omega), List.getElem_mem _, hch i _ _ e1 e2,
          ih i _ _ e1 e2 (h2 _ (List.getElem_mem _))⟩
      refine .mk _ _ _ _ _ ?_ ?_
      · intro n' hn' x hx
        obtain ⟨n, hn, hp, _⟩ := key n' hn'
        rw [hp.cond_eq]
        exact h1 n hn x hx
      · intro n' hn'
        exact (key n' hn').choose_spec.2.2

theorem Grown.defOn {ts : List AttrType} {data : IList F} {n : Node F} (h : Grown ts data n) : DefOn ts n := by
  induction h with
  | leaf data c hne => exact .mk _ _ _ _ _ (by simp) (by simp)
  | split data c parts hne hch hperm hroute hdef ih =>
    refine .mk _ _ _ _ _ ?_ ?_
    · intro n hn
      obtain ⟨p, hp, rfl⟩ := List.mem_map.1 hn
      exact hdef p hp
    · intro n hn
      obtain ⟨p, hp, rfl⟩ := List.mem_map.1 hn
      exact ih p hp

theorem first_true {x : Inst F} : ∀ (ch : List (Node F)), (∀ n ∈ ch, ∃ b, n.cond.satisfy x = .ok b) →
    (∀ c ∈ ch, c.cond.satisfy x = .ok false) ∨
    ∃ (k : Nat) (c : Node F), ch[k]? = some c ∧ c.cond.satisfy x = .ok true ∧
      ∀ j < k, ∀ q, ch[j]? = some q → q.cond.satisfy x = .ok false := by
  intro ch
  induction ch with
  | nil => intro _; exact .inl (by simp)
  | cons a ch ih =>
    intro h
    obtain ⟨b, hb⟩ := h a (by simp)
    cases b with
    | true => exact .inr ⟨0, a, rfl, hb, by intro j hj; omega⟩
    | false =>
      rcases ih (fun n hn => h n (by simp [hn])) with h' | ⟨k, c, h1, h2, h3⟩
      · refine .inl ?_
        intro c hc
        rcases List.mem_cons.1 hc with rfl | hc
        · exact hb
        · exact h' c hc
      · refine .inr ⟨k + 1, c, by simpa using h1, h2, ?_⟩
        intro j hj q hq
        cases j with
        | zero => simp only [List.getElem?_cons_zero, Option.some.injEq] at hq; subst hq; exact hb
        | succ j => exact h3 j (by omega) q (by simpa using hq)

/-- every instance of the types of the training data stops somewhere -/
theorem DefOn.stops {ts : List AttrType} {n : Node F} (h : DefOn ts n) (x : Inst F) (hx : typesOf x = ts) :
    ∃ path m, StopsAt n x path m := by
  induction h with
  | mk c l s d ch hdef hch ih =>
    cases l with
    | true => exact ⟨[], _, .here _ _, .inl rfl⟩
    | false =>
      rcases first_true ch (fun n hn => hdef n hn x hx) with h | ⟨k, c1, h1, h2, h3⟩
      · exact ⟨[], _, .here _ _, .inr h⟩
      · obtain ⟨path, m, hf, he⟩ := ih c1 (List.mem_of_getElem? h1)
        exact ⟨k :: path, m, .step _ _ k c1 path m rfl h1 h2 h3 hf, he⟩

theorem Grown.split_follows {parts : List (IList F × Node F)} {c : Cond F} {s : String} {d : DD}
    (hroute : ∀ l1 p l2, parts = l1 ++ p :: l2 → ∀ x ∈ p.1, p.2.cond.satisfy x = .ok true ∧
        ∀ q ∈ l1, q.2.cond.satisfy x = .ok false)
    {l1 l2 : List (IList F × Node F)} {p : IList F × Node F} (hp : parts = l1 ++ p :: l2)
    {x : Inst F} (hx : x ∈ p.1) {k : Nat} {path : List Nat} {m : Node F} :
    Follows (.mk c false s d (parts.map Prod.snd)) x (k :: path) m ↔
      k = l1.length ∧ Follows p.2 x path m := by
  obtain ⟨h1, h2⟩ := hroute l1 p l2 hp x hx
  have hc : (parts.map Prod.snd)[l1.length]? = some p.2 := by rw [hp]; simp
  have hf : ∀ j < l1.length, ∀ q, (parts.map Prod.snd)[j]? = some q → q.cond.satisfy x = .ok false := by
    intro j hj q hq
    rw [hp, List.map_append, List.getElem?_append_left (by simpa using hj), List.getElem?_map,
      List.getElem?_eq_getElem hj] at hq
    cases hq
    exact h2 _ (List.getElem_mem hj)
  constructor
  · intro h
    cases h with
    | step _ _ _ c' _ _ _ hc' hsat' hfirst' hrest' =>
      simp only [Node.children] at hc' hfirst'
      have hk : k = l1.length := by
        rcases Nat.lt_trichotomy k l1.length with h | h | h
        · have := hf k h c' hc'; rw [hsat'] at this; cases this
        · exact h
        · have := hfirst' _ h p.2 hc; rw [h1] at this; cases this
      subst hk
      rw [hc] at hc'; cases hc'
      exact ⟨rfl, hrest'⟩
  · rintro ⟨rfl, h⟩
    exact .step _ _ _ p.2 _ _ rfl hc h1 hf h

theorem majority_perm {l1 l2 : List String} (h : l1.Perm l2) : getMaximum l1 = getMaximum l2 := by
  by_cases h1 : l1 = []
  · subst h1; rw [h.symm.eq_nil]
  · have h2 : l2 ≠ [] := fun h0 => h1 (by rw [h0] at h; exact h.eq_nil)
    obtain ⟨m1, m2, m3⟩ := C44_majority l1 h1
    refine IsMajority.unique (l := l2) ⟨h.mem_iff.1 m1, fun t => ?_, fun t ht he => ?_⟩ (C44_majority l2 h2)
    · rw [← h.count_eq, ← h.count_eq]; exact m2 t
    · rw [← h.count_eq, ← h.count_eq] at he; exact m3 t (h.mem_iff.2 ht) he

open Classical in
/-- a node of a grown tree was built from the instances that pass through it -/
theorem Grown.node_data {ts : List AttrType} {data : IList F} {n : Node F} (h : Grown ts data n) :
    ∀ x path m, Follows n x path m → passing n data path ≠ [] ∧
      m.dist = DD.ofList ((passing n data path).map Inst.label) ∧
      m.label = getMaximum ((passing n data path).map Inst.label) := by
  induction h with
  | leaf data c hne =>
    intro x path m hr
    cases hr with
    | step _ _ _ _ _ _ hl => cases hl
    | here =>
      have : passing (Node.mk c true (getMaximum (data.map Inst.label))
          (DD.ofList (data.map Inst.label)) []) data [] = data := by
        unfold passing
        rw [List.filter_eq_self]
        intro y _
        exact decide_eq_true ⟨_, .here _ y⟩
      rw [this]
      exact ⟨hne, rfl, rfl⟩
  | split data c parts hne hch hperm hroute hdef ih =>
    intro x path m hr
    cases hr with
    | here =>
      set N := Node.mk c false (getMaximum (data.map Inst.label)) (DD.ofList (data.map Inst.label))
        (parts.map Prod.snd) with hN
      have : passing N data [] = data := by
        unfold passing
        rw [List.filter_eq_self]
        intro y _
        exact decide_eq_true ⟨_, .here _ y⟩
      rw [this]
      exact ⟨hne, rfl, rfl⟩
    | step _ _ k c' rest _ _ hc' hsat' hfirst' hrest' =>
      simp only [Node.children, List.getElem?_map, Option.map_eq_some_iff] at hc'
      obtain ⟨p, hp, rfl⟩ := hc'
      set N := Node.mk c false (getMaximum (data.map Inst.label)) (DD.ofList (data.map Inst.label))
        (parts.map Prod.snd) with hN
      obtain ⟨hk, hpe⟩ := List.getElem?_eq_some_iff.1 hp
      have hl : parts = parts.take k ++ p :: parts.drop (k + 1) := by
        rw [← hpe, List.getElem_cons_drop, List.take_append_drop]
      have hlen : (parts.take k).length = k := by rw [List.length_take]; omega
      have hpm : p ∈ parts := List.mem_of_getElem? hp
      obtain ⟨n1, n2, n3⟩ := ih p hpm x rest m hrest'
      have hfil : (passing N data (k :: rest)).Perm (passing p.2 p.1 rest) := by
        unfold passing
        refine (hperm.symm.filter _).trans ?_
        conv_lhs => rw [hl]
        simp only [List.map_append, List.map_cons, List.flatten_append, List.flatten_cons, List.filter_append]
        set P : Inst F → Bool := fun y => decide (∃ m, Follows N y (k :: rest) m) with hP
        have key : ∀ m1 q m2, parts = m1 ++ q :: m2 → ∀ y ∈ q.1, P y = true → m1.length = k := by
          intro m1 q m2 hq y hy hPy
          obtain ⟨m, hm⟩ := of_decide_eq_true hPy
          exact ((Grown.split_follows hroute hq hy).1 hm).1.symm
        have hA : (((parts.take k).map Prod.fst).flatten).filter P = [] := by
          rw [List.filter_eq_nil_iff]
          intro y hy hPy
          obtain ⟨qs, hqs, hyq⟩ := List.mem_flatten.1 hy
          obtain ⟨q, hq, rfl⟩ := List.mem_map.1 hqs
          obtain ⟨a1, a2, ha⟩ := List.append_of_mem hq
          have h1 := key a1 q (a2 ++ p :: parts.drop (k + 1)) (by
            conv_lhs => rw [hl, ha]
            simp) y hyq hPy
          have h2 := congrArg List.length ha
          rw [hlen] at h2
          simp at h2
          omega
        have hB : (((parts.drop (k + 1)).map Prod.fst).flatten).filter P = [] := by
          rw [List.filter_eq_nil_iff]
          intro y hy hPy
          obtain ⟨qs, hqs, hyq⟩ := List.mem_flatten.1 hy
          obtain ⟨q, hq, rfl⟩ := List.mem_map.1 hqs
          obtain ⟨a1, a2, ha⟩ := List.append_of_mem hq
          have h1 := key (parts.take k ++ p :: a1) q a2 (by
            conv_lhs => rw [hl, ha]
            simp) y hyq hPy
          rw [List.length_append, hlen] at h1
          simp at h1
        have hC : p.1.filter P = p.1.filter (fun y => decide (∃ m, Follows p.2 y rest m)) := by
          apply List.filter_congr
          intro y hy
          rw [hP]
          simp only [decide_eq_decide]
          constructor
          · rintro ⟨m, hm⟩
            exact ⟨m, ((Grown.split_follows hroute hl hy).1 hm).2⟩
          · rintro ⟨m, hm⟩
            exact ⟨m, (Grown.split_follows hroute hl hy).2 ⟨hlen.symm, hm⟩⟩
        rw [hA, hB, hC]
        simp
      refine ⟨fun h0 => n1 (by rw [h0] at hfil; exact hfil.symm.eq_nil), ?_, ?_⟩
      · rw [n2]; exact DD.ofList_perm (hfil.symm.map _)
      · rw [n3]; exact majority_perm (hfil.symm.map _)

/-- a way through a pruned tree is a way through the tree before -/
theorem PrunedFrom.follows {n m : Node F} {x : Inst F} {path : List Nat} (h : Follows n x path m) :
    ∀ g, PrunedFrom g n → ∃ m0, Follows g x path m0 ∧ m0.dist = m.dist ∧ m0.label = m.label ∧
      ∀ y, (∃ m', Follows g y path m') → ∃ m', Follows n y path m' := by
  induction h with
  | here n x =>
    intro g hg
    refine ⟨g, .here _ _, ?_, ?_, fun y _ => ⟨n, .here _ _⟩⟩ <;> cases hg <;> rfl
  | step n x k c path m hl hc hsat hfirst hrest ih =>
    intro g hg
    cases hg with
    | same => exact ⟨m, .step _ _ _ _ _ _ hl hc hsat hfirst hrest, rfl, rfl, fun y h => h⟩
    | cut => cases hl
    | inner c1 s d ch ch' hlen hch =>
      simp only [Node.children] at hc hfirst
      obtain ⟨hk, hce⟩ := List.getElem?_eq_some_iff.1 hc
      have hg : ch[k]? = some (ch[k]'(by omega)) := List.getElem?_eq_getElem _
      have hpr := hch k _ _ hg hc
      obtain ⟨m0, f0, e1, e2, e3⟩ := ih _ hpr
      have cond_at : ∀ (j : Nat) q q', ch[j]? = some q → ch'[j]? = some q' → q'.cond = q.cond :=
        fun j q q' hq hq' => (hch j q q' hq hq').cond_eq
      have other : ∀ (j : Nat) q, ch[j]? = some q → ∃ q', ch'[j]? = some q' := by
        intro j q hq
        have := (List.getElem?_eq_some_iff.1 hq).1
        exact ⟨_, List.getElem?_eq_getElem (show j < ch'.length by omega)⟩
      have other' : ∀ (j : Nat) q, ch'[j]? = some q → ∃ q', ch[j]? = some q' := by
        intro j q hq
        have := (List.getElem?_eq_some_iff.1 hq).1
        exact ⟨_, List.getElem?_eq_getElem (show j < ch.length by omega)⟩
      refine ⟨m0, .step _ _ k _ path m0 rfl hg ?_ ?_ f0, e1, e2, ?_⟩
      · rw [← cond_at k _ _ hg hc]; exact hsat
      · intro j hj q hq
        obtain ⟨q', hq'⟩ := other j q hq
        rw [← cond_at j q q' hq hq']
        exact hfirst j hj q' hq'
      · rintro y ⟨m', hm'⟩
        cases hm' with
        | step _ _ _ c2 _ _ _ hc2 hsat2 hfirst2 hrest2 =>
          simp only [Node.children] at hc2 hfirst2
          rw [hg] at hc2
          cases hc2
          obtain ⟨m2, f2⟩ := e3 y ⟨m', hrest2⟩
          refine ⟨m2, .step _ _ k c path m2 rfl hc ?_ ?_ f2⟩
          · rw [cond_at k _ _ hg hc]; exact hsat2
          · intro j hj q hq
            obtain ⟨q', hq'⟩ := other' j q hq
            rw [cond_at j q' q hq' hq]
            exact hfirst2 j hj q' hq'

/-- and conversely, if the way exists in the pruned tree at all -/
theorem PrunedFrom.follows_back {n m : Node F} {y : Inst F} {path : List Nat} (h : Follows n y path m)
    {g : Node F} (hg : PrunedFrom g n) : ∃ m', Follows g y path m' :=
  ⟨_, (PrunedFrom.follows h g hg).choose_spec.1⟩

/-- the same for trees after pruning -/
theorem pruned_node_data {ts : List AttrType} {data : IList F} {g n : Node F} (h : Grown ts data g) (hp : PrunedFrom g n)
    {x : Inst F} {path : List Nat} {m : Node F} (hf : Follows n x path m) :
    passing n data path ≠ [] ∧ m.dist = DD.ofList ((passing n data path).map Inst.label) ∧
      m.label = getMaximum ((passing n data path).map Inst.label) := by
  obtain ⟨m0, f0, e1, e2, e3⟩ := PrunedFrom.follows hf g hp
  have he : passing n data path = passing g data path := by
    unfold passing
    apply List.filter_congr
    intro y _
    simp only [decide_eq_decide]
    exact ⟨fun ⟨m', hm'⟩ => hp.follows_back hm', fun h => e3 y h⟩
  rw [he, ← e1, ← e2]
  exact h.node_data x path m0 f0

end

/-! ## C134 -/

/-- in exact arithmetic also stumps are built from the instances passing through their nodes -/
theorem grow_grown_real {param : Node.SubsetParam} {st : Bool} (hp : ValidParam param)
    {ts : List AttrType} {data : IList ℝ} (hne : data ≠ []) (hts : ∀ x ∈ data, typesOf x = ts)
    {fuel : Nat} (hfuel : data.length ≤ fuel) {c : Cond ℝ} {g : Node ℝ} (h : Node.grow param st fuel data c = .ok g) :
    Grown ts data g := by
  obtain ⟨tried, htr⟩ := triedIndices_ok hp ts.length
  obtain ⟨n, hn, _, _, hg, _⟩ := grow_ok hp htr st fuel data c hne hts hfuel
  rw [h] at hn
  cases hn
  exact hg

/-- **C134.** Let `n` be a tree grown from `data` (full, for a forest, or a stump) and then
possibly pruned. The class probabilities it gives for an instance `x` of the types of the data are
the class shares among the training instances that pass through the node where the way of `x` ends:
exactly their labels get a probability, each its share, and the probabilities sum to 1. The label
predicted for a plain instance is the most probable one. -/
theorem C134_tree_probabilities {param : Node.SubsetParam} {st : Bool} (hp : ValidParam param)
    {ts : List AttrType} {data : IList ℝ} (hne : data ≠ []) (hts : ∀ x ∈ data, typesOf x = ts)
    {fuel : Nat} (hfuel : data.length ≤ fuel) {c : Cond ℝ} {g n : Node ℝ} (h : Node.grow param st fuel data c = .ok g) (hpr : PrunedFrom g n)
    (x : Inst ℝ) (hx : typesOf x = ts) :
    ∃ path m p, StopsAt n x path m ∧ n.predictProbability x = .ok p ∧ passing n data path ≠ [] ∧
      ClassShares p (passing n data path) ∧
      (x.isComposite = false → ∃ a q, treePredict n x = .ok a ∧ (a, q) ∈ p ∧ ∀ b r, (b, r) ∈ p → r ≤ q) := by
  have hg := grow_grown_real hp hne hts hfuel h
  obtain ⟨path, m, hstop⟩ := (hpr.defOn hg.defOn).stops x hx
  obtain ⟨h1, h2, h3⟩ := pruned_node_data hg hpr hstop.1
  obtain ⟨e1, e2⟩ := hstop.predict
  set S := passing n data path with hS
  obtain ⟨k1, _, k3, k4⟩ := C47_dummy S h1
  have hd : m.dist = S.classDistribution := by rw [classDistribution_eq]; exact h2
  rw [hd] at e2
  have hmem : ∀ a q, (a, q) ∈ (S.classDistribution.getProbabilityDistribution : OMap ℝ) ↔
      a ∈ S.map Inst.label ∧ q = ((S.map Inst.label).count a : ℝ) / S.length := by
    intro a q
    constructor
    · intro hq
      refine ⟨?_, (k1 a q hq).1⟩
      obtain ⟨y, hy, hya⟩ := (k3 a).1 (List.mem_map.2 ⟨(a, q), hq, rfl⟩)
      exact List.mem_map.2 ⟨y, hy, hya⟩
    · rintro ⟨ha, rfl⟩
      obtain ⟨y, hy, hya⟩ := List.mem_map.1 ha
      obtain ⟨⟨a', q'⟩, hq', e⟩ := List.mem_map.1 ((k3 a).2 ⟨y, hy, hya⟩)
      simp only at e
      subst e
      rw [← (k1 a' q' hq').1]
      exact hq'
  refine ⟨path, m, _, hstop, e2, h1, ⟨hmem, k4⟩, ?_⟩
  intro hplain
  have hmaj := C44_majority (S.map Inst.label) (by simpa using h1)
  refine ⟨m.label, ((S.map Inst.label).count m.label : ℝ) / S.length, ?_, ?_, ?_⟩
  · unfold treePredict Node.predict
    simp [hplain, e1]
  · rw [hmem]
    exact ⟨by rw [h3]; exact hmaj.mem, rfl⟩
  · intro b r hb
    obtain ⟨_, rfl⟩ := (hmem b r).1 hb
    have := hmaj.max b
    rw [h3]
    gcongr

/-- **C134.** The same for the trees that training returns: without pruning, and for stumps, the
training instances are the given ones; with pruning they are the part the tree was grown from. -/
theorem C134_trained_probabilities {ts : List AttrType} {data grown : IList ℝ} (hne : grown ≠ [])
    (hts : ∀ x ∈ data, typesOf x = ts) {n : Node ℝ}
    (h : (treeTrain data none = .ok n ∧ grown = data) ∨ (stumpTrain data = .ok n ∧ grown = data) ∨
      ∃ r σ held, IsPermutation σ data.length ∧ Parts.byRatioStratified data r σ = .ok [held, grown] ∧
        treeTrain data (some (r, σ)) = .ok n)
    (x : Inst ℝ) (hx : typesOf x = ts) :
    ∃ path m p, StopsAt n x path m ∧ n.predictProbability x = .ok p ∧ passing n grown path ≠ [] ∧
      ClassShares p (passing n grown path) ∧
      (x.isComposite = false → ∃ a q, treePredict n x = .ok a ∧ (a, q) ∈ p ∧ ∀ b r, (b, r) ∈ p → r ≤ q) := by
  have hv : ValidParam none := by intro _ _ h; cases h
  rcases h with ⟨h, rfl⟩ | ⟨h, rfl⟩ | ⟨r, σ, held, hσ, hps, h⟩
  · exact C134_tree_probabilities hv hne hts (by omega) h (.same _) x hx
  · exact C134_tree_probabilities hv hne hts (by omega) h (.same _) x hx
  · simp only [treeTrain, hps, res_bind_ok, bind_ok_iff] at h
    obtain ⟨p1, e1, g, hg, p0, e0, h⟩ := h
    cases e1; cases e0
    obtain ⟨q0, q1, e, hperm, _⟩ := C25_stratified_split data r σ hσ
    rw [hps] at e
    cases e
    exact C134_tree_probabilities hv hne (fun y hy => hts y (hperm.mem_iff.1 (by simp [hy]))) (by omega) hg
      (C62_prune_only_cuts h) x hx

/-! ## C135 -/

section
variable {F : Type} [Dbl F]

theorem probability_fold (y : List F) : ∀ (ls : List String) (k : Nat) (m : OMap F), ls.Nodup → ls.length + k ≤ y.length →
    ∃ p, (ls.zipIdx k).foldlM (probabilityStep y) m = .ok p ∧
      ∀ c, OMap.find? p c = if c ∈ ls then y[k + ls.idxOf c]? else OMap.find? m c := by
  intro ls
  induction ls with
  | nil => intro k m _ _; exact ⟨m, rfl, by simp⟩
  | cons a ls ih =>
    intro k m hnd hlen
    rw [List.length_cons] at hlen
    have hk : k < y.length := by omega
    obtain ⟨p, hp, hfind⟩ := ih (k + 1) (OMap.insert m a y[k]) (List.nodup_cons.1 hnd).2 (by omega)
    refine ⟨p, ?_, ?_⟩
    · rw [List.zipIdx_cons, List.foldlM_cons]
      have : probabilityStep y m (a, k) = .ok (OMap.insert m a y[k]) := by
        unfold probabilityStep
        simp only [idxR_eq_ok.2 (List.getElem?_eq_getElem hk)]
        rfl
      rw [this]
      exact hp
    · intro c
      rw [hfind c, OMap.find?_insert]
      by_cases hca : c = a
      · subst hca
        have : c ∉ ls := (List.nodup_cons.1 hnd).1
        simp [this, List.getElem?_eq_getElem hk]
      · have hac : ¬ a = c := fun h => hca h.symm
        by_cases hcl : c ∈ ls
        · simp [hcl, hca, List.idxOf_cons_ne _ hac]
          congr 1; omega
        · simp [hcl, hca]

/-- **C135 (partial).** The "probability" a network gives to its `i`-th label is the `i`-th output,
for every network and every instance it can be applied to. -/
theorem C135_outputs_partial {labels : List String} (hnd : labels.Nodup) {output : List F → Res (List F)} {x : Inst F}
    {v y : List F} (hv : inputVector x = .ok v) (hy : output v = .ok y) (hlen : y.length = labels.length) :
    ∃ p, netProbability labels output x = .ok p ∧
      ∀ c u, OMap.find? p c = some u ↔ ∃ i : Nat, labels[i]? = some c ∧ y[i]? = some u := by
  obtain ⟨p, hp, hfind⟩ := probability_fold y labels 0 [] hnd (by omega)
  refine ⟨p, ?_, ?_⟩
  · unfold netProbability
    rw [hv, res_bind_ok, hy, res_bind_ok]
    exact hp
  · intro c u
    rw [hfind c]
    constructor
    · intro h
      split at h
      · rename_i hc
        refine ⟨labels.idxOf c, ?_, by simpa using h⟩
        rw [List.getElem?_eq_getElem (List.idxOf_lt_length_iff.2 hc), List.getElem_idxOf]
      · simp at h
    · rintro ⟨i, hi, hu⟩
      obtain ⟨hlt, he⟩ := List.getElem?_eq_some_iff.1 hi
      have hc : c ∈ labels := List.mem_of_getElem? hi
      rw [if_pos hc, Nat.zero_add]
      have : labels.idxOf c = i := by rw [← he]; exact hnd.idxOf_getElem i hlt
      rw [this]; exact hu

/-- **C135 (partial).** The label predicted for a plain instance has the greatest of these numbers. -/
theorem C135_most_probable_partial [LawfulOrd F] {labels : List String} (hnd : labels.Nodup) (hne : labels ≠ [])
    {output : List F → Res (List F)} {x : Inst F} {v y : List F} (hx : x.isComposite = false)
    (hv : inputVector x = .ok v) (hy : output v = .ok y) (hlen : y.length = labels.length) (ho : ∀ a ∈ y, Dbl.Ord a) :
    ∃ p c u, netProbability labels output x = .ok p ∧ netPredict labels output x = .ok c ∧ OMap.find? p c = some u ∧
      ∀ c' u', OMap.find? p c' = some u' → (u' <=. u) = true := by
  obtain ⟨p, hp, hfind⟩ := C135_outputs_partial hnd hv hy hlen
  obtain ⟨k, c, u, h1, h2, h3, h4, _⟩ := C76_plain labels output x v y hx hv hy hlen hne ho
  refine ⟨p, c, u, hp, h1, (hfind c u).2 ⟨k, h2, h3⟩, ?_⟩
  intro c' u' h
  obtain ⟨i, _, hu⟩ := (hfind c' u').1 h
  exact h4 u' (List.mem_of_getElem? hu)

end

/-- **C135 (refuted).** The numbers are not probabilities: the outputs are not normalised. For every
list of numeric instances there are weights for which a trained perceptron gives every class of every
instance the "probability" 0. -/
theorem C135_refuted (trainSet : IList ℝ) (d : Nat) (hne : trainSet ≠ []) (hnum : ∀ x ∈ trainSet, NumericInst d x)
    (r : ℝ) (σ : List Nat) (hσ : IsPermutation σ trainSet.length) :
    ∃ (param : NetParam ℝ) (net : Net (Mat ℝ)), param.ratio = r ∧ param.splitOrder = σ ∧
      percTrain param ⟨[], 0, Mat.zeros 0 0⟩ trainSet = .ok net ∧
      ∀ x, NumericInst d x → ∃ p : OMap ℝ, netProbability net.labels (percOutput net.weights) x = .ok p ∧
        (∀ c ∈ trainSet.map Inst.label, OMap.find? p c = some 0) ∧ ∀ c u, OMap.find? p c = some u → u = 0 := by
  obtain ⟨held, grown, hs, _, _⟩ := split_parts trainSet r σ hσ
  set labels := trainSet.getDistinctClassLabels with hlab
  refine ⟨⟨r, σ, [], Mat.zeros, 0, 0, 0⟩, ⟨labels, d, Mat.zeros labels.length (d + 1)⟩, rfl, rfl, ?_, ?_⟩
  · unfold percTrain
    rw [netInitialize_ok trainSet d hne hnum]
    simp only [res_bind_ok, hs]
    have e1 : atR [held, grown] 1 = .ok grown := rfl
    have e0 : atR [held, grown] 0 = .ok held := rfl
    rw [e1, e0]
    simp only [res_bind_ok, ← hlab]
    rfl
  · rintro x ⟨⟨u, hu, hattr⟩, _⟩
    have hv := inputVector_vec x u hattr
    have hy := C118_perceptron (Mat.zeros labels.length (d + 1)) (vec (u.length + 1) (withBias (fun j => u.getD j 0)))
      (by rw [vec_length, hu]; rfl)
    have hfo := C07_distinct_class_labels trainSet
    obtain ⟨p, hp, hfind⟩ := C135_outputs_partial (labels := labels) hfo.nodup hv hy (by simp [Mat.zeros])
    have hzero : ∀ w ∈ (List.range (Mat.zeros labels.length (d + 1) : Mat ℝ).rows).map (netScores .sigmoid
        [Mat.zeros labels.length (d + 1)] (fun j => (vec (u.length + 1) (withBias (fun j => u.getD j 0))).getD j 0)), w = 0 := by
      intro w hw
      obtain ⟨i, _, rfl⟩ := List.mem_map.1 hw
      unfold netScores
      refine Finset.sum_eq_zero fun j _ => ?_
      simp [Mat.zeros]
    refine ⟨p, hp, ?_, ?_⟩
    · intro c hc
      obtain ⟨i, hi, he⟩ := List.mem_iff_getElem.1 ((hfo.mem_iff c).2 hc)
      refine (hfind c 0).2 ⟨i, by rw [← he]; exact List.getElem?_eq_getElem hi, ?_⟩
      rw [List.getElem?_eq_getElem (by simpa [Mat.zeros] using hi)]
      congr 1
      exact hzero _ (List.getElem_mem _)
    · intro c w h
      obtain ⟨i, _, hw⟩ := (hfind c w).1 h
      exact hzero w (List.mem_of_getElem? hw)

/-! ## C136 -/

section
variable {F : Type} [Dbl F]

theorem DefOn.composite_ok {ts : List AttrType} {n : Node F} (h : DefOn ts n) (x : Inst F) (hx : typesOf x = ts) :
    ∃ s, n.predictComposite x = .ok s := by
  induction h with
  | mk c l s d ch hdef hch ih =>
    rw [Node.predictComposite]
    cases l with
    | true => exact ⟨_, rfl⟩
    | false =>
      simp only [Bool.false_eq_true, if_false]
      have : ∀ (ns : List (Node F)) (cls : String), (∀ n ∈ ns, n ∈ ch) → ∃ s, Node.predictCompositeIn cls ns x = .ok s := by
        intro ns
        induction ns with
        | nil => intro cls _; exact ⟨cls, rfl⟩
        | cons a ns ih2 =>
          intro cls hns
          obtain ⟨b, hb⟩ := hdef a (hns a (by simp)) x hx
          rw [Node.predictCompositeIn, hb]
          simp only [res_bind_ok]
          cases b with
          | true =>
            obtain ⟨s, hs⟩ := ih a (hns a (by simp))
            simp only [if_true, hs, res_bind_ok]
            exact ⟨_, rfl⟩
          | false =>
            simp only [Bool.false_eq_true, if_false]
            exact ih2 cls (fun n hn => hns n (by simp [hn]))
      exact this ch _ (fun _ h => h)

/-- a tree whose conditions are defined on the instances predicts something for each of them -/
theorem DefOn.predict_ok {ts : List AttrType} {n : Node F} (h : DefOn ts n) (x : Inst F) (hx : typesOf x = ts)
    (hpos : x.isComposite = true → x.possibleLabels ≠ []) : ∃ s, treePredict n x = .ok s := by
  cases hc : x.isComposite with
  | false =>
    obtain ⟨path, m, hstop⟩ := h.stops x hx
    refine ⟨m.label, ?_⟩
    unfold treePredict Node.predict
    simp [hc, hstop.predict.1]
  | true =>
    obtain ⟨s, hs⟩ := h.composite_ok x hx
    obtain ⟨a, t, ha⟩ := List.exists_cons_of_ne_nil (hpos hc)
    unfold treePredict Node.predict
    simp only [hc, if_true, and_true, hs, res_bind_ok, ha]
    split
    · exact ⟨a, rfl⟩
    · exact ⟨s, rfl⟩

mutual
theorem pruneNode_total {ts : List AttrType} {acc : Node F → Res F} (hacc : ∀ n, DefOn ts n → ∃ a, acc n = .ok a) :
    ∀ (n : Node F) (ctx : Node F → Node F), (∀ m, DefOn ts m → m.cond = n.cond → DefOn ts (ctx m)) → DefOn ts n →
    ∃ n', pruneNode acc ctx n = .ok n' ∧ DefOn ts n' ∧ n'.cond = n.cond
  | .mk c leaf s d ch, ctx, hctx, hn => by
    rw [pruneNode]
    cases leaf with
    | true => exact ⟨_, rfl, hn, rfl⟩
    | false =>
      simp only [Bool.false_eq_true, if_false, Node.setLeaf]
      obtain ⟨before, hb⟩ := hacc _ (hctx _ hn rfl)
      cases hn with
      | mk _ _ _ _ _ h1 h2 =>
        obtain ⟨after, ha⟩ := hacc _ (hctx (.mk c true s d ch) (.mk _ _ _ _ _ h1 h2) rfl)
        rw [hb, res_bind_ok, ha, res_bind_ok]
        split
        · obtain ⟨ch', e, k1, k2⟩ := pruneChildren_total hacc ch [] (fun ch => ctx (.mk c false s d ch))
            (by
              intro l hl1 hl2
              exact hctx _ (.mk _ _ _ _ _ hl2 hl1) rfl) (by simpa using h2) (by simpa using h1)
          rw [e]
          exact ⟨_, rfl, .mk _ _ _ _ _ k2 k1, rfl⟩
        · exact ⟨_, rfl, .mk _ _ _ _ _ h1 h2, rfl⟩
theorem pruneChildren_total {ts : List AttrType} {acc : Node F → Res F} (hacc : ∀ n, DefOn ts n → ∃ a, acc n = .ok a) :
    ∀ (ns done : List (Node F)) (ctx : List (Node F) → Node F),
    (∀ l, (∀ n ∈ l, DefOn ts n) → (∀ n ∈ l, ∀ x : Inst F, typesOf x = ts → ∃ b, n.cond.satisfy x = .ok b) → DefOn ts (ctx l)) →
    (∀ n ∈ done ++ ns, DefOn ts n) →
    (∀ n ∈ done ++ ns, ∀ x : Inst F, typesOf x = ts → ∃ b, n.cond.satisfy x = .ok b) →
    ∃ r, pruneChildren acc ctx done ns = .ok r ∧ (∀ n ∈ r, DefOn ts n) ∧
      ∀ n ∈ r, ∀ x : Inst F, typesOf x = ts → ∃ b, n.cond.satisfy x = .ok b
  | [], done, ctx, _, h1, h2 => ⟨done, by rw [pruneChildren], by simpa using h1, by simpa using h2⟩
  | n :: ns, done, ctx, hctx, h1, h2 => by
    rw [pruneChildren]
    obtain ⟨n', e, k1, k2⟩ := pruneNode_total hacc n (fun m => ctx (done ++ m :: ns)) (by
      intro m hm hc
      refine hctx _ ?_ ?_
      · intro k hk
        rcases List.mem_append.1 hk with hk | hk
        · exact h1 k (by simp [hk])
        · rcases List.mem_cons.1 hk with rfl | hk
          · exact hm
          · exact h1 k (by simp [hk])
      · intro k hk
        rcases List.mem_append.1 hk with hk | hk
        · exact h2 k (by simp [hk])
        · rcases List.mem_cons.1 hk with rfl | hk
          · rw [hc]; exact h2 n (by simp)
          · exact h2 k (by simp [hk])) (h1 n (by simp))
    rw [e, res_bind_ok]
    refine pruneChildren_total hacc ns (done ++ [n']) ctx hctx ?_ ?_
    · intro k hk
      simp only [List.append_assoc, List.singleton_append, List.mem_append, List.mem_cons] at hk
      rcases hk with hk | rfl | hk
      · exact h1 k (by simp [hk])
      · exact k1
      · exact h1 k (by simp [hk])
    · intro k hk
      simp only [List.append_assoc, List.singleton_append, List.mem_append, List.mem_cons] at hk
      rcases hk with hk | rfl | hk
      · exact h2 k (by simp [hk])
      · rw [k2]; exact h2 n (by simp)
      · exact h2 k (by simp [hk])
end

end

theorem treeAccuracy_total {ts : List AttrType} (pruneSet : IList ℝ) (hts : ∀ x ∈ pruneSet, typesOf x = ts)
    (hpos : ∀ x ∈ pruneSet, x.isComposite = true → x.possibleLabels ≠ []) (n : Node ℝ) (hn : DefOn ts n) :
    ∃ a, treeAccuracy pruneSet n = .ok a := by
  classical
  have h : ∀ x ∈ pruneSet, ∃ s, treePredict n x = .ok s := fun x hx => hn.predict_ok x (hts x hx) (hpos x hx)
  have := C43_testClassifier (treePredict n) (fun x => if hx : x ∈ pruneSet then (h x hx).choose else "") pruneSet (by
    intro x hx
    simp only [dif_pos hx]
    exact (h x hx).choose_spec)
  unfold treeAccuracy
  rw [this]
  exact ⟨_, rfl⟩

/-- **C136 (partial).** For a ratio between 0 and 1, training with pruning succeeds exactly if some
class has an instance left for growing, that is, if `⌈r·n⌉ < n` for the number `n` of instances of
some class; the trained tree then predicts a label for every instance of the training types. -/
theorem C136_pruned_training_partial {ts : List AttrType} {data : IList ℝ} (hts : ∀ x ∈ data, typesOf x = ts)
    (hpos : ∀ x ∈ data, x.isComposite = true → x.possibleLabels ≠ []) {r : ℝ} (h0 : 0 ≤ r) (h1 : r ≤ 1)
    {σ : List Nat} (hσ : IsPermutation σ data.length) :
    ((∃ n, treeTrain data (some (r, σ)) = .ok n) ↔
      ∃ c, ⌈r * (data.map Inst.label).count c⌉₊ < (data.map Inst.label).count c) ∧
    ∀ n, treeTrain data (some (r, σ)) = .ok n → ∀ x, typesOf x = ts →
      (x.isComposite = true → x.possibleLabels ≠ []) → ∃ s, treePredict n x = .ok s := by
  obtain ⟨p0, p1, e, hperm, _⟩ := C25_stratified_split data r σ hσ
  have hcount : ∀ c, (p1.map Inst.label).count c = (data.map Inst.label).count c - ⌈r * (data.map Inst.label).count c⌉₊ := by
    intro c
    obtain ⟨q0, q1, e', _, h⟩ := C25_class_counts data r σ hσ h0 h1 _ e c
    cases e'
    exact h
  have hmem : ∀ x, x ∈ p0 ∨ x ∈ p1 → x ∈ data := fun x hx => hperm.mem_iff.1 (by simpa using hx)
  have hv : ValidParam none := by intro _ _ h; cases h
  have hunf : treeTrain data (some (r, σ)) =
      (Node.grow none false (p1.length + 1) p1 Cond.root >>= fun root => prune root p0) := by
    simp only [treeTrain, e, res_bind_ok]
    rfl
  have hnil : p1 = [] → ∀ n, treeTrain data (some (r, σ)) ≠ .ok n := by
    intro h n hn
    rw [hunf, h] at hn
    have : Node.grow none false 1 ([] : IList ℝ) Cond.root = .error (.throw "out_of_range") := rfl
    simp [this] at hn
  have hdef : ∀ g, Node.grow none false (p1.length + 1) p1 Cond.root = .ok g → p1 ≠ [] → DefOn ts g := by
    intro g hg hne
    exact (grow_grown_real hv hne (fun x hx => hts x (hmem x (.inr hx))) (by omega) hg).defOn
  refine ⟨⟨?_, ?_⟩, ?_⟩
  · rintro ⟨n, hn⟩
    have hne : p1 ≠ [] := fun h => hnil h n hn
    obtain ⟨x, t, rfl⟩ := List.exists_cons_of_ne_nil hne
    refine ⟨x.label, ?_⟩
    have := hcount x.label
    simp only [List.map_cons, List.count_cons_self] at this
    omega
  · rintro ⟨c, hc⟩
    have hne : p1 ≠ [] := by
      rintro rfl
      have := hcount c
      simp at this
      omega
    obtain ⟨g, hg, _⟩ := C56_growth_terminates hv false hne (fun x hx => hts x (hmem x (.inr hx))) Cond.root (p1.length + 1) (by omega)
    obtain ⟨n, hn, _⟩ := pruneNode_total (ts := ts) (treeAccuracy_total p0 (fun x hx => hts x (hmem x (.inl hx)))
      (fun x hx => hpos x (hmem x (.inl hx)))) g id (fun m hm _ => hm) (hdef g hg hne)
    exact ⟨n, by rw [hunf, hg, res_bind_ok]; exact hn⟩
  · intro n hn x hx hxp
    have hne : p1 ≠ [] := fun h => hnil h n hn
    rw [hunf, bind_ok_iff] at hn
    obtain ⟨g, hg, hn⟩ := hn
    exact ((C62_prune_only_cuts hn).defOn (hdef g hg hne)).predict_ok x hx hxp

/-- **C136 (refuted).** On a training list with one instance of each class every instance is held
out for pruning, whatever the ratio in `(0, 1]`: growing from the empty rest throws. -/
theorem C136_refuted {data : IList ℝ} (hone : (data.map Inst.label).Nodup) {r : ℝ} (h0 : 0 < r) (h1 : r ≤ 1)
    {σ : List Nat} (hσ : IsPermutation σ data.length) :
    treeTrain data (some (r, σ)) = .error (.throw "out_of_range") := by
  obtain ⟨p0, p1, e, hperm, _⟩ := C25_stratified_split data r σ hσ
  have hnil : p1 = [] := by
    rcases p1 with _ | ⟨x, t⟩
    · rfl
    · exfalso
      obtain ⟨q0, q1, e', _, h⟩ := C25_class_counts data r σ hσ h0.le h1 _ e x.label
      cases e'
      have hle := List.nodup_iff_count_le_one.1 hone x.label
      simp only [List.map_cons, List.count_cons_self] at h
      have hc1 : (data.map Inst.label).count x.label = 1 := by omega
      rw [hc1] at h
      have : 1 ≤ ⌈r * ((1 : ℕ) : ℝ)⌉₊ := Nat.one_le_ceil_iff.2 (by simpa using h0)
      omega
  simp only [treeTrain, e, res_bind_ok, hnil]
  rfl

/-! ## concrete cases -/

theorem fourPoints_types : ∀ x ∈ fourPoints, typesOf x = [.continuous] := by
  intro x hx
  simp only [fourPoints, List.mem_cons, List.not_mem_nil, or_false] at hx
  rcases hx with rfl | rfl | rfl | rfl <;> rfl

theorem fourPoints_count : (fourPoints.map Inst.label).count "a" = 2 := by
  simp only [fourPoints, List.map_cons, List.map_nil]
  decide

theorem fourPoints_half : ∃ c, ⌈(1 / 2 : ℝ) * (fourPoints.map Inst.label).count c⌉₊ < (fourPoints.map Inst.label).count c := by
  refine ⟨"a", ?_⟩
  rw [fourPoints_count]
  norm_num

/-- a grown tree and a new instance meet the hypotheses of C134 -/
example : ∃ n, treeTrain fourPoints none = .ok n ∧ ∃ path m p,
    StopsAt n ⟨"?", [.continuous 4], none⟩ path m ∧ n.predictProbability ⟨"?", [.continuous 4], none⟩ = .ok p ∧
    ClassShares p (passing n fourPoints path) := by
  obtain ⟨n, hn, _⟩ := (C56_training_terminates (by simp [fourPoints]) fourPoints_types).1
  obtain ⟨path, m, p, h1, h2, _, h3, _⟩ := C134_trained_probabilities (grown := fourPoints) (by simp [fourPoints])
    fourPoints_types (.inl ⟨hn, rfl⟩) ⟨"?", [.continuous 4], none⟩ rfl
  exact ⟨n, hn, path, m, p, h1, h2, h3⟩

/-- with half of the instances held out the four points can be trained on, with pruning -/
example : ∃ n, treeTrain fourPoints (some (1 / 2, [2, 0, 3, 1])) = .ok n :=
  (C136_pruned_training_partial fourPoints_types (by
    intro x hx
    simp only [fourPoints, List.mem_cons, List.not_mem_nil, or_false] at hx
    rcases hx with rfl | rfl | rfl | rfl <;> intro h <;> cases h) (by norm_num) (by norm_num) fourParam_perm).1.2 fourPoints_half

/-- with one instance of each class they cannot -/
example : treeTrain ([⟨"a", [.continuous 1], none⟩, ⟨"b", [.continuous 2], none⟩] : IList ℝ) (some (1 / 5, [1, 0])) =
    .error (.throw "out_of_range") :=
  C136_refuted (by decide) (by norm_num) (by norm_num) (by show [1, 0].Perm (List.range 2); decide)

/-- raw scores of a perceptron, `-5` and `7`, in place of probabilities -/
example : netProbability ["a", "b"] (percOutput (⟨2, 2, fun i j => .fin (if i = 0 then (if j = 0 then 1 else -3) else (if j = 0 then 1 else 3))⟩ : Mat XR))
    ⟨"?", [.continuous (.fin 2)], none⟩ = .ok [("a", .fin (-5)), ("b", .fin 7)] := by decide +kernel

/-- `C135_refuted` applies to the four points -/
example : ∃ (param : NetParam ℝ) (net : Net (Mat ℝ)), percTrain param ⟨[], 0, Mat.zeros 0 0⟩ fourPoints = .ok net ∧
    ∃ p : OMap ℝ, netProbability net.labels (percOutput net.weights) ⟨"a", [.continuous 1], none⟩ = .ok p ∧
      OMap.find? p "a" = some 0 ∧ OMap.find? p "b" = some 0 := by
  obtain ⟨param, net, _, _, h, hp⟩ := C135_refuted fourPoints 1 (by simp [fourPoints]) fourPoints_numeric (1 / 5) _ fourParam_perm
  obtain ⟨p, h1, h2, _⟩ := hp ⟨"a", [.continuous 1], none⟩ ⟨⟨[1], rfl, rfl⟩, fun h => by cases h⟩
  exact ⟨param, net, h, p, h1, h2 _ (by simp [fourPoints]), h2 _ (by simp [fourPoints])⟩

end Verif
