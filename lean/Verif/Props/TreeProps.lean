import Verif.Props.Tree
import Verif.Spec.Tree

/-! # Properties C57-C60 of grown trees -/

set_option linter.unusedSectionVars false

namespace Verif
open Dbl

section
variable {F : Type} [Dbl F]

theorem Grown.ne_nil {ts : List AttrType} {data : IList F} {n : Node F} (h : Grown ts data n) :
    data ≠ [] := by cases h <;> assumption

theorem Grown.label_eq {ts : List AttrType} {data : IList F} {n : Node F} (h : Grown ts data n) :
    n.label = getMaximum (data.map Inst.label) := by cases h <;> rfl

theorem Reaches.det {n : Node F} {x : Inst F} {p q : List Nat} {l m : Node F}
    (h : Reaches n x p l) (h' : Reaches n x q m) : p = q ∧ l = m := by
  induction h generalizing q m with
  | here n x hl =>
    cases h' with
    | here => exact ⟨rfl, rfl⟩
    | step _ _ _ _ _ _ h2 => rw [hl] at h2; cases h2
  | step n x k c path leaf hl hc hsat hfirst hrest ih =>
    cases h' with
    | here _ _ h2 => rw [hl] at h2; cases h2
    | step _ _ k' c' path' _ _ hc' hsat' hfirst' hrest' =>
      have hk : k = k' := by
        rcases Nat.lt_trichotomy k k' with h | h | h
        · have := hfirst' k h c hc; rw [hsat] at this; cases this
        · exact h
        · have := hfirst k' h c' hc'; rw [hsat'] at this; cases this
      subst hk
      rw [hc] at hc'; cases hc'
      obtain ⟨h1, h2⟩ := ih hrest'
      exact ⟨by rw [h1], h2⟩

theorem predictPlainIn_first {lab : String} {x : Inst F} : ∀ {ch : List (Node F)} {k : Nat} {c : Node F},
    ch[k]? = some c → c.cond.satisfy x = .ok true →
    (∀ j < k, ∀ q, ch[j]? = some q → q.cond.satisfy x = .ok false) →
    Node.predictPlainIn lab ch x = Node.predictPlain c x := by
  intro ch
  induction ch with
  | nil => intro k c h; cases h
  | cons a ch ih =>
    intro k c hc hsat hfirst
    cases k with
    | zero =>
      simp only [List.getElem?_cons_zero, Option.some.injEq] at hc
      subst hc
      rw [Node.predictPlainIn, hsat]; rfl
    | succ k =>
      rw [Node.predictPlainIn, hfirst 0 (by omega) a rfl]
      simp only [res_bind_ok, Bool.false_eq_true, if_false]
      exact ih (k := k) (c := c) (by simpa using hc) hsat
        (fun j hj q hq => hfirst (j + 1) (by omega) q (by simpa using hq))

/-- a plain instance is predicted the label of the leaf it reaches -/
theorem Reaches.predict {n leaf : Node F} {x : Inst F} {p : List Nat} (h : Reaches n x p leaf) :
    n.predictPlain x = .ok leaf.label := by
  induction h with
  | here n x hl =>
    cases n with
    | mk c l s d ch => simp only [Node.isLeaf] at hl; subst hl; rfl
  | step n x k c path leaf hl hc hsat hfirst hrest ih =>
    cases n with
    | mk c' l s d ch =>
      simp only [Node.isLeaf] at hl
      subst hl
      rw [Node.predictPlain]
      simp only [Bool.false_eq_true, if_false]
      rw [predictPlainIn_first (ch := ch) hc hsat hfirst]
      exact ih

theorem Grown.split_reaches {parts : List (IList F × Node F)} {c : Cond F} {s : String} {d : DD}
    (hroute : ∀ l1 p l2, parts = l1 ++ p :: l2 → ∀ x ∈ p.1, p.2.cond.satisfy x = .ok true ∧
        ∀ q ∈ l1, q.2.cond.satisfy x = .ok false)
    {l1 l2 : List (IList F × Node F)} {p : IList F × Node F} (hp : parts = l1 ++ p :: l2)
    {x : Inst F} (hx : x ∈ p.1) {path : List Nat} {leaf : Node F} :
    Reaches (.mk c false s d (parts.map Prod.snd)) x path leaf ↔
      ∃ rest, path = l1.length :: rest ∧ Reaches p.2 x rest leaf := by
  obtain ⟨h1, h2⟩ := hroute l1 p l2 hp x hx
  have hc : (parts.map Prod.snd)[l1.length]? = some p.2 := by rw [hp]; simp
  have hf : ∀ j < l1.length, ∀ q, (parts.map Prod.snd)[j]? = some q → q.cond.satisfy x = .ok false := by
    intro j hj q hq
    rw [hp, List.map_append, List.getElem?_append_left (by simpa using hj), List.getElem?_map,
      List.getElem?_eq_getElem hj] at hq
    cases hq
    exact h2 _ (List.getElem_mem hj)
  constructor
  · intro h
    cases h with
    | here _ _ hl => cases hl
    | step _ _ k c' path' _ _ hc' hsat' hfirst' hrest' =>
      simp only [Node.children] at hc' hfirst'
      have hk : k = l1.length := by
        rcases Nat.lt_trichotomy k l1.length with h | h | h
        · have := hf k h c' hc'; rw [hsat'] at this; cases this
        · exact h
        · have := hfirst' _ h p.2 hc; rw [h1] at this; cases this
      subst hk
      rw [hc] at hc'; cases hc'
      exact ⟨path', rfl, hrest'⟩
  · rintro ⟨rest, rfl, h⟩
    exact .step _ _ _ p.2 _ _ rfl hc h1 hf h

/-- every instance the tree was grown from reaches a leaf -/
theorem Grown.reaches {ts : List AttrType} {data : IList F} {n : Node F} (h : Grown ts data n) :
    ∀ x ∈ data, ∃ path leaf, Reaches n x path leaf := by
  induction h with
  | leaf data c hne => intro x _; exact ⟨[], _, .here _ x rfl⟩
  | split data c parts hne hch hperm hroute hdef ih =>
    intro x hx
    obtain ⟨ps, hps, hxp⟩ := List.mem_flatten.1 (hperm.mem_iff.2 hx)
    obtain ⟨p, hp, rfl⟩ := List.mem_map.1 hps
    obtain ⟨path, leaf, hr⟩ := ih p hp x hxp
    obtain ⟨l1, l2, hl⟩ := List.append_of_mem hp
    exact ⟨_, leaf, (Grown.split_reaches hroute hl hxp).2 ⟨path, rfl, hr⟩⟩

open Classical in
/-- the leaf reached by an instance was built from the instances that take the same path -/
theorem Grown.leaf_data {ts : List AttrType} {data : IList F} {n : Node F} (h : Grown ts data n) :
    ∀ x ∈ data, ∀ path leaf, Reaches n x path leaf →
      leaf.dist = DD.ofList ((data.filter (fun y => decide (∃ m, Reaches n y path m))).map Inst.label) ∧
      leaf.label = getMaximum ((data.filter (fun y => decide (∃ m, Reaches n y path m))).map Inst.label) := by
  induction h with
  | leaf data c hne =>
    intro x _ path leaf hr
    cases hr with
    | step _ _ _ _ _ _ hl => cases hl
    | here =>
      have : data.filter (fun y => decide (∃ m, Reaches (Node.mk c true (getMaximum (data.map Inst.label))
          (DD.ofList (data.map Inst.label)) []) y [] m)) = data := by
        rw [List.filter_eq_self]
        intro y _
        exact decide_eq_true ⟨_, .here _ y rfl⟩
      rw [this]
      exact ⟨rfl, rfl⟩
  | split data c parts hne hch hperm hroute hdef ih =>
    intro x hx path leaf hr
    obtain ⟨ps, hps, hxp⟩ := List.mem_flatten.1 (hperm.mem_iff.2 hx)
    obtain ⟨p, hp, rfl⟩ := List.mem_map.1 hps
    obtain ⟨l1, l2, hl⟩ := List.append_of_mem hp
    obtain ⟨rest, rfl, hr'⟩ := (Grown.split_reaches hroute hl hxp).1 hr
    have key : ∀ m1 q m2, parts = m1 ++ q :: m2 → ∀ y ∈ q.1,
        (∃ m, Reaches (Node.mk c false (getMaximum (data.map Inst.label))
          (DD.ofList (data.map Inst.label)) (parts.map Prod.snd)) y (l1.length :: rest) m) →
        m1.length = l1.length := by
      intro m1 q m2 hq y hy ⟨m, hm⟩
      obtain ⟨r, hr2, _⟩ := (Grown.split_reaches hroute hq hy).1 hm
      simp only [List.cons.injEq] at hr2
      exact hr2.1.symm
    set P : Inst F → Bool := fun y => decide (∃ m, Reaches (Node.mk c false (getMaximum (data.map Inst.label))
          (DD.ofList (data.map Inst.label)) (parts.map Prod.snd)) y (l1.length :: rest) m) with hP
    have hfil : (data.filter P).Perm (p.1.filter (fun y => decide (∃ m, Reaches p.2 y rest m))) := by
      refine (hperm.symm.filter P).trans ?_
      rw [hl]
      simp only [List.map_append, List.map_cons, List.flatten_append, List.flatten_cons, List.filter_append]
      have hA : ((l1.map Prod.fst).flatten).filter P = [] := by
        rw [List.filter_eq_nil_iff]
        intro y hy hPy
        obtain ⟨qs, hqs, hyq⟩ := List.mem_flatten.1 hy
        obtain ⟨q, hq, rfl⟩ := List.mem_map.1 hqs
        obtain ⟨a1, a2, ha⟩ := List.append_of_mem hq
        have := key a1 q (a2 ++ p :: l2) (by rw [hl, ha]; simp) y hyq (of_decide_eq_true hPy)
        rw [ha] at this; simp at this
      have hB : ((l2.map Prod.fst).flatten).filter P = [] := by
        rw [List.filter_eq_nil_iff]
        intro y hy hPy
        obtain ⟨qs, hqs, hyq⟩ := List.mem_flatten.1 hy
        obtain ⟨q, hq, rfl⟩ := List.mem_map.1 hqs
        obtain ⟨a1, a2, ha⟩ := List.append_of_mem hq
        have := key (l1 ++ p :: a1) q a2 (by rw [hl, ha]; simp) y hyq (of_decide_eq_true hPy)
        simp at this
      have hC : p.1.filter P = p.1.filter (fun y => decide (∃ m, Reaches p.2 y rest m)) := by
        apply List.filter_congr
        intro y hy
        rw [hP]
        simp only [decide_eq_decide]
        constructor
        · rintro ⟨m, hm⟩
          obtain ⟨r, hr2, h3⟩ := (Grown.split_reaches hroute hl hy).1 hm
          simp only [List.cons.injEq, true_and] at hr2
          exact ⟨m, by rw [hr2]; exact h3⟩
        · rintro ⟨m, hm⟩
          exact ⟨m, (Grown.split_reaches hroute hl hy).2 ⟨rest, rfl, hm⟩⟩
      rw [hA, hB, hC]
      simp
    obtain ⟨e1, e2⟩ := ih p hp x hxp rest leaf hr'
    refine ⟨?_, ?_⟩
    · rw [e1]; exact DD.ofList_perm (hfil.symm.map _)
    · rw [e2]
      have hpm := hfil.map Inst.label
      have hxm : x ∈ p.1.filter (fun y => decide (∃ m, Reaches p.2 y rest m)) :=
        List.mem_filter.2 ⟨hxp, decide_eq_true ⟨_, hr'⟩⟩
      have hne1 : (p.1.filter (fun y => decide (∃ m, Reaches p.2 y rest m))).map Inst.label ≠ [] := by
        intro h0; simp only [List.map_eq_nil_iff] at h0; rw [h0] at hxm; cases hxm
      have hne2 : (data.filter P).map Inst.label ≠ [] := by
        intro h0; rw [h0] at hpm; exact hne1 hpm.symm.eq_nil
      apply IsMajority.unique (l := (data.filter P).map Inst.label) ?_ (C44_majority _ hne2)
      obtain ⟨m1, m2, m3⟩ := C44_majority _ hne1
      refine ⟨hpm.mem_iff.2 m1, fun t => ?_, fun t ht h => ?_⟩
      · rw [hpm.count_eq, hpm.count_eq]; exact m2 t
      · rw [hpm.count_eq, hpm.count_eq] at h; exact m3 t (hpm.mem_iff.1 ht) h

theorem Grown.predict_mem {ts : List AttrType} {data : IList F} {n : Node F} (h : Grown ts data n) :
    ∀ x : Inst F, typesOf x = ts → ∃ s ∈ data.map Inst.label, n.predictPlain x = .ok s := by
  induction h with
  | leaf data c hne =>
    intro x _
    exact ⟨_, (C44_majority _ (by simpa using hne)).mem, rfl⟩
  | split data c parts hne hch hperm hroute hdef ih =>
    intro x hx
    rw [Node.predictPlain]
    simp only [Bool.false_eq_true, if_false]
    have : ∀ (ps : List (IList F × Node F)), (∀ p ∈ ps, p ∈ parts) →
        ∃ s ∈ data.map Inst.label, Node.predictPlainIn (getMaximum (data.map Inst.label)) (ps.map Prod.snd) x = .ok s := by
      intro ps
      induction ps with
      | nil => intro _; exact ⟨_, (C44_majority _ (by simpa using hne)).mem, rfl⟩
      | cons p ps ihp =>
        intro hps
        obtain ⟨b, hb⟩ := hdef p (hps p (by simp)) x hx
        rw [List.map_cons, Node.predictPlainIn, hb]
        simp only [res_bind_ok]
        cases b with
        | true =>
          obtain ⟨s, hs, e⟩ := ih p (hps p (by simp)) x hx
          refine ⟨s, ?_, by simpa using e⟩
          obtain ⟨y, hy, rfl⟩ := List.mem_map.1 hs
          exact List.mem_map_of_mem (hperm.mem_iff.1
            (List.mem_flatten.2 ⟨p.1, List.mem_map_of_mem (hps p (by simp)), hy⟩))
        | false => simpa using ihp (fun q hq => hps q (by simp [hq]))
    exact this parts (fun p hp => hp)

theorem Grown.correct {ts : List AttrType} {data : IList F} {n : Node F} (h : Grown ts data n) :
    ∀ s, data.countP (fun x => decide (x.label = s)) ≤ correctOn n.predictPlain data := by
  induction h with
  | leaf data c hne =>
    intro s
    have hm := C44_majority (data.map Inst.label) (by simpa using hne)
    have e : ∀ t, data.countP (fun x => decide (x.label = t)) = (data.map Inst.label).count t := by
      intro t
      rw [List.count, List.countP_map]
      apply List.countP_congr; intro x _; simp
    rw [e]
    refine (hm.max s).trans ?_
    rw [← e]
    unfold correctOn
    apply List.countP_mono_left
    intro x _ hx
    simp only [decide_eq_true_eq] at hx ⊢
    rw [hx]; rfl
  | split data c parts hne hch hperm hroute hdef ih =>
    intro s
    unfold correctOn
    rw [← hperm.countP_eq, ← hperm.countP_eq]
    have : ∀ (ps qs : List (IList F × Node F)), parts = qs ++ ps →
        ((ps.map Prod.fst).flatten).countP (fun x => decide (x.label = s)) ≤
        ((ps.map Prod.fst).flatten).countP (fun x => decide (Node.predictPlain (Node.mk c false
          (getMaximum (data.map Inst.label)) (DD.ofList (data.map Inst.label)) (parts.map Prod.snd)) x = .ok x.label)) := by
      intro ps
      induction ps with
      | nil => intro _ _; simp
      | cons p ps ihp =>
        intro qs hq
        simp only [List.map_cons, List.flatten_cons, List.countP_append]
        refine Nat.add_le_add ?_ (ihp (qs ++ [p]) (by simp [hq]))
        have hp : p ∈ parts := by rw [hq]; simp
        refine (ih p hp s).trans (le_of_eq ?_)
        unfold correctOn
        apply List.countP_congr
        intro x hx
        obtain ⟨path, leaf, hr⟩ := (hch p hp).reaches x hx
        rw [hr.predict, ((Grown.split_reaches hroute hq hx).2 ⟨path, rfl, hr⟩).predict]
    exact this parts [] rfl

/-! ## the properties -/

open Classical in
/-- **C57.** In the tree grown from `data`, every training instance reaches a leaf, which holds
exactly the class counts and the majority label of the training instances taking the same path:
the leaf it helped to build. This is for any bound `fuel` on the recursion under which the
constructor returns, for both full trees and the trees of random forests. -/
theorem C57_training_routing [LawfulOrd F] {param : Node.SubsetParam} (hp : ValidParam param)
    {ts : List AttrType} {data : IList F} (hts : ∀ x ∈ data, typesOf x = ts) (hord : DataOrd ts data)
    {fuel : Nat} {c : Cond F} {n : Node F} (h : Node.grow param false fuel data c = .ok n) :
    ∀ x ∈ data, ∃ path leaf, Reaches n x path leaf ∧
      Counts leaf.dist ((data.filter (fun y => decide (∃ m, Reaches n y path m))).map Inst.label) ∧
      IsMajority ((data.filter (fun y => decide (∃ m, Reaches n y path m))).map Inst.label) leaf.label := by
  intro x hx
  have hg := grow_grown hp fuel data c n hts hord h
  obtain ⟨path, leaf, hr⟩ := hg.reaches x hx
  obtain ⟨h1, h2⟩ := hg.leaf_data x hx path leaf hr
  refine ⟨path, leaf, hr, ?_, ?_⟩
  · rw [h1]; exact DD.counts_ofList _
  · rw [h2]
    apply C44_majority
    have hxm : x ∈ data.filter (fun y => decide (∃ m, Reaches n y path m)) :=
      List.mem_filter.2 ⟨hx, decide_eq_true ⟨leaf, hr⟩⟩
    intro h0
    simp only [List.map_eq_nil_iff] at h0
    rw [h0] at hxm; cases hxm

/-- **C57.** The node also predicts that label. -/
theorem C57_predicts_leaf_label {n leaf : Node F} {x : Inst F} {p : List Nat}
    (h : Reaches n x p leaf) (hx : x.isComposite = false) : treePredict n x = .ok leaf.label := by
  unfold treePredict Node.predict
  simp [hx, h.predict]

/-- **C58.** A grown tree predicts, for every plain instance of the types of the training data,
a label of the training data. -/
theorem C58_predicts_training_label [LawfulOrd F] {param : Node.SubsetParam} (hp : ValidParam param)
    {ts : List AttrType} {data : IList F} (hts : ∀ x ∈ data, typesOf x = ts) (hord : DataOrd ts data)
    {fuel : Nat} {c : Cond F} {n : Node F} (h : Node.grow param false fuel data c = .ok n)
    (x : Inst F) (hx : typesOf x = ts) (hplain : x.isComposite = false) :
    ∃ s ∈ data.map Inst.label, treePredict n x = .ok s := by
  obtain ⟨s, hs, e⟩ := (grow_grown hp fuel data c n hts hord h).predict_mem x hx
  refine ⟨s, hs, ?_⟩
  unfold treePredict Node.predict
  simp [hplain, e]

theorem correctOn_tree {n : Node F} {data : IList F} (hplain : ∀ x ∈ data, x.isComposite = false) :
    correctOn (treePredict n) data = correctOn n.predictPlain data := by
  unfold correctOn
  apply List.countP_congr
  intro x hx
  unfold treePredict Node.predict
  cases hpr : n.predictPlain x <;> simp [hplain x hx]

/-- **C59.** On its training data a grown tree is right at least as often as always answering
`s`, for every label `s`, so in particular for the majority label. -/
theorem C59_at_least_majority [LawfulOrd F] {param : Node.SubsetParam} (hp : ValidParam param)
    {ts : List AttrType} {data : IList F} (hts : ∀ x ∈ data, typesOf x = ts) (hord : DataOrd ts data)
    (hplain : ∀ x ∈ data, x.isComposite = false)
    {fuel : Nat} {c : Cond F} {n : Node F} (h : Node.grow param false fuel data c = .ok n) (s : String) :
    correctOn (fun _ => .ok s) data ≤ correctOn (treePredict n) data := by
  rw [correctOn_tree hplain]
  refine le_trans (le_of_eq ?_) ((grow_grown hp fuel data c n hts hord h).correct s)
  unfold correctOn
  apply List.countP_congr
  intro x _
  simp [eq_comm]

/-! ## C60 -/

theorem grow_stump_child {param : Node.SubsetParam} {fuel : Nat} {data : IList F} {c : Cond F}
    {n : Node F} (hc : c.attr ≠ -1) (h : Node.grow param true fuel data c = .ok n) :
    n.isLeaf = true ∧ n.children = [] := by
  cases fuel with
  | zero => cases h
  | succ fuel =>
    rw [Node.grow] at h
    simp only [hc, ne_eq, not_false_eq_true, and_self, if_true, ite_self] at h
    cases h; exact ⟨rfl, rfl⟩

theorem childrenKind_conds {rec : IList F → Cond F → Res (Node F)} {P : Node F → Prop}
    {data : IList F} {b : Node.Best F} {i : Nat} {a : Attr F}
    (hrec : ∀ p c n, c.attr ≠ -1 → rec p c = .ok n → P n)
    {ch : List (Node F)} (h : Node.childrenKind rec data b i a = .ok ch) : ∀ n ∈ ch, P n := by
  have hi : ((i : Int)) ≠ -1 := by omega
  unfold Node.childrenKind at h
  split at h
  · rw [bind_ok_iff] at h
    obtain ⟨m, _, h⟩ := h
    unfold Node.childrenIndexed at h
    simp only [bind_ok_iff] at h
    obtain ⟨_, _, _, _, c0, h0, _, _, c1, h1, h⟩ := h
    cases h
    intro n hn
    simp only [List.mem_cons, List.not_mem_nil, or_false] at hn
    rcases hn with rfl | rfl
    · exact hrec _ _ _ hi h0
    · exact hrec _ _ _ hi h1
  · split at h
    · unfold Node.childrenDiscrete at h
      simp only [bind_ok_iff] at h
      obtain ⟨_, _, _, _, h⟩ := h
      have hinv := mapM_ok_inv h
      intro n hn
      obtain ⟨k, hk, rfl⟩ := List.mem_iff_getElem.1 hn
      have := (List.forall₂_iff_get.1 hinv).2 k (by rw [hinv.length_eq]; exact hk) hk
      unfold Node.childDiscrete at this
      rw [bind_ok_iff] at this
      obtain ⟨_, _, h2⟩ := this
      exact hrec _ _ _ hi h2
    · split at h
      · unfold Node.childrenContinuous at h
        simp only [bind_ok_iff] at h
        obtain ⟨_, _, _, _, c0, h0, _, _, c1, h1, h⟩ := h
        cases h
        intro n hn
        simp only [List.mem_cons, List.not_mem_nil, or_false] at hn
        rcases hn with rfl | rfl
        · exact hrec _ _ _ hi h0
        · exact hrec _ _ _ hi h1
      · cases h; simp

/-- **C60.** A decision stump is a leaf or a root all of whose children are leaves without
children. -/
theorem C60_stump {data : IList F} {n : Node F} (h : stumpTrain data = .ok n) :
    (n.isLeaf = true ∧ n.children = []) ∨ ∀ c ∈ n.children, c.isLeaf = true ∧ c.children = [] := by
  unfold stumpTrain at h
  rw [Node.grow] at h
  simp only at h
  split at h
  · cases h; exact .inl ⟨rfl, rfl⟩
  · split at h
    · cases h; exact .inl ⟨rfl, rfl⟩
    · unfold Node.splitNode at h
      simp only [bind_ok_iff] at h
      obtain ⟨_, _, _, _, s, _, h⟩ := h
      unfold Node.finish at h
      split at h
      · cases h; exact .inl ⟨rfl, rfl⟩
      · simp only [bind_ok_iff] at h
        obtain ⟨_, _, _, _, ch, hch, h⟩ := h
        cases h
        exact .inr (childrenKind_conds (fun p c n hc hn => grow_stump_child hc hn) hch)

end
end Verif
