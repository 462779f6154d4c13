import Verif.Spec.Box
import Verif.Props.TreeFit

/-! # Property C215: the regions of trees and stumps -/

namespace Verif
open Dbl

set_option linter.unusedSectionVars false

variable {F : Type} [Dbl F]

theorem attrOf_congr {c : Cond F} {x z : Inst F} (h : ∀ i : Nat, c.attr = i → x.attrs[i]? = z.attrs[i]?) :
    c.attrOf x = c.attrOf z := by
  unfold Cond.attrOf
  split
  · rfl
  · rename_i hneg
    have := h c.attr.toNat (by omega)
    simp [Inst.getAttribute, atR, this]

/-- whether a condition holds depends on its attribute only -/
theorem satisfy_congr {c : Cond F} {x z : Inst F} (h : ∀ i : Nat, c.attr = i → x.attrs[i]? = z.attrs[i]?) :
    c.satisfy x = c.satisfy z := by
  unfold Cond.satisfy
  rw [attrOf_congr h]

theorem attrOf_some {c : Cond F} {x : Inst F} {i : Nat} (hi : c.attr = i) {a : Attr F} (h : x.attrs[i]? = some a) :
    c.attrOf x = .ok a := by
  unfold Cond.attrOf
  rw [hi, if_neg (by omega)]
  simp [Inst.getAttribute, atR, h]

theorem contVal_between [LawfulOrd F] {t u v w : F} (h : (u <=. w) = true ∧ (w <=. v) = true) {b : Bool}
    (hu : (u <=. t) = b) (hv : (v <=. t) = b) : (w <=. t) = b := by
  cases b with
  | true => exact LawfulOrd.le_trans _ _ _ h.2 hv
  | false =>
    cases e : (w <=. t) with
    | false => rfl
    | true => rw [LawfulOrd.le_trans _ _ _ h.1 e] at hu; cases hu

theorem contVal_between_lt [LawfulOrd F] {t u v w : F} (h : (u <=. w) = true ∧ (w <=. v) = true) {b : Bool}
    (hu : (t <. u) = b) (hv : (t <. v) = b) : (t <. w) = b := by
  cases b with
  | true =>
    rw [LawfulOrd.lt_iff] at hu ⊢
    refine ⟨LawfulOrd.le_trans _ _ _ hu.1 h.1, fun e => hu.2 (LawfulOrd.le_trans _ _ _ h.1 e)⟩
  | false =>
    cases e : (t <. w) with
    | false => rfl
    | true =>
      rw [LawfulOrd.lt_iff] at e
      have : (t <. v) = true := by
        rw [LawfulOrd.lt_iff]
        exact ⟨LawfulOrd.le_trans _ _ _ e.1 h.2, fun e' => e.2 (LawfulOrd.le_trans _ _ _ h.2 e')⟩
      rw [this] at hv; cases hv

/-- a condition that two instances agree on holds or fails in the whole box between them -/
theorem satisfy_box [LawfulOrd F] {c : Cond F} {x y z : Inst F} (hz : InBoxOf x y z) {b : Bool}
    (hx : c.satisfy x = .ok b) (hy : c.satisfy y = .ok b) : c.satisfy z = .ok b := by
  by_cases hneg : c.attr < 0
  · rw [← hx]
    exact (satisfy_congr (fun i hi => by omega)).symm
  · have hi : c.attr = (c.attr.toNat : Nat) := by omega
    rcases hz.attrs c.attr.toNat with h | h | ⟨u, v, w, hu, hv, hw, hb⟩
    · rw [← hx]
      exact (satisfy_congr (fun i hi' => by rw [show i = c.attr.toNat by omega]; exact h.symm)).symm
    · rw [← hy]
      exact (satisfy_congr (fun i hi' => by rw [show i = c.attr.toNat by omega]; exact h.symm)).symm
    · have ax := attrOf_some hi hu
      have ay := attrOf_some hi hv
      have az := attrOf_some hi hw
      unfold Cond.satisfy at hx hy ⊢
      rw [ax] at hx
      rw [ay] at hy
      rw [az]
      split at hx
      · cases hx
      · rename_i k _ hk
        simp only [hk] at hy ⊢
        split at hx
        · rename_i hk1; rw [if_pos hk1]; exact hx
        · cases hx
      · cases hx
      · rename_i t ht
        simp only [ht] at hy ⊢
        simp only [res_bind_ok, Attr.contVal, res_pure] at hx hy ⊢
        split at hx
        · rename_i hc
          rw [if_pos hc] at hy ⊢
          simp only [Except.ok.injEq] at hx hy ⊢
          rcases hb with hb | hb
          · exact contVal_between hb hx hy
          · exact contVal_between hb hy hx
        · rename_i hc
          rw [if_neg hc] at hy ⊢
          split at hx
          · rename_i hc2
            rw [if_pos hc2] at hy ⊢
            simp only [Except.ok.injEq] at hx hy ⊢
            rcases hb with hb | hb
            · exact contVal_between_lt hb hx hy
            · exact contVal_between_lt hb hy hx
          · rename_i hc2
            rw [if_neg hc2]; exact hx
      · exact hx

/-- **C215.** Any tree, in any arithmetic whose comparisons are those of IEEE-754: if two instances end at the same place of the
tree, so does every instance in the box between them. -/
theorem C215_box [LawfulOrd F] {n : Node F} {x y z : Inst F} {path : List Nat} {m m' : Node F} (hz : InBoxOf x y z)
    (hx : EndsAt n x path m) (hy : EndsAt n y path m') : m' = m ∧ EndsAt n z path m := by
  induction hx generalizing m' with
  | leaf n x h =>
    cases hy with
    | leaf _ _ _ => exact ⟨rfl, .leaf n z h⟩
    | stuck _ _ h' _ => rw [h] at h'; cases h'
  | stuck n x h hnone =>
    cases hy with
    | leaf _ _ h' => rw [h] at h'; cases h'
    | stuck _ _ _ hnone' => exact ⟨rfl, .stuck n z h (fun q hq => satisfy_box hz (hnone q hq) (hnone' q hq))⟩
  | step n x k c path m h hc hsat hfirst hrest ih =>
    cases hy with
    | step _ _ _ c' _ _ _ hc' hsat' hfirst' hrest' =>
      rw [hc] at hc'
      cases hc'
      obtain ⟨e, hr⟩ := ih hz hrest'
      exact ⟨e, .step n z k c path m h hc (satisfy_box hz hsat hsat')
        (fun j hj q hq => satisfy_box hz (hfirst j hj q hq) (hfirst' j hj q hq)) hr⟩

/-! ## what is answered -/

theorem predictPlainIn_none {lab : String} {x : Inst F} : ∀ {ch : List (Node F)}, (∀ q ∈ ch, q.cond.satisfy x = .ok false) →
    Node.predictPlainIn lab ch x = .ok lab := by
  intro ch
  induction ch with
  | nil => intro _; rw [Node.predictPlainIn]
  | cons a ch ih =>
    intro h
    rw [Node.predictPlainIn, h a (by simp)]
    exact ih (fun q hq => h q (by simp [hq]))

theorem predictCompositeIn_nobody {s : String} {x : Inst F} : ∀ {ch : List (Node F)}, (∀ q ∈ ch, q.cond.satisfy x = .ok false) →
    Node.predictCompositeIn s ch x = .ok s := by
  intro ch
  induction ch with
  | nil => intro _; rw [Node.predictCompositeIn]
  | cons a ch ih =>
    intro h
    rw [Node.predictCompositeIn, h a (by simp)]
    exact ih (fun q hq => h q (by simp [hq]))

theorem predictCompositeIn_at {s : String} {x : Inst F} : ∀ {ch : List (Node F)} {k : Nat} {c : Node F},
    ch[k]? = some c → c.cond.satisfy x = .ok true →
    (∀ j < k, ∀ q, ch[j]? = some q → q.cond.satisfy x = .ok false) →
    Node.predictCompositeIn s ch x = (Node.predictComposite c x).map (fun p => if p ≠ "" then p else s) := by
  intro ch
  induction ch with
  | nil => intro k c h; cases h
  | cons a ch ih =>
    intro k c hc hsat hfirst
    cases k with
    | zero =>
      simp only [List.getElem?_cons_zero, Option.some.injEq] at hc
      subst hc
      rw [Node.predictCompositeIn, hsat]
      simp only [res_bind_ok, if_true]
      cases Node.predictComposite a x <;> rfl
    | succ k =>
      rw [Node.predictCompositeIn, hfirst 0 (by omega) a rfl]
      simp only [res_bind_ok, Bool.false_eq_true, if_false]
      exact ih (k := k) (c := c) (by simpa using hc) hsat
        (fun j hj q hq => hfirst (j + 1) (by omega) q (by simpa using hq))

theorem predictProbabilityIn_none {d : DD} {x : Inst F} : ∀ {ch : List (Node F)}, (∀ q ∈ ch, q.cond.satisfy x = .ok false) →
    (Node.predictProbabilityIn d ch x : Res (OMap F)) = .ok d.getProbabilityDistribution := by
  intro ch
  induction ch with
  | nil => intro _; rw [Node.predictProbabilityIn]
  | cons a ch ih =>
    intro h
    rw [Node.predictProbabilityIn, h a (by simp)]
    exact ih (fun q hq => h q (by simp [hq]))

theorem predictProbabilityIn_at {d : DD} {x : Inst F} : ∀ {ch : List (Node F)} {k : Nat} {c : Node F},
    ch[k]? = some c → c.cond.satisfy x = .ok true →
    (∀ j < k, ∀ q, ch[j]? = some q → q.cond.satisfy x = .ok false) →
    (Node.predictProbabilityIn d ch x : Res (OMap F)) = Node.predictProbability c x := by
  intro ch
  induction ch with
  | nil => intro k c h; cases h
  | cons a ch ih =>
    intro k c hc hsat hfirst
    cases k with
    | zero =>
      simp only [List.getElem?_cons_zero, Option.some.injEq] at hc
      subst hc
      rw [Node.predictProbabilityIn, hsat]; rfl
    | succ k =>
      rw [Node.predictProbabilityIn, hfirst 0 (by omega) a rfl]
      simp only [res_bind_ok, Bool.false_eq_true, if_false]
      exact ih (k := k) (c := c) (by simpa using hc) hsat
        (fun j hj q hq => hfirst (j + 1) (by omega) q (by simpa using hq))

theorem EndsAt.plain {n m : Node F} {x : Inst F} {path : List Nat} (h : EndsAt n x path m) : n.predictPlain x = .ok m.label := by
  induction h with
  | leaf n x hl =>
    obtain ⟨c, l, s, d, ch⟩ := n
    simp only [Node.isLeaf] at hl; subst hl; rfl
  | stuck n x hl hnone =>
    obtain ⟨c, l, s, d, ch⟩ := n
    simp only [Node.isLeaf] at hl; subst hl
    rw [Node.predictPlain]
    exact predictPlainIn_none hnone
  | step n x k c path m hl hc hsat hfirst hrest ih =>
    obtain ⟨c', l, s, d, ch⟩ := n
    simp only [Node.isLeaf] at hl; subst hl
    rw [Node.predictPlain]
    simp only [Bool.false_eq_true, if_false]
    rw [predictPlainIn_first (ch := ch) hc hsat hfirst]
    exact ih

theorem EndsAt.probability {n m : Node F} {x : Inst F} {path : List Nat} (h : EndsAt n x path m) :
    (n.predictProbability x : Res (OMap F)) = .ok m.dist.getProbabilityDistribution := by
  induction h with
  | leaf n x hl =>
    obtain ⟨c, l, s, d, ch⟩ := n
    simp only [Node.isLeaf] at hl; subst hl
    rw [Node.predictProbability]; rfl
  | stuck n x hl hnone =>
    obtain ⟨c, l, s, d, ch⟩ := n
    simp only [Node.isLeaf] at hl; subst hl
    rw [Node.predictProbability]
    exact predictProbabilityIn_none hnone
  | step n x k c path m hl hc hsat hfirst hrest ih =>
    obtain ⟨c', l, s, d, ch⟩ := n
    simp only [Node.isLeaf] at hl; subst hl
    rw [Node.predictProbability]
    simp only [Bool.false_eq_true, if_false]
    rw [predictProbabilityIn_at (ch := ch) hc hsat hfirst]
    exact ih

theorem EndsAt.composite {n m m' : Node F} {x z : Inst F} {path : List Nat} (h : EndsAt n x path m) (h' : EndsAt n z path m')
    (hpl : z.possibleLabels = x.possibleLabels) : n.predictComposite z = n.predictComposite x := by
  induction h generalizing m' with
  | leaf n x hl =>
    obtain ⟨c, l, s, d, ch⟩ := n
    simp only [Node.isLeaf] at hl; subst hl
    rw [Node.predictComposite, Node.predictComposite]
    simp [hpl]
  | stuck n x hl hnone =>
    cases h' with
    | leaf _ _ hl' => rw [hl] at hl'; cases hl'
    | stuck _ _ _ hnone' =>
      obtain ⟨c, l, s, d, ch⟩ := n
      simp only [Node.isLeaf] at hl; subst hl
      rw [Node.predictComposite, Node.predictComposite]
      simp only [Bool.false_eq_true, if_false]
      rw [predictCompositeIn_nobody (ch := ch) hnone, predictCompositeIn_nobody (ch := ch) hnone', hpl]
  | step n x k c path m hl hc hsat hfirst hrest ih =>
    cases h' with
    | step _ _ _ c1 _ _ _ hc' hsat' hfirst' hrest' =>
      rw [hc] at hc'
      cases hc'
      obtain ⟨c', l, s, d, ch⟩ := n
      simp only [Node.isLeaf] at hl; subst hl
      rw [Node.predictComposite, Node.predictComposite]
      simp only [Bool.false_eq_true, if_false]
      rw [predictCompositeIn_at (ch := ch) hc hsat hfirst, predictCompositeIn_at (ch := ch) hc hsat' hfirst', hpl,
        ih hrest' hpl]

theorem possibleLabels_eq {x z : Inst F} (hp : z.possible = x.possible) (hx : x.isComposite = true) :
    z.possibleLabels = x.possibleLabels := by
  cases h : x.possible with
  | none => simp [Inst.isComposite, h] at hx
  | some ps => rw [h] at hp; simp [Inst.possibleLabels, h, hp]

/-- **C215.** So it is answered as they are, class and probabilities. -/
theorem C215_box_answers [LawfulOrd F] {n : Node F} {x y z : Inst F} {path : List Nat} {m m' : Node F} (hz : InBoxOf x y z)
    (hx : EndsAt n x path m) (hy : EndsAt n y path m') :
    treePredict n z = treePredict n x ∧ (n.predictProbability z : Res (OMap F)) = n.predictProbability x := by
  obtain ⟨_, h⟩ := C215_box hz hx hy
  have hc : z.isComposite = x.isComposite := by simp [Inst.isComposite, hz.possible_left]
  refine ⟨?_, by rw [h.probability, hx.probability]⟩
  unfold treePredict Node.predict
  rw [hc]
  cases e : x.isComposite with
  | false => simp only [Bool.false_eq_true, if_false, h.plain, hx.plain, and_false]
  | true =>
    have hl := possibleLabels_eq hz.possible_left e
    simp only [if_true, hl, EndsAt.composite hx h hl]

/-! ## trees grown on data -/

theorem Grown.ends {ts : List AttrType} {data : IList F} {n : Node F} (h : Grown ts data n) :
    ∀ x : Inst F, typesOf x = ts → ∃ path m, EndsAt n x path m := by
  induction h with
  | leaf data c hne => exact fun x _ => ⟨[], _, .leaf _ x rfl⟩
  | split data c parts hne hch hperm hroute hdef ih =>
    intro x hx
    have key : ∀ ch : List (Node F), (∀ q ∈ ch, ∃ b, q.cond.satisfy x = .ok b) →
        (∀ q ∈ ch, q.cond.satisfy x = .ok false) ∨ ∃ (k : Nat) (q : Node F), ch[k]? = some q ∧ q.cond.satisfy x = .ok true ∧
          ∀ j < k, ∀ q' : Node F, ch[j]? = some q' → q'.cond.satisfy x = .ok false := by
      intro ch
      induction ch with
      | nil => intro _; exact .inl (by simp)
      | cons a ch ihc =>
        intro hd
        obtain ⟨b, hb⟩ := hd a (by simp)
        cases b with
        | true => exact .inr ⟨0, a, rfl, hb, by omega⟩
        | false =>
          rcases ihc (fun q hq => hd q (by simp [hq])) with h | ⟨k, q, h1, h2, h3⟩
          · left
            intro q hq
            rcases List.mem_cons.1 hq with rfl | hq
            · exact hb
            · exact h q hq
          · right
            refine ⟨k + 1, q, by simpa using h1, h2, ?_⟩
            intro j hj q' hq'
            cases j with
            | zero => simp at hq'; subst hq'; exact hb
            | succ j => exact h3 j (by omega) q' (by simpa using hq')
    rcases key (parts.map Prod.snd) (by
      intro q hq
      obtain ⟨p, hp, rfl⟩ := List.mem_map.1 hq
      exact hdef p hp x hx) with h | ⟨k, q, h1, h2, h3⟩
    · exact ⟨[], _, .stuck _ x rfl h⟩
    · obtain ⟨p, hp, rfl⟩ := List.mem_map.1 (List.mem_of_getElem? h1)
      obtain ⟨path, m, hm⟩ := ih p hp x hx
      exact ⟨k :: path, m, .step _ x k _ path m rfl h1 h2 h3 hm⟩

/-- **C215.** In a tree trained on instances of one type every instance of the type ends somewhere. -/
theorem C215_ends {ts : List AttrType} {data : IList ℝ} (hne : data ≠ []) (hts : ∀ x ∈ data, typesOf x = ts) :
    ∃ n, treeTrain data none = .ok n ∧ ∀ x, typesOf x = ts → ∃ path m, EndsAt n x path m := by
  obtain ⟨⟨n, e, _⟩, _⟩ := C56_training_terminates hne hts
  refine ⟨n, e, ?_⟩
  exact (grow_grown (F := ℝ) (param := none) (by intro _ _ h; cases h) _ data _ n hts
    (fun _ _ _ _ => by simp [Dbl.Ord]) e).ends

/-! ## stumps -/

theorem childrenKind_thresholds {rec : IList F → Cond F → Res (Node F)} (hrec : ∀ p c n, rec p c = .ok n → n.cond = c)
    {data : IList F} {b : Node.Best F} {i : Nat} {a : Attr F} {ch : List (Node F)}
    (h : Node.childrenKind rec data b i a = .ok ch) :
    (∃ v c0 c1, ch = [c0, c1] ∧ c0.cond = ⟨i, '<', some (.continuous v)⟩ ∧ c1.cond = ⟨i, '>', some (.continuous v)⟩) ∨
      ∀ c ∈ ch, c.cond.attr = i ∧ ∀ v, c.cond.value ≠ some (.continuous v) := by
  unfold Node.childrenKind at h
  split at h
  · rw [bind_ok_iff] at h
    obtain ⟨m, _, h⟩ := h
    unfold Node.childrenIndexed at h
    simp only [bind_ok_iff] at h
    obtain ⟨_, _, _, _, c0, h0, _, _, c1, h1, h⟩ := h
    cases h
    right
    intro n hn
    simp only [List.mem_cons, List.not_mem_nil, or_false] at hn
    rcases hn with rfl | rfl
    · rw [hrec _ _ _ h0]; simp
    · rw [hrec _ _ _ h1]; simp
  · split at h
    · unfold Node.childrenDiscrete at h
      simp only [bind_ok_iff] at h
      obtain ⟨_, _, _, _, h⟩ := h
      have hinv := mapM_ok_inv h
      right
      intro n hn
      obtain ⟨k, hk, rfl⟩ := List.mem_iff_getElem.1 hn
      have := (List.forall₂_iff_get.1 hinv).2 k (by rw [hinv.length_eq]; exact hk) hk
      unfold Node.childDiscrete at this
      rw [bind_ok_iff] at this
      obtain ⟨_, _, h2⟩ := this
      have := hrec _ _ _ h2
      simp only [List.get_eq_getElem] at this
      rw [this]; simp
    · split at h
      · unfold Node.childrenContinuous at h
        simp only [bind_ok_iff] at h
        obtain ⟨_, _, _, _, c0, h0, _, _, c1, h1, h⟩ := h
        cases h
        exact .inl ⟨b.v, c0, c1, rfl, hrec _ _ _ h0, hrec _ _ _ h1⟩
      · cases h; right; simp

/-- a root whose children are leaves answers two instances alike if the children's conditions do not tell them apart -/
theorem stump_congr {c : Cond F} {s : String} {d : DD} {ch : List (Node F)} (hleaf : ∀ q ∈ ch, q.isLeaf = true)
    {x z : Inst F} (hs : ∀ q ∈ ch, q.cond.satisfy z = q.cond.satisfy x) (hp : z.possible = x.possible) :
    treePredict (.mk c false s d ch) z = treePredict (.mk c false s d ch) x := by
  have plain : Node.predictPlainIn s ch z = Node.predictPlainIn s ch x := by
    induction ch with
    | nil => rw [Node.predictPlainIn, Node.predictPlainIn]
    | cons a ch ih =>
      rw [Node.predictPlainIn, Node.predictPlainIn, hs a (by simp),
        ih (fun q hq => hleaf q (by simp [hq])) (fun q hq => hs q (by simp [hq]))]
      have : Node.predictPlain a z = Node.predictPlain a x := by
        have hl := hleaf a (by simp)
        obtain ⟨c', l, s', d', ch'⟩ := a
        simp only [Node.isLeaf] at hl; subst hl
        rfl
      rw [this]
  have hc : z.isComposite = x.isComposite := by simp [Inst.isComposite, hp]
  unfold treePredict Node.predict
  rw [hc]
  cases e : x.isComposite with
  | false =>
    simp only [Bool.false_eq_true, if_false, and_false]
    rw [Node.predictPlain, Node.predictPlain, plain]
  | true =>
    have hl := possibleLabels_eq hp e
    have comp : ∀ s, Node.predictCompositeIn s ch z = Node.predictCompositeIn s ch x := by
      intro s
      clear plain
      induction ch with
      | nil => rw [Node.predictCompositeIn, Node.predictCompositeIn]
      | cons a ch ih =>
        rw [Node.predictCompositeIn, Node.predictCompositeIn, hs a (by simp),
          ih (fun q hq => hleaf q (by simp [hq])) (fun q hq => hs q (by simp [hq]))]
        have : Node.predictComposite a z = Node.predictComposite a x := by
          have hl' := hleaf a (by simp)
          obtain ⟨c', l, s', d', ch'⟩ := a
          simp only [Node.isLeaf] at hl'; subst hl'
          rw [Node.predictComposite, Node.predictComposite]
          simp [hl]
        rw [this]
    simp only [if_true]
    rw [Node.predictComposite, Node.predictComposite]
    simp only [Bool.false_eq_true, if_false]
    rw [hl, comp]

theorem satisfy_numbers {c : Cond F} {i : Nat} (hi : c.attr = i) (hv : ∀ v, c.value ≠ some (.continuous v)) {x z : Inst F}
    {u w : F} (hx : x.attrs[i]? = some (.continuous u)) (hz : z.attrs[i]? = some (.continuous w)) :
    c.satisfy z = c.satisfy x := by
  unfold Cond.satisfy
  rw [attrOf_some hi hx, attrOf_some hi hz]
  cases h : c.value with
  | none => rfl
  | some a =>
    cases a with
    | continuous v => exact absurd h (hv v)
    | _ => rfl

/-- **C215.** A stump, in any arithmetic whose comparisons are those of IEEE-754: every instance in the box between two
instances is answered like one of the two. So the instances with a certain answer form a region without gaps. -/
theorem C215_stump [LawfulOrd F] {data : IList F} {n : Node F} (h : stumpTrain data = .ok n) {x y z : Inst F}
    (hz : InBoxOf x y z) : treePredict n z = treePredict n x ∨ treePredict n z = treePredict n y := by
  have hleaves := C60_stump h
  have leafcase : n.isLeaf = true → treePredict n z = treePredict n x := by
    intro hl
    exact (C215_box_answers (path := []) hz (.leaf n x hl) (.leaf n y hl)).1
  unfold stumpTrain at h
  rw [Node.grow] at h
  simp only at h
  split at h
  · cases h; exact .inl (leafcase rfl)
  · split at h
    · cases h; exact .inl (leafcase rfl)
    · unfold Node.splitNode at h
      simp only [bind_ok_iff] at h
      obtain ⟨_, _, _, _, s, _, h⟩ := h
      unfold Node.finish at h
      split at h
      · cases h; exact .inl (leafcase rfl)
      · rename_i i _
        simp only [bind_ok_iff] at h
        obtain ⟨_, _, _, _, ch, hch, h⟩ := h
        cases h
        have hl : ∀ q ∈ ch, q.isLeaf = true := by
          rcases hleaves with h | h
          · exact absurd h.1 (by simp [Node.isLeaf])
          · exact fun q hq => (h q hq).1
        have likeX : (∀ q ∈ ch, q.cond.satisfy z = q.cond.satisfy x) → _ := fun hs => stump_congr (c := Cond.root)
          (s := getMaximum data.getClassLabels) (d := data.getClassLabels.foldl (fun d l => d.addItem l) DD.empty)
          hl hs hz.possible_left
        have likeY : (∀ q ∈ ch, q.cond.satisfy z = q.cond.satisfy y) → _ := fun hs => stump_congr (c := Cond.root)
          (s := getMaximum data.getClassLabels) (d := data.getClassLabels.foldl (fun d l => d.addItem l) DD.empty)
          hl hs hz.possible_right
        have hshape := childrenKind_thresholds (fun p c n hn => grow_cond hn) hch
        have hattr : ∀ q ∈ ch, q.cond.attr = i := by
          rcases hshape with ⟨v, c0, c1, rfl, e0, e1⟩ | hq
          · intro q hq
            simp only [List.mem_cons, List.not_mem_nil, or_false] at hq
            rcases hq with rfl | rfl
            · rw [e0]
            · rw [e1]
          · exact fun q hq' => (hq q hq').1
        rcases hz.attrs i with he | he | ⟨u, v, w, hu, hv, hw, hb⟩
        · exact .inl (likeX (fun q hq => satisfy_congr (fun j hj => by
            have := hattr q hq; rw [show j = i by omega]; exact he)))
        · exact .inr (likeY (fun q hq => satisfy_congr (fun j hj => by
            have := hattr q hq; rw [show j = i by omega]; exact he)))
        · rcases hshape with ⟨t, c0, c1, rfl, e0, e1⟩ | hq
          · have cx : ∀ {x : Inst F} {u : F}, x.attrs[i]? = some (.continuous u) →
                c0.cond.satisfy x = .ok (u <=. t) ∧ c1.cond.satisfy x = .ok (t <. u) := by
              intro x u hu
              rw [e0, e1]
              exact ⟨(satisfy_threshold (t := t) hu).1, (satisfy_threshold (t := t) hu).2⟩
            have same : ∀ {y : Inst F} {v : F}, y.attrs[i]? = some (.continuous v) → (w <=. t) = (v <=. t) →
                (t <. w) = (t <. v) → ∀ q ∈ [c0, c1], q.cond.satisfy z = q.cond.satisfy y := by
              intro y v hv h1 h2 q hq
              simp only [List.mem_cons, List.not_mem_nil, or_false] at hq
              rcases hq with rfl | rfl
              · rw [(cx hw).1, (cx hv).1, h1]
              · rw [(cx hw).2, (cx hv).2, h2]
            have notboth : ∀ {v : F}, (v <=. t) = true → (t <. v) = false := by
              intro v hv
              cases e : (t <. v) with
              | false => rfl
              | true => exact absurd hv ((LawfulOrd.lt_iff _ _).1 e).2
            have notboth' : ∀ {v : F}, (t <. v) = true → (v <=. t) = false := by
              intro v hv
              cases e : (v <=. t) with
              | false => rfl
              | true => exact absurd e ((LawfulOrd.lt_iff _ _).1 hv).2
            have up : ∀ {w v : F}, (t <. w) = true → (w <=. v) = true → (t <. v) = true := by
              intro w v h1 h2
              rw [LawfulOrd.lt_iff] at h1 ⊢
              exact ⟨LawfulOrd.le_trans _ _ _ h1.1 h2, fun h => h1.2 (LawfulOrd.le_trans _ _ _ h2 h)⟩
            cases hwt : (w <=. t) with
            | true =>
              rcases hb with hb | hb
              · have hut := LawfulOrd.le_trans _ _ _ hb.1 hwt
                exact .inl (likeX (same hu (by rw [hwt, hut]) (by rw [notboth hwt, notboth hut])))
              · have hut := LawfulOrd.le_trans _ _ _ hb.1 hwt
                exact .inr (likeY (same hv (by rw [hwt, hut]) (by rw [notboth hwt, notboth hut])))
            | false =>
              cases htw : (t <. w) with
              | true =>
                rcases hb with hb | hb
                · have htv := up htw hb.2
                  exact .inr (likeY (same hv (by rw [hwt, notboth' htv]) (by rw [htw, htv])))
                · have htv := up htw hb.2
                  exact .inl (likeX (same hu (by rw [hwt, notboth' htv]) (by rw [htw, htv])))
              | false =>
                have hword : Dbl.Ord w := by
                  rcases hb with hb | hb
                  · exact LawfulOrd.ord_right _ _ hb.1
                  · exact LawfulOrd.ord_right _ _ hb.1
                have htn : ¬ Dbl.Ord t := by
                  intro ht
                  rcases LawfulOrd.total w t hword ht with h | h
                  · rw [hwt] at h; cases h
                  · have : (t <. w) = true := by rw [LawfulOrd.lt_iff]; exact ⟨h, by simp [hwt]⟩
                    rw [htw] at this; cases this
                have hut : (u <=. t) = false := by
                  cases e : (u <=. t) with
                  | false => rfl
                  | true => exact absurd (LawfulOrd.ord_right _ _ e) htn
                have htu : (t <. u) = false := by
                  cases e : (t <. u) with
                  | false => rfl
                  | true => exact absurd (LawfulOrd.ord_left _ _ ((LawfulOrd.lt_iff _ _).1 e).1) htn
                exact .inl (likeX (same hu (by rw [hwt, hut]) (by rw [htw, htu])))
          · exact .inl (likeX (fun q hq' => satisfy_numbers (hq q hq').1 (hq q hq').2 hu hw))

/-- one kind in the middle of another -/
def islands : IList ℝ :=
  [⟨"sea", [.continuous 1], none⟩, ⟨"land", [.continuous 2], none⟩, ⟨"sea", [.continuous 3], none⟩]

/-- **C215, answers of a whole tree.** A trained tree can answer two instances alike and an instance between them
differently: the two are at different places of the tree. -/
theorem C215_tree_has_gaps : ∃ (data : IList ℝ) (n : Node ℝ) (x y z : Inst ℝ), treeTrain data none = .ok n ∧ InBoxOf x y z ∧
    treePredict n x = .ok "sea" ∧ treePredict n y = .ok "sea" ∧ treePredict n z = .ok "land" := by
  obtain ⟨n, e, h⟩ := C150_decisive_attribute_partial (ts := [.continuous]) (data := islands) (by simp [islands])
    (by simp [islands, typesOf, typeOf]) (by simp [islands, Inst.isComposite])
    (by
      intro x hx _ _ i v k m _ _ _ h _
      simp only [islands, List.mem_cons, List.not_mem_nil, or_false] at hx
      rcases hx with rfl | rfl | rfl <;> cases i <;> simp at h) (i := 0) (t := .continuous) rfl (by simp)
    (by simp [islands, idxValAt]) (by
      intro x hx y hy hs
      have := hs.1
      simp only [islands, List.mem_cons, List.not_mem_nil, or_false] at hx hy
      rcases hx with rfl | rfl | rfl <;> rcases hy with rfl | rfl | rfl <;> simp [contValAt] at this ⊢)
  refine ⟨islands, n, ⟨"sea", [.continuous 1], none⟩, ⟨"sea", [.continuous 3], none⟩, ⟨"land", [.continuous 2], none⟩, e, ?_,
    h _ (by simp [islands]), h _ (by simp [islands]), h _ (by simp [islands])⟩
  refine ⟨?_, rfl, rfl⟩
  intro i
  cases i with
  | zero => exact .inr (.inr ⟨1, 3, 2, rfl, rfl, rfl, 
    .inl ⟨by simp, by simp; norm_num⟩⟩)
  | succ i => exact .inl (by simp)

/-- a box with a numeric and a nominal side -/
example : InBoxOf (⟨"", [.continuous (1 : ℝ), .discrete "a"], none⟩ : Inst ℝ) ⟨"", [.continuous 3, .discrete "b"], none⟩
    ⟨"", [.continuous 2, .discrete "b"], none⟩ := by
  refine ⟨?_, rfl, rfl⟩
  intro i
  match i with
  | 0 => exact .inr (.inr ⟨1, 3, 2, rfl, rfl, rfl, 
    .inl ⟨by simp, by simp; norm_num⟩⟩)
  | 1 => exact .inr (.inl rfl)
  | i + 2 => exact .inl (by simp)

example : ∃ n, stumpTrain islands = .ok n := by
  obtain ⟨_, n, e, _⟩ := C56_training_terminates (ts := [.continuous]) (data := islands) (by simp [islands])
    (by simp [islands, typesOf, typeOf])
  exact ⟨n, e⟩

example : ∃ n, treeTrain islands none = .ok n ∧ ∀ x, typesOf x = [.continuous] → ∃ path m, EndsAt n x path m :=
  C215_ends (by simp [islands]) (by simp [islands, typesOf, typeOf])

end Verif
