import Verif.Spec.TreeMemory
import Verif.Props.TreeProb
import Verif.Props.TreeOrder

/-! # Properties C157, C158: decision trees as objects in memory -/

set_option linter.unusedSectionVars false

namespace Verif
open Dbl

variable {F : Type} [Dbl F]

/-! ## reading -/

theorem TMem.node_ok {m : TMem F} {p : Nat} {o : NObj} : m.node p = .ok o ↔ m.nodes[p]? = some (some o) := by
  unfold TMem.node idxR
  cases h : m.nodes[p]? with
  | none => simp [bind, Except.bind]
  | some c => cases c <;> simp [bind, Except.bind, live]

theorem TMem.val_ok {m : TMem F} {p : Nat} {a : Attr F} : m.val p = .ok a ↔ m.vals[p]? = some (some a) := by
  unfold TMem.val idxR
  cases h : m.vals[p]? with
  | none => simp [bind, Except.bind]
  | some c => cases c <;> simp [bind, Except.bind, live]

theorem ValueAt.mono {m m' : TMem F} {q : Option Nat} {v : Option (Attr F)}
    (hv : ∀ (q : Nat) a, m.vals[q]? = some (some a) → m'.vals[q]? = some (some a)) (h : ValueAt m q v) : ValueAt m' q v := by
  cases q <;> cases v <;> simp only [ValueAt] at h ⊢
  exact hv _ _ h

mutual
theorem Occupies.frame {m m' : TMem F} (hv : ∀ (q : Nat) a, m.vals[q]? = some (some a) → m'.vals[q]? = some (some a)) :
    ∀ (n : Node F) (p : Nat) (fp : List Nat), Occupies m p n fp → (∀ q ∈ fp, m'.nodes[q]? = m.nodes[q]?) →
    Occupies m' p n fp
  | .mk c l s d ch, p, fp, h, hq => by
    rw [Occupies] at h ⊢
    obtain ⟨q, ps, fps, h1, h2, h3, rfl⟩ := h
    exact ⟨q, ps, fps, by rw [hq p (by simp)]; exact h1, h2.mono hv,
      OccupiesAll.frame hv ch ps fps h3 (fun q hq' => hq q (by simp [hq'])), rfl⟩
theorem OccupiesAll.frame {m m' : TMem F} (hv : ∀ (q : Nat) a, m.vals[q]? = some (some a) → m'.vals[q]? = some (some a)) :
    ∀ (ch : List (Node F)) (ps fps : List Nat), OccupiesAll m ps ch fps → (∀ q ∈ fps, m'.nodes[q]? = m.nodes[q]?) →
    OccupiesAll m' ps ch fps
  | [], ps, fps, h, _ => by
    cases ps with
    | nil => rw [OccupiesAll] at h ⊢; exact h
    | cons p ps => rw [OccupiesAll] at h; exact h.elim
  | n :: ns, ps, fps, h, hq => by
    cases ps with
    | nil => rw [OccupiesAll] at h; exact h.elim
    | cons p ps =>
      rw [OccupiesAll] at h ⊢
      obtain ⟨f, g, h1, h2, rfl⟩ := h
      exact ⟨f, g, h1.frame hv n p f (fun q hq' => hq q (by simp [hq'])),
        h2.frame hv ns ps g (fun q hq' => hq q (by simp [hq'])), rfl⟩
end

mutual
theorem Occupies.length {m : TMem F} : ∀ (n : Node F) (p : Nat) (fp : List Nat), Occupies m p n fp →
    fp.length = n.countNodes ∧ (∀ q ∈ fp, ∃ o, m.nodes[q]? = some (some o)) ∧ p ∈ fp
  | .mk c l s d ch, p, fp, h => by
    rw [Occupies] at h
    obtain ⟨q, ps, fps, h1, h2, h3, rfl⟩ := h
    obtain ⟨e1, e2⟩ := h3.length ch ps fps
    refine ⟨by rw [Node.countNodes, List.length_cons, e1]; omega, ?_, by simp⟩
    intro q hq
    rcases List.mem_cons.1 hq with rfl | hq
    · exact ⟨_, h1⟩
    · exact e2 q hq
theorem OccupiesAll.length {m : TMem F} : ∀ (ch : List (Node F)) (ps fps : List Nat), OccupiesAll m ps ch fps →
    fps.length = Node.countNodesIn ch ∧ ∀ q ∈ fps, ∃ o, m.nodes[q]? = some (some o)
  | [], ps, fps, h => by
    cases ps with
    | nil => rw [OccupiesAll] at h; subst h; simp [Node.countNodesIn]
    | cons p ps => rw [OccupiesAll] at h; exact h.elim
  | n :: ns, ps, fps, h => by
    cases ps with
    | nil => rw [OccupiesAll] at h; exact h.elim
    | cons p ps =>
      rw [OccupiesAll] at h
      obtain ⟨f, g, h1, h2, rfl⟩ := h
      obtain ⟨e1, e2, _⟩ := h1.length n p f
      obtain ⟨e3, e4⟩ := h2.length ns ps g
      refine ⟨by rw [Node.countNodesIn, List.length_append, e1, e3], ?_⟩
      intro q hq
      rcases List.mem_append.1 hq with hq | hq
      · exact e2 q hq
      · exact e4 q hq
end

/-- the fuel used suffices -/
theorem TreeAt.fuel {m : TMem F} {p : Nat} {n : Node F} {fp : List Nat} (h : TreeAt m p n fp) : n.countNodes ≤ m.fuel := by
  obtain ⟨e1, e2, _⟩ := h.1.length n p fp
  rw [← e1]
  have : fp.Subset (List.range m.nodes.length) := by
    intro q hq
    obtain ⟨o, ho⟩ := e2 q hq
    exact List.mem_range.2 (List.getElem?_eq_some_iff.1 ho).1
  have := (h.2.subperm this).length_le
  simpa [TMem.fuel] using this

theorem Occupies.satisfy {m : TMem F} {p : Nat} {n : Node F} {fp : List Nat} (h : Occupies m p n fp) (x : Inst F) :
    m.satisfy p x = n.cond.satisfy x := by
  cases n with
  | mk c l s d ch =>
    rw [Occupies] at h
    obtain ⟨q, ps, fps, h1, h2, h3, rfl⟩ := h
    unfold TMem.satisfy
    rw [TMem.node_ok.2 h1, res_bind_ok]
    have : m.condOf ⟨c.attr, c.cmp, q, l, s, d, ps⟩ = .ok c := by
      obtain ⟨i, cmp, v⟩ := c
      cases q <;> cases v <;> simp only [ValueAt] at h2
      · rfl
      · simp only [TMem.condOf, TMem.val_ok.2 h2, res_bind_ok]; rfl
    rw [this]
    rfl

/-- the loop over the children finds the same child -/
theorem firstChild_eq {α : Type} {m : TMem F} {x : Inst F} {found : Nat → Res α} {dflt : α} {value : List (Node F) → Res α}
    (hnil : value [] = .ok dflt) :
    ∀ (ch : List (Node F)) (ps fps : List Nat), OccupiesAll m ps ch fps →
    (∀ n ∈ ch, ∀ p f ns, Occupies m p n f → value (n :: ns) = (do
      let s ← n.cond.satisfy x
      if s then found p else value ns)) → m.firstChild x found dflt ps = value ch := by
  intro ch
  induction ch with
  | nil =>
    intro ps fps h _
    cases ps with
    | nil => rw [hnil]; rfl
    | cons p ps => rw [OccupiesAll] at h; exact h.elim
  | cons n ns ih =>
    intro ps fps h hv
    cases ps with
    | nil => rw [OccupiesAll] at h; exact h.elim
    | cons p ps =>
      rw [OccupiesAll] at h
      obtain ⟨f, g, h1, h2, rfl⟩ := h
      rw [TMem.firstChild, h1.satisfy, hv n (by simp) p f ns h1, ih ps g h2 (fun k hk => hv k (by simp [hk]))]

theorem countNodes_pos (n : Node F) : 0 < n.countNodes := by cases n; rw [Node.countNodes]; omega

theorem countNodes_mem {ch : List (Node F)} {n : Node F} (h : n ∈ ch) : n.countNodes ≤ Node.countNodesIn ch := by
  induction ch with
  | nil => cases h
  | cons k ks ih =>
    rw [Node.countNodesIn]
    rcases List.mem_cons.1 h with rfl | h
    · omega
    · have := ih h; omega

theorem Occupies.predict {m : TMem F} (x : Inst F) : ∀ (fuel : Nat) (n : Node F) (p : Nat) (fp : List Nat), Occupies m p n fp →
    n.countNodes ≤ fuel → m.predictPlain x fuel p = n.predictPlain x ∧ m.predictComposite x fuel p = n.predictComposite x ∧
      m.predictProbability x fuel p = n.predictProbability x := by
  intro fuel
  induction fuel with
  | zero => intro n p fp _ h; have := countNodes_pos n; omega
  | succ fuel ih =>
    intro n p fp h hf
    cases n with
    | mk c l s d ch =>
      rw [Occupies] at h
      obtain ⟨q, ps, fps, h1, h2, h3, rfl⟩ := h
      rw [Node.countNodes] at hf
      have hch : ∀ n ∈ ch, n.countNodes ≤ fuel := fun n hn => by have := countNodes_mem hn; omega
      refine ⟨?_, ?_, ?_⟩
      · rw [TMem.predictPlain, TMem.node_ok.2 h1, res_bind_ok, Node.predictPlain]
        split
        · rfl
        · refine firstChild_eq (value := fun ch => Node.predictPlainIn s ch x) (by rw [Node.predictPlainIn]) ch ps fps h3 ?_
          intro n hn p f ns hp
          simp only [Node.predictPlainIn, (ih n p f hp (hch n hn)).1]
      · rw [TMem.predictComposite, TMem.node_ok.2 h1, res_bind_ok, Node.predictComposite]
        split
        · rfl
        · refine firstChild_eq (value := fun ch => Node.predictCompositeIn (d.getMaxItemOf x.possibleLabels) ch x)
            (by rw [Node.predictCompositeIn]) ch ps fps h3 ?_
          intro n hn p f ns hp
          simp only [Node.predictCompositeIn, TMem.orElse, (ih n p f hp (hch n hn)).2.1]
      · rw [TMem.predictProbability, TMem.node_ok.2 h1, res_bind_ok, Node.predictProbability]
        split
        · rfl
        · refine firstChild_eq (value := fun ch => Node.predictProbabilityIn d ch x) (by rw [Node.predictProbabilityIn]) ch ps fps h3 ?_
          intro n hn p f ns hp
          simp only [Node.predictProbabilityIn, (ih n p f hp (hch n hn)).2.2]

theorem TreeAt.predict {m : TMem F} {p : Nat} {n : Node F} {fp : List Nat} (h : TreeAt m p n fp) (x : Inst F) :
    m.treePredict p x = treePredict n x ∧ m.treeProbability p x = n.predictProbability x := by
  obtain ⟨h1, h2, h3⟩ := h.1.predict x m.fuel n p fp h.fuel
  refine ⟨?_, h3⟩
  unfold TMem.treePredict treePredict Node.predict
  rw [h1, h2]
  cases x.isComposite <;> rfl

/-! ## making -/

mutual
theorem newNode_spec : ∀ (n : Node F) (m : TMem F),
    Extends m (m.newNode n).1 ∧ (m.newNode n).1.nodes.length = m.nodes.length + n.countNodes ∧
    (m.newNode n).1.vals.length ≤ m.vals.length + n.countNodes ∧
    ∃ fp, Occupies (m.newNode n).1 (m.newNode n).2 n fp ∧ fp.Nodup ∧ ∀ q ∈ fp, m.nodes.length ≤ q
  | .mk c l s d ch, m => by
    have hv : Extends m (m.newValue c.value).1 ∧ (m.newValue c.value).1.nodes = m.nodes ∧
        (m.newValue c.value).1.vals.length ≤ m.vals.length + 1 ∧ ValueAt (m.newValue c.value).1 (m.newValue c.value).2 c.value := by
      unfold TMem.newValue
      cases c.value with
      | none => exact ⟨⟨List.prefix_rfl, List.prefix_rfl⟩, rfl, by simp, trivial⟩
      | some a => exact ⟨⟨List.prefix_rfl, List.prefix_append _ _⟩, rfl, by simp, by simp [ValueAt]⟩
    obtain ⟨hx, hn, hl, hva⟩ := hv
    obtain ⟨⟨hc1, hc1'⟩, hc2, hc3, fps, hc4, hc5, hc6⟩ := newNodes_spec ch (m.newValue c.value).1
    rw [TMem.newNode]
    rw [Node.countNodes]
    refine ⟨⟨hx.1.trans (hc1.trans (List.prefix_append _ _)), hx.2.trans hc1'⟩, ?_, ?_,
      (((m.newValue c.value).1.newNodes ch).1.nodes.length) :: fps, ?_, ?_, ?_⟩
    · simp only [List.length_append, hc2, hn, List.length_cons, List.length_nil]; omega
    · simp only; omega
    · rw [Occupies]
      refine ⟨_, _, fps, by simp; exact ⟨rfl, rfl⟩, ?_, ?_, rfl⟩
      · exact hva.mono (fun q a h => by
          have hlt := (List.getElem?_eq_some_iff.1 h).1
          rw [← h]
          obtain ⟨t, ht⟩ := hc1'
          show ((m.newValue c.value).1.newNodes ch).1.vals[q]? = _
          rw [← ht, List.getElem?_append_left hlt])
      · refine OccupiesAll.frame (m := ((m.newValue c.value).1.newNodes ch).1) ?_ ch _ fps hc4 ?_
        · exact fun q a h => h
        intro q hq
        obtain ⟨o, ho⟩ := (hc4.length ch _ fps).2 q hq
        have hlt := (List.getElem?_eq_some_iff.1 ho).1
        exact List.getElem?_append_left hlt
    · refine List.nodup_cons.2 ⟨?_, hc5⟩
      intro hq
      obtain ⟨o, ho⟩ := (hc4.length ch _ fps).2 _ hq
      have hlt := (List.getElem?_eq_some_iff.1 ho).1
      omega
    · intro q hq
      rw [hn] at hc2 hc6
      rcases List.mem_cons.1 hq with rfl | hq
      · omega
      · exact hc6 q hq
theorem newNodes_spec : ∀ (ch : List (Node F)) (m : TMem F),
    Extends m (m.newNodes ch).1 ∧ (m.newNodes ch).1.nodes.length = m.nodes.length + Node.countNodesIn ch ∧
    (m.newNodes ch).1.vals.length ≤ m.vals.length + Node.countNodesIn ch ∧
    ∃ fps, OccupiesAll (m.newNodes ch).1 (m.newNodes ch).2 ch fps ∧ fps.Nodup ∧ ∀ q ∈ fps, m.nodes.length ≤ q
  | [], m => by
    rw [TMem.newNodes, Node.countNodesIn]
    exact ⟨⟨List.prefix_rfl, List.prefix_rfl⟩, by simp, by simp, [], by rw [OccupiesAll], by simp, by simp⟩
  | n :: ns, m => by
    obtain ⟨⟨h1, h1'⟩, h2, h3, f, h4, h5, h6⟩ := newNode_spec n m
    obtain ⟨⟨g1, g1'⟩, g2, g3, g, g4, g5, g6⟩ := newNodes_spec ns (m.newNode n).1
    rw [TMem.newNodes, Node.countNodesIn]
    refine ⟨⟨h1.trans g1, h1'.trans g1'⟩, by simp only; omega, by simp only; omega, f ++ g, ?_, ?_, ?_⟩
    · rw [OccupiesAll]
      refine ⟨f, g, ?_, g4, rfl⟩
      refine h4.frame (fun q a h => ?_) n _ f ?_
      · have hlt := (List.getElem?_eq_some_iff.1 h).1
        obtain ⟨t, ht⟩ := g1'
        rw [← ht, List.getElem?_append_left hlt, h]
      · intro q hq
        obtain ⟨o, ho⟩ := (h4.length n _ f).2.1 q hq
        have hlt := (List.getElem?_eq_some_iff.1 ho).1
        obtain ⟨t, ht⟩ := g1
        rw [← ht, List.getElem?_append_left hlt]
    · refine List.nodup_append.2 ⟨h5, g5, ?_⟩
      intro q hq q' hq' e
      subst e
      obtain ⟨o, ho⟩ := (h4.length n _ f).2.1 q hq
      have hlt := (List.getElem?_eq_some_iff.1 ho).1
      have := g6 q hq'
      omega
    · intro q hq
      rcases List.mem_append.1 hq with hq | hq
      · exact h6 q hq
      · have := g6 q hq; omega
end

/-! ## pruning in place -/

theorem SameOutside.refl (m : TMem F) (fp : List Nat) : SameOutside m m fp := ⟨rfl, rfl, fun _ _ => rfl⟩

theorem SameOutside.trans {m m' m'' : TMem F} {fp gp kp : List Nat} (h : SameOutside m m' fp) (h' : SameOutside m' m'' gp)
    (h1 : fp ⊆ kp) (h2 : gp ⊆ kp) : SameOutside m m'' kp :=
  ⟨h'.1.trans h.1, h'.2.1.trans h.2.1, fun q hq =>
    (h'.2.2 q (fun hc => hq (h2 hc))).trans (h.2.2 q (fun hc => hq (h1 hc)))⟩

theorem SameOutside.set {m : TMem F} {p : Nat} {fp : List Nat} (hp : p ∈ fp) (o : Option NObj) :
    SameOutside m { m with nodes := m.nodes.set p o } fp := by
  refine ⟨rfl, by simp, fun q hq => ?_⟩
  have : p ≠ q := by rintro rfl; exact hq hp
  simp [List.getElem?_set_ne this]

theorem Occupies.keep {m m' : TMem F} {n : Node F} {p : Nat} {fp gp : List Nat} (h : Occupies m p n fp)
    (hs : SameOutside m m' gp) (hd : ∀ q ∈ fp, q ∉ gp) : Occupies m' p n fp :=
  h.frame (fun q a hq => by rw [hs.1]; exact hq) n p fp (fun q hq => hs.2.2 q (hd q hq))

theorem OccupiesAll.keep {m m' : TMem F} {ch : List (Node F)} {ps fps gp : List Nat} (h : OccupiesAll m ps ch fps)
    (hs : SameOutside m m' gp) (hd : ∀ q ∈ fps, q ∉ gp) : OccupiesAll m' ps ch fps :=
  h.frame (fun q a hq => by rw [hs.1]; exact hq) ch ps fps (fun q hq => hs.2.2 q (hd q hq))

theorem ValueAt.keep {m m' : TMem F} {q : Option Nat} {v : Option (Attr F)} {gp : List Nat} (h : ValueAt m q v)
    (hs : SameOutside m m' gp) : ValueAt m' q v :=
  h.mono (fun q a hq => by rw [hs.1]; exact hq)

mutual
theorem pruneNode_refines {accH : TMem F → Res F} {acc : Node F → Res F} :
    ∀ (n : Node F) (fuel : Nat) (m : TMem F) (p : Nat) (fp : List Nat) (ctx : Node F → Node F),
    Occupies m p n fp → fp.Nodup → n.countNodes ≤ fuel →
    (∀ m' n', SameOutside m m' fp → Occupies m' p n' fp → accH m' = acc (ctx n')) →
    (∀ n', pruneNode acc ctx n = .ok n' → ∃ m', TMem.pruneNode accH fuel m p = .ok m' ∧ SameOutside m m' fp ∧
      Occupies m' p n' fp) ∧
    (∀ e, pruneNode acc ctx n = .error e → TMem.pruneNode accH fuel m p = .error e)
  | .mk c leaf s d ch, 0, _, _, _, _, _, _, hf, _ => by rw [Node.countNodes] at hf; omega
  | .mk c leaf s d ch, fuel + 1, m, p, fp, ctx, h, hnd, hf, hacc => by
    have hocc := h
    rw [Occupies] at h
    obtain ⟨q, ps, fps, h1, h2, h3, rfl⟩ := h
    rw [Node.countNodes] at hf
    obtain ⟨hp, hnd'⟩ := List.nodup_cons.1 hnd
    have hlt := (List.getElem?_eq_some_iff.1 h1).1
    rw [TMem.pruneNode, TMem.node_ok.2 h1, res_bind_ok, pruneNode]
    cases leaf with
    | true =>
      simp only [if_true]
      refine ⟨fun n' e => ?_, fun e he => by cases he⟩
      cases e
      exact ⟨m, rfl, .refl _ _, hocc⟩
    | false =>
      simp only [Bool.false_eq_true, if_false, Node.setLeaf]
      set m1 := m.setNode p ⟨c.attr, c.cmp, q, true, s, d, ps⟩ with hm1
      set m2 := m1.setNode p ⟨c.attr, c.cmp, q, false, s, d, ps⟩ with hm2
      have hs1 : SameOutside m m1 (p :: fps) := SameOutside.set (by simp) _
      have hs2 : SameOutside m m2 (p :: fps) :=
        hs1.trans (SameOutside.set (fp := p :: fps) (by simp) _) (fun _ h => h) (fun _ h => h)
      have hk : ∀ q ∈ fps, q ∉ [p] := fun q hq hc => by simp only [List.mem_singleton] at hc; subst hc; exact hp hq
      have hs1' : SameOutside m m1 [p] := SameOutside.set (by simp) _
      have hs2' : SameOutside m m2 [p] := hs1'.trans (SameOutside.set (fp := [p]) (by simp) _) (fun _ h => h) (fun _ h => h)
      have ho1 : Occupies m1 p (.mk c true s d ch) (p :: fps) := by
        rw [Occupies]
        exact ⟨q, ps, fps, by simp [hm1, TMem.setNode, hlt], h2.keep hs1', h3.keep hs1' hk, rfl⟩
      have h3' : OccupiesAll m2 ps ch fps := h3.keep hs2' hk
      have hn2 : m2.nodes[p]? = some (some ⟨c.attr, c.cmp, q, false, s, d, ps⟩) := by
        simp [hm2, hm1, TMem.setNode, hlt]
      rw [hacc m _ (.refl _ _) hocc, hacc m1 _ hs1 ho1]
      cases hb : acc (ctx (.mk c false s d ch)) with
      | error e => exact ⟨fun n' hn' => (by cases hn'), fun e he => by cases he; rfl⟩
      | ok before =>
        rw [res_bind_ok, res_bind_ok]
        cases ha : acc (ctx (.mk c true s d ch)) with
        | error e => exact ⟨fun n' hn' => (by cases hn'), fun e he => by cases he; rfl⟩
        | ok after =>
          rw [res_bind_ok, res_bind_ok]
          by_cases hlt' : (after <. before) = true
          · rw [if_pos hlt', if_pos hlt']
            obtain ⟨g1, g2⟩ := pruneChildren_refines (accH := accH) (acc := acc) ch fuel m2 ps fps []
              (fun ch => ctx (.mk c false s d ch)) h3' hnd' (by omega) (by
                intro m' ns' hs' ho'
                refine hacc m' _ (hs2.trans hs' (fun _ h => h) (fun _ h => by simp [h])) ?_
                rw [Occupies]
                exact ⟨q, ps, fps, by rw [hs'.2.2 p hp]; exact hn2, (h2.keep hs2').keep hs', ho', rfl⟩)
            refine ⟨fun n' hn' => ?_, fun e he => ?_⟩
            · rw [bind_ok_iff] at hn'
              obtain ⟨ch', hc', hn'⟩ := hn'
              cases hn'
              obtain ⟨m', ns', e1, e2, e3, e4⟩ := g1 ch' hc'
              rw [List.nil_append] at e1
              subst e1
              refine ⟨m', e2, hs2.trans e3 (fun _ h => h) (fun _ h => by simp [h]), ?_⟩
              rw [Occupies]
              exact ⟨q, ps, fps, by rw [e3.2.2 p hp]; exact hn2, (h2.keep hs2').keep e3, e4, rfl⟩
            · cases hc : pruneChildren acc (fun ch => ctx (.mk c false s d ch)) [] ch with
              | ok r => rw [hc] at he; cases he
              | error e' => rw [hc] at he; cases he; exact g2 _ hc
          · rw [if_neg hlt', if_neg hlt']
            refine ⟨fun n' e => ?_, fun e he => by cases he⟩
            cases e
            exact ⟨m1, rfl, hs1, ho1⟩
theorem pruneChildren_refines {accH : TMem F → Res F} {acc : Node F → Res F} :
    ∀ (ns : List (Node F)) (fuel : Nat) (m : TMem F) (ps fps : List Nat) (done : List (Node F)) (ctx : List (Node F) → Node F),
    OccupiesAll m ps ns fps → fps.Nodup → Node.countNodesIn ns ≤ fuel →
    (∀ m' ns', SameOutside m m' fps → OccupiesAll m' ps ns' fps → accH m' = acc (ctx (done ++ ns'))) →
    (∀ r, pruneChildren acc ctx done ns = .ok r → ∃ m' ns', r = done ++ ns' ∧
      ps.foldlM (TMem.pruneNode accH fuel) m = .ok m' ∧ SameOutside m m' fps ∧ OccupiesAll m' ps ns' fps) ∧
    (∀ e, pruneChildren acc ctx done ns = .error e → ps.foldlM (TMem.pruneNode accH fuel) m = .error e)
  | [], fuel, m, ps, fps, done, ctx, h, hnd, hf, hacc => by
    cases ps with
    | cons p ps => rw [OccupiesAll] at h; exact h.elim
    | nil =>
      rw [pruneChildren]
      refine ⟨fun r hr => ?_, fun e he => by cases he⟩
      cases hr
      exact ⟨m, [], by simp, rfl, .refl _ _, h⟩
  | n :: ns, fuel, m, ps, fps, done, ctx, h, hnd, hf, hacc => by
    cases ps with
    | nil => rw [OccupiesAll] at h; exact h.elim
    | cons p ps =>
      rw [OccupiesAll] at h
      obtain ⟨f, g, h1, h2, rfl⟩ := h
      rw [Node.countNodesIn] at hf
      obtain ⟨hf1, hg1, hdis⟩ := List.nodup_append.1 hnd
      have hgf : ∀ q ∈ g, q ∉ f := fun q hq hq' => hdis q hq' q hq rfl
      have hfg : ∀ q ∈ f, q ∉ g := fun q hq hq' => hdis q hq q hq' rfl
      rw [pruneChildren, List.foldlM_cons]
      obtain ⟨k1, k2⟩ := pruneNode_refines (accH := accH) (acc := acc) n fuel m p f (fun k => ctx (done ++ k :: ns)) h1 hf1
        (by omega) (by
          intro m' n' hs ho
          refine hacc m' _ (hs.trans (.refl _ []) (fun _ h => by simp [h]) (by simp)) ?_
          rw [OccupiesAll]
          exact ⟨f, g, ho, h2.keep hs hgf, rfl⟩)
      cases hn : pruneNode acc (fun k => ctx (done ++ k :: ns)) n with
      | error e =>
        rw [k2 e hn]
        exact ⟨fun r hr => (by cases hr), fun e he => by cases he; rfl⟩
      | ok n' =>
        obtain ⟨m1, e1, hs1, ho1⟩ := k1 n' hn
        rw [e1, res_bind_ok, res_bind_ok]
        obtain ⟨j1, j2⟩ := pruneChildren_refines (accH := accH) (acc := acc) ns fuel m1 ps g (done ++ [n']) ctx
          (h2.keep hs1 hgf) hg1 (by omega) (by
            intro m' ns' hs ho
            rw [List.append_assoc, List.singleton_append]
            refine hacc m' _ (hs1.trans hs (fun _ h => by simp [h]) (fun _ h => by simp [h])) ?_
            rw [OccupiesAll]
            exact ⟨f, g, ho1.keep hs hfg, ho, rfl⟩)
        refine ⟨fun r hr => ?_, j2⟩
        obtain ⟨m', ns', e2, e3, e4, e5⟩ := j1 r hr
        refine ⟨m', n' :: ns', by rw [e2, List.append_assoc, List.singleton_append], e3,
          hs1.trans e4 (fun _ h => by simp [h]) (fun _ h => by simp [h]), ?_⟩
        rw [OccupiesAll]
        exact ⟨f, g, ho1.keep e4 hfg, e5, rfl⟩
end

theorem treeAccuracy_eq {m : TMem F} {p : Nat} {n : Node F} {fp : List Nat} (h : TreeAt m p n fp) (l : IList F) :
    TMem.treeAccuracy l p m = treeAccuracy l n := by
  unfold TMem.treeAccuracy treeAccuracy
  have : m.treePredict p = treePredict n := funext fun x => (h.predict x).1
  rw [this]

/-! ## C157 -/

/-- **C157** pruning the objects in place gives the pruned tree, and writes no other object -/
theorem C157_prune_in_place {m : TMem F} {p : Nat} {n : Node F} {fp : List Nat} (h : TreeAt m p n fp) (l : IList F) :
    (∀ n', prune n l = .ok n' → ∃ m', m.prune p l = .ok m' ∧ TreeAt m' p n' fp ∧ SameOutside m m' fp) ∧
    (∀ e, prune n l = .error e → m.prune p l = .error e) := by
  obtain ⟨h1, h2⟩ := pruneNode_refines (accH := TMem.treeAccuracy l p) (acc := treeAccuracy l) n m.fuel m p fp id h.1 h.2 h.fuel
    (fun m' n' _ ho => treeAccuracy_eq ⟨ho, h.2⟩ l)
  refine ⟨fun n' hn' => ?_, fun e he => h2 e he⟩
  obtain ⟨m', e1, e2, e3⟩ := h1 n' hn'
  exact ⟨m', e1, ⟨e3, h.2⟩, e2⟩

theorem prefix_of_get {α : Type} {l l' : List α} (h : ∀ q, q < l.length → l'[q]? = l[q]?) : l <+: l' := by
  have : l = l'.take l.length := by
    apply List.ext_getElem?
    intro i
    rw [List.getElem?_take]
    split
    · rw [h i (by assumption)]
    · rw [List.getElem?_eq_none (by omega)]
  rw [this]
  exact List.take_prefix _ _

theorem Extends.after {m m1 m2 : TMem F} {fp : List Nat} (h : Extends m m1) (hs : SameOutside m1 m2 fp)
    (hfp : ∀ q ∈ fp, m.nodes.length ≤ q) : Extends m m2 := by
  refine ⟨prefix_of_get (fun q hq => ?_), by rw [hs.1]; exact h.2⟩
  rw [hs.2.2 q (fun hc => by have := hfp q hc; omega)]
  obtain ⟨t, ht⟩ := h.1
  rw [← ht, List.getElem?_append_left hq]

theorem Extends.keeps {m m' : TMem F} (h : Extends m m') {p : Nat} {k : Node F} {gp : List Nat} (hk : TreeAt m p k gp) :
    TreeAt m' p k gp := by
  refine ⟨hk.1.frame (fun q a hq => ?_) k p gp (fun q hq => ?_), hk.2⟩
  · have hlt := (List.getElem?_eq_some_iff.1 hq).1
    obtain ⟨t, ht⟩ := h.2
    rw [← ht, List.getElem?_append_left hlt, hq]
  · obtain ⟨o, ho⟩ := (hk.1.length k p gp).2.1 q hq
    have hlt := (List.getElem?_eq_some_iff.1 ho).1
    obtain ⟨t, ht⟩ := h.1
    rw [← ht, List.getElem?_append_left hlt]

theorem newNode_treeAt (m : TMem F) (n : Node F) : ∃ fp, TreeAt (m.newNode n).1 (m.newNode n).2 n fp ∧
    Extends m (m.newNode n).1 ∧ (∀ q ∈ fp, m.nodes.length ≤ q) := by
  obtain ⟨h1, _, _, fp, h4, h5, h6⟩ := newNode_spec n m
  exact ⟨fp, ⟨h4, h5⟩, h1, h6⟩

/-- training in memory: the objects made are those of the tree of the value model, all new -/
theorem train_spec (m : TMem F) (data : IList F) (pruning : Option (F × List Nat)) :
    (∀ n, treeTrain data pruning = .ok n → ∃ m' root fp, m.train data pruning = .ok (m', root) ∧ TreeAt m' root n fp ∧
      Extends m m' ∧ ∀ q ∈ fp, m.nodes.length ≤ q) ∧
    (∀ e, treeTrain data pruning = .error e → m.train data pruning = .error e) := by
  cases pruning with
  | none =>
    unfold treeTrain TMem.train
    simp only
    refine ⟨fun n hn => ?_, fun e he => by rw [he]; rfl⟩
    rw [hn, res_bind_ok]
    obtain ⟨fp, h1, h2, h3⟩ := newNode_treeAt m n
    exact ⟨_, _, fp, rfl, h1, h2, h3⟩
  | some pr =>
    obtain ⟨ratio, arr⟩ := pr
    unfold treeTrain TMem.train
    simp only
    cases hp : Parts.byRatioStratified data ratio arr with
    | error e => exact ⟨fun n hn => (by cases hn), fun e he => by cases he; rfl⟩
    | ok parts =>
      simp only [res_bind_ok]
      cases h1 : atR parts 1 with
      | error e => exact ⟨fun n hn => (by cases hn), fun e he => by cases he; rfl⟩
      | ok p1 =>
        simp only [res_bind_ok]
        cases hg : Node.grow none false (p1.length + 1) p1 Cond.root with
        | error e => exact ⟨fun n hn => (by cases hn), fun e he => by cases he; rfl⟩
        | ok g =>
          simp only [res_bind_ok]
          cases h0 : atR parts 0 with
          | error e => exact ⟨fun n hn => (by cases hn), fun e he => by cases he; rfl⟩
          | ok p0 =>
            simp only [res_bind_ok]
            obtain ⟨fp, k1, k2, k3⟩ := newNode_treeAt m g
            obtain ⟨c1, c2⟩ := C157_prune_in_place k1 p0
            refine ⟨fun n hn => ?_, fun e he => ?_⟩
            · obtain ⟨m', e1, e2, e3⟩ := c1 n hn
              rw [e1, res_bind_ok]
              exact ⟨m', _, fp, rfl, e2, k2.after e3 k3, k3⟩
            · rw [c2 e he]; rfl

/-- **C157** training makes the same tree whatever is in memory, or fails in the same way; the
trained object answers as the tree does -/
theorem C157_trees_behave_as_values (m : TMem F) (data : IList F) (pruning : Option (F × List Nat)) :
    (∀ e, treeTrain data pruning = .error e → m.train data pruning = .error e) ∧
    (∀ n, treeTrain data pruning = .ok n → ∃ m' root, m.train data pruning = .ok (m', root) ∧
      ∀ x, m'.treePredict root x = treePredict n x ∧ m'.treeProbability root x = n.predictProbability x) := by
  obtain ⟨h1, h2⟩ := train_spec m data pruning
  refine ⟨h2, fun n hn => ?_⟩
  obtain ⟨m', root, fp, e1, e2, _⟩ := h1 n hn
  exact ⟨m', root, e1, fun x => e2.predict x⟩

/-- **C157** training one tree does not change what another one answers, and they share nothing -/
theorem C157_other_trees {m m' : TMem F} {data : IList F} {pruning : Option (F × List Nat)} {root : Nat}
    (h : m.train data pruning = .ok (m', root)) {p : Nat} {k : Node F} {gp : List Nat} (hk : TreeAt m p k gp) :
    (∀ x, m'.treePredict p x = m.treePredict p x ∧ m'.treeProbability p x = m.treeProbability p x) ∧
    ∃ n fp, TreeAt m' root n fp ∧ TreeAt m' p k gp ∧ ∀ q ∈ fp, q ∉ gp := by
  obtain ⟨h1, h2⟩ := train_spec m data pruning
  cases ht : treeTrain data pruning with
  | error e => rw [h2 e ht] at h; cases h
  | ok n =>
    obtain ⟨m1, r1, fp, e1, e2, e3, e4⟩ := h1 n ht
    rw [h] at e1
    obtain ⟨rfl, rfl⟩ : m' = m1 ∧ root = r1 := by injection e1 with e1; exact Prod.mk.inj e1
    have hk' := e3.keeps hk
    refine ⟨fun x => ?_, n, fp, e2, hk', fun q hq hq' => ?_⟩
    · rw [(hk'.predict x).1, (hk'.predict x).2, (hk.predict x).1, (hk.predict x).2]; exact ⟨rfl, rfl⟩
    · obtain ⟨o, ho⟩ := (hk.1.length k p gp).2.1 q hq'
      have hlt := (List.getElem?_eq_some_iff.1 ho).1
      have := e4 q hq
      omega

/-! ## destroying -/

theorem countP_set_none {l : List (Option NObj)} {p : Nat} {o : NObj} (h : l[p]? = some (some o)) :
    (l.set p none).countP Option.isSome + 1 = l.countP Option.isSome := by
  induction l generalizing p with
  | nil => simp at h
  | cons a l ih =>
    cases p with
    | zero =>
      simp only [List.getElem?_cons_zero, Option.some.injEq] at h
      subst h
      simp
    | succ p =>
      rw [List.getElem?_cons_succ] at h
      rw [List.set_cons_succ, List.countP_cons, List.countP_cons, ← ih h]
      omega

theorem Released.keep {m m' : TMem F} {fp gp : List Nat} (h : Released m fp) (hs : SameOutside m m' gp)
    (hd : ∀ q ∈ fp, q ∉ gp) : Released m' fp := fun q hq => by rw [hs.2.2 q (hd q hq)]; exact h q hq

/-- what destroying the objects of `fp` does -/
def Destroys (m m' : TMem F) (fp : List Nat) : Prop :=
  SameOutside m m' fp ∧ Released m' fp ∧ nodesInUse m' + fp.length = nodesInUse m

mutual
theorem destroyNode_spec : ∀ (n : Node F) (fuel : Nat) (m : TMem F) (p : Nat) (fp : List Nat),
    Occupies m p n fp → fp.Nodup → n.countNodes ≤ fuel → ∃ m', TMem.destroyNode fuel m p = .ok m' ∧ Destroys m m' fp
  | .mk c leaf s d ch, 0, _, _, _, _, _, hf => by rw [Node.countNodes] at hf; omega
  | .mk c leaf s d ch, fuel + 1, m, p, fp, h, hnd, hf => by
    rw [Occupies] at h
    obtain ⟨q, ps, fps, h1, h2, h3, rfl⟩ := h
    rw [Node.countNodes] at hf
    obtain ⟨hp, hnd'⟩ := List.nodup_cons.1 hnd
    rw [TMem.destroyNode, TMem.node_ok.2 h1, res_bind_ok]
    obtain ⟨m1, e1, hs, hr, hc⟩ := destroyNodes_spec ch fuel m ps fps h3 hnd' (by omega)
    simp only
    rw [e1, res_bind_ok]
    have hp1 : m1.nodes[p]? = some (some ⟨c.attr, c.cmp, q, leaf, s, d, ps⟩) := by rw [hs.2.2 p hp]; exact h1
    have hlt := (List.getElem?_eq_some_iff.1 hp1).1
    refine ⟨_, rfl, ?_, ?_, ?_⟩
    · exact hs.trans (SameOutside.set (fp := [p]) (by simp) none) (fun _ h => by simp [h]) (by simp)
    · intro k hk
      rcases List.mem_cons.1 hk with rfl | hk
      · simp [hlt]
      · have : p ≠ k := by rintro rfl; exact hp hk
        simp only [List.getElem?_set_ne this]
        exact hr k hk
    · have := countP_set_none hp1
      simp only [nodesInUse, List.length_cons] at hc ⊢
      omega
theorem destroyNodes_spec : ∀ (ch : List (Node F)) (fuel : Nat) (m : TMem F) (ps fps : List Nat),
    OccupiesAll m ps ch fps → fps.Nodup → Node.countNodesIn ch ≤ fuel →
    ∃ m', ps.foldlM (TMem.destroyNode fuel) m = .ok m' ∧ Destroys m m' fps
  | [], fuel, m, ps, fps, h, hnd, hf => by
    cases ps with
    | cons p ps => rw [OccupiesAll] at h; exact h.elim
    | nil =>
      rw [OccupiesAll] at h
      subst h
      exact ⟨m, rfl, .refl _ _, ⟨(fun q hq => by cases hq), rfl⟩⟩
  | n :: ns, fuel, m, ps, fps, h, hnd, hf => by
    cases ps with
    | nil => rw [OccupiesAll] at h; exact h.elim
    | cons p ps =>
      rw [OccupiesAll] at h
      obtain ⟨f, g, h1, h2, rfl⟩ := h
      rw [Node.countNodesIn] at hf
      obtain ⟨hf1, hg1, hdis⟩ := List.nodup_append.1 hnd
      have hgf : ∀ q ∈ g, q ∉ f := fun q hq hq' => hdis q hq' q hq rfl
      have hfg : ∀ q ∈ f, q ∉ g := fun q hq hq' => hdis q hq q hq' rfl
      obtain ⟨m1, e1, hs1, hr1, hc1⟩ := destroyNode_spec n fuel m p f h1 hf1 (by omega)
      obtain ⟨m2, e2, hs2, hr2, hc2⟩ := destroyNodes_spec ns fuel m1 ps g (h2.keep hs1 hgf) hg1 (by omega)
      rw [List.foldlM_cons, e1, res_bind_ok]
      refine ⟨m2, e2, hs1.trans hs2 (fun _ h => by simp [h]) (fun _ h => by simp [h]), ?_, ?_⟩
      · intro q hq
        rcases List.mem_append.1 hq with hq | hq
        · exact hr1.keep hs2 hfg q hq
        · exact hr2 q hq
      · rw [List.length_append]; omega
end

theorem destroyTree_spec {m : TMem F} {p : Nat} {n : Node F} {fp : List Nat} (h : TreeAt m p n fp) :
    ∃ m', m.destroyTree (some p) = .ok m' ∧ Destroys m m' fp :=
  destroyNode_spec n m.fuel m p fp h.1 h.2 h.fuel

theorem destroyForest_spec : ∀ (trees : List (Node F)) (m : TMem F) (roots fps : List Nat), ForestAt m roots trees fps →
    ∃ m', m.destroyForest roots = .ok m' ∧ Destroys m m' fps
  | [], m, ps, fps, h => by
    cases ps with
    | cons p ps => have h := h.1; rw [OccupiesAll] at h; exact h.elim
    | nil =>
      have h := h.1
      rw [OccupiesAll] at h
      subst h
      exact ⟨m, rfl, .refl _ _, ⟨(fun q hq => by cases hq), rfl⟩⟩
  | n :: ns, m, ps, fps, h => by
    obtain ⟨h, hnd⟩ := h
    cases ps with
    | nil => rw [OccupiesAll] at h; exact h.elim
    | cons p ps =>
      rw [OccupiesAll] at h
      obtain ⟨f, g, h1, h2, rfl⟩ := h
      obtain ⟨hf1, hg1, hdis⟩ := List.nodup_append.1 hnd
      have hgf : ∀ q ∈ g, q ∉ f := fun q hq hq' => hdis q hq' q hq rfl
      have hfg : ∀ q ∈ f, q ∉ g := fun q hq hq' => hdis q hq q hq' rfl
      obtain ⟨m1, e1, hs1, hr1, hc1⟩ := destroyTree_spec (n := n) ⟨h1, hf1⟩
      obtain ⟨m2, e2, hs2, hr2, hc2⟩ := destroyForest_spec ns m1 ps g ⟨h2.keep hs1 hgf, hg1⟩
      unfold TMem.destroyForest at e2 ⊢
      rw [List.foldlM_cons, e1, res_bind_ok]
      refine ⟨m2, e2, hs1.trans hs2 (fun _ h => by simp [h]) (fun _ h => by simp [h]), ?_, ?_⟩
      · intro q hq
        rcases List.mem_append.1 hq with hq | hq
        · exact hr1.keep hs2 hfg q hq
        · exact hr2 q hq
      · rw [List.length_append]; omega

/-- deleting an object a second time -/
theorem destroyNode_released {m : TMem F} {p : Nat} (h : m.nodes[p]? = some none) {fuel : Nat} :
    TMem.destroyNode (fuel + 1) m p = .error (.ub "deleted object") := by
  rw [TMem.destroyNode]
  unfold TMem.node idxR
  rw [h]
  rfl

/-! ## counting objects -/

mutual
theorem newNode_counts : ∀ (n : Node F) (m : TMem F), nodesInUse (m.newNode n).1 = nodesInUse m + n.countNodes ∧
    valuesInUse (m.newNode n).1 = valuesInUse m + conditionValues n
  | .mk c l s d ch, m => by
    rw [TMem.newNode, Node.countNodes, conditionValues]
    obtain ⟨h1, h2⟩ := newNodes_counts ch (m.newValue c.value).1
    have hv : nodesInUse (m.newValue c.value).1 = nodesInUse m ∧
        valuesInUse (m.newValue c.value).1 = valuesInUse m + (if c.value.isSome then 1 else 0) := by
      unfold TMem.newValue nodesInUse valuesInUse
      cases c.value with
      | none => simp
      | some a => simp
    simp only [nodesInUse, valuesInUse] at h1 h2 hv ⊢
    rw [List.countP_append, h1, h2, hv.1, hv.2]
    simp only [List.countP_cons, Option.isSome_some, List.countP_nil, if_true]
    omega
theorem newNodes_counts : ∀ (ch : List (Node F)) (m : TMem F), nodesInUse (m.newNodes ch).1 = nodesInUse m + Node.countNodesIn ch ∧
    valuesInUse (m.newNodes ch).1 = valuesInUse m + conditionValuesIn ch
  | [], m => by rw [TMem.newNodes, Node.countNodesIn, conditionValuesIn]; exact ⟨rfl, rfl⟩
  | n :: ns, m => by
    rw [TMem.newNodes, Node.countNodesIn, conditionValuesIn]
    obtain ⟨h1, h2⟩ := newNode_counts n m
    obtain ⟨h3, h4⟩ := newNodes_counts ns (m.newNode n).1
    simp only
    omega
end

theorem countP_of_isSome {l l' : List (Option NObj)}
    (h : ∀ q : Nat, (l[q]?).map Option.isSome = (l'[q]?).map Option.isSome) : l.countP Option.isSome = l'.countP Option.isSome := by
  have : l.map Option.isSome = l'.map Option.isSome := by
    apply List.ext_getElem?
    intro i
    rw [List.getElem?_map, List.getElem?_map, h i]
  have := congrArg (List.countP id) this
  rwa [List.countP_map, List.countP_map] at this

/-- rewriting live objects keeps their number -/
theorem nodesInUse_same {m m' : TMem F} {fp : List Nat} (hs : SameOutside m m' fp)
    (h : ∀ q ∈ fp, ∃ o, m.nodes[q]? = some (some o)) (h' : ∀ q ∈ fp, ∃ o, m'.nodes[q]? = some (some o)) :
    nodesInUse m' = nodesInUse m := by
  refine countP_of_isSome (fun q => ?_)
  by_cases hq : q ∈ fp
  · obtain ⟨o, ho⟩ := h q hq
    obtain ⟨o', ho'⟩ := h' q hq
    rw [ho, ho']
    rfl
  · rw [hs.2.2 q hq]

theorem conditionValues_congr {ch ch' : List (Node F)} (hl : ch.length = ch'.length)
    (h : ∀ (i : Nat) n n', ch[i]? = some n → ch'[i]? = some n' → conditionValues n = conditionValues n') :
    conditionValuesIn ch = conditionValuesIn ch' := by
  induction ch generalizing ch' with
  | nil => cases ch' with
    | nil => rfl
    | cons a as => simp at hl
  | cons n ns ih =>
    cases ch' with
    | nil => simp at hl
    | cons a as =>
      rw [conditionValuesIn, conditionValuesIn, h 0 n a rfl rfl, ih (by simpa using hl) (fun i => h (i + 1))]

theorem PrunedFrom.conditionValues {n n' : Node F} (h : PrunedFrom n n') : Verif.conditionValues n' = Verif.conditionValues n := by
  induction h with
  | same n => rfl
  | cut c s d ch => rw [Verif.conditionValues, Verif.conditionValues]
  | inner c s d ch ch' hl hch ih =>
    rw [Verif.conditionValues, Verif.conditionValues, conditionValues_congr hl (fun i n n' h1 h2 => (ih i n n' h1 h2).symm)]

/-- the objects made by training -/
theorem train_counts {m m' : TMem F} {data : IList F} {pruning : Option (F × List Nat)} {root : Nat} {n : Node F}
    (ht : treeTrain data pruning = .ok n) (h : m.train data pruning = .ok (m', root)) :
    nodesInUse m' = nodesInUse m + n.countNodes ∧ valuesInUse m' = valuesInUse m + conditionValues n := by
  cases pruning with
  | none =>
    unfold treeTrain at ht
    unfold TMem.train at h
    simp only at ht h
    rw [ht, res_bind_ok] at h
    have : m' = (m.newNode n).1 := by injection h with h; exact (congrArg Prod.fst h).symm
    rw [this]
    exact newNode_counts n m
  | some pr =>
    obtain ⟨ratio, arr⟩ := pr
    unfold treeTrain at ht
    unfold TMem.train at h
    simp only [bind_ok_iff] at ht h
    obtain ⟨parts, e1, p1, e2, g, e3, p0, e4, hp⟩ := ht
    obtain ⟨parts', e1', p1', e2', g', e3', p0', e4', m1, hm1, h⟩ := h
    rw [e1] at e1'; cases e1'
    rw [e2] at e2'; cases e2'
    rw [e3] at e3'; cases e3'
    rw [e4] at e4'; cases e4'
    have : m' = m1 := by injection h with h; exact (congrArg Prod.fst h).symm
    subst this
    obtain ⟨fp, k1, k2, k3⟩ := newNode_treeAt m g
    obtain ⟨m2, j1, j2, j3⟩ := (C157_prune_in_place k1 p0).1 n hp
    rw [hm1] at j1; cases j1
    obtain ⟨c1, c2⟩ := newNode_counts g m
    obtain ⟨l1, l2, _⟩ := k1.1.length g _ fp
    obtain ⟨l3, l4, _⟩ := j2.1.length n _ fp
    refine ⟨by rw [nodesInUse_same j3 l2 l4, c1, ← l1, l3], ?_⟩
    rw [(C62_prune_only_cuts hp).conditionValues, ← c2]
    unfold valuesInUse
    rw [j3.1]

/-- in a grown tree every node but the root compares with a value -/
theorem Grown.conditionValues {ts : List AttrType} {data : IList F} {n : Node F} (h : Grown ts data n) :
    Verif.conditionValues n + 1 = n.countNodes + (if n.cond.value.isSome then 1 else 0) := by
  induction h with
  | leaf data c hne => rw [Verif.conditionValues, Node.countNodes, conditionValuesIn, Node.countNodesIn, Node.cond]; omega
  | split data c parts hne hch hperm hroute hdef ih =>
    rw [Verif.conditionValues, Node.countNodes, Node.cond]
    have : ∀ l : List (IList F × Node F), (∀ p ∈ l, Verif.conditionValues p.2 = p.2.countNodes) →
        conditionValuesIn (l.map Prod.snd) = Node.countNodesIn (l.map Prod.snd) := by
      intro l
      induction l with
      | nil => intro _; rfl
      | cons p l ihl =>
        intro hl
        rw [List.map_cons, conditionValuesIn, Node.countNodesIn, hl p (by simp), ihl (fun q hq => hl q (by simp [hq]))]
    rw [this parts]
    · omega
    · intro p hp
      obtain ⟨l1, l2, e⟩ := List.append_of_mem hp
      obtain ⟨x, xs, hx⟩ := List.exists_cons_of_ne_nil (hch p hp).ne_nil
      have hsat := (hroute l1 p l2 e x (by rw [hx]; simp)).1
      have : p.2.cond.value.isSome = true := by
        cases hv : p.2.cond.value with
        | none => unfold Cond.satisfy at hsat; rw [hv] at hsat; cases hsat
        | some a => rfl
      have h := ih p hp
      rw [if_pos this] at h
      omega

/-! ## C158 -/

/-- **C158** (part) Destroying a tree object is defined and deletes exactly its node objects. It
deletes none of the values its conditions compare with. -/
theorem C158_destroy_partial {m : TMem F} {p : Nat} {n : Node F} {fp : List Nat} (h : TreeAt m p n fp) :
    ∃ m', m.destroyTree (some p) = .ok m' ∧ Released m' fp ∧ SameOutside m m' fp ∧
      nodesInUse m' + n.countNodes = nodesInUse m := by
  obtain ⟨m', e1, e2, e3, e4⟩ := destroyTree_spec h
  exact ⟨m', e1, e3, e2, by rw [← (h.1.length n p fp).1]; exact e4⟩

/-- **C158** (part) the same for a forest whose trees share nothing -/
theorem C158_destroy_forest_partial {m : TMem F} {roots : List Nat} {trees : List (Node F)} {fps : List Nat}
    (h : ForestAt m roots trees fps) : ∃ m', m.destroyForest roots = .ok m' ∧ Released m' fps ∧ SameOutside m m' fps ∧
      nodesInUse m' + Node.countNodesIn trees = nodesInUse m := by
  obtain ⟨m', e1, e2, e3, e4⟩ := destroyForest_spec trees m roots fps h
  exact ⟨m', e1, e3, e2, by rw [← (h.1.length trees roots fps).1]; exact e4⟩

/-- **C158** (part) After training a tree and destroying it as many node objects are in use as
before; for every node but the root one value object stays. Other trees are as before. -/
theorem C158_train_then_destroy_partial {ts : List AttrType} {data : IList ℝ} (hts : ∀ x ∈ data, typesOf x = ts)
    {pruning : Option (ℝ × List Nat)} (hσ : ∀ r σ, pruning = some (r, σ) → IsPermutation σ data.length)
    {m m' : TMem ℝ} {root : Nat} (h : m.train data pruning = .ok (m', root)) :
    ∃ n m'', treeTrain data pruning = .ok n ∧ m'.destroyTree (some root) = .ok m'' ∧ nodesInUse m'' = nodesInUse m ∧
      valuesInUse m'' + 1 = valuesInUse m + n.countNodes ∧
      ∀ p k gp, TreeAt m p k gp → TreeAt m'' p k gp := by
  obtain ⟨h1, h2⟩ := train_spec m data pruning
  cases ht : treeTrain data pruning with
  | error e => rw [h2 e ht] at h; cases h
  | ok n =>
    obtain ⟨m1, r1, fp, e1, e2, e3, e4⟩ := h1 n ht
    rw [h] at e1
    obtain ⟨rfl, rfl⟩ : m' = m1 ∧ root = r1 := by injection e1 with e1; exact Prod.mk.inj e1
    obtain ⟨m'', d1, d2, d3, d4⟩ := C158_destroy_partial e2
    obtain ⟨c1, c2⟩ := train_counts ht h
    have hgrown : conditionValues n + 1 = n.countNodes := by
      have hv : ValidParam none := by intro _ _ h; cases h
      obtain ⟨tried, htr⟩ := triedIndices_ok hv ts.length
      have key : ∀ (l : IList ℝ) g, (∀ x ∈ l, typesOf x = ts) → Node.grow none false (l.length + 1) l Cond.root = .ok g →
          conditionValues g + 1 = g.countNodes := by
        intro l g hl hg
        obtain ⟨g', hg', _, hc, hgr, _⟩ := grow_ok hv htr false (l.length + 1) l Cond.root (grow_ne_nil hg) hl (by omega)
        rw [hg] at hg'; cases hg'
        have := hgr.conditionValues
        rw [hc] at this
        simpa [Cond.root] using this
      cases pruning with
      | none => exact key data n hts ht
      | some pr =>
        obtain ⟨r, σ⟩ := pr
        obtain ⟨q0, q1, e, hperm, _⟩ := C25_stratified_split data r σ (hσ r σ rfl)
        simp only [treeTrain, e, res_bind_ok, bind_ok_iff] at ht
        obtain ⟨p1, e1, g, hg, p0, e0, hp⟩ := ht
        cases e1; cases e0
        have hk := key q1 g (fun y hy => hts y (hperm.mem_iff.1 (by simp [hy]))) hg
        rw [(C62_prune_only_cuts hp).conditionValues, hk]
        obtain ⟨fp, k1, _⟩ := newNode_treeAt (⟨[], []⟩ : TMem ℝ) g
        obtain ⟨m2, _, j2, _⟩ := (C157_prune_in_place k1 q0).1 n hp
        rw [← (k1.1.length g _ fp).1, ← (j2.1.length n _ fp).1]
    refine ⟨n, m'', rfl, d1, by omega, ?_, ?_⟩
    · have : valuesInUse m'' = valuesInUse m' := by unfold valuesInUse; rw [d3.1]
      omega
    · intro p k gp hk
      exact (e3.after d3 e4).keeps hk

/-- **C158** (part) A tree trained again forgets its earlier nodes: after destroying it they are
all still there. -/
theorem C158_retrained_partial {m m1 m2 : TMem F} {d1 d2 : IList F} {pr1 pr2 : Option (F × List Nat)} {r1 r2 : Nat}
    (h1 : m.train d1 pr1 = .ok (m1, r1)) (h2 : m1.train d2 pr2 = .ok (m2, r2)) :
    ∃ n m3 fp, treeTrain d1 pr1 = .ok n ∧ m2.destroyTree (some r2) = .ok m3 ∧ TreeAt m3 r1 n fp ∧
      nodesInUse m3 = nodesInUse m + n.countNodes ∧ 0 < n.countNodes := by
  have get : ∀ {m m' : TMem F} {d : IList F} {pr : Option (F × List Nat)} {r : Nat}, m.train d pr = .ok (m', r) →
      ∃ n fp, treeTrain d pr = .ok n ∧ TreeAt m' r n fp ∧ Extends m m' ∧ ∀ q ∈ fp, m.nodes.length ≤ q := by
    intro m m' d pr r h
    obtain ⟨k1, k2⟩ := train_spec m d pr
    cases ht : treeTrain d pr with
    | error e => rw [k2 e ht] at h; cases h
    | ok n =>
      obtain ⟨m1, r1, fp, e1, e2, e3, e4⟩ := k1 n ht
      rw [h] at e1
      obtain ⟨rfl, rfl⟩ : m' = m1 ∧ r = r1 := by injection e1 with e1; exact Prod.mk.inj e1
      exact ⟨n, fp, rfl, e2, e3, e4⟩
  obtain ⟨n1, f1, t1, a1, b1, c1⟩ := get h1
  obtain ⟨n2, f2, t2, a2, b2, c2⟩ := get h2
  obtain ⟨m3, e1, e2, e3, e4⟩ := C158_destroy_partial a2
  refine ⟨n1, m3, f1, t1, e1, (b2.after e3 c2).keeps a1, ?_, countNodes_pos n1⟩
  have := (train_counts t1 h1).1
  have := (train_counts t2 h2).1
  omega

/-- **C158** (violated) A copied tree object holds the same pointer; destroying both is undefined,
whatever the tree. -/
theorem C158_copy_refuted {m m' : TMem F} {p : Nat} {n : Node F} {fp : List Nat} (h : TreeAt m p n fp)
    (hd : m.destroyTree (some p) = .ok m') : m'.destroyTree (some p) = .error (.ub "deleted object") := by
  obtain ⟨m1, e1, e2, e3, _⟩ := C158_destroy_partial h
  rw [hd] at e1; cases e1
  have hp := (h.1.length n p fp).2.2
  have := h.fuel
  have := countNodes_pos n
  show TMem.destroyNode m'.fuel m' p = _
  have hf : m'.fuel = (m.fuel - 1) + 1 := by unfold TMem.fuel at *; rw [e3.2.1]; omega
  rw [hf]
  exact destroyNode_released (e2 p hp)

/-- **C158** (violated) The destructor of a soft decision node deletes its children twice: it is
undefined for every node that has children. -/
theorem C158_soft_refuted {m : TMem F} {p : Nat} {n : Node F} {fp : List Nat} (h : TreeAt m p n fp)
    (hch : n.children ≠ []) : m.destroySoft p = .error (.ub "deleted object") := by
  have hfuel := h.fuel
  obtain ⟨ho, hnd⟩ := h
  cases n with
  | mk c leaf s d ch =>
    rw [Occupies] at ho
    obtain ⟨q, ps, fps, h1, h2, h3, rfl⟩ := ho
    obtain ⟨hp, hnd'⟩ := List.nodup_cons.1 hnd
    rw [Node.countNodes] at hfuel
    obtain ⟨m1, e1, hs, hr, hc⟩ := destroyNodes_spec ch m.fuel m ps fps h3 hnd' (by omega)
    unfold TMem.destroySoft
    rw [TMem.node_ok.2 h1, res_bind_ok]
    simp only
    rw [e1, res_bind_ok]
    cases ch with
    | nil => exact absurd rfl hch
    | cons k ks =>
      cases ps with
      | nil => rw [OccupiesAll] at h3; exact h3.elim
      | cons p' ps =>
        rw [OccupiesAll] at h3
        obtain ⟨f, g, h3, h4, rfl⟩ := h3
        have hp' := (h3.length k p' f).2.2
        rw [List.foldlM_cons]
        have hf : m.fuel = (m.fuel - 1) + 1 := by omega
        rw [hf, destroyNode_released (hr p' (by simp [hp']))]
        rfl

/-- the life of one tree object: trained, used for one instance, destroyed; gives the answer, the
node objects in use after training, and the node and value objects in use at the end -/
def exLife (data : IList XR) (pruning : Option (XR × List Nat)) (x : Inst XR) : Res (String × Nat × Nat × Nat) := do
  let r ← TMem.train ⟨[], []⟩ data pruning
  let a ← r.1.treePredict r.2 x
  let m ← r.1.destroyTree (some r.2)
  pure (a, nodesInUse r.1, nodesInUse m, valuesInUse m)

/-- a tree of three nodes: two values are left behind -/
example : exLife (exOrder XR) none ⟨"?", [.continuous (.fin 2), .indexed "v" 1 2, .discrete "p"], none⟩ = .ok ("b", 3, 0, 2) := by
  decide +kernel

/-- pruning the objects in place: the tree of `pruneWitness` behaves like the pruned tree -/
example : (do
    let r := TMem.newNode ⟨[], []⟩ pruneWitness
    let m ← r.1.prune r.2 pruneWitnessSet
    let a ← r.1.treePredict r.2 ⟨"a", [.discrete "w", .discrete "q"], none⟩
    let b ← m.treePredict r.2 ⟨"a", [.discrete "w", .discrete "q"], none⟩
    pure (a, b)) = .ok ("b", "a") := by decide +kernel

/-- two trees made one after the other form a forest; both are destroyed -/
example : ∃ fps, ForestAt (TMem.newNodes ⟨[], []⟩ [pruneWitness, pruneWitness]).1
    (TMem.newNodes ⟨[], []⟩ [pruneWitness, pruneWitness]).2 [pruneWitness, pruneWitness] fps := by
  obtain ⟨_, _, _, fps, h1, h2, _⟩ := newNodes_spec [pruneWitness, pruneWitness] ⟨[], []⟩
  exact ⟨fps, h1, h2⟩

/-- every tree can be in memory: the hypotheses of the theorems above are met by every tree just made -/
example (m : TMem XR) : ∃ fp, TreeAt (m.newNode pruneWitness).1 (m.newNode pruneWitness).2 pruneWitness fp ∧
    pruneWitness.children ≠ [] := by
  obtain ⟨fp, h, _⟩ := newNode_treeAt m pruneWitness
  exact ⟨fp, h, by simp [pruneWitness, Node.children]⟩

/-- **C158** (violated) Training and destroying tree objects does not leave the memory as it was, and
destroying one that was never trained is undefined. -/
theorem C158_refuted :
    (¬ ∀ (m m' m'' : TMem XR) (data : IList XR) (root : Nat), m.train data none = .ok (m', root) →
      m'.destroyTree (some root) = .ok m'' → nodesInUse m'' = nodesInUse m ∧ valuesInUse m'' = valuesInUse m) ∧
    ¬ ∀ (m : TMem XR) (root : Option Nat), (∀ p, root = some p → ∃ n fp, TreeAt m p n fp) →
      ∃ m', m.destroyTree root = .ok m' := by
  constructor
  · intro h
    have hl : (do
        let r ← TMem.train ⟨[], []⟩ (exOrder XR) none
        let m ← r.1.destroyTree (some r.2)
        pure (valuesInUse m) : Res Nat) = .ok 2 := by decide +kernel
    rw [bind_ok_iff] at hl
    obtain ⟨r, hr, hl⟩ := hl
    rw [bind_ok_iff] at hl
    obtain ⟨m, hm, hl⟩ := hl
    have := (h _ _ _ _ _ hr hm).2
    have e : valuesInUse m = 2 := by injection hl
    rw [e] at this
    simp [valuesInUse] at this
  · intro h
    obtain ⟨m', hm'⟩ := h ⟨[], []⟩ none (by intro p hp; cases hp)
    cases hm'

end Verif
