import Verif.Spec.Pruning
import Verif.Props.TreePrune
import Verif.Props.TestOrder

/-! # C205: what pruning returns -/

set_option linter.unusedSectionVars false

namespace Verif
open Dbl

section
variable {F : Type} [Dbl F]

theorem treePredict_answer (n : Node F) : treePredict n = n.answer firstPossible := rfl

/-! ## one instance at an inner node -/

theorem plainIn_here (lab : String) (m : Node F) (ns : List (Node F)) (x : Inst F) :
    ∀ done : List (Node F), goesTo (done.map Node.cond) m.cond x = true →
    Node.predictPlainIn lab (done ++ m :: ns) x = m.predictPlain x := by
  intro done
  induction done with
  | nil =>
    intro h
    simp only [goesTo, List.map_nil, List.all_nil, Bool.true_and, decide_eq_true_eq] at h
    rw [List.nil_append, Node.predictPlainIn, h]; rfl
  | cons a done ih =>
    intro h
    simp only [goesTo, List.map_cons, List.all_cons, Bool.and_eq_true, decide_eq_true_eq] at h
    rw [List.cons_append, Node.predictPlainIn, h.1.1]
    exact ih (by simp only [goesTo, Bool.and_eq_true, decide_eq_true_eq]; exact ⟨h.1.2, h.2⟩)

theorem plainIn_past (lab : String) (m m' : Node F) (hc : m.cond = m'.cond) (ns : List (Node F))
    (x : Inst F) : ∀ done : List (Node F), goesTo (done.map Node.cond) m.cond x = false →
    Node.predictPlainIn lab (done ++ m :: ns) x = Node.predictPlainIn lab (done ++ m' :: ns) x := by
  intro done
  induction done with
  | nil =>
    intro h
    simp only [goesTo, List.map_nil, List.all_nil, Bool.true_and, decide_eq_false_iff_not] at h
    rw [List.nil_append, List.nil_append, Node.predictPlainIn, Node.predictPlainIn, ← hc]
    cases hs : m.cond.satisfy x with
    | error e => rfl
    | ok b =>
      cases b with
      | true => exact absurd hs h
      | false => rfl
  | cons a done ih =>
    intro h
    rw [List.cons_append, List.cons_append, Node.predictPlainIn, Node.predictPlainIn]
    cases hs : a.cond.satisfy x with
    | error e => rfl
    | ok b =>
      cases b with
      | true => rfl
      | false =>
        refine ih ?_
        simpa [goesTo, hs] using h

theorem compositeIn_here (lab : String) (m : Node F) (ns : List (Node F)) (x : Inst F) :
    ∀ done : List (Node F), goesTo (done.map Node.cond) m.cond x = true →
    Node.predictCompositeIn lab (done ++ m :: ns) x = (do
      let p ← m.predictComposite x
      .ok (if p ≠ "" then p else lab)) := by
  intro done
  induction done with
  | nil =>
    intro h
    simp only [goesTo, List.map_nil, List.all_nil, Bool.true_and, decide_eq_true_eq] at h
    rw [List.nil_append, Node.predictCompositeIn, h]; rfl
  | cons a done ih =>
    intro h
    simp only [goesTo, List.map_cons, List.all_cons, Bool.and_eq_true, decide_eq_true_eq] at h
    rw [List.cons_append, Node.predictCompositeIn, h.1.1]
    exact ih (by simp only [goesTo, Bool.and_eq_true, decide_eq_true_eq]; exact ⟨h.1.2, h.2⟩)

theorem compositeIn_past (lab : String) (m m' : Node F) (hc : m.cond = m'.cond)
    (ns : List (Node F)) (x : Inst F) : ∀ done : List (Node F),
    goesTo (done.map Node.cond) m.cond x = false →
    Node.predictCompositeIn lab (done ++ m :: ns) x =
      Node.predictCompositeIn lab (done ++ m' :: ns) x := by
  intro done
  induction done with
  | nil =>
    intro h
    simp only [goesTo, List.map_nil, List.all_nil, Bool.true_and, decide_eq_false_iff_not] at h
    rw [List.nil_append, List.nil_append, Node.predictCompositeIn, Node.predictCompositeIn, ← hc]
    cases hs : m.cond.satisfy x with
    | error e => rfl
    | ok b =>
      cases b with
      | true => exact absurd hs h
      | false => rfl
  | cons a done ih =>
    intro h
    rw [List.cons_append, List.cons_append, Node.predictCompositeIn, Node.predictCompositeIn]
    cases hs : a.cond.satisfy x with
    | error e => rfl
    | ok b =>
      cases b with
      | true => rfl
      | false =>
        refine ih ?_
        simpa [goesTo, hs] using h

/-- an instance that goes to a child gets the child's answer -/
theorem answer_here (fb : Inst F → Res String) (c : Cond F) (s : String) (d : DD)
    (done : List (Node F)) (m : Node F) (ns : List (Node F)) (x : Inst F)
    (h : goesTo (done.map Node.cond) m.cond x = true) :
    (Node.mk c false s d (done ++ m :: ns)).answer fb x = m.answer (fallback d fb) x := by
  unfold Node.answer Node.predict
  cases hx : x.isComposite with
  | false =>
    simp only [Bool.false_eq_true, if_false, and_false]
    rw [Node.predictPlain]
    simp only [Bool.false_eq_true, if_false]
    rw [plainIn_here s m ns x done h]
  | true =>
    simp only [if_true, and_true]
    rw [Node.predictComposite]
    simp only [Bool.false_eq_true, if_false]
    rw [compositeIn_here _ m ns x done h]
    cases hp : m.predictComposite x with
    | error e => rfl
    | ok p =>
      simp only [res_bind_ok]
      by_cases hpe : p = ""
      · simp only [hpe, ne_eq, not_true_eq_false, if_false, if_true]
        rfl
      · simp [hpe]

/-- an instance that does not go to a child gets the same answer whatever the child is -/
theorem answer_past (fb : Inst F → Res String) (c : Cond F) (s : String) (d : DD)
    (done : List (Node F)) (m m' : Node F) (hc : m.cond = m'.cond) (ns : List (Node F)) (x : Inst F)
    (h : goesTo (done.map Node.cond) m.cond x = false) :
    (Node.mk c false s d (done ++ m :: ns)).answer fb x =
      (Node.mk c false s d (done ++ m' :: ns)).answer fb x := by
  unfold Node.answer Node.predict
  rw [Node.predictPlain, Node.predictPlain, Node.predictComposite, Node.predictComposite]
  simp only [Bool.false_eq_true, if_false]
  rw [plainIn_past s m m' hc ns x done h, compositeIn_past _ m m' hc ns x done h]

/-- as a leaf a node answers the same whatever its children are -/
theorem answer_leaf (fb : Inst F → Res String) (c : Cond F) (s : String) (d : DD)
    (ch ch' : List (Node F)) :
    (Node.mk c true s d ch).answer fb = (Node.mk c true s d ch').answer fb := by
  funext x
  unfold Node.answer Node.predict
  rw [Node.predictPlain, Node.predictPlain, Node.predictComposite, Node.predictComposite]
  rfl

/-- the right answers of an inner node are those of one child on the instances that go to it, and
others that do not depend on the child -/
theorem correct_split (fb : Inst F → Res String) (c : Cond F) (s : String) (d : DD)
    (done ns : List (Node F)) (c0 : Cond F) (l : IList F) :
    ∃ A : Nat, ∀ m : Node F, m.cond = c0 →
      correctOn ((Node.mk c false s d (done ++ m :: ns)).answer fb) l =
        A + correctOn (m.answer (fallback d fb)) (reaching (done.map Node.cond) c0 l) := by
  let m0 : Node F := .mk c0 true "" DD.empty []
  refine ⟨correctOn ((Node.mk c false s d (done ++ m0 :: ns)).answer fb)
    (l.filter (fun x => !goesTo (done.map Node.cond) c0 x)), ?_⟩
  intro m hm
  unfold correctOn reaching
  induction l with
  | nil => rfl
  | cons x l ih =>
    rw [List.countP_cons, ih]
    cases hg : goesTo (done.map Node.cond) c0 x with
    | true =>
      rw [answer_here fb c s d done m ns x (by rw [hm]; exact hg)]
      simp only [List.filter_cons, hg, Bool.not_true, Bool.false_eq_true, if_false, if_true,
        List.countP_cons]
      omega
    | false =>
      rw [answer_past fb c s d done m m0 hm ns x (by rw [hm]; exact hg)]
      simp only [List.filter_cons, hg, Bool.not_false, Bool.false_eq_true, if_false, if_true,
        List.countP_cons]
      omega

theorem PrunedAlone.cond {fb : Inst F → Res String} {l : IList F} {n n' : Node F}
    (h : PrunedAlone fb l n n') : n'.cond = n.cond := by
  cases h <;> rfl

end

/-! ## the walk of pruneNode -/

/-- the accuracy on the pruning set counts right answers -/
theorem acc_lt {l : IList ℝ} {t t' : Node ℝ} {a a' : ℝ} (h : treeAccuracy l t = .ok a)
    (h' : treeAccuracy l t' = .ok a') (hne : l ≠ []) :
    ((a' <. a) = true ↔ correctOn (treePredict t') l < correctOn (treePredict t) l) := by
  have hpos : (0 : ℝ) < l.length := by
    have := List.length_pos_iff.2 hne; exact_mod_cast this
  rw [treeAccuracy_real h, treeAccuracy_real h']
  simp only [lt_real, decide_eq_true_eq]
  rw [div_lt_div_iff_of_pos_right hpos]
  exact_mod_cast Iff.rfl

mutual
theorem pruneNode_alone {set : IList ℝ} (hne : set ≠ []) : ∀ (n n' : Node ℝ)
    (ctx : Node ℝ → Node ℝ) (fb : Inst ℝ → Res String) (l : IList ℝ),
    (∃ A : Nat, ∀ m, m.cond = n.cond →
      correctOn (treePredict (ctx m)) set = A + correctOn (m.answer fb) l) →
    pruneNode (treeAccuracy set) ctx n = .ok n' → PrunedAlone fb l n n'
  | .mk c leaf s d ch, n', ctx, fb, l, ⟨A, hA⟩, h => by
    rw [pruneNode] at h
    cases leaf with
    | true => simp only [if_true] at h; cases h; exact .leaf fb l c s d ch
    | false =>
      simp only [Bool.false_eq_true, if_false, bind_ok_iff] at h
      obtain ⟨before, hb, after, ha, h⟩ := h
      have hdec := acc_lt hb ha hne
      rw [hA (Node.mk c false s d ch) rfl, hA ((Node.mk c false s d ch).setLeaf true) rfl] at hdec
      simp only [Node.setLeaf, Nat.add_lt_add_iff_left] at hdec
      by_cases hlt : (after <. before) = true
      · rw [if_pos hlt, bind_ok_iff] at h
        obtain ⟨ch', hch, h⟩ := h
        cases h
        obtain ⟨hl, hch'⟩ := pruneChildren_alone hne ch ch' []
          (fun ch => ctx (.mk c false s d ch)) (fallback d fb) l (by
            intro done ns c0
            obtain ⟨B, hB⟩ := correct_split fb c s d done ns c0 l
            refine ⟨A + B, ?_⟩
            intro m hm
            rw [hA (.mk c false s d (done ++ m :: ns)) rfl, hB m hm, Nat.add_assoc]) hch
        refine .keep fb l c s d ch ch' (hdec.1 hlt) (by simpa using hl) ?_
        intro i n n' hn hn'
        have := hch' i n n' hn (by simpa using hn')
        simpa using this
      · rw [if_neg hlt] at h
        cases h
        exact .cut fb l c s d ch (by rw [← not_lt]; exact fun hh => hlt (hdec.2 hh))
theorem pruneChildren_alone {set : IList ℝ} (hne : set ≠ []) : ∀ (ns r done : List (Node ℝ))
    (ctx : List (Node ℝ) → Node ℝ) (fb : Inst ℝ → Res String) (l : IList ℝ),
    (∀ (done ns : List (Node ℝ)) (c0 : Cond ℝ), ∃ A : Nat, ∀ m : Node ℝ, m.cond = c0 →
      correctOn (treePredict (ctx (done ++ m :: ns))) set =
        A + correctOn (m.answer fb) (reaching (done.map Node.cond) c0 l)) →
    pruneChildren (treeAccuracy set) ctx done ns = .ok r →
    done.length + ns.length = r.length ∧
    ∀ (i : Nat) n n', ns[i]? = some n → r[done.length + i]? = some n' →
      PrunedAlone fb (reaching (done.map Node.cond ++ (ns.take i).map Node.cond) n.cond l) n n'
  | [], r, done, ctx, fb, l, hctx, h => by
    rw [pruneChildren] at h; cases h
    exact ⟨by simp, by intro i n n' hn; simp at hn⟩
  | n :: ns, r, done, ctx, fb, l, hctx, h => by
    rw [pruneChildren, bind_ok_iff] at h
    obtain ⟨n1, hn1, h⟩ := h
    have h2 := pruneNode_alone hne n n1 (fun m => ctx (done ++ m :: ns)) fb
      (reaching (done.map Node.cond) n.cond l) (hctx done ns n.cond) hn1
    obtain ⟨h4, h5⟩ := pruneChildren_alone hne ns r (done ++ [n1]) ctx fb l hctx h
    have hkeep : r[done.length]? = some n1 := pruneChildren_keeps ns r (done ++ [n1]) ctx h
        done.length (by simp) ▸ (by simp)
    refine ⟨by simp at h4 ⊢; omega, ?_⟩
    intro i m m' hm hm'
    cases i with
    | zero =>
      simp only [List.getElem?_cons_zero, Option.some.injEq] at hm
      subst hm
      rw [Nat.add_zero, hkeep] at hm'
      cases hm'
      simpa using h2
    | succ i =>
      have := h5 i m m' (by simpa using hm) (by
        rw [← hm']; congr 1; simp; omega)
      simpa [h2.cond] using this
end

/-- **C205.** Pruning works on every subtree by itself: an inner node becomes a leaf exactly if,
on the instances of the pruning set that reach it, it is then right at least as often; otherwise
its children are pruned in the same way. What happens elsewhere in the tree, before or after,
makes no difference (exact arithmetic). -/
theorem C205_local {root root' : Node ℝ} {set : IList ℝ} (hne : set ≠ [])
    (h : prune root set = .ok root') : PrunedAlone firstPossible set root root' :=
  pruneNode_alone hne root root' id firstPossible set ⟨0, fun m _ => by
    rw [Nat.zero_add]; rfl⟩ h

/-! ## nothing is left to cut -/

theorem countP_pruned {F : Type} [Dbl F] (fb : Inst F → Res String) (c : Cond F) (s : String)
    (d : DD) (l : IList F) : ∀ (rest done rest' : List (Node F)), rest.length = rest'.length →
    (∀ (i : Nat) n n', rest[i]? = some n → rest'[i]? = some n' → n'.cond = n.cond ∧
      correctOn (n.answer (fallback d fb)) (reaching ((done ++ rest.take i).map Node.cond) n.cond l) ≤
      correctOn (n'.answer (fallback d fb)) (reaching ((done ++ rest.take i).map Node.cond) n.cond l)) →
    correctOn ((Node.mk c false s d (done ++ rest)).answer fb) l ≤
      correctOn ((Node.mk c false s d (done ++ rest')).answer fb) l := by
  intro rest
  induction rest with
  | nil => intro done rest' hl _; cases rest' with
    | nil => exact le_rfl
    | cons => simp at hl
  | cons n rest ih =>
    intro done rest' hl h
    cases rest' with
    | nil => simp at hl
    | cons n' rest' =>
      obtain ⟨hc, hle⟩ := h 0 n n' rfl rfl
      simp only [List.take_zero, List.append_nil] at hle
      obtain ⟨A, hA⟩ := correct_split fb c s d done rest n.cond l
      have h1 : correctOn ((Node.mk c false s d (done ++ n :: rest)).answer fb) l ≤
          correctOn ((Node.mk c false s d (done ++ n' :: rest)).answer fb) l := by
        rw [hA n rfl, hA n' hc]; omega
      refine le_trans h1 ?_
      have h2 := ih (done ++ [n']) rest' (by simpa using hl) (by
        intro i m m' hm hm'
        have := h (i + 1) m m' (by simpa using hm) (by simpa using hm')
        simpa [hc] using this)
      simpa using h2

/-- pruning by itself does not lower the number of right answers -/
theorem PrunedAlone.le {F : Type} [Dbl F] {fb : Inst F → Res String} {l : IList F} {n n' : Node F}
    (h : PrunedAlone fb l n n') : correctOn (n.answer fb) l ≤ correctOn (n'.answer fb) l := by
  induction h with
  | leaf => exact le_rfl
  | cut fb l c s d ch h => exact h
  | keep fb l c s d ch ch' h hlen hch ih =>
    have := countP_pruned fb c s d l ch [] ch' hlen (by
      intro i n n' hn hn'
      exact ⟨(hch i n n' hn hn').cond, by simpa using ih i n n' hn hn'⟩)
    simpa using this

theorem map_cond_take {F : Type} [Dbl F] {ch ch' : List (Node F)} (hlen : ch.length = ch'.length)
    (hc : ∀ (i : Nat) n n', ch[i]? = some n → ch'[i]? = some n' → n'.cond = n.cond) (k : Nat) :
    (ch'.take k).map Node.cond = (ch.take k).map Node.cond := by
  have h : ch'.map Node.cond = ch.map Node.cond := by
    apply List.ext_getElem?
    intro i
    rw [List.getElem?_map, List.getElem?_map]
    cases h1 : ch[i]? with
    | none =>
      rw [List.getElem?_eq_none (by rw [← hlen]; exact List.getElem?_eq_none_iff.1 h1)]
    | some n =>
      have hi : i < ch'.length := by
        rw [← hlen]; exact (List.getElem?_eq_some_iff.1 h1).1
      rw [List.getElem?_eq_getElem hi]
      simp only [Option.map_some]
      rw [hc i n ch'[i] h1 (List.getElem?_eq_getElem hi)]
  rw [List.map_take, List.map_take, h]

/-- every further cut loses right answers -/
theorem PrunedAlone.no_cut {F : Type} [Dbl F] {fb : Inst F → Res String} {l : IList F}
    {n n' : Node F} (h : PrunedAlone fb l n n') : ∀ t, CutOnce n' t →
    correctOn (t.answer fb) l < correctOn (n'.answer fb) l := by
  induction h with
  | leaf => intro t ht; cases ht
  | cut => intro t ht; cases ht
  | keep fb l c s d ch ch' h hlen hch ih =>
    intro t ht
    have hk : PrunedAlone fb l (.mk c false s d ch) (.mk c false s d ch') :=
      .keep fb l c s d ch ch' h hlen hch
    generalize hN : Node.mk c false s d ch' = N at ht hk ⊢
    cases ht with
    | here c1 s1 d1 ch1 =>
      cases hN
      rw [answer_leaf fb c s d ch' ch]
      exact lt_of_lt_of_le h hk.le
    | child c1 s1 d1 left right m m' hcut =>
      cases hN
      have hi : left.length < ch.length := by rw [hlen]; simp
      have hm : (left ++ m :: right)[left.length]? = some m := by simp
      have hmc := (hch left.length ch[left.length] m (List.getElem?_eq_getElem hi) hm).cond
      have hlt := ih left.length ch[left.length] m (List.getElem?_eq_getElem hi) hm m' hcut
      obtain ⟨A, hA⟩ := correct_split fb c s d left right m.cond l
      have hm'c : m'.cond = m.cond := by cases hcut <;> rfl
      rw [hA m rfl, hA m' hm'c]
      have htake := map_cond_take hlen (fun i n n' hn hn' => (hch i n n' hn hn').cond) left.length
      simp only [List.take_left'] at htake
      rw [← htake, ← hmc] at hlt
      omega

/-- **C205.** Nothing is left to cut: turning any one further inner node of the pruned tree into
a leaf loses right answers on the pruning set. -/
theorem C205_no_cut_left {root root' t : Node ℝ} {set : IList ℝ} (hne : set ≠ [])
    (h : prune root set = .ok root') (ht : CutOnce root' t) :
    correctOn (treePredict t) set < correctOn (treePredict root') set :=
  (C205_local hne h).no_cut t ht

/-! ## pruning again -/

mutual
theorem pruneNode_stays {F : Type} [Dbl F] {acc : Node F → Res F} : ∀ (n : Node F)
    (ctx : Node F → Node F), (∀ m m', CutOnce m m' → CutOnce (ctx m) (ctx m')) →
    (∀ t, CutOnce (ctx n) t → ∃ b a, acc (ctx n) = .ok b ∧ acc t = .ok a ∧ (a <. b) = true) →
    pruneNode acc ctx n = .ok n
  | .mk c leaf s d ch, ctx, hctx, h => by
    rw [pruneNode]
    cases leaf with
    | true => rfl
    | false =>
      obtain ⟨b, a, hb, ha, hlt⟩ := h _ (hctx _ _ (.here c s d ch))
      simp only [Bool.false_eq_true, if_false, hb, Node.setLeaf, ha, hlt, res_bind_ok, if_true]
      rw [pruneChildren_stays ch [] (fun ch => ctx (.mk c false s d ch))
        (fun l m m' r hmm => hctx _ _ (.child c s d l r m m' hmm)) (by simpa using h)]
      rfl
theorem pruneChildren_stays {F : Type} [Dbl F] {acc : Node F → Res F} : ∀ (ns done : List (Node F))
    (ctx : List (Node F) → Node F),
    (∀ l m m' r, CutOnce m m' → CutOnce (ctx (l ++ m :: r)) (ctx (l ++ m' :: r))) →
    (∀ t, CutOnce (ctx (done ++ ns)) t →
      ∃ b a, acc (ctx (done ++ ns)) = .ok b ∧ acc t = .ok a ∧ (a <. b) = true) →
    pruneChildren acc ctx done ns = .ok (done ++ ns)
  | [], done, ctx, hctx, h => by rw [pruneChildren, List.append_nil]
  | n :: ns, done, ctx, hctx, h => by
    rw [pruneChildren]
    rw [pruneNode_stays n (fun m => ctx (done ++ m :: ns)) (fun m m' hmm => hctx done m m' ns hmm) h]
    simp only [res_bind_ok]
    rw [pruneChildren_stays ns (done ++ [n]) ctx hctx (by simpa using h)]
    simp
end

/-- cutting does not make a prediction fail -/
theorem CutOnce.answers {F : Type} [Dbl F] {n t : Node F} (h : CutOnce n t) :
    ∀ (fb : Inst F → Res String) (x : Inst F), (∃ a, fb x = .ok a) →
    (∃ a, n.answer fb x = .ok a) → ∃ a, t.answer fb x = .ok a := by
  induction h with
  | here c s d ch =>
    intro fb x ⟨f, hf⟩ _
    unfold Node.answer Node.predict
    rw [Node.predictComposite, Node.predictPlain]
    simp only [if_true]
    split <;> simp only [res_bind_ok] <;> split <;> simp [hf]
  | child c s d left right m m' hcut ih =>
    intro fb x hf ha
    have hm'c : m.cond = m'.cond := by cases hcut <;> rfl
    cases hg : goesTo (left.map Node.cond) m.cond x with
    | true =>
      rw [answer_here fb c s d left m right x hg] at ha
      rw [answer_here fb c s d left m' right x (by rw [← hm'c]; exact hg)]
      refine ih _ x ?_ ha
      unfold fallback
      split
      · exact hf
      · exact ⟨_, rfl⟩
    | false =>
      rw [← answer_past fb c s d left m m' hm'c right x hg]
      exact ha

mutual
theorem composite_empty {F : Type} [Dbl F] (x : Inst F) (he : x.possibleLabels = []) :
    ∀ (n : Node F) (p : String), n.predictComposite x = .ok p → p = ""
  | .mk c leaf lab d ch, p, h => by
    rw [Node.predictComposite] at h
    have h0 : d.getMaxItemOf x.possibleLabels = "" := by rw [he]; rfl
    rw [h0] at h
    split at h
    · cases h; rfl
    · exact compositeIn_empty x he ch p h
theorem compositeIn_empty {F : Type} [Dbl F] (x : Inst F) (he : x.possibleLabels = []) :
    ∀ (ns : List (Node F)) (p : String), Node.predictCompositeIn "" ns x = .ok p → p = ""
  | [], p, h => by rw [Node.predictCompositeIn] at h; cases h; rfl
  | n :: ns, p, h => by
    rw [Node.predictCompositeIn, bind_ok_iff] at h
    obtain ⟨b, _, h⟩ := h
    split at h
    · rw [bind_ok_iff] at h
      obtain ⟨q, hq, h⟩ := h
      have := composite_empty x he n q hq
      subst this
      cases h; rfl
    · exact compositeIn_empty x he ns p h
end

/-- cutting does not make a prediction of a tree fail -/
theorem CutOnce.predicts {F : Type} [Dbl F] {n t : Node F} (h : CutOnce n t) (x : Inst F)
    (hx : ∃ a, treePredict n x = .ok a) : ∃ a, treePredict t x = .ok a := by
  rw [treePredict_answer] at hx ⊢
  by_cases hf : ∃ a, firstPossible x = .ok a
  · exact h.answers firstPossible x hf hx
  · have he : x.possibleLabels = [] := by
      cases hp : x.possibleLabels with
      | nil => rfl
      | cons a as => exact absurd ⟨a, by unfold firstPossible; rw [hp]; rfl⟩ hf
    by_cases hc : x.isComposite = true
    · exfalso
      obtain ⟨a, ha⟩ := hx
      unfold Node.answer Node.predict at ha
      rw [if_pos hc, bind_ok_iff] at ha
      obtain ⟨p, hp, ha⟩ := ha
      rw [if_pos ⟨composite_empty x he n p hp, hc⟩] at ha
      exact hf ⟨a, ha⟩
    · have hpl : ∀ (m : Node F) (g : Inst F → Res String),
          m.answer firstPossible x = m.answer g x := by
        intro m g
        unfold Node.answer
        simp [hc]
      rw [hpl n (fun _ => .ok "")] at hx
      rw [hpl t (fun _ => .ok "")]
      exact h.answers (fun _ => .ok "") x ⟨"", rfl⟩ hx

theorem treeAccuracy_ok_iff {F : Type} [Dbl F] {t : Node F} {l : IList F} :
    (∃ a, treeAccuracy l t = .ok a) ↔ ∀ x ∈ l, ∃ a, treePredict t x = .ok a := by
  constructor
  · rintro ⟨a, h⟩
    unfold treeAccuracy testClassifier at h
    rw [bind_ok_iff] at h
    obtain ⟨p, h, _⟩ := h
    rw [bind_ok_iff] at h
    obtain ⟨c0, hc0, _⟩ := h
    obtain ⟨p, hp⟩ := predicts_all (step := fun (n : Nat) x q => if x.label = q then n + 1 else n) hc0
    exact fun x hx => ⟨p x, hp x hx⟩
  · intro h
    have : ∀ (l : IList F) (n : Nat), (∀ x ∈ l, ∃ a, treePredict t x = .ok a) →
        ∃ k, l.foldlM (fun (n : Nat) x => do
          let p ← treePredict t x
          (pure (if x.label = p then n + 1 else n) : Res Nat)) n = .ok k := by
      intro l
      induction l with
      | nil => intro n _; exact ⟨n, rfl⟩
      | cons x l ih =>
        intro n hl
        obtain ⟨a, ha⟩ := hl x (by simp)
        rw [List.foldlM_cons, ha]
        exact ih _ (fun y hy => hl y (by simp [hy]))
    obtain ⟨k, hk⟩ := this l 0 h
    unfold treeAccuracy testClassifier
    rw [hk]
    exact ⟨_, rfl⟩

/-- **C205.** Pruning the pruned tree again on the same instances changes nothing. -/
theorem C205_twice {root root' : Node ℝ} {set : IList ℝ} (hne : set ≠ [])
    (h : prune root set = .ok root') : prune root' set = .ok root' := by
  have hacc : root'.isLeaf = true ∨ ∃ b, treeAccuracy set root' = .ok b := by
    rcases Relation.ReflTransGen.cases_tail (C61_every_cut_keeps_accuracy h) with e | ⟨u, _, hu⟩
    · subst e
      cases root' with
      | mk c leaf s d ch =>
        cases leaf with
        | true => exact .inl rfl
        | false =>
          rw [prune, pruneNode] at h
          simp only [Bool.false_eq_true, if_false, bind_ok_iff] at h
          obtain ⟨b, hb, _⟩ := h
          exact .inr ⟨b, hb⟩
    · obtain ⟨_, _, a', _, ha', _⟩ := hu
      exact .inr ⟨a', ha'⟩
  rcases hacc with hl | ⟨b, hb⟩
  · exact C62_leaf_unchanged hl
  · refine pruneNode_stays root' id (fun _ _ h => h) ?_
    intro t ht
    have ht' : CutOnce root' t := ht
    obtain ⟨a, ha⟩ := treeAccuracy_ok_iff.2 (fun x hx =>
      ht'.predicts x (treeAccuracy_ok_iff.1 ⟨b, hb⟩ x hx))
    exact ⟨b, a, hb, ha, (acc_lt hb ha hne).2 (C205_no_cut_left hne h ht)⟩

/-! ## the order of the pruning set -/

mutual
theorem pruneNode_mono {F : Type} [Dbl F] {acc acc' : Node F → Res F}
    (hacc : ∀ t a, acc t = .ok a → acc' t = .ok a) : ∀ (n n' : Node F) (ctx : Node F → Node F),
    pruneNode acc ctx n = .ok n' → pruneNode acc' ctx n = .ok n'
  | .mk c leaf s d ch, n', ctx, h => by
    rw [pruneNode] at h ⊢
    cases leaf with
    | true => exact h
    | false =>
      simp only [Bool.false_eq_true, if_false, bind_ok_iff] at h ⊢
      obtain ⟨b, hb, a, ha, h⟩ := h
      refine ⟨b, hacc _ _ hb, a, hacc _ _ ha, ?_⟩
      by_cases hlt : (a <. b) = true
      · rw [if_pos hlt, bind_ok_iff] at h ⊢
        obtain ⟨ch', hch, h⟩ := h
        exact ⟨ch', pruneChildren_mono hacc ch ch' [] _ hch, h⟩
      · rw [if_neg hlt] at h ⊢
        exact h
theorem pruneChildren_mono {F : Type} [Dbl F] {acc acc' : Node F → Res F}
    (hacc : ∀ t a, acc t = .ok a → acc' t = .ok a) : ∀ (ns r done : List (Node F))
    (ctx : List (Node F) → Node F),
    pruneChildren acc ctx done ns = .ok r → pruneChildren acc' ctx done ns = .ok r
  | [], r, done, ctx, h => by rw [pruneChildren] at h ⊢; exact h
  | n :: ns, r, done, ctx, h => by
    rw [pruneChildren, bind_ok_iff] at h ⊢
    obtain ⟨n1, hn1, h⟩ := h
    exact ⟨n1, pruneNode_mono hacc n n1 _ hn1, pruneChildren_mono hacc ns r _ ctx h⟩
end

/-- **C205.** The order of the instances in the pruning set makes no difference, in any
arithmetic. -/
theorem C205_order {F : Type} [Dbl F] {root root' : Node F} {set set' : IList F}
    (hp : set.Perm set') (h : prune root set = .ok root') : prune root set' = .ok root' := by
  refine pruneNode_mono ?_ root root' id h
  intro t a ha
  unfold treeAccuracy at ha ⊢
  rw [bind_ok_iff] at ha ⊢
  obtain ⟨r, hr, ha⟩ := ha
  exact ⟨r, C196_testClassifier hp hr, ha⟩

/-! ## pruning need not find the best tree -/

/-- the pruning set: one instance for which the tree is needed, one for which a subtree is wrong -/
def topDownSet : IList XR :=
  [⟨"b", [.discrete "u", .discrete "p"], none⟩, ⟨"a", [.discrete "w", .discrete "q"], none⟩]

/-- the tree `pruneWitness` with only its lower inner node cut -/
def topDownBetter : Node XR :=
  .mk Cond.root false "a" ⟨[("a", 2), ("b", 1)], 3⟩
    [.mk ⟨0, '=', some (.discrete "u")⟩ true "b" ⟨[("b", 1)], 1⟩ [],
     .mk ⟨0, '=', some (.discrete "w")⟩ true "a" ⟨[("a", 1), ("b", 1)], 2⟩
       [.mk ⟨1, '=', some (.discrete "p")⟩ true "a" ⟨[("a", 1)], 1⟩ [],
        .mk ⟨1, '=', some (.discrete "q")⟩ true "b" ⟨[("b", 1)], 1⟩ []]]

/-- **C205 fails of the code where it says that pruning finds the best tree that can be had by
cutting**: the root is tried before the nodes below it. Here it becomes a leaf, right on one of
two instances; cutting only the node below it would have been right on both. -/
theorem C205_best_refuted : ∃ (root root' best : Node XR) (set : IList XR),
    prune root set = .ok root' ∧ PrunedFrom root best ∧
    correctOn (treePredict root') set < correctOn (treePredict best) set := by
  have h1 : treeAccuracy topDownSet pruneWitness = .ok (.fin (1 / 2)) := by decide +kernel
  have h2 : treeAccuracy topDownSet (pruneWitness.setLeaf true) = .ok (.fin (1 / 2)) := by
    decide +kernel
  refine ⟨pruneWitness, pruneWitness.setLeaf true, topDownBetter, topDownSet, ?_, ?_,
    by decide +kernel⟩
  · unfold prune
    rw [show pruneWitness = Node.mk pruneWitness.cond false pruneWitness.label pruneWitness.dist
      pruneWitness.children from rfl] at h1 h2 ⊢
    rw [pruneNode]
    simp only [Bool.false_eq_true, if_false, id, h1, h2, res_bind_ok]
    rw [if_neg (by decide +kernel)]
  · refine .inner _ _ _ _ _ rfl ?_
    intro i n n' hn hn'
    match i with
    | 0 => cases hn; cases hn'; exact .same _
    | 1 => cases hn; cases hn'; exact .cut _ _ _ _
    | i + 2 => simp at hn

/-- a tree over the real numbers and an instance for which it is needed -/
def keepTree : Node ℝ :=
  .mk Cond.root false "a" ⟨[("a", 2), ("b", 1)], 3⟩
    [.mk ⟨0, '=', some (.discrete "u")⟩ true "b" ⟨[("b", 1)], 1⟩ []]

/-- the assumption of `C205_local`, `C205_no_cut_left` and `C205_twice` is met with a tree that
is kept -/
example : prune keepTree [⟨"b", [.discrete "u"], none⟩] = .ok keepTree := by
  refine pruneNode_stays keepTree id (fun _ _ h => h) ?_
  intro t ht
  have h1 : treePredict keepTree ⟨"b", [.discrete "u"], none⟩ = .ok "b" := by rfl
  have ha : treeAccuracy [⟨"b", [.discrete "u"], none⟩] keepTree = .ok (1 / 1 : ℝ) := by
    unfold treeAccuracy testClassifier
    simp [h1, Perf.ofAccuracy, Perf.getAccuracy]
  generalize hk : id keepTree = k at ht
  cases ht with
  | here c s d ch =>
    cases hk
    have h2 : treePredict ((.mk Cond.root true "a" ⟨[("a", 2), ("b", 1)], 3⟩
      [.mk ⟨0, '=', some (.discrete "u")⟩ true "b" ⟨[("b", 1)], 1⟩ []] : Node ℝ))
      ⟨"b", [.discrete "u"], none⟩ = .ok "a" := by rfl
    have hb : treeAccuracy [⟨"b", [.discrete "u"], none⟩] (.mk Cond.root true "a" ⟨[("a", 2), ("b", 1)], 3⟩
      [.mk ⟨0, '=', some (.discrete "u")⟩ true "b" ⟨[("b", 1)], 1⟩ []] : Node ℝ) = .ok (0 / 1 : ℝ) := by
      unfold treeAccuracy testClassifier
      simp [h2, Perf.ofAccuracy, Perf.getAccuracy]
    exact ⟨_, _, ha, hb, by simp⟩
  | child c s d l r n n' h =>
    exfalso
    have hch : keepTree.children = l ++ n :: r := by rw [show keepTree = _ from hk]; rfl
    have hn : n ∈ keepTree.children := by rw [hch]; simp
    simp only [keepTree, Node.children, List.mem_singleton] at hn
    subst hn
    cases h

end Verif
