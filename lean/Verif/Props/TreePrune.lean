import Verif.Props.TreeGrow
import Verif.Props.SimpleModels
import Verif.Props.ExpPerf

/-! # Properties C61-C65: pruning, composite instances, ensembles -/

set_option linter.unusedSectionVars false

namespace Verif
open Dbl

section
variable {F : Type} [Dbl F]

/-! ## pruning -/

/-- one accepted pruning decision: a single cut, the accuracy not lowered -/
def PruneStep (acc : Node F → Res F) (t t' : Node F) : Prop :=
  CutOnce t t' ∧ ∃ a a', acc t = .ok a ∧ acc t' = .ok a' ∧ (a' <. a) = false

mutual
theorem pruneNode_steps {acc : Node F → Res F} :
    ∀ (n n' : Node F) (ctx : Node F → Node F), (∀ m m', CutOnce m m' → CutOnce (ctx m) (ctx m')) →
    pruneNode acc ctx n = .ok n' →
    Relation.ReflTransGen (PruneStep acc) (ctx n) (ctx n') ∧ PrunedFrom n n'
  | .mk c leaf s d ch, n', ctx, hctx, h => by
    rw [pruneNode] at h
    cases leaf with
    | true => simp only [if_true] at h; cases h; exact ⟨.refl, .same _⟩
    | false =>
      simp only [Bool.false_eq_true, if_false, bind_ok_iff] at h
      obtain ⟨before, hb, after, ha, h⟩ := h
      by_cases hlt : (after <. before) = true
      · rw [if_pos hlt, bind_ok_iff] at h
        obtain ⟨ch', hch, h⟩ := h
        cases h
        obtain ⟨h1, h2, h3⟩ := pruneChildren_steps ch ch' [] (fun ch => ctx (.mk c false s d ch))
          (by
            intro l m m' r hmm
            exact hctx _ _ (.child c s d l r m m' hmm)) hch
        refine ⟨by simpa [Node.setLeaf] using h1, ?_⟩
        exact .inner c s d ch ch' (by simpa using h2) (by
          intro i n n' hn hn'
          exact h3 i n n' hn (by simpa using hn'))
      · rw [if_neg hlt] at h
        cases h
        exact ⟨.single ⟨hctx _ _ (.here c s d ch), before, after, hb, ha, by simpa using hlt⟩, .cut c s d ch⟩
theorem pruneChildren_steps {acc : Node F → Res F} :
    ∀ (ns r done : List (Node F)) (ctx : List (Node F) → Node F),
    (∀ l m m' r, CutOnce m m' → CutOnce (ctx (l ++ m :: r)) (ctx (l ++ m' :: r))) →
    pruneChildren acc ctx done ns = .ok r →
    Relation.ReflTransGen (PruneStep acc) (ctx (done ++ ns)) (ctx r) ∧ done.length + ns.length = r.length ∧
    ∀ (i : Nat) n n', ns[i]? = some n → r[done.length + i]? = some n' → PrunedFrom n n'
  | [], r, done, ctx, hctx, h => by
    rw [pruneChildren] at h; cases h
    exact ⟨by rw [List.append_nil], by simp, by intro i n n' hn; simp at hn⟩
  | n :: ns, r, done, ctx, hctx, h => by
    rw [pruneChildren, bind_ok_iff] at h
    obtain ⟨n1, hn1, h⟩ := h
    obtain ⟨h1, h2⟩ := pruneNode_steps n n1 (fun m => ctx (done ++ m :: ns))
      (fun m m' hmm => hctx done m m' ns hmm) hn1
    obtain ⟨h3, h4, h5⟩ := pruneChildren_steps ns r (done ++ [n1]) ctx hctx h
    have hkeep : r[done.length]? = some n1 := pruneChildren_keeps ns r (done ++ [n1]) ctx h
        done.length (by simp) ▸ (by simp)
    refine ⟨h1.trans (by simpa using h3), by simp at h4 ⊢; omega, ?_⟩
    intro i m m' hm hm'
    cases i with
    | zero =>
      simp only [List.getElem?_cons_zero, Option.some.injEq] at hm
      subst hm
      rw [Nat.add_zero, hkeep] at hm'
      cases hm'; exact h2
    | succ i =>
      refine h5 i m m' (by simpa using hm) ?_
      rw [← hm']; congr 1; simp; omega
theorem pruneChildren_keeps {acc : Node F → Res F} :
    ∀ (ns r done : List (Node F)) (ctx : List (Node F) → Node F),
    pruneChildren acc ctx done ns = .ok r → ∀ i < done.length, r[i]? = done[i]?
  | [], r, done, ctx, h => by rw [pruneChildren] at h; cases h; intro i _; rfl
  | n :: ns, r, done, ctx, h => by
    rw [pruneChildren, bind_ok_iff] at h
    obtain ⟨n1, _, h⟩ := h
    intro i hi
    rw [pruneChildren_keeps ns r (done ++ [n1]) ctx h i (by simp; omega), List.getElem?_append_left hi]
end

/-- **C61.** Pruning is a sequence of single cuts, each of which leaves the accuracy on the pruning
set at least as high as it was. This holds in any arithmetic. -/
theorem C61_every_cut_keeps_accuracy {root root' : Node F} {pruneSet : IList F}
    (h : prune root pruneSet = .ok root') :
    Relation.ReflTransGen (PruneStep (treeAccuracy pruneSet)) root root' :=
  (pruneNode_steps root root' id (fun _ _ h => h) h).1

/-- **C62.** Pruning only marks inner nodes as leaves; conditions, labels, distributions and
children are unchanged. -/
theorem C62_prune_only_cuts {root root' : Node F} {pruneSet : IList F}
    (h : prune root pruneSet = .ok root') : PrunedFrom root root' :=
  (pruneNode_steps root root' id (fun _ _ h => h) h).2

/-- **C62.** In particular a leaf stays as it is. -/
theorem C62_leaf_unchanged {root : Node F} {pruneSet : IList F} (h : root.isLeaf = true) :
    prune root pruneSet = .ok root := by
  cases root with
  | mk c l s d ch => simp only [Node.isLeaf] at h; subst h; rw [prune, pruneNode]; rfl

/-- **C61.** The root itself is cut exactly when the accuracy of the single leaf is not below that
of the whole tree: pruning does not stop early. -/
theorem C61_root_decision {c : Cond F} {s : String} {d : DD} {ch : List (Node F)} {root' : Node F}
    {pruneSet : IList F} (h : prune (.mk c false s d ch) pruneSet = .ok root') :
    ∃ a a', treeAccuracy pruneSet (.mk c false s d ch) = .ok a ∧
      treeAccuracy pruneSet (.mk c true s d ch) = .ok a' ∧
      (root'.isLeaf = true ↔ (a' <. a) = false) := by
  rw [prune, pruneNode] at h
  simp only [Bool.false_eq_true, if_false, bind_ok_iff] at h
  obtain ⟨a, ha, a', ha', h⟩ := h
  refine ⟨a, a', ha, ha', ?_⟩
  by_cases hlt : (a' <. a) = true
  · rw [if_pos hlt, bind_ok_iff] at h
    obtain ⟨ch', _, h⟩ := h
    cases h
    simp [Node.isLeaf, Node.setLeaf, hlt]
  · rw [if_neg hlt] at h
    cases h
    simp [Node.isLeaf, Node.setLeaf, hlt]

/-- a tree that over-fits: the node under `w` is not supported by the pruning set below -/
def pruneWitness : Node XR :=
  .mk Cond.root false "a" ⟨[("a", 2), ("b", 1)], 3⟩
    [.mk ⟨0, '=', some (.discrete "u")⟩ true "b" ⟨[("b", 1)], 1⟩ [],
     .mk ⟨0, '=', some (.discrete "w")⟩ false "a" ⟨[("a", 1), ("b", 1)], 2⟩
       [.mk ⟨1, '=', some (.discrete "p")⟩ true "a" ⟨[("a", 1)], 1⟩ [],
        .mk ⟨1, '=', some (.discrete "q")⟩ true "b" ⟨[("b", 1)], 1⟩ []]]

/-- its pruning set -/
def pruneWitnessSet : IList XR :=
  [⟨"b", [.discrete "u", .discrete "p"], none⟩, ⟨"b", [.discrete "u", .discrete "q"], none⟩,
   ⟨"a", [.discrete "w", .discrete "q"], none⟩]

/-- the lower inner node is cut, the root is kept, and the accuracy goes up from 2/3 to 1 -/
example : (prune pruneWitness pruneWitnessSet).toOption.map
    (fun t => (t.isLeaf, t.children.map Node.isLeaf, correctOn (treePredict t) pruneWitnessSet)) =
    some (false, [true, true], 3) := by decide +kernel

example : correctOn (treePredict pruneWitness) pruneWitnessSet = 2 := by decide +kernel

/-- a composite instance and a tree whose own label is not among the possible ones -/
example : treePredict pruneWitness ⟨"c", [.discrete "w", .discrete "q"], some ["a", "c"]⟩ = .ok "a" := by
  decide +kernel

/-- three trees vote -/
example : ensemblePredict [pruneWitness, .mk Cond.root true "b" ⟨[("b", 1)], 1⟩ [], .mk Cond.root true "a" ⟨[("a", 1)], 1⟩ []]
    ⟨"?", [.discrete "w", .discrete "q"], none⟩ = .ok "b" := by decide +kernel

end

/-- the accuracy of a tree, when defined, is its share of correct predictions -/
theorem treeAccuracy_real {t : Node ℝ} {l : IList ℝ} {a : ℝ} (h : treeAccuracy l t = .ok a) :
    a = (correctOn (treePredict t) l : ℝ) / l.length := by
  unfold treeAccuracy testClassifier at h
  simp only [bind_ok_iff, res_pure, Except.ok.injEq] at h
  obtain ⟨p, ⟨n, hn, rfl⟩, h⟩ := h
  have key : ∀ (l : IList ℝ) (k n : Nat), l.foldlM (fun (n : Nat) x => do
      let p ← treePredict t x
      (pure (if x.label = p then n + 1 else n) : Res Nat)) k = .ok n → n = k + correctOn (treePredict t) l := by
    intro l
    induction l with
    | nil => intro k n h; cases h; simp [correctOn]
    | cons x l ih =>
      intro k n h
      simp only [List.foldlM_cons, bind_ok_iff, res_pure] at h
      obtain ⟨k', ⟨p, hp, hk⟩, h⟩ := h
      rw [ih k' n h]
      cases hk
      unfold correctOn
      rw [List.countP_cons, hp]
      by_cases hx : x.label = p
      · simp [hx]; omega
      · have : ¬ p = x.label := fun e => hx e.symm
        simp [hx, this]
  have := key l 0 n hn
  rw [zero_add] at this
  simp only [Perf.ofAccuracy, Perf.getAccuracy, div_real, ofNat_real] at h
  cases h
  rw [this]

/-- **C61.** In exact arithmetic the pruned tree classifies at least as many instances of the
pruning set correctly as the tree before. -/
theorem C61_prune_never_worse {root root' : Node ℝ} {pruneSet : IList ℝ} (hne : pruneSet ≠ [])
    (h : prune root pruneSet = .ok root') :
    correctOn (treePredict root) pruneSet ≤ correctOn (treePredict root') pruneSet := by
  have hs := C61_every_cut_keeps_accuracy h
  clear h
  have hpos : (0 : ℝ) < pruneSet.length := by
    have := List.length_pos_iff.2 hne; exact_mod_cast this
  induction hs with
  | refl => exact le_refl _
  | tail _ hstep ih =>
    refine le_trans ih ?_
    obtain ⟨_, a, a', ha, ha', hlt⟩ := hstep
    rw [treeAccuracy_real ha, treeAccuracy_real ha'] at hlt
    simp only [lt_real, decide_eq_false_iff_not, not_lt] at hlt
    rw [div_le_div_iff_of_pos_right hpos] at hlt
    exact_mod_cast hlt

/-- **C61.** Training with pruning divides the data into two stratified parts, grows the tree on the
second one and prunes it on the first: the result is a cut-back of the grown tree and classifies at
least as many instances of the held-out first part correctly. -/
theorem C61_training {data : IList ℝ} {r : ℝ} {σ : List Nat} {n : Node ℝ} {ps : Parts ℝ}
    {held grown : IList ℝ} (hps : Parts.byRatioStratified data r σ = .ok ps)
    (h0 : ps[0]? = some held) (h1 : ps[1]? = some grown) (hne : held ≠ [])
    (h : treeTrain data (some (r, σ)) = .ok n) :
    ∃ g, treeTrain grown none = .ok g ∧ PrunedFrom g n ∧
      correctOn (treePredict g) held ≤ correctOn (treePredict n) held := by
  unfold treeTrain at h
  simp only [bind_ok_iff] at h
  obtain ⟨parts, e, p1, e1, g, eg, p0, e0, h⟩ := h
  rw [hps] at e
  cases e
  rw [atR_eq_ok, h1] at e1
  rw [atR_eq_ok, h0] at e0
  cases e1; cases e0
  exact ⟨g, eg, C62_prune_only_cuts h, C61_prune_never_worse hne h⟩


section
variable {F : Type} [Dbl F]

/-! ## composite instances -/

theorem getMaxItemOf_mem (d : DD) {l : List String} (hl : l ≠ []) : d.getMaxItemOf l ∈ l :=
  (getMaxItemOf_first d l hl).mem

mutual
theorem predictComposite_mem (x : Inst F) (hne : x.possibleLabels ≠ []) :
    ∀ (n : Node F) (s : String), n.predictComposite x = .ok s → s ∈ x.possibleLabels
  | .mk c leaf lab d ch, s, h => by
    rw [Node.predictComposite] at h
    split at h
    · cases h; exact getMaxItemOf_mem d hne
    · exact predictCompositeIn_mem x hne ch _ s (getMaxItemOf_mem d hne) h
theorem predictCompositeIn_mem (x : Inst F) (hne : x.possibleLabels ≠ []) :
    ∀ (ch : List (Node F)) (cls s : String), cls ∈ x.possibleLabels →
    Node.predictCompositeIn cls ch x = .ok s → s ∈ x.possibleLabels
  | [], cls, s, hc, h => by rw [Node.predictCompositeIn] at h; cases h; exact hc
  | n :: ns, cls, s, hc, h => by
    rw [Node.predictCompositeIn, bind_ok_iff] at h
    obtain ⟨b, _, h⟩ := h
    cases b with
    | true =>
      simp only [if_true, bind_ok_iff] at h
      obtain ⟨p, hp, h⟩ := h
      cases h
      split
      · exact predictComposite_mem x hne n p hp
      · exact hc
    | false =>
      simp only [Bool.false_eq_true, if_false] at h
      exact predictCompositeIn_mem x hne ns cls s hc h
end

/-- **C63.** Whatever a tree predicts for a composite instance is one of its possible labels. -/
theorem C63_composite_label {n : Node F} {x : Inst F} (hx : x.isComposite = true)
    (hne : x.possibleLabels ≠ []) {s : String} (h : treePredict n x = .ok s) :
    s ∈ x.possibleLabels := by
  unfold treePredict Node.predict at h
  simp only [hx, if_true, and_true, bind_ok_iff] at h
  obtain ⟨p, hp, h⟩ := h
  have hmem := predictComposite_mem x hne n p hp
  split at h
  · exact List.mem_of_getElem? (by simpa using h)
  · cases h; exact hmem

theorem Grown.composite_ok {ts : List AttrType} {data : IList F} {n : Node F} (h : Grown ts data n)
    (x : Inst F) (hx : typesOf x = ts) : ∃ s, n.predictComposite x = .ok s := by
  induction h with
  | leaf data c hne => exact ⟨_, rfl⟩
  | split data c parts hne hch hperm hroute hdef ih =>
    rw [Node.predictComposite]
    simp only [Bool.false_eq_true, if_false]
    have : ∀ (ps : List (IList F × Node F)) (cls : String), (∀ p ∈ ps, p ∈ parts) →
        ∃ s, Node.predictCompositeIn cls (ps.map Prod.snd) x = .ok s := by
      intro ps cls
      induction ps with
      | nil => intro _; exact ⟨cls, rfl⟩
      | cons p ps ihp =>
        intro hps
        obtain ⟨b, hb⟩ := hdef p (hps p (by simp)) x hx
        rw [List.map_cons, Node.predictCompositeIn, hb]
        simp only [res_bind_ok]
        cases b with
        | true =>
          obtain ⟨s, e⟩ := ih p (hps p (by simp))
          simp only [if_true, e, res_bind_ok]
          exact ⟨_, rfl⟩
        | false => simpa using ihp (fun q hq => hps q (by simp [hq]))
    exact this parts _ (fun p hp => hp)

/-- **C63.** And a grown tree always predicts something for an instance of the types of its
training data. -/
theorem C63_composite_total [LawfulOrd F] {param : Node.SubsetParam} (hp : ValidParam param)
    {ts : List AttrType} {data : IList F} (hts : ∀ x ∈ data, typesOf x = ts) (hord : DataOrd ts data)
    {fuel : Nat} {c : Cond F} {n : Node F} (h : Node.grow param false fuel data c = .ok n)
    (x : Inst F) (hx : typesOf x = ts) (hcomp : x.isComposite = true) (hne : x.possibleLabels ≠ []) :
    ∃ s ∈ x.possibleLabels, treePredict n x = .ok s := by
  obtain ⟨s, hs⟩ := (grow_grown hp fuel data c n hts hord h).composite_ok x hx
  have hok : ∃ s, treePredict n x = .ok s := by
    unfold treePredict Node.predict
    simp only [hcomp, if_true, and_true, hs, res_bind_ok]
    split
    · exact ⟨_, atR_ok_of_lt (List.length_pos_iff.2 hne)⟩
    · exact ⟨_, rfl⟩
  obtain ⟨s', hs'⟩ := hok
  exact ⟨s', C63_composite_label hcomp hne hs', hs'⟩

/-! ## ensembles -/

theorem ensembleVotes_ok {forest : List (Node F)} {x : Inst F} {p : Node F → String}
    (h : ∀ t ∈ forest, treePredict t x = .ok (p t)) :
    ensembleVotes forest x = .ok (DD.ofList (forest.map p)) := by
  unfold ensembleVotes
  rw [foldlM_ok (g := fun d t => d.addItem (p t))]
  · unfold DD.ofList; rw [List.foldl_map]
  · intro t ht s; rw [h t ht]; rfl

/-- **C64.** A forest predicts the label most of its trees predict, the smallest on ties. -/
theorem C64_majority_vote {forest : List (Node F)} (hne : forest ≠ []) {x : Inst F} {p : Node F → String}
    (h : ∀ t ∈ forest, treePredict t x = .ok (p t)) :
    ∃ s, ensemblePredict forest x = .ok s ∧ IsMajority (forest.map p) s := by
  refine ⟨_, ?_, getMaxItem_majority (forest.map p) (by simpa using hne)⟩
  unfold ensemblePredict
  rw [ensembleVotes_ok h]; rfl

/-- **C65.** Training a fresh ensemble of size `B` yields `B` trees; tree `i` is grown from the
`i`-th bootstrap sample. -/
theorem C65_trees {param : Node.SubsetParam} {draws : Nat → List Nat} {trainSet : IList F} {B : Nat}
    {forest : List (Node F)} (h : ensembleTrain param draws [] trainSet B = .ok forest) :
    forest.length = B ∧ ∀ (i : Nat) t, forest[i]? = some t →
      Node.grow param false ((trainSet.bootstrap (draws i)).length + 1)
        (trainSet.bootstrap (draws i)) Cond.root = .ok t := by
  unfold ensembleTrain at h
  rw [Int.toNat_natCast] at h
  have key : ∀ (m : Nat) (r : List (Node F)), (List.range m).foldlM (fun forest i => do
      let t ← Node.grow param false ((trainSet.bootstrap (draws i)).length + 1)
        (trainSet.bootstrap (draws i)) Cond.root
      (pure (forest ++ [t]) : Res (List (Node F)))) [] = .ok r →
      r.length = m ∧ ∀ (i : Nat) t, r[i]? = some t →
        Node.grow param false ((trainSet.bootstrap (draws i)).length + 1)
          (trainSet.bootstrap (draws i)) Cond.root = .ok t := by
    intro m
    induction m with
    | zero => intro r h; cases h; simp
    | succ m ih =>
      intro r h
      rw [List.range_succ, List.foldlM_append, bind_ok_iff] at h
      obtain ⟨r1, h1, h⟩ := h
      obtain ⟨hl, hr⟩ := ih r1 h1
      simp only [List.foldlM_cons, List.foldlM_nil, bind_ok_iff, res_pure] at h
      obtain ⟨r2, ⟨t, ht, e⟩, h⟩ := h
      cases e; cases h
      refine ⟨by simp [hl], ?_⟩
      intro i t' hi
      by_cases him : i < m
      · rw [List.getElem?_append_left (by omega)] at hi; exact hr i t' hi
      · by_cases hieq : i = m
        · subst hieq
          rw [List.getElem?_append_right (by omega), hl, Nat.sub_self] at hi
          simp only [List.getElem?_cons_zero, Option.some.injEq] at hi
          subst hi; exact ht
        · rw [List.getElem?_eq_none (by simp; omega)] at hi; cases hi
  exact key B forest h

/-- **C65.** A bootstrap sample of in-range draws has one instance per draw, all from the training
list. -/
theorem C65_sample {trainSet : IList F} {draws : List Nat} (h : ∀ i ∈ draws, i < trainSet.length) :
    (trainSet.bootstrap draws).length = draws.length ∧
    ∀ x ∈ trainSet.bootstrap draws, x ∈ trainSet := by
  unfold IList.bootstrap
  constructor
  · induction draws with
    | nil => rfl
    | cons i draws ih =>
      rw [List.filterMap_cons, List.getElem?_eq_getElem (h i (by simp))]
      simp [ih (fun j hj => h j (by simp [hj]))]
  · intro x hx
    obtain ⟨i, _, hi⟩ := List.mem_filterMap.1 hx
    exact List.mem_of_getElem? hi

/-- **C55 (what goes wrong).** Training an ensemble again keeps the trees of the first training
in the vote. -/
theorem C55_ensemble_keeps_old_trees {param : Node.SubsetParam} {draws : Nat → List Nat}
    {old forest : List (Node F)} {trainSet : IList F} {B : Int}
    (h : ensembleTrain param draws old trainSet B = .ok forest) : old <+: forest := by
  unfold ensembleTrain at h
  refine foldlM_keeps (P := fun r : List (Node F) => old <+: r) ?_ _ _ _ h (List.prefix_refl _)
  intro b a b' hb hs
  simp only [bind_ok_iff, res_pure] at hs
  obtain ⟨t, _, e⟩ := hs
  cases e
  exact hb.trans (List.prefix_append _ _)

end

/-- **C64.** `predictProbability` gives each label its share of the votes; the shares sum to 1. -/
theorem C64_probability {forest : List (Node ℝ)} (hne : forest ≠ []) {x : Inst ℝ} {p : Node ℝ → String}
    (h : ∀ t ∈ forest, treePredict t x = .ok (p t)) :
    ∃ pr, ensembleProbability forest x = .ok pr ∧
      (∀ c q, (c, q) ∈ pr → q = ((forest.map p).count c : ℝ) / forest.length ∧ 0 < q) ∧
      (∀ c ∈ forest.map p, ∃ q, (c, q) ∈ pr) ∧ (pr.map Prod.snd).sum = 1 := by
  -- a list with these labels, to reuse the theorem about class distributions
  set l : IList ℝ := forest.map (fun t => ⟨p t, [], none⟩) with hl
  have hlab : l.map Inst.label = forest.map p := by simp [hl]
  obtain ⟨h1, _, _, h4⟩ := C47_dummy l (by simpa [hl] using hne)
  have hcd : l.classDistribution = DD.ofList (forest.map p) := by rw [classDistribution_eq, hlab]
  refine ⟨l.classDistribution.getProbabilityDistribution, ?_, ?_, ?_, h4⟩
  · unfold ensembleProbability
    rw [ensembleVotes_ok h, hcd]; rfl
  · intro c q hq
    have := h1 c q hq
    rw [hlab] at this
    simpa [hl] using this
  · intro c hc
    have : c ∈ (DD.ofList (forest.map p)).getItems := ((DD.counts_ofList _).mem_items c).2 hc
    obtain ⟨e, he, rfl⟩ := List.mem_map.1 this
    rw [hcd]
    exact ⟨_, List.mem_map.2 ⟨e, he, rfl⟩⟩

/-- **C65.** In exact arithmetic training an ensemble never fails. -/
theorem C65_training_succeeds {param : Node.SubsetParam} (hp : ValidParam param) {ts : List AttrType}
    {trainSet : IList ℝ} (hts : ∀ x ∈ trainSet, typesOf x = ts) {draws : Nat → List Nat}
    (hd : ∀ i, draws i ≠ [] ∧ ∀ k ∈ draws i, k < trainSet.length) (old : List (Node ℝ)) (B : Int) :
    ∃ forest, ensembleTrain param draws old trainSet B = .ok forest := by
  unfold ensembleTrain
  have : ∀ (is : List Nat) (r : List (Node ℝ)), ∃ r', is.foldlM (fun forest i => do
      let t ← Node.grow param false ((trainSet.bootstrap (draws i)).length + 1)
        (trainSet.bootstrap (draws i)) Cond.root
      (pure (forest ++ [t]) : Res (List (Node ℝ)))) r = .ok r' := by
    intro is
    induction is with
    | nil => intro r; exact ⟨r, rfl⟩
    | cons i is ih =>
      intro r
      obtain ⟨hlen, hmem⟩ := C65_sample (hd i).2
      have hne : trainSet.bootstrap (draws i) ≠ [] := by
        intro h0; rw [h0] at hlen
        exact (hd i).1 (List.length_eq_zero_iff.1 hlen.symm)
      obtain ⟨t, ht, _⟩ := C56_growth_terminates hp false hne (fun x hx => hts x (hmem x hx)) Cond.root
        ((trainSet.bootstrap (draws i)).length + 1) (by omega)
      obtain ⟨r', hr'⟩ := ih (r ++ [t])
      exact ⟨r', by rw [List.foldlM_cons, ht]; exact hr'⟩
  exact this _ _

/-- **C55 (refuted) for ensembles.** Training on one list and then on another does not give the
model trained on the second list only. -/
theorem C55_ensemble_refuted : ¬ ∀ (draws : Nat → List Nat) (t1 t2 : IList XR) (f1 f2 f12 : List (Node XR)) (B : Int),
    ensembleTrain none draws [] t1 B = .ok f1 → ensembleTrain none draws [] t2 B = .ok f2 →
    ensembleTrain none draws f1 t2 B = .ok f12 →
    ∀ x : Inst XR, ensemblePredict f12 x = ensemblePredict f2 x := by
  intro h
  have := h (fun _ => [0]) [⟨"a", [], none⟩] [⟨"b", [], none⟩]
    [.mk Cond.root true "a" ⟨[("a", 1)], 1⟩ []] [.mk Cond.root true "b" ⟨[("b", 1)], 1⟩ []]
    [.mk Cond.root true "a" ⟨[("a", 1)], 1⟩ [], .mk Cond.root true "b" ⟨[("b", 1)], 1⟩ []] 1 rfl rfl rfl
    ⟨"?", [], none⟩
  revert this
  decide +kernel

end Verif
