import Verif.Spec.Beyond
import Verif.Props.Box
import Verif.Props.TreePrune
import Verif.Props.BinaryTrees

/-! # Property C216: trees take numbers beyond those seen in training like the last ones seen -/

namespace Verif
open Dbl

set_option linter.unusedSectionVars false

variable {F : Type} [Dbl F]

/-! ## a tree that cannot tell two instances apart -/

/-- no question of the tree tells `x` from `z` -/
inductive Blindfold (x z : Inst F) : Node F → Prop
  | leaf (c : Cond F) (s : String) (d : DD) (ch : List (Node F)) : Blindfold x z (.mk c true s d ch)
  | inner (c : Cond F) (s : String) (d : DD) (ch : List (Node F))
      (hs : ∀ q ∈ ch, q.cond.satisfy z = q.cond.satisfy x) (hch : ∀ q ∈ ch, Blindfold x z q) :
      Blindfold x z (.mk c false s d ch)

theorem Blindfold.plain {x z : Inst F} {n : Node F} (h : Blindfold x z n) : n.predictPlain z = n.predictPlain x := by
  induction h with
  | leaf c s d ch => rw [Node.predictPlain, Node.predictPlain]; simp
  | inner c s d ch hs hb ih =>
    rw [Node.predictPlain, Node.predictPlain]
    simp only [Bool.false_eq_true, if_false]
    induction ch with
    | nil => rw [Node.predictPlainIn, Node.predictPlainIn]
    | cons a ch ih' =>
      rw [Node.predictPlainIn, Node.predictPlainIn, hs a (by simp), ih a (by simp),
        ih' (fun q hq => hs q (by simp [hq])) (fun q hq => hb q (by simp [hq])) (fun q hq => ih q (by simp [hq]))]

theorem Blindfold.probability {x z : Inst F} {n : Node F} (h : Blindfold x z n) :
    (n.predictProbability z : Res (OMap F)) = n.predictProbability x := by
  induction h with
  | leaf c s d ch => rw [Node.predictProbability, Node.predictProbability]; simp
  | inner c s d ch hs hb ih =>
    rw [Node.predictProbability, Node.predictProbability]
    simp only [Bool.false_eq_true, if_false]
    induction ch with
    | nil => rw [Node.predictProbabilityIn, Node.predictProbabilityIn]
    | cons a ch ih' =>
      rw [Node.predictProbabilityIn, Node.predictProbabilityIn, hs a (by simp), ih a (by simp),
        ih' (fun q hq => hs q (by simp [hq])) (fun q hq => hb q (by simp [hq])) (fun q hq => ih q (by simp [hq]))]

theorem Blindfold.composite {x z : Inst F} (hpl : z.possibleLabels = x.possibleLabels) {n : Node F} (h : Blindfold x z n) :
    n.predictComposite z = n.predictComposite x := by
  induction h with
  | leaf c s d ch => rw [Node.predictComposite, Node.predictComposite]; simp [hpl]
  | inner c s d ch hs hb ih =>
    rw [Node.predictComposite, Node.predictComposite]
    simp only [Bool.false_eq_true, if_false]
    rw [hpl]
    induction ch with
    | nil => rw [Node.predictCompositeIn, Node.predictCompositeIn]
    | cons a ch ih' =>
      rw [Node.predictCompositeIn, Node.predictCompositeIn, hs a (by simp), ih a (by simp),
        ih' (fun q hq => hs q (by simp [hq])) (fun q hq => hb q (by simp [hq])) (fun q hq => ih q (by simp [hq]))]

theorem Blindfold.answers {x z : Inst F} (hp : z.possible = x.possible) {n : Node F} (h : Blindfold x z n) :
    treePredict n z = treePredict n x ∧ (n.predictProbability z : Res (OMap F)) = n.predictProbability x := by
  have hc : z.isComposite = x.isComposite := by simp [Inst.isComposite, hp]
  refine ⟨?_, h.probability⟩
  unfold treePredict Node.predict
  rw [hc]
  cases e : x.isComposite with
  | false => simp only [Bool.false_eq_true, if_false, h.plain, and_false]
  | true =>
    have hl := possibleLabels_eq hp e
    simp only [if_true, hl, h.composite hl]

theorem PrunedFrom.cond {n n' : Node F} (h : PrunedFrom n n') : n'.cond = n.cond := by
  cases h <;> rfl

theorem Blindfold.pruned {x z : Inst F} {n n' : Node F} (h : PrunedFrom n n') (hn : Blindfold x z n) : Blindfold x z n' := by
  induction h with
  | same n => exact hn
  | cut c s d ch => exact .leaf c s d ch
  | inner c s d ch ch' hlen hch ih =>
    cases hn with
    | inner _ _ _ _ hs hb =>
      refine .inner c s d ch' ?_ ?_ <;>
      · intro q hq
        obtain ⟨k, hk, rfl⟩ := List.mem_iff_getElem.1 hq
        have hk' : k < ch.length := by omega
        have e := List.getElem?_eq_getElem hk'
        have e' := List.getElem?_eq_getElem hk
        first
        | (rw [(hch k _ _ e e').cond]; exact hs _ (List.getElem_mem hk'))
        | exact ih k _ _ e e' (hb _ (List.getElem_mem hk'))

/-! ## the thresholds of a trained tree lie between numbers of the training data -/

theorem SameWithin.part {data part : IList F} {x z : Inst F} (h : SameWithin data x z) (hsub : ∀ y ∈ part, y ∈ data) :
    SameWithin part x z := by
  refine ⟨fun i => ?_, h.possible⟩
  rcases h.attrs i with h | ⟨u, w, hu, hw, h⟩
  · exact .inl h
  · refine .inr ⟨u, w, hu, hw, ?_⟩
    rcases h with ⟨h1, h2⟩ | ⟨h1, h2⟩
    · exact .inl ⟨fun y hy => h1 y (hsub y hy), fun y hy => h2 y (hsub y hy)⟩
    · exact .inr ⟨fun y hy => h1 y (hsub y hy), fun y hy => h2 y (hsub y hy)⟩

/-- the children made for a threshold: the instances go to both -/
theorem children_within [LawfulOrd F] {ts : List AttrType} {rec : IList F → Cond F → Res (Node F)}
    (hrec : ∀ p c n, rec p c = .ok n → n.cond = c) {data : IList F} {b : Node.Best F} {i : Nat} {a : Attr F}
    (hts : ∀ x ∈ data, typesOf x = ts) (ha : ts[i]? = some (typeOf a)) (hord : DataOrd ts data)
    {ch : List (Node F)} (hne : ∀ p c n, n ∈ ch → rec p c = .ok n → p ≠ [])
    (h : Node.childrenKind rec data b i a = .ok ch) {x z : Inst F} (hxz : SameWithin data x z) :
    ∀ q ∈ ch, q.cond.satisfy z = q.cond.satisfy x := by
  have hshape := childrenKind_thresholds hrec h
  have hattr : ∀ q ∈ ch, q.cond.attr = i := by
    rcases hshape with ⟨v, c0, c1, rfl, e0, e1⟩ | hq
    · intro q hq
      simp only [List.mem_cons, List.not_mem_nil, or_false] at hq
      rcases hq with rfl | rfl
      · rw [e0]
      · rw [e1]
    · exact fun q hq' => (hq q hq').1
  rcases hxz.attrs i with he | ⟨u, w, hu, hw, hend⟩
  · exact fun q hq => (satisfy_congr (fun j hj => by
      have := hattr q hq; rw [show j = i by omega]; exact he)).symm
  · cases a with
    | continuous va =>
      unfold Node.childrenKind at h
      simp only [Attr.isDiscreteIndexed, Attr.isDiscrete, Attr.isContinuous, Bool.false_eq_true, if_false, if_true] at h
      have hv : ∀ x ∈ data, ContAt x i (contValAt x i) := fun x hx => cont_of_type (hts x hx) ha
      obtain ⟨p0, p1, e, h0, h1, hperm⟩ := C23_partition_by_threshold data i b.v _ hv
      unfold Node.childrenContinuous at h
      rw [e] at h
      simp only [res_bind_ok, atR_cons_zero] at h
      rw [bind_ok_iff] at h
      obtain ⟨c0, hc0, h⟩ := h
      rw [show atR [p0, p1] 1 = .ok p1 from rfl] at h
      simp only [res_bind_ok] at h
      rw [bind_ok_iff] at h
      obtain ⟨c1, hc1, h⟩ := h
      cases h
      obtain ⟨y0, hy0⟩ := List.exists_mem_of_ne_nil _ (hne _ _ _ (by simp) hc0)
      obtain ⟨y1, hy1⟩ := List.exists_mem_of_ne_nil _ (hne _ _ _ (by simp) hc1)
      rw [h0, List.mem_filter] at hy0
      rw [h1, List.mem_filter] at hy1
      have hlow : (contValAt y0 i <=. b.v) = true := hy0.2
      have hhigh : (contValAt y1 i <=. b.v) = false := by simpa using hy1.2
      have hle : (b.v <=. contValAt y1 i) = true := by
        rcases LawfulOrd.total (contValAt y1 i) b.v (hord y1 hy1.1 i ha) (LawfulOrd.ord_right _ _ hlow) with h | h
        · rw [hhigh] at h; cases h
        · exact h
      have side : ∀ {s : F}, (AboveAll data i s → (s <=. b.v) = false ∧ (b.v <. s) = true) ∧
          (BelowAll data i s → (s <=. b.v) = true ∧ (b.v <. s) = false) := by
        intro s
        constructor
        · intro hs
          have h2 := hs y1 hy1.1 _ (hv y1 hy1.1)
          have h3 : (s <=. b.v) = false := by
            cases e : (s <=. b.v) with
            | false => rfl
            | true => rw [LawfulOrd.le_trans _ _ _ h2 e] at hhigh; cases hhigh
          refine ⟨h3, ?_⟩
          rw [LawfulOrd.lt_iff]
          exact ⟨LawfulOrd.le_trans _ _ _ hle h2, by simp [h3]⟩
        · intro hs
          have h2 := hs y0 hy0.1 _ (hv y0 hy0.1)
          have h3 := LawfulOrd.le_trans _ _ _ h2 hlow
          refine ⟨h3, ?_⟩
          cases e : (b.v <. s) with
          | false => rfl
          | true => exact absurd h3 ((LawfulOrd.lt_iff _ _).1 e).2
      have hboth : (w <=. b.v) = (u <=. b.v) ∧ (b.v <. w) = (b.v <. u) := by
        rcases hend with ⟨hu', hw'⟩ | ⟨hu', hw'⟩
        · rw [(side.1 hu').1, (side.1 hw').1, (side.1 hu').2, (side.1 hw').2]; exact ⟨rfl, rfl⟩
        · rw [(side.2 hu').1, (side.2 hw').1, (side.2 hu').2, (side.2 hw').2]; exact ⟨rfl, rfl⟩
      intro q hq
      simp only [List.mem_cons, List.not_mem_nil, or_false] at hq
      rcases hq with rfl | rfl
      · rw [hrec _ _ _ hc0, (satisfy_threshold (t := b.v) hu).1, (satisfy_threshold (t := b.v) hw).1, hboth.1]
      · rw [hrec _ _ _ hc1, (satisfy_threshold (t := b.v) hu).2, (satisfy_threshold (t := b.v) hw).2, hboth.2]
    | _ =>
      rcases hshape with ⟨v, c0, c1, rfl, e0, e1⟩ | hq
      · exfalso
        first
        | (unfold Node.childrenKind Node.childrenIndexed at h
           simp only [Attr.isDiscreteIndexed, if_true, bind_ok_iff] at h
           obtain ⟨m', _, _, _, _, _, c0', h0, _, _, c1', h1, h⟩ := h
           cases h
           rw [hrec _ _ _ h0] at e0; cases e0)
        | (unfold Node.childrenKind Node.childrenDiscrete at h
           simp only [Attr.isDiscreteIndexed, Attr.isDiscrete, Bool.false_eq_true, if_false, if_true, bind_ok_iff] at h
           obtain ⟨_, _, _, _, h⟩ := h
           have hinv := mapM_ok_inv h
           have := (List.forall₂_iff_get.1 hinv).2 0 (by rw [hinv.length_eq]; simp) (by simp)
           unfold Node.childDiscrete at this
           rw [bind_ok_iff] at this
           obtain ⟨_, _, h2⟩ := this
           have := hrec _ _ _ h2
           simp only [List.get_eq_getElem, List.getElem_cons_zero] at this
           rw [this] at e0; simp at e0)
        | (unfold Node.childrenKind at h
           simp [Attr.isDiscreteIndexed, Attr.isDiscrete, Attr.isContinuous] at h)
      · exact fun q hq' => satisfy_numbers (hq q hq').1 (hq q hq').2 hu hw

/-- a tree that does not stop at depth one -/
theorem grow_blindfold [LawfulOrd F] {ts : List AttrType} {param : Node.SubsetParam}
    (hp : ValidParam param) {x z : Inst F} : ∀ (fuel : Nat) (data : IList F) (c : Cond F) (n : Node F),
    (∀ x ∈ data, typesOf x = ts) → DataOrd ts data → SameWithin data x z →
    Node.grow param false fuel data c = .ok n → Blindfold x z n := by
  intro fuel
  induction fuel with
  | zero => intro data c n _ _ _ h; cases h
  | succ fuel ih =>
    intro data c n hts hord hxz h
    rw [Node.grow] at h
    simp only [Bool.false_eq_true, false_and, if_false] at h
    split at h
    · cases h; exact .leaf c _ _ _
    · unfold Node.splitNode at h
      simp only [bind_ok_iff] at h
      obtain ⟨x0, hx0, is, his, s, hs, h⟩ := h
      have hi := triedIndices_lt hp his
      have hinv0 : SearchInv data x0.attributeSize
          (⟨data, data.classDistribution, ⟨data.classDistribution.entropy, none, 0, Dbl.zero⟩⟩ : Node.Search F) :=
        ⟨List.Perm.refl _, le_refl _, by simp⟩
      have hinv := search_inv hi hinv0 hs
      have hnb := search_nonbinary hts hi hinv0 (by simp) hs
      have hmem' : ∀ x ∈ s.data, x ∈ data := fun x hx => hinv.perm.mem_iff.1 hx
      have hts' : ∀ x ∈ s.data, typesOf x = ts := fun x hx => hts x (hmem' x hx)
      unfold Node.finish at h
      split at h
      · cases h; exact .leaf c _ _ _
      · rename_i i hbi
        simp only [bind_ok_iff] at h
        obtain ⟨y0, hy0, a, ha, ch, hch, h⟩ := h
        cases h
        have hta := type_of_attr (hts' y0 (List.mem_of_getElem? (by simpa using hy0))) ha
        have hord' : DataOrd ts s.data := fun x hx => hord x (hmem' x hx)
        have hsat := children_within (fun p c n hn => grow_cond hn) hts' hta hord' (fun p c n _ hn => grow_ne_nil hn) hch
          (hxz.part hmem')
        obtain ⟨parts, hok, hrec⟩ := childrenKind_ok (fun p c n hn => grow_cond hn) hts' hta hord' hinv.kpos
          (fun hbin => hnb i hbi (by rw [hta, hbin]))
          (.inr (fun p c n hn => grow_ne_nil hn)) hch
        have hmem : ∀ p ∈ parts, ∀ x ∈ p.1, x ∈ data := by
          intro p hp x hx
          exact hmem' x (hok.perm.mem_iff.1
            (List.mem_flatten.2 ⟨p.1, List.mem_map_of_mem hp, hx⟩))
        refine .inner c _ _ ch hsat ?_
        intro q hq
        rw [hok.nodes] at hq
        obtain ⟨p, hp, rfl⟩ := List.mem_map.1 hq
        exact ih p.1 _ p.2 (fun x hx => hts x (hmem p hp x hx)) (fun x hx => hord x (hmem p hp x hx))
          (hxz.part (hmem p hp)) (hrec p hp)

/-- **C216.** A trained decision tree, pruned or not, in any arithmetic whose comparisons are those of IEEE-754: numbers at or
beyond an end of what the training data have in their column are all answered alike, class and probabilities. -/
theorem C216_tree [LawfulOrd F] {ts : List AttrType} {data : IList F} (hts : ∀ x ∈ data, typesOf x = ts)
    (hord : DataOrd ts data) {pruning : Option (F × List Nat)} {n : Node F} (h : treeTrain data pruning = .ok n)
    {x z : Inst F} (hxz : SameWithin data x z) :
    treePredict n z = treePredict n x ∧ (n.predictProbability z : Res (OMap F)) = n.predictProbability x := by
  have hv : ValidParam none := by intro _ _ h; cases h
  unfold treeTrain at h
  cases pruning with
  | none => exact (grow_blindfold hv _ data _ n hts hord hxz h).answers hxz.possible
  | some pr =>
    obtain ⟨ratio, arr⟩ := pr
    simp only [bind_ok_iff] at h
    obtain ⟨parts, hparts, p1, hp1, root, hroot, p0, _, h⟩ := h
    have hsub : ∀ y ∈ p1, y ∈ data := fun y hy =>
      stratified_mem hparts p1 (List.mem_of_getElem? (by simpa using hp1)) y hy
    exact ((grow_blindfold hv _ p1 _ root (fun x hx => hts x (hsub x hx)) (fun x hx => hord x (hsub x hx))
      (hxz.part hsub) hroot).pruned (C62_prune_only_cuts h)).answers hxz.possible

/-- **C216.** The same for random forests and bagging. -/
theorem C216_forest [LawfulOrd F] {ts : List AttrType} {data : IList F} (hts : ∀ x ∈ data, typesOf x = ts)
    (hord : DataOrd ts data) {param : Node.SubsetParam} (hp : ValidParam param) {draws : Nat → List Nat} {size : Int}
    {forest : List (Node F)} (h : ensembleTrain param draws [] data size = .ok forest)
    {x z : Inst F} (hxz : SameWithin data x z) :
    ensemblePredict forest z = ensemblePredict forest x ∧
      (ensembleProbability forest z : Res (OMap F)) = ensembleProbability forest x := by
  have hall : ∀ t ∈ forest, Blindfold x z t := by
    refine foldlM_keeps (P := fun forest : List (Node F) => ∀ t ∈ forest, Blindfold x z t) ?_ _ _ _ h (by simp)
    intro f i f' hf hi
    rw [bind_ok_iff] at hi
    obtain ⟨t, ht, hi⟩ := hi
    cases hi
    intro u hu
    rcases List.mem_append.1 hu with hu | hu
    · exact hf u hu
    · rw [List.mem_singleton.1 hu]
      exact grow_blindfold hp _ _ _ _ (fun x hx => hts x (bootstrap_mem hx)) (fun x hx => hord x (bootstrap_mem hx))
        (hxz.part (fun y hy => bootstrap_mem hy)) ht
  have hvotes : ensembleVotes forest z = ensembleVotes forest x := by
    unfold ensembleVotes
    clear h
    generalize DD.empty = d
    induction forest generalizing d with
    | nil => rfl
    | cons t f ih =>
      rw [List.foldlM_cons, List.foldlM_cons, ((hall t (by simp)).answers hxz.possible).1]
      congr 1
      funext d'
      exact ih (fun t' ht' => hall t' (by simp [ht'])) d'
  unfold ensemblePredict ensembleProbability
  rw [hvotes]
  exact ⟨rfl, rfl⟩

/-- a node made from no instances has an empty distribution -/
theorem grow_nil_dist {fuel : Nat} {c : Cond F} {n : Node F} (h : Node.grow none true fuel [] c = .ok n) : n.dist = DD.empty := by
  cases fuel with
  | zero => cases h
  | succ fuel =>
    rw [Node.grow] at h
    simp only at h
    split at h
    · cases h; rfl
    · split at h
      · cases h; rfl
      · simp [Node.splitNode, atR] at h

theorem Shrinking.counts {data : IList ℝ} {n : Node ℝ} (h : Shrinking data n) : Counts n.dist (data.map Inst.label) := by
  cases h <;> assumption

/-- **C216.** The same for stumps, in exact arithmetic. -/
theorem C216_stump {ts : List AttrType} {data : IList ℝ} (hne : data ≠ []) (hts : ∀ x ∈ data, typesOf x = ts) :
    ∃ n, stumpTrain data = .ok n ∧ ∀ x z, SameWithin data x z →
      treePredict n z = treePredict n x ∧ (n.predictProbability z : Res (OMap ℝ)) = n.predictProbability x := by
  obtain ⟨_, n, h, hshrink⟩ := C56_training_terminates hne hts
  refine ⟨n, h, fun x z hxz => Blindfold.answers hxz.possible ?_⟩
  have hleaves := C60_stump h
  unfold stumpTrain at h
  rw [Node.grow] at h
  simp only at h
  split at h
  · cases h; exact .leaf _ _ _ _
  · split at h
    · cases h; exact .leaf _ _ _ _
    · unfold Node.splitNode at h
      simp only [bind_ok_iff] at h
      obtain ⟨x0, hx0, is, his, s, hs, h⟩ := h
      have hi := triedIndices_lt (param := none) (by intro _ _ h; cases h) his
      have hinv0 : SearchInv data x0.attributeSize
          (⟨data, data.classDistribution, ⟨data.classDistribution.entropy, none, 0, Dbl.zero⟩⟩ : Node.Search ℝ) :=
        ⟨List.Perm.refl _, le_refl _, by simp⟩
      have hinv := search_inv hi hinv0 hs
      have hmem' : ∀ x ∈ s.data, x ∈ data := fun x hx => hinv.perm.mem_iff.1 hx
      have hts' : ∀ x ∈ s.data, typesOf x = ts := fun x hx => hts x (hmem' x hx)
      unfold Node.finish at h
      split at h
      · cases h; exact .leaf _ _ _ _
      · rename_i i _
        simp only [bind_ok_iff] at h
        obtain ⟨y0, hy0, a, ha, ch, hch, h⟩ := h
        cases h
        have hta := type_of_attr (hts' y0 (List.mem_of_getElem? (by simpa using hy0))) ha
        have hl : ∀ q ∈ ch, q.isLeaf = true := by
          rcases hleaves with h | h
          · exact absurd h.1 (by simp [Node.isLeaf])
          · exact fun q hq => (h q hq).1
        have hfull : ∀ p c n, n ∈ ch → Node.grow none true data.length p c = .ok n → p ≠ [] := by
          rintro p c n hn hg rfl
          have hd := grow_nil_dist hg
          generalize hroot : Node.mk Cond.root false (getMaximum data.getClassLabels)
            (data.getClassLabels.foldl (fun d l => d.addItem l) DD.empty) ch = root at hshrink
          cases hshrink with
          | leaf _ c' s' d' _ _ => cases hroot
          | split _ c' s' d' parts _ _ hparts hsub =>
            cases hroot
            obtain ⟨q, hq, rfl⟩ := List.mem_map.1 hn
            have hc := (hsub q hq).counts.sum
            rw [hd] at hc
            have h0 : (DD.empty : DD).getSum = 0 := rfl
            rw [h0] at hc
            have := (hparts q hq).1
            simp at hc
            exact this (List.length_eq_zero_iff.1 hc.symm)
        refine .inner _ _ _ ch (children_within (fun p c n hn => grow_cond hn) hts' hta
          (fun _ _ _ _ => by simp [Dbl.Ord]) hfull hch (hxz.part hmem')) ?_
        intro q hq
        have := hl q hq
        obtain ⟨c', l, s', d', ch'⟩ := q
        simp only [Node.isLeaf] at this
        subst this
        exact .leaf _ _ _ _

/-! ## a case -/

/-- heights of two kinds of plants, and whether they bloom -/
def plants : IList ℝ :=
  [⟨"herb", [.continuous 1, .discrete "yes"], none⟩, ⟨"bush", [.continuous 5, .discrete "yes"], none⟩,
   ⟨"bush", [.continuous 9, .discrete "no"], none⟩]

/-- a plant of height 100 is answered like one of height 9 -/
theorem plants_within (l : String) : SameWithin plants ⟨l, [.continuous 100, .discrete "no"], none⟩
    ⟨l, [.continuous 9, .discrete "no"], none⟩ := by
  refine ⟨fun i => ?_, rfl⟩
  match i with
  | 0 =>
    refine .inr ⟨100, 9, rfl, rfl, .inl ⟨?_, ?_⟩⟩ <;>
    · intro y hy v hv
      simp only [plants, List.mem_cons, List.not_mem_nil, or_false] at hy
      rcases hy with rfl | rfl | rfl <;>
      · simp only [List.getElem?_cons_zero, Option.some.injEq, Attr.continuous.injEq] at hv
        subst hv
        simp
        try norm_num
  | i + 1 => exact .inl (by simp)

example : ∃ n, treeTrain plants none = .ok n ∧
    treePredict n ⟨"", [.continuous 9, .discrete "no"], none⟩ = treePredict n ⟨"", [.continuous 100, .discrete "no"], none⟩ := by
  obtain ⟨⟨n, e, _⟩, _⟩ := C56_training_terminates (ts := [.continuous, .discrete]) (data := plants) (by simp [plants])
    (by simp [plants, typesOf, typeOf])
  exact ⟨n, e, (C216_tree (ts := [.continuous, .discrete]) (by simp [plants, typesOf, typeOf])
    (fun _ _ _ _ => by simp [Dbl.Ord]) e (plants_within "")).1⟩

example := C216_stump (ts := [.continuous, .discrete]) (data := plants) (by simp [plants]) (by simp [plants, typesOf, typeOf])

example : ∃ forest, ensembleTrain none (fun _ => [0, 1, 2]) [] plants 5 = .ok forest ∧
    ensemblePredict forest ⟨"", [.continuous 9, .discrete "no"], none⟩ =
      ensemblePredict forest ⟨"", [.continuous 100, .discrete "no"], none⟩ := by
  have hts : ∀ x ∈ plants, typesOf x = [.continuous, .discrete] := by simp [plants, typesOf, typeOf]
  obtain ⟨forest, e⟩ := C65_training_succeeds (param := none) (by intro _ _ h; cases h) hts (draws := fun _ => [0, 1, 2])
    (fun _ => ⟨by simp, by simp [plants]⟩) [] 5
  exact ⟨forest, e, (C216_forest hts (fun _ _ _ _ => by simp [Dbl.Ord]) (by intro _ _ h; cases h) e (plants_within "")).1⟩

end Verif
