import Verif.Props.TreeProb

/-! # Property C139: a decision tree does not depend on the order of the training instances -/

set_option linter.unusedSectionVars false

namespace Verif
open Dbl

/-! ## lists sorted by a key that are permutations of each other -/

/-- rearranging only elements with equal keys -/
inductive SwapEq {α : Type} (key : α → ℝ) : List α → List α → Prop
  | refl (l : List α) : SwapEq key l l
  | cons (a : α) {l l' : List α} (h : SwapEq key l l') : SwapEq key (a :: l) (a :: l')
  | swap (a b : α) (l : List α) (h : key a = key b) : SwapEq key (a :: b :: l) (b :: a :: l)
  | trans {l1 l2 l3 : List α} (h : SwapEq key l1 l2) (h' : SwapEq key l2 l3) : SwapEq key l1 l3

theorem SwapEq.perm {α : Type} {key : α → ℝ} {l l' : List α} (h : SwapEq key l l') : l.Perm l' := by
  induction h with
  | refl l => exact .refl _
  | cons a _ ih => exact ih.cons a
  | swap a b l _ => exact .swap _ _ _
  | trans _ _ ih1 ih2 => exact ih1.trans ih2

theorem SwapEq.front {α : Type} {key : α → ℝ} (a : α) (w : List α) : ∀ (u : List α), (∀ b ∈ u, key a = key b) →
    SwapEq key (a :: (u ++ w)) (u ++ a :: w) := by
  intro u
  induction u with
  | nil => intro _; exact .refl _
  | cons b u ih =>
    intro h
    exact (SwapEq.swap a b (u ++ w) (h b (by simp))).trans (.cons b (ih (fun c hc => h c (by simp [hc]))))

theorem SwapEq.of_sorted {α : Type} {key : α → ℝ} : ∀ (l l' : List α), l.Perm l' →
    l.Pairwise (fun a b => key a ≤ key b) → l'.Pairwise (fun a b => key a ≤ key b) → SwapEq key l l' := by
  intro l
  induction l with
  | nil => intro l' hp _ _; rw [hp.symm.eq_nil]; exact .refl _
  | cons a t ih =>
    intro l' hp hs hs'
    have ha : a ∈ l' := hp.mem_iff.1 (by simp)
    obtain ⟨u, w, rfl⟩ := List.append_of_mem ha
    have hmin : ∀ b ∈ u, key a = key b := by
      intro b hb
      refine le_antisymm ?_ ((List.pairwise_append.1 hs').2.2 b hb a (by simp))
      rcases List.mem_cons.1 (hp.mem_iff.2 (by simp [hb] : b ∈ u ++ a :: w)) with rfl | hbt
      · exact le_rfl
      · exact (List.pairwise_cons.1 hs).1 b hbt
    have hp' : t.Perm (u ++ w) := (List.perm_cons a).1 (hp.trans List.perm_middle)
    have hsub : (u ++ w).Pairwise (fun a b => key a ≤ key b) :=
      hs'.sublist (List.Sublist.append_left (List.sublist_cons_self a w) u)
    exact (SwapEq.cons a (ih _ hp' (List.pairwise_cons.1 hs).2 hsub)).trans (SwapEq.front a w u hmin)

/-! ## the search -/

theorem sweepValue_eq (n i : Nat) (s : Node.Sweep ℝ) (v : ℝ) :
    Node.sweepValue n i (Node.sweepValue n i s v) v = Node.sweepValue n i s v ∧
    (Node.sweepValue n i s v).prev = some v ∧ (Node.sweepValue n i s v).left = s.left ∧
    (Node.sweepValue n i s v).right = s.right := by
  have h : ∀ s : Node.Sweep ℝ, (Node.sweepValue n i s v).prev = some v ∧ (Node.sweepValue n i s v).left = s.left ∧
      (Node.sweepValue n i s v).right = s.right := by
    intro s
    obtain ⟨prev, left, right, best⟩ := s
    cases prev with
    | none => exact ⟨rfl, rfl, rfl⟩
    | some p =>
      simp only [Node.sweepValue, Node.sweepSplit]
      by_cases hv : v = p
      · subst hv; simp
      · simp [hv]
  refine ⟨?_, h s⟩
  have h1 := (h s).1
  generalize Node.sweepValue n i s v = s' at h1 ⊢
  unfold Node.sweepValue
  rw [h1]
  simp [Node.sweepSplit]

theorem sweepStep_ok (n i : Nat) (s : Node.Sweep ℝ) (x : Inst ℝ) (hx : ContAt x i (contValAt x i)) :
    Node.sweepStep n i s x = .ok { Node.sweepValue n i s (contValAt x i) with
      left := s.left.removeItem x.label, right := s.right.addItem x.label } := by
  obtain ⟨_, _, h2, h3⟩ := sweepValue_eq n i s (contValAt x i)
  unfold Node.sweepStep
  rw [contAt_ok hx]
  simp only [res_bind_ok, res_pure, h2, h3]

theorem sweep_swap {n i : Nat} {l l' : IList ℝ} (h : SwapEq (fun x => contValAt x i) l l') :
    ∀ (R : List String) (s : Node.Sweep ℝ), (∀ x ∈ l, ContAt x i (contValAt x i)) →
    s.left = DD.ofList (l.map Inst.label) → s.right = DD.ofList R →
    l.foldlM (Node.sweepStep n i) s = l'.foldlM (Node.sweepStep n i) s := by
  induction h with
  | refl l => intros; rfl
  | cons a h ih =>
    intro R s hv hl hr
    rw [List.foldlM_cons, List.foldlM_cons, sweepStep_ok n i s a (hv a (by simp)), res_bind_ok, res_bind_ok]
    refine ih (R ++ [a.label]) _ (fun x hx => hv x (by simp [hx])) ?_ ?_
    · simp only [hl, List.map_cons]
      exact DD.removeItem_ofList (.refl _)
    · simp only [hr]
      exact DD.addItem_ofList (List.perm_append_singleton _ _)
  | swap a b l hab =>
    intro R s hv hl hr
    have ha := hv a (by simp)
    have hb := hv b (by simp)
    simp only [List.foldlM_cons, sweepStep_ok n i _ a ha, sweepStep_ok n i _ b hb, res_bind_ok]
    have key : ∀ (s' : Node.Sweep ℝ) L R', s'.prev = some (contValAt b i) →
        Node.sweepValue n i { s' with left := L, right := R' } (contValAt b i) = { s' with left := L, right := R' } := by
      intro s' L R' h
      unfold Node.sweepValue
      simp only [h]
      simp [Node.sweepSplit]
    have hp := (sweepValue_eq n i s (contValAt b i)).2.1
    have hlft : (s.left.removeItem a.label).removeItem b.label = (s.left.removeItem b.label).removeItem a.label := by
      rw [hl]
      simp only [List.map_cons]
      rw [DD.removeItem_ofList (l' := b.label :: l.map Inst.label) (.refl _),
        DD.removeItem_ofList (l' := l.map Inst.label) (.refl _),
        DD.removeItem_ofList (l' := a.label :: l.map Inst.label) (.swap _ _ _),
        DD.removeItem_ofList (l' := l.map Inst.label) (.refl _)]
    have hrgt : (s.right.addItem a.label).addItem b.label = (s.right.addItem b.label).addItem a.label := by
      rw [hr, DD.addItem_ofList (l' := a.label :: R) (.refl _), DD.addItem_ofList (l' := b.label :: a.label :: R) (.refl _),
        DD.addItem_ofList (l := R) (l' := b.label :: R) (.refl _), DD.addItem_ofList (l' := b.label :: a.label :: R) (.swap _ _ _)]
    rw [hlft, hrgt, hab]
    simp only [key _ _ _ hp]
  | trans h h' ih1 ih2 =>
    intro R s hv hl hr
    rw [ih1 R s hv hl hr]
    exact ih2 R s (fun x hx => hv x (h.perm.mem_iff.2 hx)) (by rw [hl]; exact DD.ofList_perm (h.perm.map _)) hr

theorem searchStep_best {ts : List AttrType} {data : IList ℝ} (hts : ∀ x ∈ data, typesOf x = ts)
    (hsv : SameValueCounts data) {s s' t t' : Node.Search ℝ} (hp : s.data.Perm data) (hp' : s'.data.Perm data)
    (hcd : s.classDist = s'.classDist) (hb : s.best = s'.best) {i : Nat}
    (h : Node.searchStep s i = .ok t) (h' : Node.searchStep s' i = .ok t') : t.best = t'.best := by
  unfold Node.searchStep at h h'
  simp only [bind_ok_iff] at h h'
  obtain ⟨x0, hx0, a, ha, h⟩ := h
  obtain ⟨x0', hx0', a', ha', h'⟩ := h'
  have hm : x0 ∈ data := hp.mem_iff.1 (List.mem_of_getElem? (atR_eq_ok.1 hx0))
  have hm' : x0' ∈ data := hp'.mem_iff.1 (List.mem_of_getElem? (atR_eq_ok.1 hx0'))
  have hta := type_of_attr (hts x0 hm) ha
  have hta' := type_of_attr (hts x0' hm') ha'
  have hty : typeOf a = typeOf a' := by rw [hta] at hta'; simpa using hta'
  unfold Node.searchKind at h h'
  cases a with
  | indexed v j m =>
    cases a' with
    | indexed v' j' m' =>
      have hmm : m = m' := hsv x0 hm x0' hm' i _ _ _ _ _ _ (by simpa [Inst.getAttribute] using ha)
        (by simpa [Inst.getAttribute] using ha')
      subst hmm
      simp only [Attr.isDiscreteIndexed, if_true, Attr.getMaxIndex, res_bind_ok] at h h'
      unfold Node.searchIndexed at h h'
      have hstep : Node.indexedStep s.data i = Node.indexedStep s'.data i := by
        funext st k
        unfold Node.indexedStep
        rw [indexedDist_eq hts hta hp, indexedDist_eq hts hta hp', (hp.trans hp'.symm).length_eq,
          DD.ofList_perm (((hp.trans hp'.symm).filter _).map _)]
      rw [hstep, hcd, hb] at h
      simp only [bind_ok_iff] at h h'
      obtain ⟨r, hr, h⟩ := h
      obtain ⟨r', hr', h'⟩ := h'
      rw [hr] at hr'
      cases hr'; cases h; cases h'
      rfl
    | discrete _ => cases hty
    | continuous _ => cases hty
    | binary _ => cases hty
  | discrete v =>
    cases a' with
    | discrete v' =>
      simp only [Attr.isDiscreteIndexed, Attr.isDiscrete, Bool.false_eq_true, if_false, if_true] at h h'
      unfold Node.searchDiscrete at h h'
      rw [entropyDiscrete_eq hts hta hp] at h
      rw [entropyDiscrete_eq hts hta hp'] at h'
      cases h; cases h'
      simp only [hb]
    | indexed _ _ _ => cases hty
    | continuous _ => cases hty
    | binary _ => cases hty
  | continuous v =>
    cases a' with
    | continuous v' =>
      simp only [Attr.isDiscreteIndexed, Attr.isDiscrete, Attr.isContinuous, Bool.false_eq_true, if_false, if_true] at h h'
      unfold Node.searchContinuous at h h'
      have hv : ∀ x ∈ data, ContAt x i (contValAt x i) := fun x hx => cont_of_type (hts x hx) hta
      obtain ⟨d, hd, hst⟩ := C13_sort_by_attribute s.data i _ (fun x hx => hv x (hp.mem_iff.1 hx)) (fun x _ => ord_real _)
      obtain ⟨d', hd', hst'⟩ := C13_sort_by_attribute s'.data i _ (fun x hx => hv x (hp'.mem_iff.1 hx)) (fun x _ => ord_real _)
      have hdd : d.Perm d' := (hst.perm.trans hp).trans (hst'.perm.trans hp').symm
      have hsw : SwapEq (fun x => contValAt x i) d d' :=
        SwapEq.of_sorted d d' hdd (by simpa using hst.sorted) (by simpa using hst'.sorted)
      rw [hd, res_bind_ok] at h
      rw [hd', res_bind_ok] at h'
      rw [hb, classDistribution_eq, DD.ofList_perm (hdd.map _), hdd.length_eq,
        sweep_swap hsw [] ⟨none, DD.ofList (d'.map Inst.label), DD.empty, s'.best⟩
          (fun x hx => hv x (hp.mem_iff.1 (hst.perm.mem_iff.1 hx))) (DD.ofList_perm (hdd.map _).symm) rfl,
        ← classDistribution_eq] at h
      simp only [bind_ok_iff] at h h'
      obtain ⟨r, hr, h⟩ := h
      obtain ⟨r', hr', h'⟩ := h'
      rw [hr] at hr'
      cases hr'; cases h; cases h'
      rfl
    | discrete _ => cases hty
    | indexed _ _ _ => cases hty
    | binary _ => cases hty
  | binary v =>
    cases a' with
    | binary v' =>
      simp only [Attr.isDiscreteIndexed, Attr.isDiscrete, Attr.isContinuous, Bool.false_eq_true, if_false] at h h'
      cases h; cases h'
      exact hb
    | indexed _ _ _ => cases hty
    | discrete _ => cases hty
    | continuous _ => cases hty

theorem search_best {ts : List AttrType} {data : IList ℝ} (hne : data ≠ []) (hts : ∀ x ∈ data, typesOf x = ts)
    (hsv : SameValueCounts data) {tried : List Nat} (hnd : tried.Nodup) :
    ∀ (is done : List Nat) (s s' t t' : Node.Search ℝ), tried = done ++ is →
    SearchOk ts tried data done s → SearchOk ts tried data done s' → (∀ i ∈ is, i < ts.length) → s.best = s'.best →
    is.foldlM Node.searchStep s = .ok t → is.foldlM Node.searchStep s' = .ok t' → t.best = t'.best := by
  intro is
  induction is with
  | nil => intro done s s' t t' _ _ _ _ hb h h'; cases h; cases h'; exact hb
  | cons i is ih =>
    intro done s s' t t' htd hs hs' hi hb h h'
    rw [List.foldlM_cons, bind_ok_iff] at h h'
    obtain ⟨u, hu, h⟩ := h
    obtain ⟨u', hu', h'⟩ := h'
    obtain ⟨v, e, hv⟩ := searchStep_ok hne hts htd hnd hs (hi i (by simp))
    obtain ⟨v', e', hv'⟩ := searchStep_ok hne hts htd hnd hs' (hi i (by simp))
    rw [hu] at e; rw [hu'] at e'
    cases e; cases e'
    exact ih _ _ _ _ _ (by rw [htd]; simp) hv hv' (fun j hj => hi j (by simp [hj]))
      (searchStep_best hts hsv hs.perm hs'.perm (hs.dist.trans hs'.dist.symm) hb hu hu') h h'

/-! ## trees that answer alike -/

/-- `c` is the first of the nodes `ch` whose condition `x` satisfies -/
def FirstIn (ch : List (Node ℝ)) (x : Inst ℝ) (k : Nat) (c : Node ℝ) : Prop :=
  ch[k]? = some c ∧ c.cond.satisfy x = .ok true ∧ ∀ j < k, ∀ q, ch[j]? = some q → q.cond.satisfy x = .ok false

/-- the two trees send every instance the same way, up to the order of the children -/
inductive SameTree (ts : List AttrType) : Node ℝ → Node ℝ → Prop
  | mk (c c' : Cond ℝ) (l : Bool) (s : String) (d : DD) (ch ch' : List (Node ℝ))
      (h1 : ∀ x : Inst ℝ, typesOf x = ts → ((∀ n ∈ ch, n.cond.satisfy x = .ok false) ↔ ∀ n ∈ ch', n.cond.satisfy x = .ok false))
      (h2 : ∀ (x : Inst ℝ) (k k' : Nat) (a a' : Node ℝ), typesOf x = ts → FirstIn ch x k a → FirstIn ch' x k' a' →
        SameTree ts a a') : SameTree ts (.mk c l s d ch) (.mk c' l s d ch')

theorem predictCompositeIn_first {cls : String} {x : Inst ℝ} : ∀ {ch : List (Node ℝ)} {k : Nat} {c : Node ℝ},
    FirstIn ch x k c → Node.predictCompositeIn cls ch x = (do
      let p ← Node.predictComposite c x
      .ok (if p ≠ "" then p else cls)) := by
  intro ch
  induction ch with
  | nil => intro k c h; cases h.1
  | cons a ch ih =>
    rintro k c ⟨hc, hsat, hfirst⟩
    cases k with
    | zero =>
      simp only [List.getElem?_cons_zero, Option.some.injEq] at hc
      subst hc
      rw [Node.predictCompositeIn, hsat]; rfl
    | succ k =>
      rw [Node.predictCompositeIn, hfirst 0 (by omega) a rfl]
      simp only [res_bind_ok, Bool.false_eq_true, if_false]
      exact ih (k := k) (c := c) ⟨by simpa using hc, hsat,
        fun j hj q hq => hfirst (j + 1) (by omega) q (by simpa using hq)⟩

theorem predictCompositeIn_none {cls : String} {x : Inst ℝ} : ∀ {ch : List (Node ℝ)},
    (∀ c ∈ ch, c.cond.satisfy x = .ok false) → Node.predictCompositeIn cls ch x = .ok cls := by
  intro ch
  induction ch with
  | nil => intro _; rfl
  | cons a ch ih =>
    intro h
    rw [Node.predictCompositeIn, h a (by simp)]
    simpa using ih (fun c hc => h c (by simp [hc]))

theorem SameTree.predict {ts : List AttrType} {n n' : Node ℝ} (h : SameTree ts n n') (hd : DefOn ts n) (hd' : DefOn ts n')
    (x : Inst ℝ) (hx : typesOf x = ts) :
    n.predictPlain x = n'.predictPlain x ∧ n.predictComposite x = n'.predictComposite x ∧
      n.predictProbability x = n'.predictProbability x := by
  induction h with
  | mk c c' l s d ch ch' h1 h2 ih =>
    cases hd with
    | mk _ _ _ _ _ hdef hch =>
    cases hd' with
    | mk _ _ _ _ _ hdef' hch' =>
    cases l with
    | true => exact ⟨rfl, rfl, rfl⟩
    | false =>
      simp only [Node.predictPlain, Node.predictComposite, Node.predictProbability, Bool.false_eq_true, if_false]
      rcases first_true ch (fun n hn => hdef n hn x hx) with h | ⟨k, a, f1, f2, f3⟩
      · have h' := (h1 x hx).1 h
        obtain ⟨e1, e2⟩ := predictIn_none (lab := s) (d := d) h
        obtain ⟨e1', e2'⟩ := predictIn_none (lab := s) (d := d) h'
        rw [e1, e2, e1', e2', predictCompositeIn_none h, predictCompositeIn_none h']
        exact ⟨rfl, rfl, rfl⟩
      · rcases first_true ch' (fun n hn => hdef' n hn x hx) with h' | ⟨k', a', f1', f2', f3'⟩
        · have h := (h1 x hx).2 h' a (List.mem_of_getElem? f1)
          rw [f2] at h; cases h
        · obtain ⟨i1, i2, i3⟩ := ih x k k' a a' hx ⟨f1, f2, f3⟩ ⟨f1', f2', f3'⟩
            (hch a (List.mem_of_getElem? f1)) (hch' a' (List.mem_of_getElem? f1'))
          rw [predictPlainIn_first f1 f2 f3, predictPlainIn_first f1' f2' f3', predictProbabilityIn_first f1 f2 f3,
            predictProbabilityIn_first f1' f2' f3', predictCompositeIn_first ⟨f1, f2, f3⟩,
            predictCompositeIn_first ⟨f1', f2', f3'⟩, i1, i2, i3]
          exact ⟨rfl, rfl, rfl⟩

theorem SameTree.treePredict {ts : List AttrType} {n n' : Node ℝ} (h : SameTree ts n n') (hd : DefOn ts n) (hd' : DefOn ts n')
    (x : Inst ℝ) (hx : typesOf x = ts) : treePredict n x = treePredict n' x := by
  obtain ⟨h1, h2, _⟩ := h.predict hd hd' x hx
  unfold Verif.treePredict Node.predict
  rw [h1, h2]

/-! ## the branches of one split -/

/-- `b` is the first branch whose condition `x` satisfies -/
def FirstOf (bs : List (Cond ℝ × IList ℝ)) (x : Inst ℝ) (k : Nat) (b : Cond ℝ × IList ℝ) : Prop :=
  bs[k]? = some b ∧ b.1.satisfy x = .ok true ∧ ∀ j < k, ∀ q, bs[j]? = some q → q.1.satisfy x = .ok false

theorem firstOf_two {c c' d d' : Cond ℝ} {p p' q q' : IList ℝ} {x : Inst ℝ} (hc : c.satisfy x = c'.satisfy x)
    (hp : p.Perm p') (hq : q.Perm q') (ha : c.attr = c'.attr) (hb : d.attr = d'.attr)
    {k k' : Nat} {b b' : Cond ℝ × IList ℝ} (h : FirstOf [(c, p), (d, q)] x k b) (h' : FirstOf [(c', p'), (d', q')] x k' b') :
    b.2.Perm b'.2 ∧ b.1.attr = b'.1.attr := by
  obtain ⟨h1, h2, h3⟩ := h
  obtain ⟨h1', h2', h3'⟩ := h'
  match k, k' with
  | 0, 0 =>
    simp only [List.getElem?_cons_zero, Option.some.injEq] at h1 h1'
    subst h1 h1'; exact ⟨hp, ha⟩
  | 1, 1 =>
    simp only [List.getElem?_cons_succ, List.getElem?_cons_zero, Option.some.injEq] at h1 h1'
    subst h1 h1'; exact ⟨hq, hb⟩
  | 0, 1 =>
    simp only [List.getElem?_cons_zero, Option.some.injEq] at h1
    subst h1
    have := h3' 0 (by omega) _ rfl
    rw [← hc] at this
    simp only at h2 this
    rw [h2] at this; cases this
  | 1, 0 =>
    simp only [List.getElem?_cons_zero, Option.some.injEq] at h1'
    subst h1'
    have := h3 0 (by omega) _ rfl
    rw [hc] at this
    simp only at h2' this
    rw [h2'] at this; cases this
  | k + 2, _ => simp at h1
  | _, k' + 2 => simp at h1'

theorem none_two {c c' d d' : Cond ℝ} {p p' q q' : IList ℝ} {x : Inst ℝ} (hc : c.satisfy x = c'.satisfy x)
    (hd : d.satisfy x = d'.satisfy x) :
    (∀ b ∈ [(c, p), (d, q)], b.1.satisfy x = .ok false) ↔ ∀ b ∈ [(c', p'), (d', q')], b.1.satisfy x = .ok false := by
  simp [hc, hd]

theorem branches_discrete {ts : List AttrType} {data : IList ℝ} {i : Nat} (hi : ts[i]? = some .discrete)
    {bs : List (Cond ℝ × IList ℝ)} (h : (Split.discrete i).Branches data bs) {x : Inst ℝ} (hx : typesOf x = ts) :
    (∀ b ∈ bs, ∃ v, b.1 = ⟨i, '=', some (.discrete v)⟩ ∧ b.1.satisfy x = .ok (decide (discValAt x i = v)) ∧
      v ∈ data.map (fun x => discValAt x i) ∧ b.2.Perm (data.filter (fun x => discValAt x i = v))) ∧
    ∀ v ∈ data.map (fun x => discValAt x i), ∃ b ∈ bs, b.1 = ⟨i, '=', some (.discrete v)⟩ := by
  obtain ⟨vs, hnd, hmem, hf⟩ := h
  have hxi := disc_of_type hx hi
  constructor
  · intro b hb
    obtain ⟨j, hj, rfl⟩ := List.mem_iff_getElem.1 hb
    have hl := hf.length_eq
    have := (List.forall₂_iff_get.1 hf).2 j (by omega) hj
    simp only [List.get_eq_getElem] at this
    obtain ⟨e1, e2⟩ := this
    exact ⟨_, e1, by rw [e1]; exact satisfy_discrete hxi, (hmem _).1 (List.getElem_mem _), e2⟩
  · intro v hv
    obtain ⟨j, hj, rfl⟩ := List.mem_iff_getElem.1 ((hmem v).2 hv)
    have hl := hf.length_eq
    have := (List.forall₂_iff_get.1 hf).2 j hj (by omega)
    simp only [List.get_eq_getElem] at this
    exact ⟨_, List.getElem_mem (by omega), this.1⟩

theorem branches_match {ts : List AttrType} {data : IList ℝ} {S : Split} (hS : S.Candidate ts data)
    {bs bs' : List (Cond ℝ × IList ℝ)} (h : S.Branches data bs) (h' : S.Branches data bs') (x : Inst ℝ) (hx : typesOf x = ts) :
    ((∀ b ∈ bs, b.1.satisfy x = .ok false) ↔ ∀ b ∈ bs', b.1.satisfy x = .ok false) ∧
    ∀ (k k' : Nat) b b', FirstOf bs x k b → FirstOf bs' x k' b' → b.2.Perm b'.2 ∧ b.1.attr = b'.1.attr := by
  cases S with
  | discrete i =>
    obtain ⟨f, g⟩ := branches_discrete hS h hx
    obtain ⟨f', g'⟩ := branches_discrete hS h' hx
    constructor
    · constructor
      · intro hn b hb
        obtain ⟨v, _, e2, e3, _⟩ := f' b hb
        obtain ⟨b0, hb0, e0⟩ := g v e3
        obtain ⟨v0, q1, q2, _⟩ := f b0 hb0
        rw [q1] at e0
        simp only [Cond.mk.injEq, Option.some.injEq, Attr.discrete.injEq, true_and] at e0
        subst e0
        rw [e2, ← q2]
        exact hn b0 hb0
      · intro hn b hb
        obtain ⟨v, _, e2, e3, _⟩ := f b hb
        obtain ⟨b0, hb0, e0⟩ := g' v e3
        obtain ⟨v0, q1, q2, _⟩ := f' b0 hb0
        rw [q1] at e0
        simp only [Cond.mk.injEq, Option.some.injEq, Attr.discrete.injEq, true_and] at e0
        subst e0
        rw [e2, ← q2]
        exact hn b0 hb0
    · rintro k k' b b' ⟨h1, h2, _⟩ ⟨h1', h2', _⟩
      obtain ⟨v, e1, e2, _, e4⟩ := f b (List.mem_of_getElem? h1)
      obtain ⟨v', e1', e2', _, e4'⟩ := f' b' (List.mem_of_getElem? h1')
      rw [h2] at e2; rw [h2'] at e2'
      have q : discValAt x i = v := by simpa using e2.symm
      have q' : discValAt x i = v' := by simpa using e2'.symm
      have hvv : v = v' := q.symm.trans q'
      subst hvv
      exact ⟨e4.trans e4'.symm, by rw [e1, e1']⟩
  | indexed i k =>
    obtain ⟨p, q, m, rfl, hp, hq⟩ := h
    obtain ⟨p', q', m', rfl, hp', hq'⟩ := h'
    have hxi := idx_of_type hx hS.1
    have hk : k ≠ -1 := by have := hS.2.1; omega
    have e1 : Cond.satisfy ⟨i, '=', some (.indexed "" k m)⟩ x = Cond.satisfy ⟨i, '=', some (.indexed "" k m')⟩ x := by
      rw [satisfy_indexed hxi hk, satisfy_indexed hxi hk]
    have e2 : Cond.satisfy ⟨i, '=', some (.indexed "" (-1) m)⟩ x = Cond.satisfy ⟨i, '=', some (.indexed "" (-1) m')⟩ x := by
      rw [satisfy_other, satisfy_other]
    exact ⟨none_two e1 e2, fun k k' b b' h h' => firstOf_two e1 (hp.trans hp'.symm) (hq.trans hq'.symm) (by rfl) (by rfl) h h'⟩
  | threshold i t =>
    obtain ⟨p, q, rfl, hp, hq⟩ := h
    obtain ⟨p', q', rfl, hp', hq'⟩ := h'
    exact ⟨none_two rfl rfl, fun k k' b b' h h' => firstOf_two rfl (hp.trans hp'.symm) (hq.trans hq'.symm) (by rfl) (by rfl) h h'⟩

theorem none_iff {bs : List (Cond ℝ × IList ℝ)} {ch : List (Node ℝ)} {x : Inst ℝ} (hlen : bs.length = ch.length)
    (hcond : ∀ (k : Nat) b n, bs[k]? = some b → ch[k]? = some n → n.cond = b.1) :
    (∀ n ∈ ch, n.cond.satisfy x = .ok false) ↔ ∀ b ∈ bs, b.1.satisfy x = .ok false := by
  constructor
  · intro h b hb
    obtain ⟨j, hj, rfl⟩ := List.mem_iff_getElem.1 hb
    rw [← hcond j _ _ (List.getElem?_eq_getElem hj) (List.getElem?_eq_getElem (by omega))]
    exact h _ (List.getElem_mem _)
  · intro h n hn
    obtain ⟨j, hj, rfl⟩ := List.mem_iff_getElem.1 hn
    rw [hcond j _ _ (List.getElem?_eq_getElem (by omega)) (List.getElem?_eq_getElem hj)]
    exact h _ (List.getElem_mem _)

theorem firstIn_firstOf {bs : List (Cond ℝ × IList ℝ)} {ch : List (Node ℝ)} {x : Inst ℝ} (hlen : bs.length = ch.length)
    (hcond : ∀ (k : Nat) b n, bs[k]? = some b → ch[k]? = some n → n.cond = b.1) {k : Nat} {m : Node ℝ}
    (h : FirstIn ch x k m) : ∃ b, bs[k]? = some b ∧ FirstOf bs x k b := by
  obtain ⟨h1, h2, h3⟩ := h
  have hk : k < ch.length := (List.getElem?_eq_some_iff.1 h1).1
  have hb : bs[k]? = some (bs[k]'(by omega)) := List.getElem?_eq_getElem _
  refine ⟨_, hb, hb, by rw [← hcond k _ _ hb h1]; exact h2, ?_⟩
  intro j hj q hq
  have hc : ch[j]? = some (ch[j]'(by omega)) := List.getElem?_eq_getElem _
  rw [← hcond j _ _ hq hc]
  exact h3 j hj _ hc

/-! ## growing -/

theorem SameValueCounts.mono {F : Type} {l l' : IList F} (h : SameValueCounts l) (hs : ∀ x ∈ l', x ∈ l) : SameValueCounts l' :=
  fun x hx y hy => h x (hs x hx) y (hs y hy)

theorem grow_order {ts : List AttrType} {param : Node.SubsetParam} (hp : ValidParam param)
    {tried : List Nat} (htr : Node.triedIndices param ts.length = .ok tried) (st : Bool) :
    ∀ (fuel : Nat) (data data' : IList ℝ) (c c' : Cond ℝ) (n n' : Node ℝ), data ≠ [] → (∀ x ∈ data, typesOf x = ts) →
    SameValueCounts data → data.Perm data' → c.attr = c'.attr → data.length ≤ fuel →
    Node.grow param st fuel data c = .ok n → Node.grow param st fuel data' c' = .ok n' → SameTree ts n n' := by
  intro fuel
  induction fuel with
  | zero => intro data data' c c' n n' hne _ _ _ _ hl; exact absurd (List.length_eq_zero_iff.1 (by omega)) hne
  | succ fuel ih =>
    intro data data' c c' n n' hne hts hsv hpd hc hl hn hn'
    have hne' : data' ≠ [] := fun h => hne (by rw [h] at hpd; exact hpd.eq_nil)
    have hts' : ∀ x ∈ data', typesOf x = ts := fun x hx => hts x (hpd.mem_iff.2 hx)
    rw [Node.grow] at hn hn'
    simp only [getClassLabels_eq] at hn hn'
    have hlab : getMaximum (data.map Inst.label) = getMaximum (data'.map Inst.label) := majority_perm (hpd.map _)
    have hdis : (data.map Inst.label).foldl (fun d l => d.addItem l) DD.empty =
        (data'.map Inst.label).foldl (fun d l => d.addItem l) DD.empty := DD.ofList_perm (hpd.map _)
    have hlen1 : data.getDistinctClassLabels.length = 1 ↔ data'.getDistinctClassLabels.length = 1 := by
      rw [distinct_length_iff, distinct_length_iff]
      exact ⟨fun h => ⟨hne', fun x hx y hy => h.2 x (hpd.mem_iff.2 hx) y (hpd.mem_iff.2 hy)⟩,
        fun h => ⟨hne, fun x hx y hy => h.2 x (hpd.mem_iff.1 hx) y (hpd.mem_iff.1 hy)⟩⟩
    have hleaf : ∀ (b : Bool) s d, SameTree ts (.mk c b s d []) (.mk c' b s d []) := by
      intro b s d
      refine .mk _ _ _ _ _ _ _ (fun x _ => Iff.rfl) ?_
      intro x k k' a a' _ h
      cases h.1
    by_cases hdist : data.getDistinctClassLabels.length = 1
    · rw [if_pos hdist] at hn
      rw [if_pos (hlen1.1 hdist)] at hn'
      cases hn; cases hn'
      rw [hlab, hdis]
      exact hleaf _ _ _
    · rw [if_neg hdist] at hn
      rw [if_neg (fun h => hdist (hlen1.2 h))] at hn'
      by_cases hst : st = true ∧ c.attr ≠ -1
      · rw [if_pos hst] at hn
        rw [if_pos (by rw [← hc]; exact hst)] at hn'
        cases hn; cases hn'
        rw [hlab, hdis]
        exact hleaf _ _ _
      · rw [if_neg hst] at hn
        rw [if_neg (by rw [← hc]; exact hst)] at hn'
        unfold Node.splitNode at hn hn'
        have hsz : ∀ x ∈ data, x.attributeSize = ts.length := by
          intro x hx
          rw [← hts x hx]; simp [typesOf, Inst.attributeSize]
        simp only [bind_ok_iff] at hn hn'
        obtain ⟨x0, hx0, is, his, s, hs, hn⟩ := hn
        obtain ⟨x0', hx0', is', his', s', hs', hn'⟩ := hn'
        rw [hsz x0 (List.mem_of_getElem? (atR_eq_ok.1 hx0)), htr] at his
        rw [hsz x0' (hpd.mem_iff.2 (List.mem_of_getElem? (atR_eq_ok.1 hx0'))), htr] at his'
        cases his; cases his'
        have hcd : data.classDistribution = data'.classDistribution := by
          rw [classDistribution_eq, classDistribution_eq]; exact DD.ofList_perm (hpd.map _)
        have hs0 : ∀ d : IList ℝ, d.Perm data → d.classDistribution = data.classDistribution →
            SearchOk ts tried data [] (⟨d, d.classDistribution, ⟨d.classDistribution.entropy, none, 0, Dbl.zero⟩⟩ : Node.Search ℝ) := by
          intro d h1 h2
          rw [h2]
          refine ⟨h1, classDistribution_eq _, fun _ => False, ⟨?_, by simp, .inl ⟨rfl, ?_⟩⟩, by simp, by simp⟩
          · simp only; rw [classDistribution_eq, DD.entropy_ofList]
          · simp only; rw [classDistribution_eq, DD.entropy_ofList]
        have hlt : ∀ i ∈ tried, i < ts.length := triedIndices_lt hp htr
        have hnd : tried.Nodup := triedIndices_nodup hp htr
        obtain ⟨t, ht, hok⟩ := search_ok hne hts hnd tried [] _ rfl (hs0 data (.refl _) rfl) hlt
        obtain ⟨t', ht', hok'⟩ := search_ok hne hts hnd tried [] _ rfl (hs0 data' hpd.symm hcd.symm) hlt
        rw [hs] at ht; rw [hs'] at ht'
        cases ht; cases ht'
        have hbest : s.best = s'.best :=
          search_best hne hts hsv hnd tried [] _ _ _ _ rfl (hs0 data (.refl _) rfl) (hs0 data' hpd.symm hcd.symm) hlt
            (by simp only [hcd]) hs hs'
        rw [List.nil_append] at hok hok'
        obtain ⟨P, hb, hP1, hP2⟩ := hok.best
        unfold Node.finish at hn hn'
        rcases hb.wit with ⟨hnone, hent⟩ | ⟨S, hPS, hnm, hent, hless, _⟩
        · rw [hnone] at hn
          rw [← hbest, hnone] at hn'
          cases hn; cases hn'
          rw [hlab, hdis]
          exact hleaf _ _ _
        · have hSi : s.best.attr = some S.attr := by
            cases S with
            | discrete i => exact hnm
            | indexed i k => exact hnm.1
            | threshold i t => exact hnm.1
          have hSi' : s'.best.attr = some S.attr := by rw [← hbest]; exact hSi
          have hnm' : Names s'.best S := by rw [← hbest]; exact hnm
          rw [hSi] at hn
          rw [hSi'] at hn'
          simp only [bind_ok_iff] at hn hn'
          obtain ⟨y0, hy0, a, ha, ch, hch, hn⟩ := hn
          obtain ⟨y0', hy0', a', ha', ch', hch', hn'⟩ := hn'
          have hta := type_of_attr (hts y0 (hok.perm.mem_iff.1 (List.mem_of_getElem? (atR_eq_ok.1 hy0)))) ha
          have hta' := type_of_attr (hts y0' (hok'.perm.mem_iff.1 (List.mem_of_getElem? (atR_eq_ok.1 hy0')))) ha'
          have hrec : ∀ p c', p ≠ [] → p.length < data.length → (∀ x ∈ p, x ∈ data) →
              ∃ n, ifData data.length (Node.grow param st fuel) p c' = .ok n := by
            intro p c' h1 h2 h3
            obtain ⟨n, hn, _⟩ := grow_ok hp htr st fuel p c' h1 (fun x hx => hts x (h3 x hx)) (by omega)
            exact ⟨n, ifData_ok_iff.2 ⟨⟨h1, h2⟩, hn⟩⟩
          obtain ⟨bs, cc, hcc, hbr, hlen, hgb⟩ := children_ok hne hts hok.perm hrec (hP1 S hPS).1 hless hnm hSi hta
          obtain ⟨bs', cc', hcc', hbr', hlen', hgb'⟩ := children_ok hne hts hok'.perm hrec (hP1 S hPS).1 hless hnm' hSi' hta'
          have := childrenKind_mono (fun p c n h => (ifData_ok_iff.1 h).2) hcc
          rw [hch] at this
          cases this
          have := childrenKind_mono (fun p c n h => (ifData_ok_iff.1 h).2) hcc'
          rw [hch'] at this
          cases this
          cases hn; cases hn'
          rw [hlab, hdis]
          have hcond : ∀ (k : Nat) b n, bs[k]? = some b → ch[k]? = some n → n.cond = b.1 :=
            fun k b n h1 h2 => grow_cond (ifData_ok_iff.1 (hgb k b n h1 h2).1).2
          have hcond' : ∀ (k : Nat) b n, bs'[k]? = some b → ch'[k]? = some n → n.cond = b.1 :=
            fun k b n h1 h2 => grow_cond (ifData_ok_iff.1 (hgb' k b n h1 h2).1).2
          refine .mk _ _ _ _ _ _ _ ?_ ?_
          · intro x hx
            rw [none_iff hlen hcond, none_iff hlen' hcond']
            exact (branches_match (hP1 S hPS).1 hbr hbr' x hx).1
          · intro x k k' m m' hx hm hm'
            obtain ⟨b, hb1, hb2⟩ := firstIn_firstOf hlen hcond hm
            obtain ⟨b', hb1', hb2'⟩ := firstIn_firstOf hlen' hcond' hm'
            obtain ⟨hpp, hca⟩ := (branches_match (hP1 S hPS).1 hbr hbr' x hx).2 k k' b b' hb2 hb2'
            obtain ⟨g1, g2, g3, g4⟩ := hgb k b m hb1 hm.1
            obtain ⟨g1', _, _, _⟩ := hgb' k' b' m' hb1' hm'.1
            exact ih b.2 b'.2 b.1 b'.1 m m' g2 (fun x hx => hts x (g4 x hx)) (hsv.mono g4) hpp hca (by omega)
              (ifData_ok_iff.1 g1).2 (ifData_ok_iff.1 g1').2

/-! ## C139 -/

/-- **C139.** In exact arithmetic, growing a tree, a stump or a random-forest tree from the same
instances in another order gives a tree that answers alike: the same label for every plain and
every composite instance of the types of the data, and the same class probabilities. All
instances must declare the same number of values of an indexed attribute, as they do when they
belong to one data definition. -/
theorem C139_grow_order {param : Node.SubsetParam} (hp : ValidParam param) (st : Bool) {ts : List AttrType}
    {data data' : IList ℝ} (hne : data ≠ []) (hts : ∀ x ∈ data, typesOf x = ts) (hsv : SameValueCounts data)
    (hperm : data.Perm data') (fuel : Nat) (hfuel : data.length ≤ fuel) :
    ∃ n n', Node.grow param st fuel data Cond.root = .ok n ∧ Node.grow param st fuel data' Cond.root = .ok n' ∧
      ∀ x : Inst ℝ, typesOf x = ts →
        treePredict n x = treePredict n' x ∧ n.predictProbability x = n'.predictProbability x := by
  obtain ⟨tried, htr⟩ := triedIndices_ok hp ts.length
  have hne' : data' ≠ [] := fun h => hne (by rw [h] at hperm; exact hperm.eq_nil)
  have hts' : ∀ x ∈ data', typesOf x = ts := fun x hx => hts x (hperm.mem_iff.2 hx)
  have hfuel' : data'.length ≤ fuel := by rw [← hperm.length_eq]; exact hfuel
  obtain ⟨n, hn, _, _, hg, _⟩ := grow_ok hp htr st fuel data Cond.root hne hts hfuel
  obtain ⟨n', hn', _, _, hg', _⟩ := grow_ok hp htr st fuel data' Cond.root hne' hts' hfuel'
  have hs := grow_order hp htr st fuel data data' Cond.root Cond.root n n' hne hts hsv hperm rfl hfuel hn hn'
  exact ⟨n, n', hn, hn', fun x hx => ⟨hs.treePredict hg.defOn hg'.defOn x hx, (hs.predict hg.defOn hg'.defOn x hx).2.2⟩⟩

/-- **C139.** The same for training a decision tree without pruning and for training a stump. -/
theorem C139_train_order {ts : List AttrType} {data data' : IList ℝ} (hne : data ≠ []) (hts : ∀ x ∈ data, typesOf x = ts)
    (hsv : SameValueCounts data) (hperm : data.Perm data') :
    (∃ n n', treeTrain data none = .ok n ∧ treeTrain data' none = .ok n' ∧
      ∀ x : Inst ℝ, typesOf x = ts →
        treePredict n x = treePredict n' x ∧ n.predictProbability x = n'.predictProbability x) ∧
    (∃ n n', stumpTrain data = .ok n ∧ stumpTrain data' = .ok n' ∧
      ∀ x : Inst ℝ, typesOf x = ts →
        treePredict n x = treePredict n' x ∧ n.predictProbability x = n'.predictProbability x) := by
  have hv : ValidParam none := by intro _ _ h; cases h
  unfold treeTrain stumpTrain
  simp only [← hperm.length_eq]
  exact ⟨C139_grow_order hv false hne hts hsv hperm _ (by omega), C139_grow_order hv true hne hts hsv hperm _ (by omega)⟩

/-- mixed data in two orders -/
def exOrder (F : Type) [Dbl F] : IList F :=
  [⟨"a", [.continuous (Dbl.ofInt 1), .indexed "u" 0 2, .discrete "p"], none⟩,
   ⟨"b", [.continuous (Dbl.ofInt 2), .indexed "v" 1 2, .discrete "q"], none⟩,
   ⟨"a", [.continuous (Dbl.ofInt 2), .indexed "u" 0 2, .discrete "q"], none⟩]

/-- the hypotheses are met -/
example : exOrder ℝ ≠ [] ∧ (∀ x ∈ exOrder ℝ, typesOf x = [.continuous, .discreteIndexed, .discrete]) ∧
    SameValueCounts (exOrder ℝ) ∧ (exOrder ℝ).Perm (exOrder ℝ).reverse := by
  refine ⟨by simp [exOrder], ?_, ?_, (List.reverse_perm _).symm⟩
  · intro x hx
    simp only [exOrder, List.mem_cons, List.not_mem_nil, or_false] at hx
    rcases hx with rfl | rfl | rfl <;> rfl
  · have h : ∀ x ∈ exOrder ℝ, ∀ (i : Nat) v k m, x.attrs[i]? = some (.indexed v k m) → m = 2 := by
      intro x hx i v k m h
      simp only [exOrder, List.mem_cons, List.not_mem_nil, or_false] at hx
      rcases hx with rfl | rfl | rfl <;>
      · match i with
        | 0 => simp at h
        | 1 => simp at h; exact h.2.2.symm
        | 2 => simp at h
        | i + 3 => simp at h
    intro x hx y hy i v k m v' k' m' h1 h2
    rw [h x hx i v k m h1, h y hy i v' k' m' h2]
/-- and the tree is not a single leaf: the answers vary -/
example : (treeTrain (exOrder XR) none >>= fun n => treePredict n ⟨"?", [.continuous (.fin 2), .indexed "v" 1 2, .discrete "p"], none⟩) = .ok "b" ∧
    (treeTrain (exOrder XR).reverse none >>= fun n => treePredict n ⟨"?", [.continuous (.fin 2), .indexed "v" 1 2, .discrete "p"], none⟩) = .ok "b" ∧
    (treeTrain (exOrder XR).reverse none >>= fun n => treePredict n ⟨"?", [.continuous (.fin 2), .indexed "u" 0 2, .discrete "p"], none⟩) = .ok "a" := by
  decide +kernel

end Verif
