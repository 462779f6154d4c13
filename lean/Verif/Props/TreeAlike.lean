import Verif.Props.TreeColumns
import Verif.Props.PruneLocal
import Verif.Props.Inputs
import Verif.Props.Limits

/-! # Trees that send corresponding instances the same way, and what pruning makes of them

Lemmas for C189 and C202. -/

set_option linter.unusedSectionVars false

namespace Verif
open Dbl

/-- the two trees send corresponding instances (`R x x'`) the same way, up to the order of the children, and separate
the same instances at every node -/
inductive Alike (R : Inst ℝ → Inst ℝ → Prop) : Node ℝ → Node ℝ → Prop
  | mk (c c' : Cond ℝ) (l : Bool) (s : String) (d : DD) (ch ch' : List (Node ℝ))
      (hdef : ∀ x x', R x x' → (∀ n ∈ ch, ∃ b, n.cond.satisfy x = .ok b) ∧ ∀ n ∈ ch', ∃ b, n.cond.satisfy x' = .ok b)
      (hnone : ∀ x x', R x x' →
        ((∀ n ∈ ch, n.cond.satisfy x = .ok false) ↔ ∀ n ∈ ch', n.cond.satisfy x' = .ok false))
      (hsame : ∀ x x' y y' (k k' : Nat) n n', R x x' → R y y' → FirstIn ch x k n → FirstIn ch' x' k' n' →
        (FirstIn ch y k n ↔ FirstIn ch' y' k' n'))
      (hch : ∀ x x' (k k' : Nat) n n', R x x' → FirstIn ch x k n → FirstIn ch' x' k' n' → Alike R n n') :
      Alike R (.mk c l s d ch) (.mk c' l s d ch')

/-- corresponding instances have the same class and the same possible classes -/
def KeepsClass (R : Inst ℝ → Inst ℝ → Prop) : Prop := ∀ x x', R x x' → x'.label = x.label ∧ x'.possible = x.possible

section
variable {R : Inst ℝ → Inst ℝ → Prop} (hR : KeepsClass R)
include hR

theorem KeepsClass.composite {x x' : Inst ℝ} (h : R x x') : x'.isComposite = x.isComposite := by
  unfold Inst.isComposite; rw [(hR _ _ h).2]

theorem KeepsClass.labels {x x' : Inst ℝ} (h : R x x') : x'.possibleLabels = x.possibleLabels := by
  unfold Inst.possibleLabels; rw [(hR _ _ h).2, (hR _ _ h).1]

theorem Alike.answers {n n' : Node ℝ} (h : Alike R n n') {x x' : Inst ℝ} (hx : R x x') : SameAnswers n n' x x' := by
  induction h with
  | mk c c' l s d ch ch' hdef hnone _ _ ih =>
    unfold SameAnswers
    cases l with
    | true =>
      simp only [Node.predictPlain, Node.predictComposite, Node.predictProbability, if_true, hR.labels hx]
      exact ⟨trivial, trivial, trivial⟩
    | false =>
      simp only [Node.predictPlain, Node.predictComposite, Node.predictProbability, Bool.false_eq_true, if_false,
        hR.labels hx]
      rcases first_true ch (hdef x x' hx).1 with h | ⟨k, a, f1, f2, f3⟩
      · have h' := (hnone x x' hx).1 h
        obtain ⟨e1, e2⟩ := predictIn_none (lab := s) (d := d) h
        obtain ⟨e1', e2'⟩ := predictIn_none (lab := s) (d := d) h'
        rw [e1, e2, e1', e2', predictCompositeIn_none h, predictCompositeIn_none h']
        exact ⟨rfl, rfl, rfl⟩
      · rcases first_true ch' (hdef x x' hx).2 with h' | ⟨k', a', f1', f2', f3'⟩
        · have h := (hnone x x' hx).2 h' a (List.mem_of_getElem? f1)
          rw [f2] at h; cases h
        · obtain ⟨i1, i2, i3⟩ := ih x x' k k' a a' hx ⟨f1, f2, f3⟩ ⟨f1', f2', f3'⟩
          rw [predictPlainIn_first f1 f2 f3, predictPlainIn_first f1' f2' f3', predictProbabilityIn_first f1 f2 f3,
            predictProbabilityIn_first f1' f2' f3', predictCompositeIn_first ⟨f1, f2, f3⟩,
            predictCompositeIn_first ⟨f1', f2', f3'⟩, i1, i2, i3]
          exact ⟨rfl, rfl, rfl⟩

theorem Alike.treePredict {n n' : Node ℝ} (h : Alike R n n') {x x' : Inst ℝ} (hx : R x x') :
    treePredict n' x' = treePredict n x := by
  obtain ⟨h1, h2, _⟩ := h.answers hR hx
  unfold Verif.treePredict Node.predict
  rw [h1, h2, hR.composite hx, hR.labels hx]

theorem Alike.answer {n n' : Node ℝ} (h : Alike R n n') {fb fb' : Inst ℝ → Res String}
    (hfb : ∀ x x', R x x' → fb' x' = fb x) {x x' : Inst ℝ} (hx : R x x') : n'.answer fb' x' = n.answer fb x := by
  obtain ⟨h1, h2, _⟩ := h.answers hR hx
  unfold Node.answer Node.predict
  rw [h1, h2, hR.composite hx, hfb x x' hx]

theorem correct_alike {f f' : Inst ℝ → Res String} (hf : ∀ x x', R x x' → f' x' = f x) {l l' : IList ℝ}
    (hl : List.Forall₂ R l l') : correctOn f' l' = correctOn f l := by
  unfold correctOn
  induction hl with
  | nil => rfl
  | cons h _ ih => rw [List.countP_cons, List.countP_cons, ih, hf _ _ h, (hR _ _ h).1]

omit hR in
theorem Alike.setLeaf {c c' : Cond ℝ} {l l1 l2 : Bool} {s s' : String} {d d' : DD} {ch ch' : List (Node ℝ)}
    (h : Alike R (.mk c l s d ch) (.mk c' l1 s' d' ch')) : Alike R (.mk c l2 s d ch) (.mk c' l2 s' d' ch') := by
  cases h with
  | mk _ _ _ _ _ _ _ h1 h2 h3 h4 => exact .mk _ _ _ _ _ _ _ h1 h2 h3 h4

omit hR in
theorem goesTo_firstIn {ch : List (Node ℝ)} {k : Nat} {n : Node ℝ} (hk : ch[k]? = some n) (x : Inst ℝ) :
    goesTo ((ch.take k).map Node.cond) n.cond x = true ↔ FirstIn ch x k n := by
  unfold goesTo FirstIn
  simp only [Bool.and_eq_true, List.all_eq_true, decide_eq_true_iff, List.mem_map, forall_exists_index, and_imp,
    forall_apply_eq_imp_iff₂]
  constructor
  · rintro ⟨h1, h2⟩
    refine ⟨hk, h2, fun j hj q hq => h1 q ?_⟩
    rw [List.mem_take_iff_getElem]
    obtain ⟨hjl, e⟩ := List.getElem?_eq_some_iff.1 hq
    exact ⟨j, by omega, e⟩
  · rintro ⟨_, h2, h3⟩
    refine ⟨fun q hq => ?_, h2⟩
    rw [List.mem_take_iff_getElem] at hq
    obtain ⟨j, hj, rfl⟩ := hq
    exact h3 j (by omega) _ (List.getElem?_eq_getElem _)

omit hR in
theorem reaching_alike {ch ch' : List (Node ℝ)} {k k' : Nat} {n n' : Node ℝ} (hk : ch[k]? = some n)
    (hk' : ch'[k']? = some n') (h : ∀ y y', R y y' → (FirstIn ch y k n ↔ FirstIn ch' y' k' n')) {l l' : IList ℝ}
    (hl : List.Forall₂ R l l') :
    List.Forall₂ R (reaching ((ch.take k).map Node.cond) n.cond l) (reaching ((ch'.take k').map Node.cond) n'.cond l') := by
  unfold reaching
  induction hl with
  | nil => exact .nil
  | @cons y y' _ _ hy _ ih =>
    have e : goesTo ((ch'.take k').map Node.cond) n'.cond y' = goesTo ((ch.take k).map Node.cond) n.cond y := by
      rw [Bool.eq_iff_iff, goesTo_firstIn hk', goesTo_firstIn hk]
      exact (h y y' hy).symm
    rw [List.filter_cons, List.filter_cons, e]
    split
    · exact .cons hy ih
    · exact ih

omit hR in
theorem firstIn_conds {ch ch1 : List (Node ℝ)} (hlen : ch.length = ch1.length)
    (hc : ∀ (i : Nat) n n1, ch[i]? = some n → ch1[i]? = some n1 → n1.cond = n.cond) {x : Inst ℝ} {k : Nat} {n n1 : Node ℝ}
    (hn : ch[k]? = some n) (hn1 : ch1[k]? = some n1) : FirstIn ch1 x k n1 ↔ FirstIn ch x k n := by
  unfold FirstIn
  rw [hc k n n1 hn hn1]
  refine and_congr (by simp [hn, hn1]) (and_congr Iff.rfl ⟨fun h j hj q hq => ?_, fun h j hj q hq => ?_⟩)
  · have hjl : j < ch1.length := by rw [← hlen]; exact (List.getElem?_eq_some_iff.1 hq).1
    rw [← hc j q _ hq (List.getElem?_eq_getElem hjl)]
    exact h j hj _ (List.getElem?_eq_getElem hjl)
  · have hjl : j < ch.length := by rw [hlen]; exact (List.getElem?_eq_some_iff.1 hq).1
    rw [hc j _ q (List.getElem?_eq_getElem hjl) hq]
    exact h j hj _ (List.getElem?_eq_getElem hjl)

omit hR in
theorem conds_mem {ch ch1 : List (Node ℝ)} (hlen : ch.length = ch1.length)
    (hc : ∀ (i : Nat) n n1, ch[i]? = some n → ch1[i]? = some n1 → n1.cond = n.cond) (P : Cond ℝ → Prop) :
    (∀ n ∈ ch1, P n.cond) ↔ ∀ n ∈ ch, P n.cond := by
  constructor
  · intro h n hn
    obtain ⟨j, hj, rfl⟩ := List.mem_iff_getElem.1 hn
    rw [← hc j _ _ (List.getElem?_eq_getElem hj) (List.getElem?_eq_getElem (by omega))]
    exact h _ (List.getElem_mem _)
  · intro h n hn
    obtain ⟨j, hj, rfl⟩ := List.mem_iff_getElem.1 hn
    rw [hc j _ _ (List.getElem?_eq_getElem (by omega)) (List.getElem?_eq_getElem hj)]
    exact h _ (List.getElem_mem _)

/-- pruning on corresponding instances -/
theorem Alike.pruned {n n' : Node ℝ} (h : Alike R n n') : ∀ {fb fb' : Inst ℝ → Res String} {l l' : IList ℝ} {m m' : Node ℝ},
    (∀ x x', R x x' → fb' x' = fb x) → List.Forall₂ R l l' → PrunedAlone fb l n m → PrunedAlone fb' l' n' m' →
    Alike R m m' := by
  induction h with
  | mk c c' lf s d ch ch' hdef hnone hsame hch ih =>
    intro fb fb' l l' m m' hfb hl hp hp'
    have hcount : ∀ b, correctOn ((Node.mk c' b s d ch').answer fb') l' = correctOn ((Node.mk c b s d ch).answer fb) l :=
      fun b => correct_alike hR (fun x x' hx => (Alike.mk c c' b s d ch ch' hdef hnone hsame hch).answer hR hfb hx) hl
    cases hp with
    | leaf => cases hp' with
      | leaf => exact .mk _ _ _ _ _ _ _ hdef hnone hsame hch
    | cut _ _ _ _ _ _ hle => cases hp' with
      | cut => exact .mk _ _ _ _ _ _ _ hdef hnone hsame hch
      | keep _ _ _ _ _ _ _ hlt =>
        rw [hcount, hcount] at hlt
        exact absurd hle (not_le.2 hlt)
    | keep _ _ _ _ _ _ ch1 hlt hlen hpc => cases hp' with
      | cut _ _ _ _ _ _ hle =>
        rw [hcount, hcount] at hle
        exact absurd hle (not_le.2 hlt)
      | keep _ _ _ _ _ _ ch1' hlt' hlen' hpc' =>
        have hc : ∀ (i : Nat) n n1, ch[i]? = some n → ch1[i]? = some n1 → n1.cond = n.cond :=
          fun i n n1 h1 h2 => (hpc i n n1 h1 h2).cond
        have hc' : ∀ (i : Nat) n n1, ch'[i]? = some n → ch1'[i]? = some n1 → n1.cond = n.cond :=
          fun i n n1 h1 h2 => (hpc' i n n1 h1 h2).cond
        have back : ∀ {x : Inst ℝ} {k : Nat} {n1}, FirstIn ch1 x k n1 → ∃ n, ch[k]? = some n ∧ FirstIn ch x k n := by
          intro x k n1 hf
          have hk : k < ch.length := by rw [hlen]; exact (List.getElem?_eq_some_iff.1 hf.1).1
          exact ⟨_, List.getElem?_eq_getElem hk, (firstIn_conds hlen hc (List.getElem?_eq_getElem hk) hf.1).1 hf⟩
        have back' : ∀ {x : Inst ℝ} {k : Nat} {n1}, FirstIn ch1' x k n1 → ∃ n, ch'[k]? = some n ∧ FirstIn ch' x k n := by
          intro x k n1 hf
          have hk : k < ch'.length := by rw [hlen']; exact (List.getElem?_eq_some_iff.1 hf.1).1
          exact ⟨_, List.getElem?_eq_getElem hk, (firstIn_conds hlen' hc' (List.getElem?_eq_getElem hk) hf.1).1 hf⟩
        refine .mk _ _ _ _ _ _ _ ?_ ?_ ?_ ?_
        · intro x x' hx
          exact ⟨(conds_mem hlen hc (fun c => ∃ b, c.satisfy x = .ok b)).2 (hdef x x' hx).1,
            (conds_mem hlen' hc' (fun c => ∃ b, c.satisfy x' = .ok b)).2 (hdef x x' hx).2⟩
        · intro x x' hx
          rw [conds_mem hlen hc (fun c => c.satisfy x = .ok false), conds_mem hlen' hc' (fun c => c.satisfy x' = .ok false)]
          exact hnone x x' hx
        · intro x x' y y' k k' n1 n1' hx hy hf hf'
          obtain ⟨n, hn, hfn⟩ := back hf
          obtain ⟨n', hn', hfn'⟩ := back' hf'
          rw [firstIn_conds hlen hc hn hf.1, firstIn_conds hlen' hc' hn' hf'.1]
          exact hsame x x' y y' k k' n n' hx hy hfn hfn'
        · intro x x' k k' n1 n1' hx hf hf'
          obtain ⟨n, hn, hfn⟩ := back hf
          obtain ⟨n', hn', hfn'⟩ := back' hf'
          refine ih x x' k k' n n' hx hfn hfn' (fb := fallback d fb) (fb' := fallback d fb') ?_
            (reaching_alike hn hn' (fun y y' hy => hsame x x' y y' k k' n n' hx hy hfn hfn') hl)
            (hpc k n n1 hn hf.1) (hpc' k' n' n1' hn' hf'.1)
          intro z z' hz
          unfold fallback
          rw [hR.labels hz, hfb z z' hz]

/-- pruned training, given that growing gives trees that are alike -/
theorem Alike.prune {n n' m m' : Node ℝ} (h : Alike R n n') {set set' : IList ℝ} (hne : set ≠ [])
    (hl : List.Forall₂ R set set') (hp : prune n set = .ok m) (hp' : prune n' set' = .ok m') : Alike R m m' := by
  have hne' : set' ≠ [] := by rintro rfl; cases hl; exact hne rfl
  refine h.pruned hR (fun x x' hx => ?_) hl (C205_local hne hp) (C205_local hne' hp')
  unfold firstPossible
  rw [hR.labels hx]

end

/-! ## the branches of a split -/

/-- the split does not separate `x` and `y` -/
noncomputable def Split.Together : Split → Inst ℝ → Inst ℝ → Prop
  | .discrete i, x, y => discValAt x i = discValAt y i
  | .indexed i k, x, y => idxValAt x i = k ↔ idxValAt y i = k
  | .threshold i t, x, y => contValAt x i ≤ t ↔ contValAt y i ≤ t

theorem together_firstOf {ts : List AttrType} {data : IList ℝ} {S : Split} (hS : S.Candidate ts data)
    {bs : List (Cond ℝ × IList ℝ)} (h : S.Branches data bs) {x y : Inst ℝ} (hx : typesOf x = ts) (hy : typesOf y = ts)
    {k : Nat} {b : Cond ℝ × IList ℝ} (hf : FirstOf bs x k b) : FirstOf bs y k b ↔ S.Together x y := by
  have key : ∀ {P : Prop}, (P → ∀ b ∈ bs, b.1.satisfy y = b.1.satisfy x) → (FirstOf bs y k b → P) → (FirstOf bs y k b ↔ P) := by
    intro P h1 h2
    refine ⟨h2, fun hp => ⟨hf.1, ?_, ?_⟩⟩
    · rw [h1 hp b (List.mem_of_getElem? hf.1)]; exact hf.2.1
    · intro j hj q hq
      rw [h1 hp q (List.mem_of_getElem? hq)]; exact hf.2.2 j hj q hq
  cases S with
  | discrete i =>
    obtain ⟨f, _⟩ := branches_discrete hS h hx
    obtain ⟨g, _⟩ := branches_discrete hS h hy
    refine key ?_ ?_
    · intro e b hb
      obtain ⟨v, e1, e2, _⟩ := f b hb
      obtain ⟨w, e1', e2', _⟩ := g b hb
      rw [e1] at e1'
      simp only [Cond.mk.injEq, Option.some.injEq, Attr.discrete.injEq, true_and] at e1'
      subst e1'
      rw [e2, e2', show discValAt x i = discValAt y i from e]
    · intro hfy
      have hb := List.mem_of_getElem? hf.1
      obtain ⟨v, e1, e2, _⟩ := f b hb
      obtain ⟨w, e1', e2', _⟩ := g b hb
      rw [e1] at e1'
      simp only [Cond.mk.injEq, Option.some.injEq, Attr.discrete.injEq, true_and] at e1'
      subst e1'
      rw [hf.2.1] at e2
      rw [hfy.2.1] at e2'
      have q : discValAt x i = v := by simpa using e2.symm
      have q' : discValAt y i = v := by simpa using e2'.symm
      exact q.trans q'.symm
  | indexed i j =>
    obtain ⟨p, q, m, rfl, _, _⟩ := h
    have hk : j ≠ -1 := by have := hS.2.1; omega
    have s1 := satisfy_indexed (m := m) (idx_of_type hx hS.1) hk
    have s2 := satisfy_indexed (m := m) (idx_of_type hy hS.1) hk
    refine key ?_ ?_
    · intro e b hb
      simp only [List.mem_cons, List.not_mem_nil, or_false] at hb
      rcases hb with rfl | rfl
      · dsimp only
        rw [s1, s2, decide_eq_decide.2 (show idxValAt x i = j ↔ idxValAt y i = j from e)]
      · dsimp only
        rw [satisfy_other, satisfy_other]
    · intro hfy
      show idxValAt x i = j ↔ idxValAt y i = j
      obtain ⟨a1, a2, a3⟩ := hf
      obtain ⟨_, b2, b3⟩ := hfy
      match k, a1 with
      | 0, a1 =>
        simp only [List.getElem?_cons_zero, Option.some.injEq] at a1
        subst a1
        dsimp only at a2 b2
        rw [s1] at a2; rw [s2] at b2
        simp only [Except.ok.injEq, decide_eq_true_eq] at a2 b2
        exact ⟨fun _ => b2, fun _ => a2⟩
      | 1, _ =>
        have a := a3 0 (by omega) _ rfl
        have b := b3 0 (by omega) _ rfl
        dsimp only at a b
        rw [s1] at a; rw [s2] at b
        simp only [Except.ok.injEq, decide_eq_false_iff_not] at a b
        exact ⟨fun e => absurd e a, fun e => absurd e b⟩
      | k + 2, a1 => simp at a1
  | threshold i t =>
    obtain ⟨p, q, rfl, _, _⟩ := h
    obtain ⟨s1, s1'⟩ := satisfy_threshold (t := t) (cont_of_type hx hS.1)
    obtain ⟨s2, s2'⟩ := satisfy_threshold (t := t) (cont_of_type hy hS.1)
    simp only [le_real, lt_real] at s1 s1' s2 s2'
    refine key ?_ ?_
    · intro e b hb
      have e : contValAt x i ≤ t ↔ contValAt y i ≤ t := e
      simp only [List.mem_cons, List.not_mem_nil, or_false] at hb
      rcases hb with rfl | rfl
      · dsimp only
        rw [s1, s2, decide_eq_decide.2 e]
      · dsimp only
        rw [s1', s2', decide_eq_decide.2 (show t < contValAt x i ↔ t < contValAt y i by rw [← not_le, ← not_le, e])]
    · intro hfy
      show contValAt x i ≤ t ↔ contValAt y i ≤ t
      obtain ⟨a1, a2, a3⟩ := hf
      obtain ⟨_, b2, b3⟩ := hfy
      match k, a1 with
      | 0, a1 =>
        simp only [List.getElem?_cons_zero, Option.some.injEq] at a1
        subst a1
        dsimp only at a2 b2
        rw [s1] at a2; rw [s2] at b2
        simp only [Except.ok.injEq, decide_eq_true_eq] at a2 b2
        exact ⟨fun _ => b2, fun _ => a2⟩
      | 1, _ =>
        have a := a3 0 (by omega) _ rfl
        have b := b3 0 (by omega) _ rfl
        dsimp only at a b
        rw [s1] at a; rw [s2] at b
        simp only [Except.ok.injEq, decide_eq_false_iff_not] at a b
        exact ⟨fun e => absurd e a, fun e => absurd e b⟩
      | k + 2, a1 => simp at a1

theorem firstOf_firstIn {bs : List (Cond ℝ × IList ℝ)} {ch : List (Node ℝ)} {x : Inst ℝ} (hlen : bs.length = ch.length)
    (hcond : ∀ (k : Nat) b n, bs[k]? = some b → ch[k]? = some n → n.cond = b.1) {k : Nat} {b : Cond ℝ × IList ℝ} {n : Node ℝ}
    (hb : bs[k]? = some b) (hn : ch[k]? = some n) : FirstIn ch x k n ↔ FirstOf bs x k b := by
  constructor
  · intro h
    obtain ⟨b', e, hf⟩ := firstIn_firstOf hlen hcond h
    rw [hb] at e; cases e
    exact hf
  · rintro ⟨_, h2, h3⟩
    refine ⟨hn, by rw [hcond k b n hb hn]; exact h2, fun j hj q hq => ?_⟩
    have hjl : j < bs.length := by rw [hlen]; exact (List.getElem?_eq_some_iff.1 hq).1
    rw [hcond j _ q (List.getElem?_eq_getElem hjl) hq]
    exact h3 j hj _ (List.getElem?_eq_getElem hjl)

/-! ## the stratified split of corresponding lists -/

theorem stratified_map {g : Inst ℝ → Inst ℝ} (hg : ∀ x, (g x).label = x.label) (l : IList ℝ) (r : ℝ) (arr : List Nat) :
    Parts.byRatioStratified (l.map g) r arr = (Parts.byRatioStratified l r arr).map (List.map (List.map g)) := by
  have hcd : IList.classDistribution (l.map g) = l.classDistribution := by
    unfold IList.classDistribution
    rw [List.foldl_map]
    simp only [hg]
  have hadd : ∀ (ps : Parts ℝ) (i : Nat) (x : Inst ℝ),
      Parts.addTo (ps.map (List.map g)) i (g x) = (Parts.addTo ps i x).map (List.map (List.map g)) := by
    intro ps i x
    unfold Parts.addTo
    rw [keeps_atR]
    cases atR ps i with
    | error e => rfl
    | ok p =>
      simp only [Except.map, res_bind_ok, pure, Except.pure, List.map_set]
      unfold IList.add
      rw [List.map_append, List.map_cons, List.map_nil]
  unfold Parts.byRatioStratified
  simp only [hcd, List.length_map]
  rw [map_bind_res]
  rw [show (([], [[], []]) : Counter × Parts ℝ) = (fun s : Counter × Parts ℝ => (s.1, s.2.map (List.map g))) ([], [[], []]) from rfl]
  rw [foldlM_equiv' (fun s : Counter × Parts ℝ => (s.1, s.2.map (List.map g))) (fun (st : Counter × Parts ℝ) i => do
    let r' ← atR arr i
    let x ← l.get r'
    let ps ←
      if Dbl.ofNat (Counter.count st.1 x.label) <.
          (Dbl.ofNat l.length *. r *. (l.classDistribution.getProbability x.label : ℝ))
      then Parts.addTo st.2 0 x
      else Parts.addTo st.2 1 x
    pure (Counter.put st.1 x.label, ps)), bind_map_res]
  · rfl
  · intro i _ s
    simp only [map_bind_res]
    refine bind_congr_res (fun a _ => ?_)
    unfold IList.get
    simp only [keeps_atR, bind_map_res]
    refine bind_congr_res (fun x _ => ?_)
    simp only [hg x, hadd]
    split <;> cases Parts.addTo s.2 _ x <;> rfl

/-! ## training with pruning -/

theorem leaf_alike (R : Inst ℝ → Inst ℝ → Prop) (c c' : Cond ℝ) (s : String) (d : DD) :
    Alike R (.mk c true s d []) (.mk c' true s d []) :=
  .mk _ _ _ _ _ _ _ (by simp) (by simp) (fun _ _ _ _ _ _ _ _ _ _ h => by simp [FirstIn] at h)
    (fun _ _ _ _ _ _ _ h => by simp [FirstIn] at h)

theorem pruned_alike {R : Inst ℝ → Inst ℝ → Prop} (hR : KeepsClass R) {g : Inst ℝ → Inst ℝ}
    (hgl : ∀ x, (g x).label = x.label) {ts ts' : List AttrType} {data : IList ℝ}
    (hts : ∀ x ∈ data, typesOf x = ts) (hts' : ∀ x ∈ data, typesOf (g x) = ts') (hRd : ∀ x ∈ data, R x (g x))
    (hpos : ∀ x ∈ data, x.isComposite = true → x.possibleLabels ≠ [])
    (hgrow : ∀ q : IList ℝ, q ≠ [] → (∀ x ∈ q, x ∈ data) → ∃ n n', Node.grow none false (q.length + 1) q Cond.root = .ok n ∧
      Node.grow none false ((q.map g).length + 1) (q.map g) Cond.root = .ok n' ∧ DefOn ts n ∧ DefOn ts' n' ∧ Alike R n n')
    {r : ℝ} (h0 : 0 < r) (h1 : r ≤ 1) {σ : List Nat} (hσ : IsPermutation σ data.length) {c : String}
    (hc : ⌈r * (data.map Inst.label).count c⌉₊ < (data.map Inst.label).count c) :
    ∃ m m', treeTrain data (some (r, σ)) = .ok m ∧ treeTrain (data.map g) (some (r, σ)) = .ok m' ∧ Alike R m m' := by
  obtain ⟨p0, p1, e, hperm, _⟩ := C25_stratified_split data r σ hσ
  obtain ⟨q0, q1, e', c0, c1⟩ := C25_class_counts data r σ hσ h0.le h1 _ e c
  cases e'
  have hne1 : p1 ≠ [] := by rintro rfl; simp at c1; omega
  have hne0 : p0 ≠ [] := by
    rintro rfl
    have hpos : 0 < r * (data.map Inst.label).count c := mul_pos h0 (by exact_mod_cast (by omega))
    have := Nat.ceil_pos.2 hpos
    simp at c0; linarith
  have hmem : ∀ x, x ∈ p0 ∨ x ∈ p1 → x ∈ data := fun x hx => hperm.mem_iff.1 (by simpa using hx)
  have e' : Parts.byRatioStratified (data.map g) r σ = .ok [p0.map g, p1.map g] := by
    rw [stratified_map hgl, e]; rfl
  obtain ⟨n, n', hn, hn', hd, hd', ha⟩ := hgrow p1 hne1 (fun x hx => hmem x (.inr hx))
  obtain ⟨m, hm, _⟩ := pruneNode_total (ts := ts) (treeAccuracy_total p0 (fun x hx => hts x (hmem x (.inl hx)))
    (fun x hx => hpos x (hmem x (.inl hx)))) n id (fun m hm _ => hm) hd
  have hty' : ∀ x ∈ p0.map g, typesOf x = ts' := by
    intro x hx
    obtain ⟨y, hy, rfl⟩ := List.mem_map.1 hx
    exact hts' y (hmem y (.inl hy))
  have hpos' : ∀ x ∈ p0.map g, x.isComposite = true → x.possibleLabels ≠ [] := by
    intro x hx
    obtain ⟨y, hy, rfl⟩ := List.mem_map.1 hx
    have := hRd y (hmem y (.inl hy))
    rw [hR.composite this, hR.labels this]
    exact hpos y (hmem y (.inl hy))
  obtain ⟨m', hm', _⟩ := pruneNode_total (ts := ts') (treeAccuracy_total (p0.map g) hty' hpos') n' id (fun m hm _ => hm) hd'
  refine ⟨m, m', ?_, ?_, ha.prune hR hne0 ?_ hm hm'⟩
  · simp only [treeTrain, e, res_bind_ok]
    show (Node.grow none false (p1.length + 1) p1 Cond.root >>= fun root => prune root p0) = _
    rw [hn, res_bind_ok]; exact hm
  · simp only [treeTrain, e', res_bind_ok]
    show (Node.grow none false ((p1.map g).length + 1) (p1.map g) Cond.root >>= fun root => prune root (p0.map g)) = _
    rw [hn', res_bind_ok]; exact hm'
  · rw [List.forall₂_map_right_iff, List.forall₂_same]
    exact fun x hx => hRd x (hmem x (.inl hx))

/-! ## stumps and bagging -/

theorem asLeaf_cond (n : Node ℝ) : n.asLeaf.cond = n.cond := by cases n; rfl

theorem firstIn_asLeaf {ch : List (Node ℝ)} {x : Inst ℝ} {k : Nat} {m : Node ℝ} :
    FirstIn (ch.map Node.asLeaf) x k m ↔ ∃ n, m = n.asLeaf ∧ FirstIn ch x k n := by
  unfold FirstIn
  constructor
  · rintro ⟨h1, h2, h3⟩
    rw [List.getElem?_map, Option.map_eq_some_iff] at h1
    obtain ⟨n, hn, rfl⟩ := h1
    refine ⟨n, rfl, hn, by rw [← asLeaf_cond]; exact h2, fun j hj q hq => ?_⟩
    rw [← asLeaf_cond]
    exact h3 j hj _ (by rw [List.getElem?_map, hq]; rfl)
  · rintro ⟨n, rfl, h1, h2, h3⟩
    refine ⟨by rw [List.getElem?_map, h1]; rfl, by rw [asLeaf_cond]; exact h2, fun j hj q hq => ?_⟩
    rw [List.getElem?_map, Option.map_eq_some_iff] at hq
    obtain ⟨q, hq, rfl⟩ := hq
    rw [asLeaf_cond]
    exact h3 j hj q hq

theorem Alike.top {R : Inst ℝ → Inst ℝ → Prop} {n n' : Node ℝ} (h : Alike R n n') : Alike R n.top n'.top := by
  cases h with
  | mk c c' l s d ch ch' hdef hnone hsame hch =>
    have hall : ∀ (cs : List (Node ℝ)) (P : Cond ℝ → Prop), (∀ n ∈ cs.map Node.asLeaf, P n.cond) ↔ ∀ n ∈ cs, P n.cond := by
      intro cs P; simp [asLeaf_cond]
    refine .mk _ _ _ _ _ _ _ ?_ ?_ ?_ ?_
    · intro x x' hx
      rw [hall ch (fun c => ∃ b, c.satisfy x = .ok b), hall ch' (fun c => ∃ b, c.satisfy x' = .ok b)]
      exact hdef x x' hx
    · intro x x' hx
      rw [hall ch (fun c => c.satisfy x = .ok false), hall ch' (fun c => c.satisfy x' = .ok false)]
      exact hnone x x' hx
    · intro x x' y y' k k' m m' hx hy hf hf'
      obtain ⟨n, rfl, g⟩ := firstIn_asLeaf.1 hf
      obtain ⟨n', rfl, g'⟩ := firstIn_asLeaf.1 hf'
      have := hsame x x' y y' k k' n n' hx hy g g'
      constructor
      · intro h
        obtain ⟨q, _, hq⟩ := firstIn_asLeaf.1 h
        have e := hq.1
        rw [g.1] at e; cases e
        exact firstIn_asLeaf.2 ⟨n', rfl, this.1 hq⟩
      · intro h
        obtain ⟨q, _, hq⟩ := firstIn_asLeaf.1 h
        have e := hq.1
        rw [g'.1] at e; cases e
        exact firstIn_asLeaf.2 ⟨n, rfl, this.2 hq⟩
    · intro x x' k k' m m' hx hf hf'
      obtain ⟨n, rfl, g⟩ := firstIn_asLeaf.1 hf
      obtain ⟨n', rfl, g'⟩ := firstIn_asLeaf.1 hf'
      cases hch x x' k k' n n' hx g g' with
      | mk => exact leaf_alike _ _ _ _ _

theorem bagged_alike {R : Inst ℝ → Inst ℝ → Prop} {g : Inst ℝ → Inst ℝ} {data : IList ℝ}
    (hgrow : ∀ q : IList ℝ, q ≠ [] → (∀ x ∈ q, x ∈ data) → ∃ n n', Node.grow none false (q.length + 1) q Cond.root = .ok n ∧
      Node.grow none false ((q.map g).length + 1) (q.map g) Cond.root = .ok n' ∧ Alike R n n')
    {draws : Nat → List Nat} (hd : ∀ i, draws i ≠ [] ∧ ∀ k ∈ draws i, k < data.length) (B : Int) :
    ∃ f f', ensembleTrain none draws [] data B = .ok f ∧ ensembleTrain none draws [] (data.map g) B = .ok f' ∧
      List.Forall₂ (Alike R) f f' := by
  have key : ∀ (is : List Nat) (r r' : List (Node ℝ)), List.Forall₂ (Alike R) r r' →
      ∃ f f', is.foldlM (fun forest i => do
          let t ← Node.grow none false ((data.bootstrap (draws i)).length + 1) (data.bootstrap (draws i)) Cond.root
          (pure (forest ++ [t]) : Res (List (Node ℝ)))) r = .ok f ∧
        is.foldlM (fun forest i => do
          let t ← Node.grow none false ((IList.bootstrap (data.map g) (draws i)).length + 1)
            (IList.bootstrap (data.map g) (draws i)) Cond.root
          (pure (forest ++ [t]) : Res (List (Node ℝ)))) r' = .ok f' ∧ List.Forall₂ (Alike R) f f' := by
    intro is
    induction is with
    | nil => intro r r' h; exact ⟨r, r', rfl, rfl, h⟩
    | cons i is ih =>
      intro r r' h
      obtain ⟨hlen, hmem⟩ := C65_sample (hd i).2
      have hne : data.bootstrap (draws i) ≠ [] := by
        intro h0; rw [h0] at hlen
        exact (hd i).1 (List.length_eq_zero_iff.1 hlen.symm)
      have hb : IList.bootstrap (data.map g) (draws i) = List.map g (data.bootstrap (draws i)) := by
        unfold IList.bootstrap
        rw [List.map_filterMap]
        exact List.filterMap_congr (fun k _ => by rw [List.getElem?_map])
      obtain ⟨n, n', h1, h2, h3⟩ := hgrow _ hne hmem
      rw [← hb] at h2
      obtain ⟨f, f', e1, e2, e3⟩ := ih (r ++ [n]) (r' ++ [n']) (List.rel_append h (.cons h3 .nil))
      exact ⟨f, f', by rw [List.foldlM_cons, h1]; exact e1, by rw [List.foldlM_cons, h2]; exact e2, e3⟩
  exact key (List.range B.toNat) [] [] .nil

theorem votes_alike {R : Inst ℝ → Inst ℝ → Prop} (hR : KeepsClass R) {f f' : List (Node ℝ)} (h : List.Forall₂ (Alike R) f f')
    {x x' : Inst ℝ} (hx : R x x') :
    ensemblePredict f' x' = ensemblePredict f x ∧ ensembleProbability f' x' = ensembleProbability f x := by
  have hv : ensembleVotes f' x' = ensembleVotes f x := by
    unfold ensembleVotes
    generalize DD.empty = d
    induction h generalizing d with
    | nil => rfl
    | cons hh _ ih =>
      rw [List.foldlM_cons, List.foldlM_cons, hh.treePredict hR hx]
      simp only [bind_assoc, pure_bind]
      exact bind_congr (fun p => ih _)
  unfold ensemblePredict ensembleProbability
  rw [hv]
  exact ⟨rfl, rfl⟩

end Verif
