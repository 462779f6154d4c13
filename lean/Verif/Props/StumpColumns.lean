import Verif.Props.TreeColumns
import Verif.Props.Limits

/-! # Property C166: decision stumps and the order of the columns -/

namespace Verif
open Dbl

section
variable {ts : List AttrType} {σ : List Nat}

theorem optimal_root {cand : IList ℝ → Split → Prop} {before : Split → Split → Prop} {data : IList ℝ} {n : Node ℝ}
    (h : OptimalTree cand before data n) : ∃ lab d, IsMajority (data.map Inst.label) lab ∧ Counts d (data.map Inst.label) ∧
      n.asLeaf = .mk n.cond true lab d [] := by
  cases h with
  | pure _ c lab d _ hlab hd _ => exact ⟨_, _, hlab, hd, rfl⟩
  | stop _ c lab d hlab hd _ _ => exact ⟨_, _, hlab, hd, rfl⟩
  | split _ c lab d S bs ch hlab hd => exact ⟨_, _, hlab, hd, rfl⟩

theorem asLeaf_condition (n : Node ℝ) : n.asLeaf.cond = n.cond := by cases n; rfl

theorem top_columns (hσ : IsPermutation σ ts.length) {data : IList ℝ} {n : Node ℝ}
    (ho : OptimalTree (Considered ts (List.range ts.length)) (Split.Before (List.range ts.length)) data n)
    (data' : IList ℝ) (n' : Node ℝ)
    (ho' : OptimalTree (Considered (reorderTypes σ ts) (List.range ts.length)) (Split.Before (List.range ts.length)) data' n')
    (hp : data'.Perm (data.map (reorder σ))) (hts : ∀ x ∈ data, typesOf x = ts) (hdn : DefOn ts n) (hdn' : DefOn (reorderTypes σ ts) n')
    (htie0 : ¬ ColumnTie ts data) (x : Inst ℝ) (hx : typesOf x = ts) :
    SameAnswers n.top n'.top x (reorder σ x) := by
  have hlp := labels_reorder_perm hp
  cases ho with
  | pure _ c lab d hne hlab hd h =>
    have hnm : ¬ ∃ x ∈ data', ∃ y ∈ data', x.label ≠ y.label := by
      rw [mixed_reorder hp]
      rintro ⟨x, hx, y, hy, hne⟩; exact hne (h x hx y hy)
    cases ho' with
    | pure _ c' lab' d' _ hlab' hd' _ =>
      have e1 := majority_determined hlab' hlab hlp
      have e2 := counts_determined hd' hd hlp
      subst e1 e2
      exact ⟨rfl, rfl, rfl⟩
    | stop _ _ _ _ _ _ hm _ => exact absurd hm hnm
    | split _ _ _ _ _ _ _ _ _ hm => exact absurd hm hnm
  | stop _ c lab d hlab hd hmixed h =>
    cases ho' with
    | pure _ c' lab' d' _ _ _ hp' =>
      obtain ⟨x, hx, y, hy, hne⟩ := (mixed_reorder hp).2 hmixed
      exact absurd (hp' x hx y hy) hne
    | stop _ c' lab' d' hlab' hd' _ _ =>
      have e1 := majority_determined hlab' hlab hlp
      have e2 := counts_determined hd' hd hlp
      subst e1 e2
      exact ⟨rfl, rfl, rfl⟩
    | split _ c' lab' d' S' _ _ _ _ _ hS' hless' =>
      have hl' : S'.attr < ts.length := List.mem_range.1 hS'.2
      have hO := ((candidate_perm hp S').trans (candidate_reorder hσ hts S' hl')).1 hS'.1
      have := h _ ⟨hO, List.mem_range.2 (candidate_lt hO)⟩
      rw [← entropy_reorder hσ hts S' hl', ← Split.entropy_perm hp, ← shannon_perm hlp] at this
      exact absurd hless' (not_lt.2 this)
  | split _ c lab d S bs ch hlab hd hmixed hS hless hmin hfirst hbs hlen hcond hch =>
    cases ho' with
    | pure _ c' lab' d' _ _ _ hp' =>
      obtain ⟨x, hx, y, hy, hne⟩ := (mixed_reorder hp).2 hmixed
      exact absurd (hp' x hx y hy) hne
    | stop _ c' lab' d' _ _ _ h' =>
      obtain ⟨j, hj, e⟩ := perm_onto hσ (List.mem_range.1 hS.2)
      have ha : (S.onColumn j).attr = j := by cases S <;> rfl
      have hc := ((candidate_perm hp (S.onColumn j)).trans (candidate_reorder hσ hts _ (by rw [ha]; exact hj))).2
        (by rw [original_onColumn S e]; exact hS.1)
      have := h' _ ⟨hc, by rw [ha]; exact List.mem_range.2 hj⟩
      rw [Split.entropy_perm hp, entropy_reorder hσ hts _ (by rw [ha]; exact hj), original_onColumn S e, shannon_perm hlp] at this
      exact absurd hless (not_lt.2 this)
    | split _ c' lab' d' S' bs' ch' hlab' hd' hmixed' hS' hless' hmin' hfirst' hbs' hlen' hcond' hch' =>
      have e1 := majority_determined hlab' hlab hlp
      have e2 := counts_determined hd' hd hlp
      subst e1 e2
      have hsame := same_split hσ hts hp hS.1 hless hmin hfirst hS'.1 hmin' hfirst' htie0
      have hl' : S'.attr < ts.length := List.mem_range.1 hS'.2
      have hx' := reorderTypes_typesOf (σ := σ) x hx
      have hmv := branches_perm hp.symm _ _ (branches_move hσ hts S' hl' (bs := bs) (by rw [hsame]; exact hbs))
      have hat : ∀ b ∈ bs, b.1.attr = (σ.getD S'.attr 0 : Nat) := by
        intro b hb
        rw [branches_attr hbs b hb, ← original_attr, hsame]
      obtain ⟨m1, m2⟩ := branches_match hS'.1 hmv hbs' (reorder σ x) hx'
      cases hdn with
      | mk _ _ _ _ _ hdef hdch =>
      cases hdn' with
      | mk _ _ _ _ _ hdef' hdch' =>
      -- the children without what is below them
      have leaf_of : ∀ (l : List (Node ℝ)) (k : Nat) (a : Node ℝ), (l.map Node.asLeaf)[k]? = some a →
          ∃ q, l[k]? = some q ∧ a = q.asLeaf := by
        intro l k a h
        rw [List.getElem?_map] at h
        cases hq : l[k]? with
        | none => rw [hq] at h; cases h
        | some q => rw [hq] at h; cases h; exact ⟨q, rfl, rfl⟩
      have tlen : bs.length = (ch.map Node.asLeaf).length := by simpa using hlen
      have tlen' : bs'.length = (ch'.map Node.asLeaf).length := by simpa using hlen'
      have tcond : ∀ (k : Nat) b n, bs[k]? = some b → (ch.map Node.asLeaf)[k]? = some n → n.cond = b.1 := by
        intro k b n h1 h2
        obtain ⟨q, h3, rfl⟩ := leaf_of ch k n h2
        rw [asLeaf_condition]; exact hcond k b q h1 h3
      have tcond' : ∀ (k : Nat) b n, bs'[k]? = some b → (ch'.map Node.asLeaf)[k]? = some n → n.cond = b.1 := by
        intro k b n h1 h2
        obtain ⟨q, h3, rfl⟩ := leaf_of ch' k n h2
        rw [asLeaf_condition]; exact hcond' k b q h1 h3
      unfold SameAnswers
      simp only [Node.top, Node.predictPlain, Node.predictComposite, Node.predictProbability, Bool.false_eq_true, if_false]
      rcases first_true (ch.map Node.asLeaf) (fun n hn => by
        obtain ⟨q, hq, rfl⟩ := List.mem_map.1 hn
        rw [asLeaf_condition]; exact hdef q hq x hx) with h | ⟨k, a, f1, f2, f3⟩
      · have hb0 := (none_iff tlen tcond).1 h
        have hb1 : ∀ b ∈ bs.map (moveBranch σ S'.attr), b.1.satisfy (reorder σ x) = .ok false := by
          intro b hb
          obtain ⟨q, hq, rfl⟩ := List.mem_map.1 hb
          exact (satisfy_move hσ hx hl' _ (hat q hq)).trans (hb0 q hq)
        have h' := (none_iff tlen' tcond').2 (m1.1 hb1)
        obtain ⟨e1, e2⟩ := predictIn_none (lab := lab') (d := d') h
        obtain ⟨e1', e2'⟩ := predictIn_none (lab := lab') (d := d') h'
        rw [e1, e2, e1', e2', predictCompositeIn_none h, predictCompositeIn_none h']
        exact ⟨rfl, rfl, rfl⟩
      · obtain ⟨b, hbk, hfo⟩ := firstIn_firstOf tlen tcond ⟨f1, f2, f3⟩
        have hfm := firstOf_move hσ hx hl' hat hfo
        rcases first_true (ch'.map Node.asLeaf) (fun n hn => by
          obtain ⟨q, hq, rfl⟩ := List.mem_map.1 hn
          rw [asLeaf_condition]; exact hdef' q hq (reorder σ x) hx') with h' | ⟨k', a', f1', f2', f3'⟩
        · have := m1.2 ((none_iff tlen' tcond').1 h') _ (List.mem_of_getElem? hfm.1)
          rw [hfm.2.1] at this; cases this
        · obtain ⟨b', hbk', hfo'⟩ := firstIn_firstOf tlen' tcond' ⟨f1', f2', f3'⟩
          have hperm := (m2 _ _ _ _ hfm hfo').1
          obtain ⟨q, hq, rfl⟩ := leaf_of ch k a f1
          obtain ⟨q', hq', rfl⟩ := leaf_of ch' k' a' f1'
          obtain ⟨la, da, o1, o2, o3⟩ := optimal_root (hch k b q hbk hq)
          obtain ⟨la', da', o1', o2', o3'⟩ := optimal_root (hch' k' b' q' hbk' hq')
          have hlq := labels_reorder_perm (σ := σ) (data := b.2) (data' := b'.2) hperm.symm
          have e1 := majority_determined o1' o1 hlq
          have e2 := counts_determined o2' o2 hlq
          subst e1 e2
          rw [predictPlainIn_first f1 f2 f3, predictPlainIn_first f1' f2' f3', predictProbabilityIn_first f1 f2 f3,
            predictProbabilityIn_first f1' f2' f3', predictCompositeIn_first ⟨f1, f2, f3⟩,
            predictCompositeIn_first ⟨f1', f2', f3'⟩, o3, o3']
          exact ⟨rfl, rfl, rfl⟩

/-- **C166 (part).** Decision stumps, in exact arithmetic: training on the columns in another order succeeds too, and every instance gets the same
label and the same class probabilities, if no two different columns tie for the least remaining entropy of the training data. -/
theorem C166_stump_partial (hσ : IsPermutation σ ts.length) {data : IList ℝ} (hne : data ≠ [])
    (hts : ∀ x ∈ data, typesOf x = ts) (hbd : IndexBounded data) (htie : ¬ ColumnTie ts data) :
    ∃ n n', stumpTrain data = .ok n ∧ stumpTrain (data.map (reorder σ)) = .ok n' ∧
      ∀ x : Inst ℝ, typesOf x = ts →
        treePredict n' (reorder σ x) = treePredict n x ∧
        n'.predictProbability (reorder σ x) = n.predictProbability x := by
  have hv : ValidParam none := by intro _ _ h; cases h
  have hts' : ∀ x ∈ data.map (reorder σ), typesOf x = reorderTypes σ ts := by
    intro x hx
    obtain ⟨y, hy, rfl⟩ := List.mem_map.1 hx
    exact reorderTypes_typesOf y (hts y hy)
  obtain ⟨n, hn, ho, _, hg, _⟩ := grow_ok hv (show Node.triedIndices none ts.length = .ok (List.range ts.length) from rfl)
    false (data.length + 1) data Cond.root hne hts (by omega)
  obtain ⟨n', hn', ho', _, hg', _⟩ := grow_ok hv
    (show Node.triedIndices none (reorderTypes σ ts).length = .ok (List.range ts.length) by rw [reorderTypes_length hσ]; rfl)
    false ((data.map (reorder σ)).length + 1) (data.map (reorder σ)) Cond.root (by simpa using hne) hts' (by omega)
  refine ⟨n.top, n'.top, C159_stump_is_top hn, C159_stump_is_top hn', fun x hx => ?_⟩
  obtain ⟨h1, h2, h3⟩ := top_columns hσ (ho rfl hbd) _ n' (ho' rfl (indexBounded_reorder hσ hts hbd)) (List.Perm.refl _) hts
    hg.defOn hg'.defOn htie x hx
  refine ⟨?_, h3⟩
  unfold treePredict Node.predict
  rw [h1, h2]; rfl

/-- the hypotheses are met: no two columns tie -/
example : ∃ n n', stumpTrain oneColumn = .ok n ∧ stumpTrain (oneColumn.map (reorder [1, 0])) = .ok n' ∧
    ∀ x : Inst ℝ, typesOf x = [.continuous, .discrete] →
      treePredict n' (reorder [1, 0] x) = treePredict n x ∧
      n'.predictProbability (reorder [1, 0] x) = n.predictProbability x := by
  refine C166_stump_partial (ts := [.continuous, .discrete]) (data := oneColumn) (by unfold IsPermutation; decide)
    (by simp [oneColumn])
    (by
      intro x hx
      simp only [oneColumn, List.mem_cons, List.not_mem_nil, or_false] at hx
      rcases hx with rfl | rfl | rfl <;> rfl)
    (by
      intro x hx y hy i v k m v' k' m' e
      simp only [oneColumn, List.mem_cons, List.not_mem_nil, or_false] at hx
      rcases hx with rfl | rfl | rfl <;>
      · match i, e with
        | 0, e => simp at e
        | 1, e => simp at e
        | i + 2, e => simp at e)
    (oneColumn_noTie _ (fun y hy => hy))

end
end Verif
