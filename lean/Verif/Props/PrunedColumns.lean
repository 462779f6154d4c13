import Verif.Props.TreeColumns
import Verif.Props.TreeAlike

/-! # Property C166: pruned trees and the order of the columns -/

namespace Verif
open Dbl

section
variable {ts : List AttrType} {σ : List Nat}

/-- an instance and the same with its columns in another order -/
def Moved (σ : List Nat) (ts : List AttrType) (x x' : Inst ℝ) : Prop := typesOf x = ts ∧ x' = reorder σ x

/-- `m` is reached from `n` by taking, one after the other, the children with the numbers in `path` -/
inductive ReachedBy : Node ℝ → List Nat → Node ℝ → Prop
  | here (n : Node ℝ) : ReachedBy n [] n
  | step (n m e : Node ℝ) (k : Nat) (path : List Nat) : n.children[k]? = some m → ReachedBy m path e → ReachedBy n (k :: path) e

theorem moved_keeps : KeepsClass (Moved σ ts) := by
  rintro x _ ⟨_, rfl⟩
  exact ⟨rfl, rfl⟩

theorem firstOf_moved (hσ : IsPermutation σ ts.length) {x : Inst ℝ} (hx : typesOf x = ts) {j : Nat} (hj : j < ts.length)
    {bs : List (Cond ℝ × IList ℝ)} (hat : ∀ b ∈ bs, b.1.attr = (σ.getD j 0 : Nat)) {k : Nat} {b : Cond ℝ × IList ℝ} (hb : bs[k]? = some b) :
    FirstOf bs x k b ↔ FirstOf (bs.map (moveBranch σ j)) (reorder σ x) k (moveBranch σ j b) := by
  refine ⟨firstOf_move hσ hx hj hat, fun ⟨_, h2, h3⟩ => ⟨hb, ?_, fun i hi q hq => ?_⟩⟩
  · exact (satisfy_move hσ hx hj _ (hat b (List.mem_of_getElem? hb))).symm.trans h2
  · have := h3 i hi (moveBranch σ j q) (by rw [List.getElem?_map, hq]; rfl)
    exact (satisfy_move hσ hx hj _ (hat q (List.mem_of_getElem? hq))).symm.trans this

theorem alike_columns (hσ : IsPermutation σ ts.length) {data : IList ℝ} {n : Node ℝ}
    (ho : OptimalTree (Considered ts (List.range ts.length)) (Split.Before (List.range ts.length)) data n) :
    ∀ (data' : IList ℝ) (n' : Node ℝ),
      OptimalTree (Considered (reorderTypes σ ts) (List.range ts.length)) (Split.Before (List.range ts.length)) data' n' →
      data'.Perm (data.map (reorder σ)) → (∀ x ∈ data, typesOf x = ts) → DefOn ts n → DefOn (reorderTypes σ ts) n' →
      (∀ path m, ReachedBy n path m → ¬ ColumnTie ts (passing n data path)) → Alike (Moved σ ts) n n' := by
  induction ho with
  | pure data c lab d hne hlab hd h =>
    intro data' n' ho' hp hts _ _ _
    have hlp := labels_reorder_perm hp
    have hnm : ¬ ∃ x ∈ data', ∃ y ∈ data', x.label ≠ y.label := by
      rw [mixed_reorder hp]
      rintro ⟨x, hx, y, hy, hne⟩; exact hne (h x hx y hy)
    cases ho' with
    | pure _ c' lab' d' _ hlab' hd' _ =>
      have e1 := majority_determined hlab' hlab hlp
      have e2 := counts_determined hd' hd hlp
      subst e1 e2
      exact leaf_alike _ _ _ _ _
    | stop _ _ _ _ _ _ hm _ => exact absurd hm hnm
    | split _ _ _ _ _ _ _ _ _ hm => exact absurd hm hnm
  | stop data c lab d hlab hd hmixed h =>
    intro data' n' ho' hp hts _ _ _
    have hlp := labels_reorder_perm hp
    cases ho' with
    | pure _ c' lab' d' _ _ _ hp' =>
      obtain ⟨x, hx, y, hy, hne⟩ := (mixed_reorder hp).2 hmixed
      exact absurd (hp' x hx y hy) hne
    | stop _ c' lab' d' hlab' hd' _ _ =>
      have e1 := majority_determined hlab' hlab hlp
      have e2 := counts_determined hd' hd hlp
      subst e1 e2
      exact leaf_alike _ _ _ _ _
    | split _ c' lab' d' S' _ _ _ _ _ hS' hless' =>
      have hl' : S'.attr < ts.length := List.mem_range.1 hS'.2
      have hO := ((candidate_perm hp S').trans (candidate_reorder hσ hts S' hl')).1 hS'.1
      have := h _ ⟨hO, List.mem_range.2 (candidate_lt hO)⟩
      rw [← entropy_reorder hσ hts S' hl', ← Split.entropy_perm hp, ← shannon_perm hlp] at this
      exact absurd hless' (not_lt.2 this)
  | split data c lab d S bs ch hlab hd hmixed hS hless hmin hfirst hbs hlen hcond hch ih =>
    intro data' n' ho' hp hts hdn hdn' htie
    have htie0 : ¬ ColumnTie ts data := by
      have := htie [] _ (.here _)
      rwa [passing_root] at this
    have hlp := labels_reorder_perm hp
    cases ho' with
    | pure _ c' lab' d' _ _ _ hp' =>
      obtain ⟨x, hx, y, hy, hne⟩ := (mixed_reorder hp).2 hmixed
      exact absurd (hp' x hx y hy) hne
    | stop _ c' lab' d' _ _ _ h' =>
      obtain ⟨j, hj, e⟩ := perm_onto hσ (List.mem_range.1 hS.2)
      have ha : (S.onColumn j).attr = j := by cases S <;> rfl
      have hc := ((candidate_perm hp (S.onColumn j)).trans (candidate_reorder hσ hts _ (by rw [ha]; exact hj))).2
        (by rw [original_onColumn S e]; exact hS.1)
      have := h' _ ⟨hc, by rw [ha]; exact List.mem_range.2 hj⟩
      rw [Split.entropy_perm hp, entropy_reorder hσ hts _ (by rw [ha]; exact hj), original_onColumn S e, shannon_perm hlp] at this
      exact absurd hless (not_lt.2 this)
    | split _ c' lab' d' S' bs' ch' hlab' hd' hmixed' hS' hless' hmin' hfirst' hbs' hlen' hcond' hch' =>
      have e1 := majority_determined hlab' hlab hlp
      have e2 := counts_determined hd' hd hlp
      subst e1 e2
      have hsame := same_split hσ hts hp hS.1 hless hmin hfirst hS'.1 hmin' hfirst' htie0
      have hl' : S'.attr < ts.length := List.mem_range.1 hS'.2
      have hmv := branches_perm hp.symm _ _ (branches_move hσ hts S' hl' (bs := bs) (by rw [hsame]; exact hbs))
      have hat : ∀ b ∈ bs, b.1.attr = (σ.getD S'.attr 0 : Nat) := by
        intro b hb
        rw [branches_attr hbs b hb, ← original_attr, hsame]
      cases hdn with
      | mk _ _ _ _ _ hdef hdch =>
      cases hdn' with
      | mk _ _ _ _ _ hdef' hdch' =>
      refine .mk _ _ _ _ _ _ _ ?_ ?_ ?_ ?_
      · rintro x _ ⟨hx, rfl⟩
        exact ⟨fun n hn => hdef n hn x hx, fun n hn => hdef' n hn _ (reorderTypes_typesOf (σ := σ) x hx)⟩
      · rintro x _ ⟨hx, rfl⟩
        obtain ⟨m1, _⟩ := branches_match hS'.1 hmv hbs' (reorder σ x) (reorderTypes_typesOf (σ := σ) x hx)
        rw [none_iff hlen hcond, none_iff hlen' hcond', ← m1]
        constructor
        · intro h b hb
          obtain ⟨q, hq, rfl⟩ := List.mem_map.1 hb
          exact (satisfy_move hσ hx hl' _ (hat q hq)).trans (h q hq)
        · intro h q hq
          exact (satisfy_move hσ hx hl' _ (hat q hq)).symm.trans (h _ (List.mem_map_of_mem hq))
      · rintro x _ y _ k k' m m' ⟨hx, rfl⟩ ⟨hy, rfl⟩ hf hf'
        obtain ⟨b, hbk, hfo⟩ := firstIn_firstOf hlen hcond hf
        obtain ⟨b', hbk', hfo'⟩ := firstIn_firstOf hlen' hcond' hf'
        have hx' := reorderTypes_typesOf (σ := σ) x hx
        have hy' := reorderTypes_typesOf (σ := σ) y hy
        rw [firstOf_firstIn hlen hcond hbk hf.1, firstOf_firstIn hlen' hcond' hbk' hf'.1, firstOf_moved hσ hy hl' hat hbk,
          together_firstOf hS'.1 hmv hx' hy' (firstOf_move hσ hx hl' hat hfo), together_firstOf hS'.1 hbs' hx' hy' hfo']
      · rintro x _ k k' m m' ⟨hx, rfl⟩ hf hf'
        obtain ⟨b, hbk, hfo⟩ := firstIn_firstOf hlen hcond hf
        obtain ⟨b', hbk', hfo'⟩ := firstIn_firstOf hlen' hcond' hf'
        obtain ⟨_, m2⟩ := branches_match hS'.1 hmv hbs' (reorder σ x) (reorderTypes_typesOf (σ := σ) x hx)
        have hperm := (m2 _ _ _ _ (firstOf_move hσ hx hl' hat hfo) hfo').1
        have hR : ∀ path e, ReachedBy m path e → ¬ ColumnTie ts (passing m b.2 path) := by
          intro path e he
          rw [← columnTie_perm (passing_child hts hS.1 hbs hlen hcond hbk hf.1 path)]
          exact htie (k :: path) e (.step _ m e k path hf.1 he)
        exact ih k b m hbk hf.1 b'.2 m' (hch' k' b' m' hbk' hf'.1) hperm.symm
          (fun y hy => hts y (Split.Branches.subset hbs (List.mem_of_getElem? hbk) y hy))
          (hdch m (List.mem_of_getElem? hf.1)) (hdch' m' (List.mem_of_getElem? hf'.1)) hR

/-- C166 for trees that are pruned: the same shuffle and ratio, and no tie between columns at a node of the tree that is pruned -/
theorem C166_pruned_tree_partial (hσ : IsPermutation σ ts.length) {data : IList ℝ} (hts : ∀ x ∈ data, typesOf x = ts)
    (hbd : IndexBounded data) (hpos : ∀ x ∈ data, x.isComposite = true → x.possibleLabels ≠ [])
    {r : ℝ} (h0 : 0 < r) (h1 : r ≤ 1) {ρ : List Nat} (hρ : IsPermutation ρ data.length) {c : String}
    (hc : ⌈r * (data.map Inst.label).count c⌉₊ < (data.map Inst.label).count c)
    (htie : ∀ kept grown n, Parts.byRatioStratified data r ρ = .ok [kept, grown] → treeTrain grown none = .ok n →
      ∀ path m, ReachedBy n path m → ¬ ColumnTie ts (passing n grown path)) :
    ∃ m m', treeTrain data (some (r, ρ)) = .ok m ∧ treeTrain (data.map (reorder σ)) (some (r, ρ)) = .ok m' ∧
      ∀ x : Inst ℝ, typesOf x = ts →
        treePredict m' (reorder σ x) = treePredict m x ∧
        m'.predictProbability (reorder σ x) = m.predictProbability x := by
  obtain ⟨p0, p1, e, hperm, _⟩ := C25_stratified_split data r ρ hρ
  obtain ⟨q0, q1, e', c0, c1⟩ := C25_class_counts data r ρ hρ h0.le h1 _ e c
  cases e'
  have hne1 : p1 ≠ [] := by rintro rfl; simp at c1; omega
  have hne0 : p0 ≠ [] := by
    rintro rfl
    have hpos : 0 < r * (data.map Inst.label).count c := mul_pos h0 (by exact_mod_cast (by omega))
    have := Nat.ceil_pos.2 hpos
    simp at c0; linarith
  have hmem : ∀ x, x ∈ p0 ∨ x ∈ p1 → x ∈ data := fun x hx => hperm.mem_iff.1 (by simpa using hx)
  have e' : Parts.byRatioStratified (data.map (reorder σ)) r ρ = .ok [p0.map (reorder σ), p1.map (reorder σ)] := by
    rw [stratified_map (g := reorder σ) (fun _ => rfl), e]; rfl
  have hv : ValidParam none := by intro _ _ h; cases h
  have hto : ∀ q : IList ℝ, (∀ x ∈ q, x ∈ data) → ∀ x ∈ q.map (reorder σ), typesOf x = reorderTypes σ ts := by
    intro q hq x hx
    obtain ⟨y, hy, rfl⟩ := List.mem_map.1 hx
    exact reorderTypes_typesOf y (hts y (hq y hy))
  have hin1 : ∀ x ∈ p1, x ∈ data := fun x hx => hmem x (.inr hx)
  have hin0 : ∀ x ∈ p0, x ∈ data := fun x hx => hmem x (.inl hx)
  have hts1 : ∀ x ∈ p1, typesOf x = ts := fun x hx => hts x (hin1 x hx)
  have hbd1 : IndexBounded p1 := fun x hx y hy => hbd x (hin1 x hx) y (hin1 y hy)
  obtain ⟨n, hn, ho, _, hg, _⟩ := grow_ok hv (show Node.triedIndices none ts.length = .ok (List.range ts.length) from rfl)
    false (p1.length + 1) p1 Cond.root hne1 hts1 (by omega)
  obtain ⟨n', hn', ho', _, hg', _⟩ := grow_ok hv
    (show Node.triedIndices none (reorderTypes σ ts).length = .ok (List.range ts.length) by rw [reorderTypes_length hσ]; rfl)
    false ((p1.map (reorder σ)).length + 1) (p1.map (reorder σ)) Cond.root (by simpa using hne1) (hto p1 hin1) (by omega)
  have ha : Alike (Moved σ ts) n n' := alike_columns hσ (ho rfl hbd1) _ n' (ho' rfl (indexBounded_reorder hσ hts1 hbd1))
    (List.Perm.refl _) hts1 hg.defOn hg'.defOn (htie p0 p1 n e hn)
  obtain ⟨m, hm, _⟩ := pruneNode_total (ts := ts) (treeAccuracy_total p0 (fun x hx => hts x (hin0 x hx))
    (fun x hx => hpos x (hin0 x hx))) n id (fun m hm _ => hm) hg.defOn
  have hpos' : ∀ x ∈ p0.map (reorder σ), x.isComposite = true → x.possibleLabels ≠ [] := by
    intro x hx
    obtain ⟨y, hy, rfl⟩ := List.mem_map.1 hx
    exact hpos y (hin0 y hy)
  obtain ⟨m', hm', _⟩ := pruneNode_total (ts := reorderTypes σ ts) (treeAccuracy_total (p0.map (reorder σ)) (hto p0 hin0) hpos')
    n' id (fun m hm _ => hm) hg'.defOn
  have hma : Alike (Moved σ ts) m m' := ha.prune moved_keeps hne0 (by
    rw [List.forall₂_map_right_iff, List.forall₂_same]
    exact fun x hx => ⟨hts x (hin0 x hx), rfl⟩) hm hm'
  refine ⟨m, m', ?_, ?_, fun x hx => ?_⟩
  · simp only [treeTrain, e, res_bind_ok]
    show (Node.grow none false (p1.length + 1) p1 Cond.root >>= fun root => prune root p0) = _
    rw [hn, res_bind_ok]; exact hm
  · simp only [treeTrain, e', res_bind_ok]
    show (Node.grow none false ((p1.map (reorder σ)).length + 1) (p1.map (reorder σ)) Cond.root >>=
      fun root => prune root (p0.map (reorder σ))) = _
    rw [hn', res_bind_ok]; exact hm'
  · have hmv : Moved σ ts x (reorder σ x) := ⟨hx, rfl⟩
    exact ⟨hma.treePredict moved_keeps hmv, (hma.answers moved_keeps hmv).2.2⟩

/-- the hypotheses are met by a list in which two classes go to the part that is grown from -/
example : ∃ m m', treeTrain (oneColumn ++ oneColumn) (some (1 / 2, List.range 6)) = .ok m ∧
    treeTrain ((oneColumn ++ oneColumn).map (reorder [1, 0])) (some (1 / 2, List.range 6)) = .ok m' ∧
    ∀ x : Inst ℝ, typesOf x = [.continuous, .discrete] →
      treePredict m' (reorder [1, 0] x) = treePredict m x ∧
      m'.predictProbability (reorder [1, 0] x) = m.predictProbability x := by
  have hin : ∀ x ∈ oneColumn ++ oneColumn, x ∈ oneColumn := by
    intro x hx
    simpa using hx
  have hρ : IsPermutation (List.range 6) (oneColumn ++ oneColumn).length := List.Perm.refl _
  refine C166_pruned_tree_partial (ts := [.continuous, .discrete]) (σ := [1, 0]) (by unfold IsPermutation; decide) ?_ ?_ ?_
    (by norm_num) (by norm_num) hρ (c := "a") ?_ ?_
  · intro x hx
    have := hin x hx
    simp only [oneColumn, List.mem_cons, List.not_mem_nil, or_false] at this
    rcases this with rfl | rfl | rfl <;> rfl
  · intro x hx y hy i v k m v' k' m' e
    have := hin x hx
    simp only [oneColumn, List.mem_cons, List.not_mem_nil, or_false] at this
    rcases this with rfl | rfl | rfl <;>
    · match i, e with
      | 0, e => simp at e
      | 1, e => simp at e
      | i + 2, e => simp at e
  · intro x hx h
    have := hin x hx
    simp only [oneColumn, List.mem_cons, List.not_mem_nil, or_false] at this
    rcases this with rfl | rfl | rfl <;> cases h
  · have e : ((oneColumn ++ oneColumn).map Inst.label).count "a" = 4 := by
      simp [oneColumn]
    rw [e]
    norm_num
  · intro kept grown n hs _ path m _
    obtain ⟨p0, p1, e, hperm, _⟩ := C25_stratified_split (oneColumn ++ oneColumn) (1 / 2) (List.range 6) hρ
    rw [e] at hs
    cases hs
    refine oneColumn_noTie _ (fun y hy => hin y (hperm.mem_iff.1 ?_))
    unfold passing at hy
    have := List.mem_of_mem_filter hy
    simp [this]
end
end Verif
