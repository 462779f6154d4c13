import Verif.Props.Columns
import Verif.Props.TreeOrder

/-! # Property C166 for decision trees: columns that do not tie -/

set_option linter.unusedSectionVars false

namespace Verif
open Dbl

/-! ## a distribution is determined by its counts -/

theorem OMap.determined {V : Type} : ∀ {m m' : OMap V}, m.keys = m'.keys → m.keys.Nodup →
    (∀ k ∈ m.keys, m.find? k = m'.find? k) → m = m' := by
  intro m
  induction m with
  | nil => intro m' h _ _; cases m' with | nil => rfl | cons a m' => simp [OMap.keys] at h
  | cons a m ih =>
    intro m' h hn hf
    cases m' with
    | nil => simp [OMap.keys] at h
    | cons b m' =>
      obtain ⟨k, v⟩ := a
      obtain ⟨k', v'⟩ := b
      simp only [OMap.keys, List.map_cons, List.cons.injEq, List.nodup_cons] at h hn
      obtain ⟨rfl, h⟩ := h
      have h0 := hf k (by simp [OMap.keys])
      simp only [OMap.find?, List.lookup_cons, beq_self_eq_true] at h0
      cases h0
      congr 1
      refine ih h hn.2 (fun j hj => ?_)
      have hjk : j ≠ k := fun e => hn.1 (by rw [← e]; exact hj)
      have := hf j (by simp only [OMap.keys, List.map_cons, List.mem_cons]; exact .inr hj)
      simpa [OMap.find?, List.lookup_cons, hjk, beq_eq_false_iff_ne.2 hjk] using this

theorem counts_determined {d d' : DD} {l l' : List String} (h : Counts d l) (h' : Counts d' l') (hp : l.Perm l') : d = d' := by
  have hk : d.m.keys = d'.m.keys := by
    refine List.Perm.eq_of_pairwise (le := (· < ·)) (fun a b _ _ h1 h2 => absurd (h1.trans h2) (lt_irrefl _)) h.sorted h'.sorted ?_
    refine (List.perm_ext_iff_of_nodup (h.sorted.imp ne_of_lt) (h'.sorted.imp ne_of_lt)).2 (fun a => ?_)
    show a ∈ d.getItems ↔ a ∈ d'.getItems
    rw [h.mem_items, h'.mem_items, hp.mem_iff]
  have hm : d.m = d'.m := by
    refine OMap.determined hk (h.sorted.imp ne_of_lt) (fun k hkm => ?_)
    have hc : d.getCount k = d'.getCount k := by rw [h.count, h'.count, hp.count_eq]
    have key : ∀ (m : OMap Nat), k ∈ m.keys → m.find? k = some (Counter.count m k) := by
      intro m hmem
      obtain ⟨v, hv⟩ : ∃ v, m.find? k = some v := by
        unfold OMap.find?
        induction m with
        | nil => simp [OMap.keys] at hmem
        | cons a m ih =>
          rw [List.lookup_cons]
          split
          · exact ⟨_, rfl⟩
          · rename_i hne
            refine ih ?_
            simp only [OMap.keys, List.map_cons, List.mem_cons] at hmem
            rcases hmem with e | e
            · rw [e] at hne; simp at hne
            · exact e
      rw [hv, Counter.count, hv]; rfl
    rw [key _ hkm, key _ (by rw [← hk]; exact hkm)]
    exact congrArg some hc
  have hs : d.sum = d'.sum := by
    have := h.sum.trans (hp.length_eq.trans h'.sum.symm); exact this
  cases d; cases d'
  simp only at hm hs
  rw [hm, hs]

theorem majority_determined {l l' : List String} {r r' : String} (h : IsMajority l r) (h' : IsMajority l' r') (hp : l.Perm l') :
    r = r' := by
  refine IsMajority.unique (l := l') ⟨hp.mem_iff.1 h.mem, fun t => ?_, fun t ht he => ?_⟩ h'
  · rw [← hp.count_eq, ← hp.count_eq]; exact h.max t
  · rw [← hp.count_eq, ← hp.count_eq] at he; exact h.tie t (hp.mem_iff.2 ht) he

/-! ## splits of reordered data -/

section
variable {σ : List Nat} {ts : List AttrType}

/-- the split on the same column of the data before reordering -/
def Split.original (σ : List Nat) : Split → Split
  | .discrete i => .discrete (σ.getD i 0)
  | .indexed i k => .indexed (σ.getD i 0) k
  | .threshold i t => .threshold (σ.getD i 0) t

theorem original_attr (S : Split) : (S.original σ).attr = σ.getD S.attr 0 := by cases S <;> rfl

theorem typed_length {x : Inst ℝ} (hx : typesOf x = ts) : x.attrs.length = ts.length := by
  rw [← hx]; simp [typesOf]

/-- the types of the reordered columns -/
def reorderTypes (σ : List Nat) (ts : List AttrType) : List AttrType := σ.filterMap (fun i => ts[i]?)

theorem reorderTypes_typesOf (x : Inst ℝ) (hx : typesOf x = ts) : typesOf (reorder σ x) = reorderTypes σ ts := by
  unfold typesOf reorder reorderTypes
  rw [← hx]
  simp only [List.map_filterMap, typesOf, List.getElem?_map]

theorem reorderTypes_get (hσ : IsPermutation σ ts.length) {i : Nat} (hi : i < ts.length) :
    (reorderTypes σ ts)[i]? = ts[σ.getD i 0]? := by
  have key : ∀ (s : List Nat), (∀ j ∈ s, j < ts.length) → ∀ i, i < s.length →
      (s.filterMap (fun j => ts[j]?))[i]? = ts[s.getD i 0]? := by
    intro s
    induction s with
    | nil => intro _ i hi; simp at hi
    | cons j s ih =>
      intro hs i hi
      have hj : j < ts.length := hs j (by simp)
      rw [List.filterMap_cons, List.getElem?_eq_getElem hj]
      cases i with
      | zero => simp [List.getElem?_eq_getElem hj]
      | succ i =>
        simp only [List.getElem?_cons_succ, List.getD_cons_succ]
        exact ih (fun k hk => hs k (by simp [hk])) i (by simpa using hi)
  exact key σ (perm_lt hσ) i (by rw [perm_length hσ]; exact hi)

theorem reorderTypes_length (hσ : IsPermutation σ ts.length) : (reorderTypes σ ts).length = ts.length := by
  have key : ∀ (s : List Nat), (∀ j ∈ s, j < ts.length) → (s.filterMap (fun j => ts[j]?)).length = s.length := by
    intro s
    induction s with
    | nil => intro _; rfl
    | cons j s ih =>
      intro hs
      have hj : j < ts.length := hs j (by simp)
      rw [List.filterMap_cons, List.getElem?_eq_getElem hj]
      simp [ih (fun k hk => hs k (by simp [hk]))]
  rw [← perm_length hσ]
  exact (key σ (perm_lt hσ)).trans rfl

theorem values_reorder (hσ : IsPermutation σ ts.length) {x : Inst ℝ} (hx : typesOf x = ts) {i : Nat} (hi : i < ts.length) :
    discValAt (reorder σ x) i = discValAt x (σ.getD i 0) ∧ idxValAt (reorder σ x) i = idxValAt x (σ.getD i 0) ∧
      contValAt (reorder σ x) i = contValAt x (σ.getD i 0) := by
  have h := reorder_attrs hσ x (typed_length hx) hi
  unfold discValAt idxValAt contValAt
  rw [h]
  exact ⟨rfl, rfl, rfl⟩

theorem condEntropy_map {κ : Type} [DecidableEq κ] {data : IList ℝ} (g : Inst ℝ → Inst ℝ) (hg : ∀ x, (g x).label = x.label)
    {key key' : Inst ℝ → κ} (hk : ∀ x ∈ data, key' (g x) = key x) :
    condEntropy (data.map g) key' = condEntropy data key := by
  unfold condEntropy
  have h1 : (data.map g).map key' = data.map key := by
    rw [List.map_map]; exact List.map_congr_left (fun x hx => hk x hx)
  rw [h1]
  refine Finset.sum_congr rfl (fun a _ => ?_)
  have h2 : (data.map g).filter (fun x => key' x = a) = (data.filter (fun x => key x = a)).map g := by
    rw [List.filter_map]
    congr 1
    exact List.filter_congr (fun x hx => by simp only [Function.comp_apply, hk x hx])
  rw [h2, List.length_map, List.length_map, List.map_map]
  congr 2
  exact List.map_congr_left (fun x _ => hg x)

theorem entropy_reorder (hσ : IsPermutation σ ts.length) {data : IList ℝ} (hts : ∀ x ∈ data, typesOf x = ts) (S : Split)
    (hi : S.attr < ts.length) : S.entropy (data.map (reorder σ)) = (S.original σ).entropy data := by
  unfold Split.entropy Split.original
  cases S with
  | discrete i =>
    replace hi : i < ts.length := hi
    dsimp only
    exact condEntropy_map (reorder σ) (fun _ => rfl) (fun x hx => (values_reorder hσ (hts x hx) hi).1)
  | indexed i k =>
    replace hi : i < ts.length := hi
    dsimp only
    exact condEntropy_map (reorder σ) (fun _ => rfl) (fun x hx => by rw [(values_reorder hσ (hts x hx) hi).2.1])
  | threshold i t =>
    replace hi : i < ts.length := hi
    dsimp only
    exact condEntropy_map (reorder σ) (fun _ => rfl) (fun x hx => by rw [(values_reorder hσ (hts x hx) hi).2.2])

theorem candidate_reorder (hσ : IsPermutation σ ts.length) {data : IList ℝ} (hts : ∀ x ∈ data, typesOf x = ts) (S : Split)
    (hi : S.attr < ts.length) :
    S.Candidate (reorderTypes σ ts) (data.map (reorder σ)) ↔ (S.original σ).Candidate ts data := by
  cases S with
  | discrete i =>
    replace hi : i < ts.length := hi
    simp only [Split.Candidate, Split.original]
    rw [reorderTypes_get hσ hi]
  | indexed i k =>
    replace hi : i < ts.length := hi
    simp only [Split.Candidate, Split.original]
    rw [reorderTypes_get hσ hi]
    simp only [List.mem_map, exists_exists_and_eq_and]
    refine and_congr Iff.rfl (and_congr Iff.rfl (exists_congr fun x => and_congr_right fun hx => ?_))
    rw [(values_reorder hσ (hts x hx) hi).2.1]
  | threshold i t =>
    replace hi : i < ts.length := hi
    simp only [Split.Candidate, Split.original]
    rw [reorderTypes_get hσ hi]
    simp only [List.mem_map, exists_exists_and_eq_and, forall_exists_index, and_imp, forall_apply_eq_imp_iff₂]
    refine and_congr Iff.rfl (exists_congr fun x => and_congr_right fun hx => exists_congr fun y => and_congr_right fun hy => ?_)
    rw [(values_reorder hσ (hts x hx) hi).2.2, (values_reorder hσ (hts y hy) hi).2.2]
    refine and_congr Iff.rfl (and_congr (forall_congr' fun z => forall_congr' fun hz => ?_) Iff.rfl)
    rw [(values_reorder hσ (hts z hz) hi).2.2]

theorem candidate_perm {data data' : IList ℝ} (h : data.Perm data') (S : Split) : S.Candidate ts data ↔ S.Candidate ts data' := by
  cases S with
  | discrete i => rfl
  | indexed i k => simp only [Split.Candidate, h.mem_iff]
  | threshold i t => simp only [Split.Candidate, h.mem_iff]

theorem columnTie_perm {data data' : IList ℝ} (h : data.Perm data') : ColumnTie ts data ↔ ColumnTie ts data' := by
  unfold ColumnTie
  have hs : shannon (data.map Inst.label) = shannon (data'.map Inst.label) := shannon_perm (h.map _)
  simp only [candidate_perm h, Split.entropy_perm h, hs]

theorem branches_perm {data data' : IList ℝ} (h : data.Perm data') (S : Split) (bs : List (Cond ℝ × IList ℝ))
    (hb : S.Branches data bs) : S.Branches data' bs := by
  cases S with
  | discrete i =>
    obtain ⟨vs, h1, h2, h3⟩ := hb
    refine ⟨vs, h1, fun a => (h2 a).trans (h.map _).mem_iff, h3.imp (fun a b hab => ⟨hab.1, hab.2.trans (h.filter _)⟩)⟩
  | indexed i k =>
    obtain ⟨p, q, m, e, h1, h2⟩ := hb
    exact ⟨p, q, m, e, h1.trans (h.filter _), h2.trans (h.filter _)⟩
  | threshold i t =>
    obtain ⟨p, q, e, h1, h2⟩ := hb
    exact ⟨p, q, e, h1.trans (h.filter _), h2.trans (h.filter _)⟩

/-- a branch of the original data, for the reordered data -/
def moveBranch (σ : List Nat) (j : Nat) (b : Cond ℝ × IList ℝ) : Cond ℝ × IList ℝ :=
  ({ b.1 with attr := j }, b.2.map (reorder σ))

theorem satisfy_move (hσ : IsPermutation σ ts.length) {x : Inst ℝ} (hx : typesOf x = ts) {j : Nat} (hj : j < ts.length)
    (c : Cond ℝ) (hc : c.attr = (σ.getD j 0 : Nat)) : Cond.satisfy { c with attr := (j : Int) } (reorder σ x) = c.satisfy x := by
  obtain ⟨i, cmp, v⟩ := c
  simp only at hc
  subst hc
  have h := reorder_attrs hσ x (typed_length hx) hj
  have hat : Cond.attrOf ⟨(j : Int), cmp, v⟩ (reorder σ x) = Cond.attrOf ⟨((σ.getD j 0 : Nat) : Int), cmp, v⟩ x := by
    unfold Cond.attrOf
    simp only [Int.not_ofNat_neg, if_false, Int.toNat_natCast, Inst.getAttribute, atR, h]
  unfold Cond.satisfy
  simp only [hat]

theorem branches_attr {data : IList ℝ} {S : Split} {bs : List (Cond ℝ × IList ℝ)} (hb : S.Branches data bs) :
    ∀ b ∈ bs, b.1.attr = S.attr := by
  intro b hbm
  cases S with
  | discrete i =>
    obtain ⟨vs, _, _, h3⟩ := hb
    obtain ⟨v, _, h⟩ : ∃ v, v ∈ vs ∧ b.1 = ⟨i, '=', some (.discrete v)⟩ := by
      clear * - h3 hbm
      induction h3 with
      | nil => cases hbm
      | cons h _ ih =>
        rcases List.mem_cons.1 hbm with rfl | hbm
        · exact ⟨_, by simp, h.1⟩
        · obtain ⟨v, hv, e⟩ := ih hbm
          exact ⟨v, by simp [hv], e⟩
    rw [h]; rfl
  | indexed i k =>
    obtain ⟨p, q, m, rfl, _⟩ := hb
    simp only [List.mem_cons, List.not_mem_nil, or_false] at hbm
    rcases hbm with rfl | rfl <;> rfl
  | threshold i t =>
    obtain ⟨p, q, rfl, _⟩ := hb
    simp only [List.mem_cons, List.not_mem_nil, or_false] at hbm
    rcases hbm with rfl | rfl <;> rfl

theorem perm_filter_reorder {data p : IList ℝ} {f f' : Inst ℝ → Bool} (h : p.Perm (data.filter f))
    (hf : ∀ x ∈ data, f' (reorder σ x) = f x) : (p.map (reorder σ)).Perm ((data.map (reorder σ)).filter f') := by
  rw [List.filter_map]
  have : data.filter (f' ∘ reorder σ) = data.filter f := List.filter_congr (fun x hx => hf x hx)
  rw [this]
  exact h.map _

theorem branches_move (hσ : IsPermutation σ ts.length) {data : IList ℝ} (hts : ∀ x ∈ data, typesOf x = ts) (S : Split)
    (hi : S.attr < ts.length) {bs : List (Cond ℝ × IList ℝ)} (hb : (S.original σ).Branches data bs) :
    S.Branches (data.map (reorder σ)) (bs.map (moveBranch σ S.attr)) := by
  cases S with
  | discrete i =>
    replace hi : i < ts.length := hi
    obtain ⟨vs, h1, h2, h3⟩ := hb
    refine ⟨vs, h1, ?_, ?_⟩
    · intro a
      rw [h2 a, List.map_map]
      refine Iff.of_eq (congrArg (a ∈ ·) (List.map_congr_left (fun x hx => ?_)))
      exact (values_reorder hσ (hts x hx) hi).1.symm
    · rw [List.forall₂_map_right_iff]
      refine h3.imp (fun a b hab => ⟨?_, ?_⟩)
      · simp only [moveBranch, hab.1, Split.attr]
      · exact perm_filter_reorder hab.2 (fun x hx => by rw [(values_reorder hσ (hts x hx) hi).1])
  | indexed i k =>
    replace hi : i < ts.length := hi
    obtain ⟨p, q, m, rfl, h1, h2⟩ := hb
    refine ⟨p.map (reorder σ), q.map (reorder σ), m, rfl, ?_, ?_⟩
    · exact perm_filter_reorder h1 (fun x hx => by rw [(values_reorder hσ (hts x hx) hi).2.1])
    · exact perm_filter_reorder h2 (fun x hx => by rw [(values_reorder hσ (hts x hx) hi).2.1])
  | threshold i t =>
    replace hi : i < ts.length := hi
    obtain ⟨p, q, rfl, h1, h2⟩ := hb
    refine ⟨p.map (reorder σ), q.map (reorder σ), rfl, ?_, ?_⟩
    · exact perm_filter_reorder h1 (fun x hx => by rw [(values_reorder hσ (hts x hx) hi).2.2])
    · exact perm_filter_reorder h2 (fun x hx => by rw [(values_reorder hσ (hts x hx) hi).2.2])

theorem firstOf_move (hσ : IsPermutation σ ts.length) {x : Inst ℝ} (hx : typesOf x = ts) {j : Nat} (hj : j < ts.length)
    {bs : List (Cond ℝ × IList ℝ)} (hat : ∀ b ∈ bs, b.1.attr = (σ.getD j 0 : Nat)) {k : Nat} {b : Cond ℝ × IList ℝ}
    (h : FirstOf bs x k b) : FirstOf (bs.map (moveBranch σ j)) (reorder σ x) k (moveBranch σ j b) := by
  obtain ⟨h1, h2, h3⟩ := h
  refine ⟨by rw [List.getElem?_map, h1]; rfl, ?_, ?_⟩
  · exact (satisfy_move hσ hx hj _ (hat b (List.mem_of_getElem? h1))).trans h2
  · intro i hi q hq
    rw [List.getElem?_map, Option.map_eq_some_iff] at hq
    obtain ⟨q, hq, rfl⟩ := hq
    exact (satisfy_move hσ hx hj _ (hat q (List.mem_of_getElem? hq))).trans (h3 i hi q hq)

/-! ## the data of a branch -/

open Classical in
theorem branch_perm {data : IList ℝ} (hts : ∀ x ∈ data, typesOf x = ts) {S : Split} (hS : S.Candidate ts data)
    {bs : List (Cond ℝ × IList ℝ)} (hbs : S.Branches data bs) {k : Nat} {b : Cond ℝ × IList ℝ} (hb : bs[k]? = some b) :
    b.2.Perm (data.filter (fun y => decide (FirstOf bs y k b))) := by
  cases S with
  | discrete i =>
    obtain ⟨vs, hnd, hmem, hf⟩ := hbs
    have hk := (List.getElem?_eq_some_iff.1 hb).1
    have hbe := (List.getElem?_eq_some_iff.1 hb).2
    have hkv : k < vs.length := by rw [hf.length_eq]; exact hk
    have hget : ∀ j (hj : j < bs.length), bs[j].1 = ⟨i, '=', some (.discrete (vs[j]'(by rw [hf.length_eq]; exact hj)))⟩ ∧
        bs[j].2.Perm (data.filter (fun x => discValAt x i = vs[j]'(by rw [hf.length_eq]; exact hj))) := by
      intro j hj
      exact (List.forall₂_iff_get.1 hf).2 j (by rw [hf.length_eq]; exact hj) hj
    have hp := (hget k hk).2
    rw [hbe] at hp
    refine hp.trans (List.Perm.of_eq (List.filter_congr (fun y hy => ?_)))
    have hyi := disc_of_type (hts y hy) hS
    refine decide_eq_decide.2 ⟨fun h => ⟨hb, ?_, ?_⟩, fun h => ?_⟩
    · rw [← hbe, (hget k hk).1, satisfy_discrete hyi, decide_eq_true h]
    · intro j hj q hq
      have hjl := (List.getElem?_eq_some_iff.1 hq).1
      rw [← (List.getElem?_eq_some_iff.1 hq).2, (hget j hjl).1, satisfy_discrete hyi]
      congr 1
      refine decide_eq_false (fun e => ?_)
      have := (hnd.getElem_inj_iff).1 (e.symm.trans h)
      omega
    · have h2 := h.2.1
      rw [← hbe, (hget k hk).1, satisfy_discrete hyi] at h2
      simpa using h2
  | indexed i j =>
    obtain ⟨p, q, m, rfl, hp, hq⟩ := hbs
    obtain ⟨ht, hj0, _⟩ := hS
    match k, hb with
    | 0, hb =>
      simp only [List.getElem?_cons_zero, Option.some.injEq] at hb
      subst hb
      refine hp.trans (List.Perm.of_eq (List.filter_congr (fun y hy => ?_)))
      have hv := idx_of_type (hts y hy) ht
      refine decide_eq_decide.2 ⟨fun h => ⟨rfl, ?_, by intro j hj; omega⟩, fun h => ?_⟩
      · rw [satisfy_indexed hv (by omega), decide_eq_true h]
      · have h2 := h.2.1
        rw [satisfy_indexed hv (by omega)] at h2
        simpa using h2
    | 1, hb =>
      simp only [List.getElem?_cons_succ, List.getElem?_cons_zero, Option.some.injEq] at hb
      subst hb
      refine hq.trans (List.Perm.of_eq (List.filter_congr (fun y hy => ?_)))
      have hv := idx_of_type (hts y hy) ht
      refine decide_eq_decide.2 ⟨fun h => ⟨rfl, satisfy_other, ?_⟩, fun h => ?_⟩
      · intro j' hj' q' hq'
        have : j' = 0 := by omega
        subst this
        simp only [List.getElem?_cons_zero, Option.some.injEq] at hq'
        subst hq'
        rw [satisfy_indexed hv (by omega), decide_eq_false h]
      · have h2 := h.2.2 0 (by omega) _ rfl
        rw [satisfy_indexed hv (by omega)] at h2
        simpa using h2
    | k + 2, hb => simp at hb
  | threshold i t =>
    obtain ⟨p, q, rfl, hp, hq⟩ := hbs
    obtain ⟨ht, _⟩ := hS
    match k, hb with
    | 0, hb =>
      simp only [List.getElem?_cons_zero, Option.some.injEq] at hb
      subst hb
      refine hp.trans (List.Perm.of_eq (List.filter_congr (fun y hy => ?_)))
      have hv := cont_of_type (hts y hy) ht
      refine decide_eq_decide.2 ⟨fun h => ⟨rfl, ?_, by intro j hj; omega⟩, fun h => ?_⟩
      · rw [(satisfy_threshold hv).1]; simpa using h
      · have h2 := h.2.1
        rw [(satisfy_threshold hv).1] at h2
        simpa using h2
    | 1, hb =>
      simp only [List.getElem?_cons_succ, List.getElem?_cons_zero, Option.some.injEq] at hb
      subst hb
      refine hq.trans (List.Perm.of_eq (List.filter_congr (fun y hy => ?_)))
      have hv := cont_of_type (hts y hy) ht
      refine decide_eq_decide.2 ⟨fun h => ⟨rfl, ?_, ?_⟩, fun h => ?_⟩
      · rw [(satisfy_threshold hv).2]; simpa using h
      · intro j' hj' q' hq'
        have : j' = 0 := by omega
        subst this
        simp only [List.getElem?_cons_zero, Option.some.injEq] at hq'
        subst hq'
        rw [(satisfy_threshold hv).1]; simpa using h
      · have h2 := h.2.1
        rw [(satisfy_threshold hv).2] at h2
        simpa using h2
    | k + 2, hb => simp at hb

theorem passing_root {F : Type} [Dbl F] (n : Node F) (data : IList F) : passing n data [] = data := by
  classical
  unfold passing
  rw [List.filter_eq_self]
  intro y _
  exact decide_eq_true ⟨_, .here _ y⟩

theorem passing_child {data : IList ℝ} (hts : ∀ x ∈ data, typesOf x = ts) {S : Split} (hS : S.Candidate ts data)
    {bs : List (Cond ℝ × IList ℝ)} (hbs : S.Branches data bs) {c : Cond ℝ} {lab : String} {d : DD} {ch : List (Node ℝ)}
    (hlen : bs.length = ch.length) (hcond : ∀ (k : Nat) b n, bs[k]? = some b → ch[k]? = some n → n.cond = b.1)
    {k : Nat} {b : Cond ℝ × IList ℝ} {m : Node ℝ} (hb : bs[k]? = some b) (hm : ch[k]? = some m) (rest : List Nat) :
    (passing (.mk c false lab d ch) data (k :: rest)).Perm (passing m b.2 rest) := by
  classical
  have hfol : ∀ y, (∃ e, Follows (.mk c false lab d ch) y (k :: rest) e) ↔ FirstOf bs y k b ∧ ∃ e, Follows m y rest e := by
    intro y
    constructor
    · rintro ⟨e, he⟩
      cases he with
      | step _ _ _ c' _ _ _ hc' hsat hfirst hrest =>
        simp only [Node.children] at hc' hfirst
        rw [hm] at hc'; cases hc'
        refine ⟨⟨hb, by rw [← hcond k b _ hb hm]; exact hsat, fun j hj q hq => ?_⟩, e, hrest⟩
        have hjl : j < ch.length := by rw [← hlen]; exact (List.getElem?_eq_some_iff.1 hq).1
        have hcj : ch[j]? = some ch[j] := List.getElem?_eq_getElem hjl
        rw [← hcond j q _ hq hcj]
        exact hfirst j hj _ hcj
    · rintro ⟨⟨_, h2, h3⟩, e, he⟩
      refine ⟨e, .step _ _ k m rest e rfl hm (by rw [hcond k b _ hb hm]; exact h2) (fun j hj q hq => ?_) he⟩
      simp only [Node.children] at hq
      have hjl : j < bs.length := by rw [hlen]; exact (List.getElem?_eq_some_iff.1 hq).1
      have hbj : bs[j]? = some bs[j] := List.getElem?_eq_getElem hjl
      rw [hcond j _ q hbj hq]
      exact h3 j hj _ hbj
  have h1 : passing (.mk c false lab d ch) data (k :: rest) =
      (data.filter (fun y => decide (FirstOf bs y k b))).filter (fun y => decide (∃ e, Follows m y rest e)) := by
    unfold passing
    rw [List.filter_filter]
    refine List.filter_congr (fun y _ => ?_)
    rw [← Bool.decide_and]
    refine decide_eq_decide.2 ((hfol y).trans and_comm)
  rw [h1]
  exact ((branch_perm hts hS hbs hb).filter _).symm

/-! ## the same split -/

theorem candidate_lt {data : IList ℝ} {S : Split} (h : S.Candidate ts data) : S.attr < ts.length := by
  cases S with
  | discrete i => exact (List.getElem?_eq_some_iff.1 h).1
  | indexed i k => exact (List.getElem?_eq_some_iff.1 h.1).1
  | threshold i t => exact (List.getElem?_eq_some_iff.1 h.1).1

/-- the same split, on another column -/
def Split.onColumn (j : Nat) : Split → Split
  | .discrete _ => .discrete j
  | .indexed _ k => .indexed j k
  | .threshold _ t => .threshold j t

theorem original_onColumn {j : Nat} (S : Split) (h : σ.getD j 0 = S.attr) : (S.onColumn j).original σ = S := by
  cases S <;> simp only [Split.onColumn, Split.original, Split.attr] at h ⊢ <;> rw [h]

theorem perm_onto (hσ : IsPermutation σ ts.length) {i : Nat} (hi : i < ts.length) : ∃ j < ts.length, σ.getD j 0 = i := by
  have : i ∈ σ := (List.Perm.mem_iff hσ).2 (List.mem_range.2 hi)
  obtain ⟨j, hj, e⟩ := List.mem_iff_getElem.1 this
  refine ⟨j, by rw [← perm_length hσ]; exact hj, ?_⟩
  rw [List.getD_eq_getElem?_getD, List.getElem?_eq_getElem hj]; exact e

theorem same_split (hσ : IsPermutation σ ts.length) {data data' : IList ℝ} (hts : ∀ x ∈ data, typesOf x = ts)
    (hp : data'.Perm (data.map (reorder σ))) {S S' : Split}
    (hS : S.Candidate ts data) (hless : S.entropy data < shannon (data.map Inst.label))
    (hmin : ∀ T, Considered ts (List.range ts.length) data T → S.entropy data ≤ T.entropy data)
    (hfirst : ∀ T, Considered ts (List.range ts.length) data T → Split.Before (List.range ts.length) T S →
      S.entropy data < T.entropy data)
    (hS' : S'.Candidate (reorderTypes σ ts) data')
    (hmin' : ∀ T, Considered (reorderTypes σ ts) (List.range ts.length) data' T → S'.entropy data' ≤ T.entropy data')
    (hfirst' : ∀ T, Considered (reorderTypes σ ts) (List.range ts.length) data' T →
      Split.Before (List.range ts.length) T S' → S'.entropy data' < T.entropy data')
    (htie : ¬ ColumnTie ts data) : S'.original σ = S := by
  have hl' : S'.attr < ts.length := by rw [← reorderTypes_length hσ]; exact candidate_lt hS'
  have hl := candidate_lt hS
  have hcand : ∀ T : Split, T.attr < ts.length →
      (T.Candidate (reorderTypes σ ts) data' ↔ (T.original σ).Candidate ts data) := fun T hT =>
    (candidate_perm hp T).trans (candidate_reorder hσ hts T hT)
  have hent : ∀ T : Split, T.attr < ts.length → T.entropy data' = (T.original σ).entropy data := fun T hT =>
    (Split.entropy_perm hp T).trans (entropy_reorder hσ hts T hT)
  have hall : ∀ T : Split, T.Candidate ts data → Considered ts (List.range ts.length) data T := fun T hT =>
    ⟨hT, List.mem_range.2 (candidate_lt hT)⟩
  have hO := (hcand S' hl').1 hS'
  have back : ∀ (j : Nat) (T : Split), j < ts.length → σ.getD j 0 = T.attr → T.Candidate ts data →
      Considered (reorderTypes σ ts) (List.range ts.length) data' (T.onColumn j) ∧
      (T.onColumn j).entropy data' = T.entropy data := by
    intro j T hj e hT
    have ha : (T.onColumn j).attr = j := by cases T <;> rfl
    refine ⟨⟨(hcand _ (by rw [ha]; exact hj)).2 (by rw [original_onColumn T e]; exact hT), ?_⟩, ?_⟩
    · rw [ha]; exact List.mem_range.2 hj
    · rw [hent _ (by rw [ha]; exact hj), original_onColumn T e]
  have heq : S.entropy data = (S'.original σ).entropy data := by
    refine le_antisymm (hmin _ (hall _ hO)) ?_
    obtain ⟨j, hj, e⟩ := perm_onto hσ hl
    obtain ⟨b1, b2⟩ := back j S hj e hS
    rw [← hent S' hl', ← b2]
    exact hmin' _ b1
  have hattr : S.attr = (S'.original σ).attr := by
    by_contra hne
    exact htie ⟨S, _, hS, hO, hne, heq, hless, fun U hU => hmin U (hall U hU)⟩
  have hcol : σ.getD S'.attr 0 = S.attr := by rw [hattr, original_attr]
  obtain ⟨b1, b2⟩ := back S'.attr S hl' hcol hS
  have hno : ¬ Split.Before (List.range ts.length) (S'.original σ) S := fun hb => by
    have := hfirst _ (hall _ hO) hb
    rw [heq] at this; exact lt_irrefl _ this
  have hno' : ¬ Split.Before (List.range ts.length) (S.onColumn S'.attr) S' := fun hb => by
    have := hfirst' _ b1 hb
    rw [b2, hent S' hl', heq] at this; exact lt_irrefl _ this
  clear hmin hmin' hfirst hfirst' hcand hent hall back htie b1 b2
  cases S with
  | discrete i =>
    cases S' with
    | discrete i' => simp only [Split.attr, Split.original] at hcol ⊢; rw [hcol]
    | indexed i' k' =>
      have h1 : ts[i]? = _ := hS
      have h2 : ts[σ.getD i' 0]? = _ := hO.1
      simp only [Split.attr] at hcol
      rw [hcol, h1] at h2; cases h2
    | threshold i' k' =>
      have h1 : ts[i]? = _ := hS
      have h2 : ts[σ.getD i' 0]? = _ := hO.1
      simp only [Split.attr] at hcol
      rw [hcol, h1] at h2; cases h2
  | indexed i k =>
    cases S' with
    | discrete i' =>
      have h1 : ts[i]? = _ := hS.1
      have h2 : ts[σ.getD i' 0]? = _ := hO
      simp only [Split.attr] at hcol
      rw [hcol, h1] at h2; cases h2
    | indexed i' k' =>
      simp only [Split.attr] at hcol
      rcases lt_trichotomy k k' with h | h | h
      · exact absurd (.inr (.inl ⟨i', k, k', rfl, rfl, h⟩)) hno'
      · simp only [Split.original]; rw [hcol, h]
      · exact absurd (.inr (.inl ⟨i, k', k, by simp only [Split.original]; rw [hcol], rfl, h⟩)) hno
    | threshold i' k' =>
      have h1 : ts[i]? = _ := hS.1
      have h2 : ts[σ.getD i' 0]? = _ := hO.1
      simp only [Split.attr] at hcol
      rw [hcol, h1] at h2; cases h2
  | threshold i k =>
    cases S' with
    | discrete i' =>
      have h1 : ts[i]? = _ := hS.1
      have h2 : ts[σ.getD i' 0]? = _ := hO
      simp only [Split.attr] at hcol
      rw [hcol, h1] at h2; cases h2
    | indexed i' k' =>
      have h1 : ts[i]? = _ := hS.1
      have h2 : ts[σ.getD i' 0]? = _ := hO.1
      simp only [Split.attr] at hcol
      rw [hcol, h1] at h2; cases h2
    | threshold i' k' =>
      simp only [Split.attr] at hcol
      rcases lt_trichotomy k k' with h | h | h
      · exact absurd (.inr (.inr ⟨i', k, k', rfl, rfl, h⟩)) hno'
      · simp only [Split.original]; rw [hcol, h]
      · exact absurd (.inr (.inr ⟨i, k', k, by simp only [Split.original]; rw [hcol], rfl, h⟩)) hno

/-- two trees answer `x` and `x'` alike -/
def SameAnswers (n n' : Node ℝ) (x x' : Inst ℝ) : Prop :=
  n'.predictPlain x' = n.predictPlain x ∧ n'.predictComposite x' = n.predictComposite x ∧
    n'.predictProbability x' = n.predictProbability x

theorem labels_reorder_perm {data data' : IList ℝ} (hp : data'.Perm (data.map (reorder σ))) :
    (data'.map Inst.label).Perm (data.map Inst.label) := by
  have := hp.map Inst.label
  rwa [List.map_map, show Inst.label ∘ reorder σ = (Inst.label : Inst ℝ → String) from rfl] at this

theorem mixed_reorder {data data' : IList ℝ} (hp : data'.Perm (data.map (reorder σ))) :
    (∃ x ∈ data', ∃ y ∈ data', x.label ≠ y.label) ↔ ∃ x ∈ data, ∃ y ∈ data, x.label ≠ y.label := by
  have hm : ∀ y, y ∈ data' ↔ ∃ x ∈ data, reorder σ x = y := fun y => by rw [hp.mem_iff, List.mem_map]
  constructor
  · rintro ⟨x, hx, y, hy, h⟩
    obtain ⟨u, hu, rfl⟩ := (hm x).1 hx
    obtain ⟨v, hv, rfl⟩ := (hm y).1 hy
    exact ⟨u, hu, v, hv, h⟩
  · rintro ⟨x, hx, y, hy, h⟩
    exact ⟨_, (hm _).2 ⟨x, hx, rfl⟩, _, (hm _).2 ⟨y, hy, rfl⟩, h⟩

theorem same_columns (hσ : IsPermutation σ ts.length) {data : IList ℝ} {n : Node ℝ}
    (ho : OptimalTree (Considered ts (List.range ts.length)) (Split.Before (List.range ts.length)) data n) :
    ∀ (data' : IList ℝ) (n' : Node ℝ),
      OptimalTree (Considered (reorderTypes σ ts) (List.range ts.length)) (Split.Before (List.range ts.length)) data' n' →
      data'.Perm (data.map (reorder σ)) → (∀ x ∈ data, typesOf x = ts) → DefOn ts n → DefOn (reorderTypes σ ts) n' →
      ∀ x, typesOf x = ts → (∀ path m, Follows n x path m → ¬ ColumnTie ts (passing n data path)) →
      SameAnswers n n' x (reorder σ x) := by
  induction ho with
  | pure data c lab d hne hlab hd h =>
    intro data' n' ho' hp hts _ _ x hx _
    have hlp := labels_reorder_perm hp
    have hnm : ¬ ∃ x ∈ data', ∃ y ∈ data', x.label ≠ y.label := by
      rw [mixed_reorder hp]
      rintro ⟨x, hx, y, hy, hne⟩; exact hne (h x hx y hy)
    cases ho' with
    | pure _ c' lab' d' _ hlab' hd' _ =>
      have e1 := majority_determined hlab' hlab hlp
      have e2 := counts_determined hd' hd hlp
      subst e1 e2
      exact ⟨rfl, rfl, rfl⟩
    | stop _ _ _ _ _ _ hm _ => exact absurd hm hnm
    | split _ _ _ _ _ _ _ _ _ hm => exact absurd hm hnm
  | stop data c lab d hlab hd hmixed h =>
    intro data' n' ho' hp hts _ _ x hx _
    have hlp := labels_reorder_perm hp
    cases ho' with
    | pure _ c' lab' d' _ _ _ hp' =>
      obtain ⟨x, hx, y, hy, hne⟩ := (mixed_reorder hp).2 hmixed
      exact absurd (hp' x hx y hy) hne
    | stop _ c' lab' d' hlab' hd' _ _ =>
      have e1 := majority_determined hlab' hlab hlp
      have e2 := counts_determined hd' hd hlp
      subst e1 e2
      exact ⟨rfl, rfl, rfl⟩
    | split _ c' lab' d' S' _ _ _ _ _ hS' hless' =>
      have hl' : S'.attr < ts.length := List.mem_range.1 hS'.2
      have hO := ((candidate_perm hp S').trans (candidate_reorder hσ hts S' hl')).1 hS'.1
      have := h _ ⟨hO, List.mem_range.2 (candidate_lt hO)⟩
      rw [← entropy_reorder hσ hts S' hl', ← Split.entropy_perm hp, ← shannon_perm hlp] at this
      exact absurd hless' (not_lt.2 this)
  | split data c lab d S bs ch hlab hd hmixed hS hless hmin hfirst hbs hlen hcond hch ih =>
    intro data' n' ho' hp hts hdn hdn' x hx htie
    have hlp := labels_reorder_perm hp
    have htie0 : ¬ ColumnTie ts data := by
      have := htie [] _ (.here _ x)
      rwa [passing_root] at this
    cases ho' with
    | pure _ c' lab' d' _ _ _ hp' =>
      obtain ⟨x, hx, y, hy, hne⟩ := (mixed_reorder hp).2 hmixed
      exact absurd (hp' x hx y hy) hne
    | stop _ c' lab' d' _ _ _ h' =>
      obtain ⟨j, hj, e⟩ := perm_onto hσ (List.mem_range.1 hS.2)
      have ha : (S.onColumn j).attr = j := by cases S <;> rfl
      have hc := ((candidate_perm hp (S.onColumn j)).trans (candidate_reorder hσ hts _ (by rw [ha]; exact hj))).2
        (by rw [original_onColumn S e]; exact hS.1)
      have := h' _ ⟨hc, by rw [ha]; exact List.mem_range.2 hj⟩
      rw [Split.entropy_perm hp, entropy_reorder hσ hts _ (by rw [ha]; exact hj), original_onColumn S e, shannon_perm hlp] at this
      exact absurd hless (not_lt.2 this)
    | split _ c' lab' d' S' bs' ch' hlab' hd' hmixed' hS' hless' hmin' hfirst' hbs' hlen' hcond' hch' =>
      have e1 := majority_determined hlab' hlab hlp
      have e2 := counts_determined hd' hd hlp
      subst e1 e2
      have hsame := same_split hσ hts hp hS.1 hless hmin hfirst hS'.1 hmin' hfirst' htie0
      have hl' : S'.attr < ts.length := List.mem_range.1 hS'.2
      have hx' := reorderTypes_typesOf (σ := σ) x hx
      -- the branches of the original tree, moved
      have hmv := branches_perm hp.symm _ _ (branches_move hσ hts S' hl' (bs := bs) (by rw [hsame]; exact hbs))
      have hat : ∀ b ∈ bs, b.1.attr = (σ.getD S'.attr 0 : Nat) := by
        intro b hb
        rw [branches_attr hbs b hb, ← original_attr, hsame]
      obtain ⟨m1, m2⟩ := branches_match hS'.1 hmv hbs' (reorder σ x) hx'
      cases hdn with
      | mk _ _ _ _ _ hdef hdch =>
      cases hdn' with
      | mk _ _ _ _ _ hdef' hdch' =>
      unfold SameAnswers
      simp only [Node.predictPlain, Node.predictComposite, Node.predictProbability, Bool.false_eq_true, if_false]
      rcases first_true ch (fun n hn => hdef n hn x hx) with h | ⟨k, a, f1, f2, f3⟩
      · have hb0 := (none_iff hlen hcond).1 h
        have hb1 : ∀ b ∈ bs.map (moveBranch σ S'.attr), b.1.satisfy (reorder σ x) = .ok false := by
          intro b hb
          obtain ⟨q, hq, rfl⟩ := List.mem_map.1 hb
          exact (satisfy_move hσ hx hl' _ (hat q hq)).trans (hb0 q hq)
        have h' := (none_iff hlen' hcond').2 (m1.1 hb1)
        obtain ⟨e1, e2⟩ := predictIn_none (lab := lab') (d := d') h
        obtain ⟨e1', e2'⟩ := predictIn_none (lab := lab') (d := d') h'
        rw [e1, e2, e1', e2', predictCompositeIn_none h, predictCompositeIn_none h']
        exact ⟨rfl, rfl, rfl⟩
      · obtain ⟨b, hbk, hfo⟩ := firstIn_firstOf hlen hcond ⟨f1, f2, f3⟩
        have hfm := firstOf_move hσ hx hl' hat hfo
        rcases first_true ch' (fun n hn => hdef' n hn (reorder σ x) hx') with h' | ⟨k', a', f1', f2', f3'⟩
        · have := m1.2 ((none_iff hlen' hcond').1 h') _ (List.mem_of_getElem? hfm.1)
          rw [hfm.2.1] at this; cases this
        · obtain ⟨b', hbk', hfo'⟩ := firstIn_firstOf hlen' hcond' ⟨f1', f2', f3'⟩
          have hperm := (m2 _ _ _ _ hfm hfo').1
          have hsub : ∀ y ∈ b.2, typesOf y = ts := fun y hy =>
            hts y (Split.Branches.subset hbs (List.mem_of_getElem? hbk) y hy)
          obtain ⟨i1, i2, i3⟩ := ih k b a hbk f1 b'.2 a' (hch' k' b' a' hbk' f1') hperm.symm hsub
            (hdch a (List.mem_of_getElem? f1)) (hdch' a' (List.mem_of_getElem? f1')) x hx (fun path m hf => by
              rw [← columnTie_perm (passing_child hts hS.1 hbs hlen hcond hbk f1 path)]
              exact htie (k :: path) m (.step _ _ k a path m rfl f1 f2 f3 hf))
          rw [predictPlainIn_first f1 f2 f3, predictPlainIn_first f1' f2' f3', predictProbabilityIn_first f1 f2 f3,
            predictProbabilityIn_first f1' f2' f3', predictCompositeIn_first ⟨f1, f2, f3⟩,
            predictCompositeIn_first ⟨f1', f2', f3'⟩, i1, i2, i3]
          exact ⟨rfl, rfl, rfl⟩

theorem indexBounded_reorder (hσ : IsPermutation σ ts.length) {data : IList ℝ} (hts : ∀ x ∈ data, typesOf x = ts)
    (h : IndexBounded data) : IndexBounded (data.map (reorder σ)) := by
  intro x hx y hy i v k m v' k' m' h1 h2
  obtain ⟨x, hxm, rfl⟩ := List.mem_map.1 hx
  obtain ⟨y, hym, rfl⟩ := List.mem_map.1 hy
  replace hx := hxm
  replace hy := hym
  have hi : i < ts.length := by
    rw [← reorderTypes_length hσ, ← reorderTypes_typesOf (σ := σ) x (hts x hx)]
    have := (List.getElem?_eq_some_iff.1 h1).1
    simpa [typesOf] using this
  rw [reorder_attrs hσ x (typed_length (hts x hx)) hi] at h1
  rw [reorder_attrs hσ y (typed_length (hts y hy)) hi] at h2
  exact h x hx y hy _ v k m v' k' m' h1 h2

/-- **C166 (part).** Decision trees grown without pruning, in exact arithmetic: training on the columns in another order
succeeds too, and an instance gets the same label and the same class probabilities, if at no node on its way two
different columns tie for the least remaining entropy. -/
theorem C166_tree_partial (hσ : IsPermutation σ ts.length) {data : IList ℝ} (hne : data ≠ [])
    (hts : ∀ x ∈ data, typesOf x = ts) (hbd : IndexBounded data) :
    ∃ n n', treeTrain data none = .ok n ∧ treeTrain (data.map (reorder σ)) none = .ok n' ∧
      ∀ x : Inst ℝ, typesOf x = ts → (∀ path m, Follows n x path m → ¬ ColumnTie ts (passing n data path)) →
        treePredict n' (reorder σ x) = treePredict n x ∧
        n'.predictProbability (reorder σ x) = n.predictProbability x := by
  have hv : ValidParam none := by intro _ _ h; cases h
  have hts' : ∀ x ∈ data.map (reorder σ), typesOf x = reorderTypes σ ts := by
    intro x hx
    obtain ⟨y, hy, rfl⟩ := List.mem_map.1 hx
    exact reorderTypes_typesOf y (hts y hy)
  obtain ⟨n, hn, ho, _, hg, _⟩ := grow_ok hv (show Node.triedIndices none ts.length = .ok (List.range ts.length) from rfl)
    false (data.length + 1) data Cond.root hne hts (by omega)
  obtain ⟨n', hn', ho', _, hg', _⟩ := grow_ok hv
    (show Node.triedIndices none (reorderTypes σ ts).length = .ok (List.range ts.length) by rw [reorderTypes_length hσ]; rfl)
    false ((data.map (reorder σ)).length + 1) (data.map (reorder σ)) Cond.root (by simpa using hne) hts' (by omega)
  refine ⟨n, n', hn, hn', fun x hx htie => ?_⟩
  obtain ⟨h1, h2, h3⟩ := same_columns hσ (ho rfl hbd) _ n' (ho' rfl (indexBounded_reorder hσ hts hbd)) (List.Perm.refl _) hts
    hg.defOn hg'.defOn x hx htie
  refine ⟨?_, h3⟩
  unfold treePredict Node.predict
  rw [h1, h2]; rfl

/-! ## the hypotheses are met -/

theorem condEntropy_one {κ : Type} [DecidableEq κ] (data : IList ℝ) (key : Inst ℝ → κ) (v : κ) (h : ∀ x ∈ data, key x = v) :
    condEntropy data key = shannon (data.map Inst.label) := by
  unfold condEntropy
  rcases eq_or_ne data [] with rfl | hne
  · simp [shannon]
  · have h1 : (data.map key).toFinset = {v} := by
      ext a
      simp only [List.mem_toFinset, List.mem_map, Finset.mem_singleton]
      constructor
      · rintro ⟨x, hx, rfl⟩; exact h x hx
      · rintro rfl
        obtain ⟨x, hx⟩ := List.exists_mem_of_ne_nil _ hne
        exact ⟨x, hx, h x hx⟩
    have h2 : data.filter (fun x => key x = v) = data := by
      rw [List.filter_eq_self]; intro x hx; simpa using h x hx
    have h3 : (data.length : ℝ) ≠ 0 := by simpa using hne
    rw [h1, Finset.sum_singleton, h2, div_self h3, one_mul]

/-- a column that matters and one that is constant -/
def oneColumn : IList ℝ :=
  [⟨"a", [.continuous 0, .discrete "w"], none⟩, ⟨"b", [.continuous 1, .discrete "w"], none⟩,
   ⟨"a", [.continuous 2, .discrete "w"], none⟩]

theorem oneColumn_noTie (D : IList ℝ) (hD : ∀ x ∈ D, x ∈ oneColumn) : ¬ ColumnTie [.continuous, .discrete] D := by
  rintro ⟨S, T, hS, hT, hne, heq, hlt, _⟩
  have key : ∀ U : Split, U.Candidate [.continuous, .discrete] D → U.attr = 1 →
      U.entropy D = shannon (D.map Inst.label) := by
    intro U hU ha
    cases U with
    | discrete i =>
      simp only [Split.attr] at ha
      subst ha
      refine condEntropy_one D _ "w" (fun x hx => ?_)
      have := hD x hx
      simp only [oneColumn, List.mem_cons, List.not_mem_nil, or_false] at this
      rcases this with rfl | rfl | rfl <;> rfl
    | indexed i k => simp only [Split.attr] at ha; subst ha; cases hU.1
    | threshold i k => simp only [Split.attr] at ha; subst ha; cases hU.1
  have h1 := candidate_lt hS
  have h2 := candidate_lt hT
  simp only [List.length_cons, List.length_nil] at h1 h2
  rcases Nat.lt_or_ge S.attr 1 with h | h
  · exact absurd (key T hT (by omega)) (by rw [← heq]; exact hlt.ne)
  · exact absurd (key S hS (by omega)) hlt.ne

/-- the hypotheses are met: no two columns tie, and the tree does split -/
example : ∃ n n', treeTrain oneColumn none = .ok n ∧ treeTrain (oneColumn.map (reorder [1, 0])) none = .ok n' ∧
    ∀ x : Inst ℝ, typesOf x = [.continuous, .discrete] →
      treePredict n' (reorder [1, 0] x) = treePredict n x ∧
      n'.predictProbability (reorder [1, 0] x) = n.predictProbability x := by
  have hσ : IsPermutation [1, 0] 2 := by unfold IsPermutation; decide
  obtain ⟨n, n', h1, h2, h⟩ := C166_tree_partial (ts := [.continuous, .discrete]) (data := oneColumn) hσ
    (by simp [oneColumn])
    (by
      intro x hx
      simp only [oneColumn, List.mem_cons, List.not_mem_nil, or_false] at hx
      rcases hx with rfl | rfl | rfl <;> rfl)
    (by
      intro x hx y hy i v k m v' k' m' e
      simp only [oneColumn, List.mem_cons, List.not_mem_nil, or_false] at hx
      rcases hx with rfl | rfl | rfl <;>
      · match i, e with
        | 0, e => simp at e
        | 1, e => simp at e
        | i + 2, e => simp at e)
  refine ⟨n, n', h1, h2, fun x hx => h x hx (fun path m _ => oneColumn_noTie _ (fun y hy => ?_))⟩
  unfold passing at hy
  exact List.mem_of_mem_filter hy

end
end Verif
