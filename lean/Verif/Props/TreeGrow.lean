import Verif.Props.TreeProps
import Verif.Lemmas.Distribution
import Verif.Spec.Split

/-! # Properties C56 and C107: growing terminates, and every split is optimal (exact arithmetic) -/

set_option linter.unusedSectionVars false

namespace Verif
open Dbl

/-! ## conditional entropy -/

theorem condEntropy_superset {κ : Type} [DecidableEq κ] (data : IList ℝ) (key : Inst ℝ → κ)
    (S : Finset κ) (h : (data.map key).toFinset ⊆ S) :
    condEntropy data key = ∑ a ∈ S, ((data.filter (fun x => key x = a)).length : ℝ) / data.length *
      shannon ((data.filter (fun x => key x = a)).map Inst.label) := by
  unfold condEntropy
  apply Finset.sum_subset h
  intro a _ ha
  have : data.filter (fun x => key x = a) = [] := by
    rw [List.filter_eq_nil_iff]
    intro x hx hxa
    apply ha
    rw [List.mem_toFinset]
    exact List.mem_map.2 ⟨x, hx, by simpa using hxa⟩
  simp [this]

theorem condEntropy_perm {κ : Type} [DecidableEq κ] {data data' : IList ℝ} (h : data.Perm data')
    (key : Inst ℝ → κ) : condEntropy data key = condEntropy data' key := by
  unfold condEntropy
  rw [List.toFinset_eq_of_perm _ _ (h.map key), h.length_eq]
  apply Finset.sum_congr rfl
  intro a _
  have hf := h.filter (fun x => decide (key x = a))
  rw [hf.length_eq, shannon_perm (hf.map Inst.label)]

theorem Split.entropy_perm {data data' : IList ℝ} (h : data.Perm data') (S : Split) :
    S.entropy data = S.entropy data' := by
  cases S <;> exact condEntropy_perm h _

theorem filter_two {α : Type} {l A B : List α} (p : α → Bool) (hp : l.Perm (A ++ B))
    (hA : ∀ x ∈ A, p x = true) (hB : ∀ x ∈ B, p x = false) : (l.filter p).Perm A := by
  refine (hp.filter p).trans ?_
  rw [List.filter_append, List.filter_eq_self.2 hA, List.filter_eq_nil_iff.2 (by
    intro x hx; simp [hB x hx])]
  simp

theorem condEntropy_bool {data A B : IList ℝ} {key : Inst ℝ → Bool} (hp : data.Perm (A ++ B))
    (hA : ∀ x ∈ A, key x = true) (hB : ∀ x ∈ B, key x = false) :
    condEntropy data key = (A.length : ℝ) / data.length * shannon (A.map Inst.label) +
      (B.length : ℝ) / data.length * shannon (B.map Inst.label) := by
  rw [condEntropy_superset data key {true, false} (by
    intro b _; cases b <;> simp)]
  rw [Finset.sum_insert (by simp), Finset.sum_singleton]
  have h1 : (data.filter (fun x => decide (key x = true))).Perm A :=
    filter_two _ hp (by intro x hx; simp [hA x hx]) (by intro x hx; simp [hB x hx])
  have h2 : (data.filter (fun x => decide (key x = false))).Perm B :=
    filter_two _ (hp.trans List.perm_append_comm) (by intro x hx; simp [hB x hx])
      (by intro x hx; simp [hA x hx])
  rw [h1.length_eq, h2.length_eq, shannon_perm (h1.map _), shannon_perm (h2.map _)]

/-- a key with a single value gives no information -/
theorem condEntropy_const {κ : Type} [DecidableEq κ] {data : IList ℝ} (hne : data ≠ [])
    {key : Inst ℝ → κ} (h : ∀ x ∈ data, ∀ y ∈ data, key x = key y) :
    condEntropy data key = shannon (data.map Inst.label) := by
  obtain ⟨x0, hx0⟩ := List.exists_mem_of_ne_nil _ hne
  rw [condEntropy_superset data key {key x0} (by
    intro a ha
    rw [List.mem_toFinset] at ha
    obtain ⟨x, hx, rfl⟩ := List.mem_map.1 ha
    simp [h x hx x0 hx0])]
  rw [Finset.sum_singleton]
  have : data.filter (fun x => decide (key x = key x0)) = data := by
    rw [List.filter_eq_self]; intro x hx; simp [h x hx x0 hx0]
  rw [this]
  have : (data.length : ℝ) ≠ 0 := by simpa using hne
  field_simp

/-! ## the best split so far -/

/-- the fields of `b` name the split `S` -/
def Names (b : Node.Best ℝ) : Split → Prop
  | .discrete i => b.attr = some i
  | .indexed i k => b.attr = some i ∧ b.k = k
  | .threshold i t => b.attr = some i ∧ b.v = t

/-- `b` is the best of the splits in `P`, the first of them in the order `E`, or none of them is below the entropy of the node -/
structure BestInv (E : Split → Split → Prop) (data : IList ℝ) (P : Split → Prop) (b : Node.Best ℝ) : Prop where
  bound : b.entropy ≤ shannon (data.map Inst.label)
  min : ∀ S, P S → b.entropy ≤ S.entropy data
  wit : (b.attr = none ∧ b.entropy = shannon (data.map Inst.label)) ∨
    ∃ S, P S ∧ Names b S ∧ b.entropy = S.entropy data ∧ S.entropy data < shannon (data.map Inst.label) ∧
      ∀ T, P T → E T S → S.entropy data < T.entropy data

theorem BestInv.congr {E : Split → Split → Prop} {data : IList ℝ} {P Q : Split → Prop} {b : Node.Best ℝ} (h : BestInv E data P b)
    (hPQ : ∀ S, P S ↔ Q S) : BestInv E data Q b := by
  refine ⟨h.bound, fun S hS => h.min S ((hPQ S).2 hS), ?_⟩
  rcases h.wit with h | ⟨S, h1, h2⟩
  · exact .inl h
  · exact .inr ⟨S, (hPQ S).1 h1, h2.1, h2.2.1, h2.2.2.1, fun T hT => h2.2.2.2 T ((hPQ T).2 hT)⟩

theorem BestInv.step {E : Split → Split → Prop} {data : IList ℝ} {P : Split → Prop} {b b' : Node.Best ℝ} (h : BestInv E data P b)
    {S : Split} (hE : ∀ T, P T ∨ T = S → ¬ E S T) (hn : Names b' S) (he : b'.entropy = S.entropy data) :
    BestInv E data (fun T => P T ∨ T = S) (if (S.entropy data <. b.entropy) = true then b' else b) := by
  by_cases hlt : S.entropy data < b.entropy
  · rw [if_pos (by simpa using hlt)]
    refine ⟨by rw [he]; exact le_trans (le_of_lt hlt) h.bound, ?_, ?_⟩
    · rintro T (hT | rfl)
      · rw [he]; exact le_trans (le_of_lt hlt) (h.min T hT)
      · rw [he]
    · refine .inr ⟨S, .inr rfl, hn, he, lt_of_lt_of_le hlt h.bound, ?_⟩
      rintro T (hT | rfl) hTS
      · exact lt_of_lt_of_le hlt (h.min T hT)
      · exact absurd hTS (hE T (.inr rfl))
  · rw [if_neg (by simpa using hlt)]
    refine ⟨h.bound, ?_, ?_⟩
    · rintro T (hT | rfl)
      · exact h.min T hT
      · exact le_of_not_gt hlt
    · rcases h.wit with h | ⟨T, h1, h2⟩
      · exact .inl h
      · refine .inr ⟨T, .inl h1, h2.1, h2.2.1, h2.2.2.1, ?_⟩
        rintro U (hU | rfl) hUT
        · exact h2.2.2.2 U hU hUT
        · exact absurd hUT (hE T (.inl h1))

/-! ## discrete -/

theorem entropyDiscrete_eq {ts : List AttrType} {data sd : IList ℝ} {i : Nat} (hts : ∀ x ∈ data, typesOf x = ts)
    (ht : ts[i]? = some .discrete) (hperm : sd.Perm data) :
    Node.entropyForDiscreteAttribute sd i = .ok ((Split.discrete i).entropy data) := by
  have hv : ∀ x ∈ sd, DiscAt x i (discValAt x i) :=
    fun x hx => .inl (disc_of_type (hts x (hperm.mem_iff.1 hx)) ht)
  obtain ⟨vs, ds, _, hfo, hds, hlen, hcnt⟩ := C11_contingency sd i _ hv
  have hds' : ds = vs.map (fun a => DD.ofList ((sd.filter (fun x => discValAt x i == a)).map Inst.label)) := by
    have e := hds
    unfold IList.attributeClassDistribution at e
    rw [valueList_ok hv] at e
    simp only [res_bind_ok] at e
    have hfo2 := dedup_first (sd.map (fun x => discValAt x i))
    have := table_loop (i := i) hfo2.nodup (fun x => discValAt x i) sd hv (fun x hx => by
      rw [hfo2.mem_iff]; exact List.mem_map_of_mem hx) []
    simp only [List.filter_nil, List.map_nil, List.nil_append, List.map_const'] at this
    have e2 := e.symm.trans this
    cases e2
    rw [hfo2.unique hfo]
  unfold Node.entropyForDiscreteAttribute
  rw [hds]
  simp only [res_bind_ok, res_pure, Except.ok.injEq]
  rw [hds', List.foldl_map]
  have hfold : ∀ (l : List String) (g : String → ℝ) (z : ℝ),
      l.foldl (fun s a => s + g a) z = z + (l.map g).sum := by
    intro l g
    induction l with
    | nil => simp
    | cons a l ih => intro z; simp [ih]; ring
  simp only [add_real, mul_real, div_real, ofNat_real, zero_real]
  rw [hfold vs (fun a => ((DD.ofList ((sd.filter (fun x => discValAt x i == a)).map Inst.label)).getSum : ℝ) /
    sd.length * (DD.ofList ((sd.filter (fun x => discValAt x i == a)).map Inst.label)).entropy)]
  rw [zero_add, ← List.sum_toFinset _ hfo.nodup, ← Split.entropy_perm hperm]
  have hset : vs.toFinset = (sd.map (fun x => discValAt x i)).toFinset := by
    ext a; simp [hfo.mem_iff]
  rw [hset]
  unfold Split.entropy condEntropy
  apply Finset.sum_congr rfl
  intro a _
  rw [DD.entropy_ofList, DD.getSum, DD.sum_ofList, List.length_map]
  have : (fun x : Inst ℝ => discValAt x i == a) = fun x => decide (discValAt x i = a) := by
    funext x; rfl
  rw [this]

theorem searchDiscrete_ok {E : Split → Split → Prop} {ts : List AttrType} {data : IList ℝ} {P : Split → Prop} {s : Node.Search ℝ}
    {i : Nat} (hts : ∀ x ∈ data, typesOf x = ts) (ht : ts[i]? = some .discrete)
    (hperm : s.data.Perm data) (hE : ∀ T, P T ∨ T = .discrete i → ¬ E (.discrete i) T) (hb : BestInv E data P s.best) :
    ∃ b, Node.searchDiscrete s i = .ok { s with best := b } ∧
      BestInv E data (fun T => P T ∨ T = .discrete i) b := by
  have he := entropyDiscrete_eq hts ht hperm
  refine ⟨_, ?_, hb.step (S := .discrete i)
    (b' := { s.best with entropy := (Split.discrete i).entropy data, attr := some i }) hE rfl rfl⟩
  unfold Node.searchDiscrete
  rw [he]
  rfl

/-! ## indexed -/

theorem indexedDist_eq {ts : List AttrType} {data data0 : IList ℝ} {i k : Nat} (hts : ∀ x ∈ data, typesOf x = ts)
    (ht : ts[i]? = some .discreteIndexed) (hperm : data0.Perm data) :
    data0.discreteIndexedAttributeClassDistribution i k =
      .ok (DD.ofList ((data0.filter (fun x => idxValAt x i == k)).map Inst.label)) := by
  have hv : ∀ x ∈ data0, IndexAt x i (idxValAt x i) :=
    fun x hx => idx_of_type (hts x (hperm.mem_iff.1 hx)) ht
  unfold IList.discreteIndexedAttributeClassDistribution
  rw [foldlM_ok (g := fun d x => if idxValAt x i = (k : Int) then d.addItem x.label else d)]
  · congr 1
    unfold DD.ofList
    rw [List.foldl_map, List.foldl_filter]
    congr 1
    funext d x
    by_cases hx : idxValAt x i = (k : Int) <;> simp [hx]
  · intro x hx s
    rw [indexAt_ok (hv x hx)]; rfl

theorem indexedStep_ok {E : Split → Split → Prop} {ts : List AttrType} {data data0 : IList ℝ} {P : Split → Prop} {b : Node.Best ℝ}
    {i k : Nat} (hts : ∀ x ∈ data, typesOf x = ts) (ht : ts[i]? = some .discreteIndexed)
    (hperm : data0.Perm data) (hE : ∀ T, P T ∨ T = .indexed i k → ¬ E (.indexed i k) T) (hb : BestInv E data P b) :
    ∃ b', Node.indexedStep data0 i (DD.ofList (data.map Inst.label), b) k =
        .ok (DD.ofList (data.map Inst.label), b') ∧
      BestInv E data (fun T => P T ∨ (T = .indexed i k ∧ ∃ x ∈ data, idxValAt x i = k)) b' := by
  have hd := indexedDist_eq (k := k) hts ht hperm
  unfold Node.indexedStep
  rw [hd]
  simp only [res_bind_ok, res_pure]
  set A := data0.filter (fun x => idxValAt x i == k) with hA
  set B := data0.filter (fun x => !(idxValAt x i == k)) with hB
  have hAB : data.Perm (A ++ B) := hperm.symm.trans (List.filter_append_perm _ data0).symm
  have hABl : (data.map Inst.label).Perm (A.map Inst.label ++ B.map Inst.label) := by
    rw [← List.map_append]; exact hAB.map _
  rw [DD.removeDistribution_ofList hABl, DD.addDistribution_ofList hABl]
  have hsumA : (DD.ofList (A.map Inst.label)).getSum = A.length := by simp [DD.getSum, DD.sum_ofList]
  have hsumB : (DD.ofList (B.map Inst.label)).getSum = B.length := by simp [DD.getSum, DD.sum_ofList]
  rw [hsumA, hsumB]
  have hent : (Split.indexed i k).entropy data =
      (shannon (B.map Inst.label) * B.length + shannon (A.map Inst.label) * A.length) / data.length := by
    show condEntropy data (fun x => decide (idxValAt x i = k)) = _
    rw [condEntropy_bool hAB (by
        intro x hx; rw [hA, List.mem_filter] at hx; simpa using hx.2) (by
        intro x hx; rw [hB, List.mem_filter] at hx; simpa using hx.2)]
    ring
  by_cases hpos : A.length > 0
  · rw [if_pos hpos]
    simp only [DD.entropy_ofList, add_real, mul_real, div_real, ofNat_real, hperm.length_eq]
    rw [← hent]
    refine ⟨_, rfl, (hb.step (S := .indexed i k)
      (b' := { b with entropy := (Split.indexed i k).entropy data, attr := some i, k := k }) hE ⟨rfl, rfl⟩ rfl).congr ?_⟩
    intro S
    have : ∃ x ∈ data, idxValAt x i = (k : Int) := by
      obtain ⟨x, hx⟩ := List.exists_mem_of_length_pos hpos
      refine ⟨x, hAB.mem_iff.2 (by simp [hx]), ?_⟩
      rw [hA, List.mem_filter] at hx; simpa using hx.2
    simp [this]
  · rw [if_neg hpos]
    refine ⟨_, rfl, hb.congr ?_⟩
    intro S
    constructor
    · exact .inl
    · rintro (h | ⟨_, x, hx, hxk⟩)
      · exact h
      · exfalso
        apply hpos
        apply List.length_pos_of_mem (a := x)
        rw [hA, List.mem_filter]
        exact ⟨hperm.mem_iff.2 hx, by simpa using hxk⟩

theorem searchIndexed_ok {E : Split → Split → Prop} {ts : List AttrType} {data : IList ℝ} {P : Split → Prop} {s : Node.Search ℝ}
    {i : Nat} {m : Int} (hts : ∀ x ∈ data, typesOf x = ts) (ht : ts[i]? = some .discreteIndexed)
    (hperm : s.data.Perm data) (hcd : s.classDist = DD.ofList (data.map Inst.label))
    (hE : ∀ (k : Nat) T, P T → ¬ E (.indexed i k) T)
    (hE' : ∀ k k' : Nat, k' ≤ k → ¬ E (.indexed i k) (.indexed i k'))
    (hb : BestInv E data P s.best) :
    ∃ b, Node.searchIndexed s i m = .ok { s with best := b } ∧
      BestInv E data (fun T => P T ∨ ∃ k : Nat, (k : Int) < m ∧ T = .indexed i k ∧ ∃ x ∈ data, idxValAt x i = k) b := by
  have key : ∀ (ks : List Nat) (Q : Split → Prop) (b0 : Node.Best ℝ), ks.Pairwise (· < ·) →
      (∀ k ∈ ks, ∀ T, Q T → ¬ E (.indexed i k) T) → BestInv E data Q b0 →
      ∃ b, ks.foldlM (Node.indexedStep s.data i) (DD.ofList (data.map Inst.label), b0) =
        .ok (DD.ofList (data.map Inst.label), b) ∧
      BestInv E data (fun T => Q T ∨ ∃ k ∈ ks, T = .indexed i k ∧ ∃ x ∈ data, idxValAt x i = (k : Int)) b := by
    intro ks
    induction ks with
    | nil => intro Q b0 _ _ h0; exact ⟨b0, rfl, h0.congr (by simp)⟩
    | cons k ks ih =>
      intro Q b0 hks hQ h0
      obtain ⟨b1, e1, h1⟩ := indexedStep_ok (k := k) hts ht hperm (by
        rintro T (hT | rfl)
        · exact hQ k (by simp) T hT
        · exact hE' k k (le_refl _)) h0
      obtain ⟨b2, e2, h2⟩ := ih _ b1 (List.pairwise_cons.1 hks).2 (by
        rintro j hj T (hT | ⟨rfl, _⟩)
        · exact hQ j (by simp [hj]) T hT
        · exact hE' j k (le_of_lt ((List.pairwise_cons.1 hks).1 j hj))) h1
      refine ⟨b2, ?_, h2.congr ?_⟩
      · rw [List.foldlM_cons, e1]; exact e2
      · intro S
        simp only [List.mem_cons]
        constructor
        · rintro ((h | h) | ⟨j, hj, h⟩)
          · exact .inl h
          · exact .inr ⟨k, .inl rfl, h⟩
          · exact .inr ⟨j, .inr hj, h⟩
        · rintro (h | ⟨j, rfl | hj, h⟩)
          · exact .inl (.inl h)
          · exact .inl (.inr h)
          · exact .inr ⟨j, hj, h⟩
  obtain ⟨b, e, h⟩ := key (List.range m.toNat) P s.best List.pairwise_lt_range (fun k _ => hE k) hb
  refine ⟨b, ?_, h.congr ?_⟩
  · unfold Node.searchIndexed
    rw [hcd, e]
    simp only [res_bind_ok, res_pure, ← hcd]
  · intro S
    constructor
    · rintro (h | ⟨k, hk, h⟩)
      · exact .inl h
      · exact .inr ⟨k, by have := List.mem_range.1 hk; omega, h⟩
    · rintro (h | ⟨k, hk, h⟩)
      · exact .inl h
      · exact .inr ⟨k, List.mem_range.2 (by omega), h⟩

/-! ## continuous -/

/-- candidate thresholds of attribute `i` -/
def CandT (data : IList ℝ) (i : Nat) (t : ℝ) : Prop :=
  ∃ x ∈ data, ∃ y ∈ data, contValAt x i < contValAt y i ∧
    (∀ z ∈ data, contValAt z i ≤ contValAt x i ∨ contValAt y i ≤ contValAt z i) ∧
    t = (contValAt x i + contValAt y i) / 2

theorem sweep_ok {E : Split → Split → Prop} {data : IList ℝ} {P : Split → Prop} {i : Nat}
    (hE : ∀ (t : ℝ) T, P T → ¬ E (.threshold i t) T)
    (hE' : ∀ t t' : ℝ, t' ≤ t → ¬ E (.threshold i t) (.threshold i t')) :
    ∀ (suf pre : IList ℝ) (s : Node.Sweep ℝ),
    data.Perm (pre ++ suf) → (pre ++ suf).Pairwise (fun a b => contValAt a i ≤ contValAt b i) →
    (∀ x ∈ suf, ContAt x i (contValAt x i)) →
    s.right = DD.ofList (pre.map Inst.label) → s.left = DD.ofList (suf.map Inst.label) →
    s.prev = pre.getLast?.map (fun x => contValAt x i) →
    BestInv E data (fun T => P T ∨ ∃ t, T = .threshold i t ∧ CandT data i t ∧ ∃ y ∈ pre, t < contValAt y i) s.best →
    ∃ s', suf.foldlM (Node.sweepStep data.length i) s = .ok s' ∧
      BestInv E data (fun T => P T ∨ ∃ t, T = .threshold i t ∧ CandT data i t) s'.best := by
  intro suf
  induction suf with
  | nil =>
    intro pre s hp _ _ _ _ _ hb
    refine ⟨s, rfl, hb.congr ?_⟩
    intro S
    constructor
    · rintro (h | ⟨t, h1, h2, _⟩)
      · exact .inl h
      · exact .inr ⟨t, h1, h2⟩
    · rintro (h | ⟨t, h1, h2⟩)
      · exact .inl h
      · refine .inr ⟨t, h1, h2, ?_⟩
        obtain ⟨x, hx, y, hy, hlt, _, ht⟩ := h2
        exact ⟨y, by simpa using hp.mem_iff.1 hy, by rw [ht]; linarith⟩
  | cons x suf ih =>
    intro pre s hp hsort hcont hright hleft hprev hb
    have hx := hcont x (by simp)
    have hxd : x ∈ data := hp.mem_iff.2 (by simp)
    rw [List.foldlM_cons]
    -- values before and after
    have hpair := List.pairwise_append.1 hsort
    have hsuf : ∀ z ∈ x :: suf, contValAt x i ≤ contValAt z i := by
      intro z hz
      rcases List.mem_cons.1 hz with rfl | hz
      · exact le_refl _
      · exact (List.pairwise_cons.1 hpair.2.1).1 z hz
    -- the state after the value part
    have hval : ∃ b, Node.sweepValue data.length i s (contValAt x i) =
        { s with prev := some (contValAt x i), best := b } ∧
        BestInv E data (fun T => P T ∨ ∃ t, T = .threshold i t ∧ CandT data i t ∧
          ∃ y ∈ pre ++ [x], t < contValAt y i) b := by
      rcases List.eq_nil_or_concat' pre with rfl | ⟨pre', z, rfl⟩
      · refine ⟨s.best, ?_, hb.congr ?_⟩
        · unfold Node.sweepValue; rw [hprev]; rfl
        · intro S
          simp only [List.not_mem_nil, false_and, exists_false, and_false, or_false, List.nil_append,
            List.mem_singleton, exists_eq_left]
          constructor
          · exact .inl
          · rintro (h | ⟨t, _, ⟨a, ha, b, hb', hlt, _, ht⟩, hlt2⟩)
            · exact h
            · exfalso
              have := hsuf a (by simpa using hp.mem_iff.1 ha)
              rw [ht] at hlt2; linarith
      · have hz : z ∈ pre' ++ [z] := by simp
        have hzx : contValAt z i ≤ contValAt x i := hpair.2.2 z hz x (by simp)
        have hpre : ∀ y ∈ pre' ++ [z], contValAt y i ≤ contValAt z i := by
          intro y hy
          rcases List.mem_append.1 hy with hy | hy
          · exact (List.pairwise_append.1 hpair.1).2.2 y hy z (by simp)
          · simp only [List.mem_singleton] at hy; rw [hy]
        have hpv : s.prev = some (contValAt z i) := by rw [hprev]; simp
        unfold Node.sweepValue
        rw [hpv]
        simp only [Node.sweepSplit]
        by_cases hne : contValAt x i = contValAt z i
        · rw [if_neg (by simp [hne])]
          refine ⟨s.best, ?_, hb.congr ?_⟩
          · rw [hne, ← hpv]
          · intro S
            refine or_congr Iff.rfl (exists_congr fun t => and_congr Iff.rfl (and_congr Iff.rfl ?_))
            constructor
            · rintro ⟨y, hy, h⟩; exact ⟨y, by simp only [List.mem_append] at hy ⊢; tauto, h⟩
            · rintro ⟨y, hy, h⟩
              rcases List.mem_append.1 hy with hy | hy
              · exact ⟨y, hy, h⟩
              · simp only [List.mem_singleton] at hy; subst hy
                exact ⟨z, hz, by rw [← hne]; exact h⟩
        · have hlt : contValAt z i < contValAt x i := lt_of_le_of_ne hzx (fun h => hne h.symm)
          rw [if_pos (by simp [hne])]
          set t0 := (contValAt z i + contValAt x i) / 2 with ht0
          have ht0eq : ((contValAt z i +. contValAt x i) /. Dbl.ofInt 2) = t0 := by simp [ht0]
          have hzd : z ∈ data := hp.mem_iff.2 (by simp)
          have hcand : CandT data i t0 := by
            refine ⟨z, hzd, x, hxd, hlt, ?_, rfl⟩
            intro w hw
            rcases List.mem_append.1 (hp.mem_iff.1 hw) with h | h
            · exact .inl (hpre w h)
            · exact .inr (hsuf w h)
          have hent : (Split.threshold i t0).entropy data =
              ((pre' ++ [z]).length : ℝ) / data.length * shannon ((pre' ++ [z]).map Inst.label) +
              ((x :: suf).length : ℝ) / data.length * shannon ((x :: suf).map Inst.label) := by
            show condEntropy data (fun x => decide (contValAt x i ≤ t0)) = _
            refine condEntropy_bool hp ?_ ?_
            · intro w hw
              have := hpre w hw
              simp only [decide_eq_true_eq]; rw [ht0]; linarith
            · intro w hw
              have := hsuf w hw
              simp only [decide_eq_false_iff_not, not_le]; rw [ht0]; linarith
          have he : (((Dbl.ofNat s.left.getSum : ℝ) /. Dbl.ofNat data.length) *. s.left.entropy) +.
              (((Dbl.ofNat s.right.getSum : ℝ) /. Dbl.ofNat data.length) *. s.right.entropy) =
              (Split.threshold i t0).entropy data := by
            rw [hent, hleft, hright, DD.entropy_ofList, DD.entropy_ofList, DD.getSum, DD.getSum,
              DD.sum_ofList, DD.sum_ofList, List.length_map, List.length_map]
            simp only [add_real, mul_real, div_real, ofNat_real]
            ring
          rw [he, ht0eq]
          refine ⟨_, rfl, (hb.step (S := .threshold i t0)
            (b' := { s.best with entropy := (Split.threshold i t0).entropy data, v := t0, attr := some i })
            (by
              rintro T ((hT | ⟨t, rfl, _, y, hy, h3⟩) | rfl)
              · exact hE t0 T hT
              · refine hE' t0 t ?_
                have := hpre y hy
                rw [ht0]; linarith
              · exact hE' t0 t0 (le_refl _)) ⟨rfl, rfl⟩ rfl).congr ?_⟩
          intro S
          constructor
          · rintro ((h | ⟨t, h1, h2, y, hy, h3⟩) | rfl)
            · exact .inl h
            · exact .inr ⟨t, h1, h2, y, by simp only [List.mem_append] at hy ⊢; tauto, h3⟩
            · exact .inr ⟨t0, rfl, hcand, x, by simp, by rw [ht0]; linarith⟩
          · rintro (h | ⟨t, h1, h2, y, hy, h3⟩)
            · exact .inl (.inl h)
            · rcases List.mem_append.1 hy with hy | hy
              · exact .inl (.inr ⟨t, h1, h2, y, hy, h3⟩)
              · simp only [List.mem_singleton] at hy; subst hy
                by_cases htz : t < contValAt z i
                · exact .inl (.inr ⟨t, h1, h2, z, hz, htz⟩)
                · right
                  obtain ⟨a, ha, b, hb', hab, hnb, ht⟩ := h2
                  have hla : contValAt a i < t := by rw [ht]; linarith
                  have hlb : t < contValAt b i := by rw [ht]; linarith
                  have haz : contValAt a i ≤ contValAt z i := by
                    rcases List.mem_append.1 (hp.mem_iff.1 ha) with h | h
                    · exact hpre a h
                    · exfalso; have := hsuf a h; linarith
                  have haz' : contValAt z i ≤ contValAt a i := by
                    rcases hnb z hzd with h | h
                    · exact h
                    · exfalso; linarith
                  have hbx : contValAt b i ≤ contValAt y i := by
                    rcases hnb y hxd with h | h
                    · exfalso; linarith
                    · exact h
                  have hbx' : contValAt y i ≤ contValAt b i := by
                    rcases List.mem_append.1 (hp.mem_iff.1 hb') with h | h
                    · exfalso; have := hpre b h; linarith
                    · exact hsuf b h
                  rw [h1, ht, ht0, le_antisymm haz haz', le_antisymm hbx hbx']
    obtain ⟨b, hsv, hbv⟩ := hval
    have hstep : Node.sweepStep data.length i s x = .ok ⟨some (contValAt x i), s.left.removeItem x.label,
        s.right.addItem x.label, b⟩ := by
      unfold Node.sweepStep
      rw [contAt_ok hx]
      simp only [res_bind_ok, hsv]
      rfl
    rw [hstep]
    simp only [res_bind_ok]
    apply ih (pre ++ [x])
    · simpa using hp
    · simpa using hsort
    · intro y hy; exact hcont y (by simp [hy])
    · simp only
      rw [hright]
      apply DD.addItem_ofList
      simp only [List.map_append, List.map_cons, List.map_nil]
      exact List.perm_append_singleton _ _
    · simp only
      rw [hleft]
      exact DD.removeItem_ofList (by simp)
    · simp
    · exact hbv

theorem searchContinuous_ok {E : Split → Split → Prop} {ts : List AttrType} {data : IList ℝ} {P : Split → Prop} {s : Node.Search ℝ}
    {i : Nat} (hts : ∀ x ∈ data, typesOf x = ts) (ht : ts[i]? = some .continuous)
    (hperm : s.data.Perm data) (hE : ∀ (t : ℝ) T, P T → ¬ E (.threshold i t) T)
    (hE' : ∀ t t' : ℝ, t' ≤ t → ¬ E (.threshold i t) (.threshold i t')) (hb : BestInv E data P s.best) :
    ∃ d b, Node.searchContinuous s i = .ok { s with data := d, best := b } ∧ d.Perm data ∧
      BestInv E data (fun T => P T ∨ ∃ t, T = .threshold i t ∧ CandT data i t) b := by
  have hv : ∀ x ∈ s.data, ContAt x i (contValAt x i) :=
    fun x hx => cont_of_type (hts x (hperm.mem_iff.1 hx)) ht
  obtain ⟨d, hd, hst⟩ := C13_sort_by_attribute s.data i _ hv (fun x _ => ord_real _)
  have hdp : d.Perm data := hst.perm.trans hperm
  obtain ⟨s', e, h⟩ := sweep_ok (data := data) (P := P) (i := i) hE hE' d [] ⟨none, DD.ofList (d.map Inst.label), DD.empty, s.best⟩
    (by simpa using hdp.symm) (by simpa using hst.sorted) (fun x hx => hv x (hst.perm.mem_iff.1 hx)) rfl rfl rfl
    (hb.congr (by simp))
  refine ⟨d, s'.best, ?_, hdp, h⟩
  unfold Node.searchContinuous
  rw [hd]
  simp only [res_bind_ok]
  rw [classDistribution_eq, hdp.length_eq, e]
  rfl

/-! ## the whole search -/

/-- indices of indexed attributes are below the declared number of values, in all instances -/
def IndexBounded (data : IList ℝ) : Prop :=
  ∀ x ∈ data, ∀ y ∈ data, ∀ (i : Nat) v k m v' k' m', x.attrs[i]? = some (.indexed v k m) →
    y.attrs[i]? = some (.indexed v' k' m') → k < m'

theorem IndexBounded.mono {data p : IList ℝ} (h : IndexBounded data) (hp : ∀ x ∈ p, x ∈ data) :
    IndexBounded p :=
  fun x hx y hy => h x (hp x hx) y (hp y hy)

/-- state of the search over the attributes `tried` after those in `done` -/
structure SearchOk (ts : List AttrType) (tried : List Nat) (data : IList ℝ) (done : List Nat) (s : Node.Search ℝ) : Prop where
  perm : s.data.Perm data
  dist : s.classDist = DD.ofList (data.map Inst.label)
  best : ∃ P, BestInv (Split.Before tried) data P s.best ∧ (∀ S, P S → S.Candidate ts data ∧ S.attr ∈ done) ∧
    (IndexBounded data → ∀ S, S.Candidate ts data → S.attr ∈ done → P S)

theorem searchStep_ok {ts : List AttrType} {data : IList ℝ} (hne : data ≠ [])
    (hts : ∀ x ∈ data, typesOf x = ts) {tried done rest : List Nat} {s : Node.Search ℝ} {i : Nat}
    (htd : tried = done ++ i :: rest) (hnd : tried.Nodup)
    (hs : SearchOk ts tried data done s) (hi : i < ts.length) :
    ∃ s', Node.searchStep s i = .ok s' ∧ SearchOk ts tried data (done ++ [i]) s' := by
  obtain ⟨P, hb, hP1, hP2⟩ := hs.best
  have hnd' : i ∉ done := by
    rw [htd, List.nodup_append] at hnd
    exact fun h => hnd.2.2 i h i (by simp) rfl
  have hii : tried.idxOf i = done.length := by
    rw [htd, List.idxOf_append_of_notMem hnd']; simp
  have hord : ∀ S T, S.attr = i → P T → ¬ Split.Before tried S T := by
    intro S T hS hT hbf
    have hTd := (hP1 T hT).2
    have hlt : tried.idxOf T.attr < done.length := by
      rw [htd, List.idxOf_append_of_mem hTd]; exact List.idxOf_lt_length_iff.2 hTd
    rcases hbf with h | ⟨j, k, k', rfl, rfl, _⟩ | ⟨j, k, k', rfl, rfl, _⟩
    · rw [hS, hii] at h; omega
    · exact hnd' (by rw [← hS]; exact hTd)
    · exact hnd' (by rw [← hS]; exact hTd)
  have hsne : s.data ≠ [] := by intro h; have := hs.perm; rw [h] at this; exact hne this.symm.eq_nil
  obtain ⟨x0, rest, hx0⟩ := List.exists_cons_of_ne_nil hsne
  have hx0d : x0 ∈ data := hs.perm.mem_iff.1 (by rw [hx0]; simp)
  have hlen : i < x0.attrs.length := by
    have := hts x0 hx0d
    rw [← this, typesOf, List.length_map] at hi; exact hi
  obtain ⟨a, ha⟩ : ∃ a, x0.getAttribute i = .ok a := ⟨_, by
    unfold Inst.getAttribute; exact atR_ok_of_lt hlen⟩
  have hta := type_of_attr (hts x0 hx0d) ha
  have hstep : Node.searchStep s i = Node.searchKind s i a := by
    unfold Node.searchStep
    rw [hx0]
    simp only [atR_cons_zero, res_bind_ok, ha]
  rw [hstep]
  unfold Node.searchKind
  have hold : ∀ S, P S → S.Candidate ts data ∧ S.attr ∈ done ++ [i] :=
    fun S h => ⟨(hP1 S h).1, List.mem_append_left _ (hP1 S h).2⟩
  cases a with
  | indexed v j m =>
    simp only [Attr.isDiscreteIndexed, if_true, Attr.getMaxIndex, res_bind_ok]
    obtain ⟨b, e, h⟩ := searchIndexed_ok (m := m) hts hta hs.perm hs.dist (fun k T => hord _ T rfl) (by
      rintro k k' hkk (h | ⟨_, _, _, h1, h2, h3⟩ | ⟨_, _, _, h1, _⟩)
      · exact absurd h (lt_irrefl _)
      · cases h1; cases h2; omega
      · cases h1) hb
    refine ⟨_, e, hs.perm, hs.dist, _, h, ?_, ?_⟩
    · rintro S (hS | ⟨k, hk, rfl, x, hx, hxk⟩)
      · exact hold S hS
      · exact ⟨⟨hta, by omega, x, hx, hxk⟩, by simp [Split.attr]⟩
    · intro hbd S hS hSa
      rcases List.mem_append.1 hSa with hd | hd
      · exact .inl (hP2 hbd S hS hd)
      · simp only [List.mem_singleton] at hd
        right
        cases S with
        | discrete i' =>
          simp only [Split.attr] at hd; subst hd
          have := hta.symm.trans hS; cases this
        | threshold i' t =>
          simp only [Split.attr] at hd; subst hd
          have := hta.symm.trans hS.1; cases this
        | indexed i' k =>
          simp only [Split.attr] at hd; subst hd
          obtain ⟨_, hk, x, hx, hxk⟩ := hS
          have hxa := idx_of_type (hts x hx) hta
          obtain ⟨w, mm, hxa⟩ := hxa
          have ha' : x0.attrs[i']? = some (.indexed v j m) := by
            simpa [Inst.getAttribute] using ha
          have := hbd x hx x0 hx0d i' _ _ _ _ _ _ hxa ha'
          refine ⟨k.toNat, by omega, by rw [Int.toNat_of_nonneg hk], x, hx, by omega⟩
  | discrete v =>
    simp only [Attr.isDiscreteIndexed, Attr.isDiscrete, Bool.false_eq_true, if_false, if_true]
    obtain ⟨b, e, h⟩ := searchDiscrete_ok hts hta hs.perm (by
      rintro T (hT | rfl)
      · exact hord _ T rfl hT
      · rintro (h | ⟨_, _, _, h1, _⟩ | ⟨_, _, _, h1, _⟩)
        · exact absurd h (lt_irrefl _)
        · cases h1
        · cases h1) hb
    refine ⟨_, e, hs.perm, hs.dist, _, h, ?_, ?_⟩
    · rintro S (hS | rfl)
      · exact hold S hS
      · exact ⟨hta, by simp [Split.attr]⟩
    · intro hbd S hS hSa
      rcases List.mem_append.1 hSa with hd | hd
      · exact .inl (hP2 hbd S hS hd)
      · simp only [List.mem_singleton] at hd
        right
        cases S with
        | discrete i' => simp only [Split.attr] at hd; rw [hd]
        | threshold i' t =>
          simp only [Split.attr] at hd; subst hd
          have := hta.symm.trans hS.1; cases this
        | indexed i' k =>
          simp only [Split.attr] at hd; subst hd
          have := hta.symm.trans hS.1; cases this
  | continuous v =>
    simp only [Attr.isDiscreteIndexed, Attr.isDiscrete, Attr.isContinuous, Bool.false_eq_true,
      if_false, if_true]
    obtain ⟨d, b, e, hd, h⟩ := searchContinuous_ok hts hta hs.perm (fun t T => hord _ T rfl) (by
      rintro t t' htt (h | ⟨_, _, _, h1, _⟩ | ⟨_, _, _, h1, h2, h3⟩)
      · exact absurd h (lt_irrefl _)
      · cases h1
      · cases h1; cases h2; exact absurd htt (not_le.2 h3)) hb
    refine ⟨_, e, hd, hs.dist, _, h, ?_, ?_⟩
    · rintro S (hS | ⟨t, rfl, hc⟩)
      · exact hold S hS
      · exact ⟨⟨hta, hc⟩, by simp [Split.attr]⟩
    · intro hbd S hS hSa
      rcases List.mem_append.1 hSa with hd | hd
      · exact .inl (hP2 hbd S hS hd)
      · simp only [List.mem_singleton] at hd
        right
        cases S with
        | discrete i' =>
          simp only [Split.attr] at hd; subst hd
          have := hta.symm.trans hS; cases this
        | threshold i' t =>
          simp only [Split.attr] at hd; subst hd
          exact ⟨t, rfl, hS.2⟩
        | indexed i' k =>
          simp only [Split.attr] at hd; subst hd
          have := hta.symm.trans hS.1; cases this
  | binary v =>
    simp only [Attr.isDiscreteIndexed, Attr.isDiscrete, Attr.isContinuous, Bool.false_eq_true, if_false]
    refine ⟨s, rfl, hs.perm, hs.dist, P, hb, hold, ?_⟩
    intro hbd S hS hSa
    rcases List.mem_append.1 hSa with hd | hd
    · exact hP2 hbd S hS hd
    · simp only [List.mem_singleton] at hd
      exfalso
      cases S with
      | discrete i' =>
        simp only [Split.attr] at hd; subst hd
        have := hta.symm.trans hS; cases this
      | threshold i' t =>
        simp only [Split.attr] at hd; subst hd
        have := hta.symm.trans hS.1; cases this
      | indexed i' k =>
        simp only [Split.attr] at hd; subst hd
        have := hta.symm.trans hS.1; cases this

theorem search_ok {ts : List AttrType} {data : IList ℝ} (hne : data ≠ [])
    (hts : ∀ x ∈ data, typesOf x = ts) {tried : List Nat} (hnd : tried.Nodup) :
    ∀ (is done : List Nat) (s : Node.Search ℝ), tried = done ++ is →
    SearchOk ts tried data done s → (∀ i ∈ is, i < ts.length) →
    ∃ s', is.foldlM Node.searchStep s = .ok s' ∧ SearchOk ts tried data (done ++ is) s' := by
  intro is
  induction is with
  | nil => intro done s _ hs _; exact ⟨s, rfl, by simpa using hs⟩
  | cons i is ih =>
    intro done s htd hs hi
    obtain ⟨s1, e1, h1⟩ := searchStep_ok hne hts htd hnd hs (hi i (by simp))
    obtain ⟨s2, e2, h2⟩ := ih _ s1 (by rw [htd]; simp) h1 (fun j hj => hi j (by simp [hj]))
    exact ⟨s2, by rw [List.foldlM_cons, e1]; exact e2, by simpa using h2⟩

/-! ## the children -/

theorem mapM_exists {α β : Type} {f : α → Res β} {l : List α} (h : ∀ a ∈ l, ∃ b, f a = .ok b) :
    ∃ r, l.mapM f = .ok r := by
  induction l with
  | nil => exact ⟨[], rfl⟩
  | cons a l ih =>
    obtain ⟨b, hb⟩ := h a (by simp)
    obtain ⟨r, hr⟩ := ih (fun a' ha => h a' (by simp [ha]))
    exact ⟨b :: r, by rw [List.mapM_cons, hb]; simp [hr]⟩

theorem filter_length_lt {α : Type} {l : List α} {p : α → Bool} {x : α} (hx : x ∈ l) (hp : p x = false) :
    (l.filter p).length < l.length := by
  rw [List.length_filter_lt_length_iff_exists]
  exact ⟨x, hx, by simp [hp]⟩

/-- a list of branches, grown: what `OptimalTree.split` needs -/
def GrownBranches (rec : IList ℝ → Cond ℝ → Res (Node ℝ)) (data : IList ℝ)
    (bs : List (Cond ℝ × IList ℝ)) (ch : List (Node ℝ)) : Prop :=
  bs.length = ch.length ∧ ∀ (k : Nat) b n, bs[k]? = some b → ch[k]? = some n →
    rec b.2 b.1 = .ok n ∧ b.2 ≠ [] ∧ b.2.length < data.length ∧ ∀ x ∈ b.2, x ∈ data

theorem grownBranches_two {rec : IList ℝ → Cond ℝ → Res (Node ℝ)} {data p q : IList ℝ} {c d : Cond ℝ}
    {m n : Node ℝ} (hp : rec p c = .ok m ∧ p ≠ [] ∧ p.length < data.length ∧ ∀ x ∈ p, x ∈ data)
    (hq : rec q d = .ok n ∧ q ≠ [] ∧ q.length < data.length ∧ ∀ x ∈ q, x ∈ data) :
    GrownBranches rec data [(c, p), (d, q)] [m, n] := by
  refine ⟨rfl, ?_⟩
  intro k b n' hb hn
  match k with
  | 0 => simp only [List.getElem?_cons_zero, Option.some.injEq] at hb hn; subst hb hn; exact hp
  | 1 =>
    simp only [List.getElem?_cons_succ, List.getElem?_cons_zero, Option.some.injEq] at hb hn
    subst hb hn; exact hq
  | k + 2 => simp at hb

theorem children_ok {ts : List AttrType} {data sd : IList ℝ} (hne : data ≠ [])
    (hts : ∀ x ∈ data, typesOf x = ts) (hperm : sd.Perm data)
    {rec : IList ℝ → Cond ℝ → Res (Node ℝ)}
    (hrec : ∀ p c, p ≠ [] → p.length < data.length → (∀ x ∈ p, x ∈ data) → ∃ n, rec p c = .ok n)
    {S : Split} (hS : S.Candidate ts data) (hless : S.entropy data < shannon (data.map Inst.label))
    {b : Node.Best ℝ} (hb : Names b S) {i : Nat} (hbi : b.attr = some i) {a : Attr ℝ}
    (ha : ts[i]? = some (typeOf a)) :
    ∃ bs ch, Node.childrenKind rec sd b i a = .ok ch ∧ S.Branches data bs ∧
      GrownBranches rec data bs ch := by
  have hts' : ∀ x ∈ sd, typesOf x = ts := fun x hx => hts x (hperm.mem_iff.1 hx)
  have hin : ∀ (f : Inst ℝ → Bool), ∀ x ∈ sd.filter f, x ∈ data :=
    fun f x hx => hperm.mem_iff.1 (List.mem_of_mem_filter hx)
  unfold Node.childrenKind
  cases S with
  | discrete j =>
    have hij : i = j := by have : b.attr = some j := hb; rw [hbi] at this; cases this; rfl
    subst hij
    have hat : typeOf a = .discrete := by
      have := ha.symm.trans hS; simpa using this
    cases a with
    | discrete v =>
      simp only [Attr.isDiscreteIndexed, Attr.isDiscrete, Bool.false_eq_true, if_false, if_true]
      have hv' : ∀ x ∈ sd, DiscAt x i (discValAt x i) := fun x hx => .inl (disc_of_type (hts' x hx) hS)
      obtain ⟨vs, ps, hfo, e, hps, _, _⟩ := C21_partition_by_discrete sd i _ hv'
      obtain ⟨vs', e', hfo'⟩ := C09_attribute_values sd i _ hv'
      have hvs : vs' = vs := hfo'.unique hfo
      subst hvs
      -- at least two values
      have htwo : ∀ w, ∃ x ∈ sd, discValAt x i ≠ w := by
        intro w
        by_contra hc
        push Not at hc
        have : (Split.discrete i).entropy data = shannon (data.map Inst.label) :=
          condEntropy_const hne (fun x hx y hy => by
            rw [hc x (hperm.mem_iff.2 hx), hc y (hperm.mem_iff.2 hy)])
        linarith
      have hgood : ∀ w ∈ vs', (sd.filter (fun x => discValAt x i == w)) ≠ [] ∧
          (sd.filter (fun x => discValAt x i == w)).length < data.length ∧
          ∀ x ∈ sd.filter (fun x => discValAt x i == w), x ∈ data := by
        intro w hw
        refine ⟨?_, ?_, hin _⟩
        · obtain ⟨x, hx, hxw⟩ := List.mem_map.1 ((hfo.mem_iff w).1 hw)
          exact List.ne_nil_of_mem (List.mem_filter.2 ⟨hx, by simpa using hxw⟩)
        · obtain ⟨x, hx, hxw⟩ := htwo w
          rw [← hperm.length_eq]
          exact filter_length_lt hx (by simpa using hxw)
      have hchild : ∀ k (hk : k < vs'.length), Node.childDiscrete rec ps i (vs'[k], k) =
          rec (sd.filter (fun x => discValAt x i == vs'[k])) ⟨i, '=', some (.discrete vs'[k])⟩ := by
        intro k hk
        unfold Node.childDiscrete
        simp only
        rw [atR_ok_of_lt (by rw [hps]; simpa using hk)]
        simp only [res_bind_ok, hps, List.getElem_map]
      have hex : ∃ ch, vs'.zipIdx.mapM (Node.childDiscrete rec ps i) = .ok ch := by
        apply mapM_exists
        rintro ⟨w, k⟩ hwk
        obtain ⟨hk, hw⟩ := List.mem_zipIdx' hwk
        rw [hw]
        rw [hchild k hk]
        obtain ⟨h1, h2, h3⟩ := hgood _ (List.getElem_mem hk)
        exact hrec _ _ h1 h2 h3
      obtain ⟨ch, hch⟩ := hex
      have hinv := mapM_ok_inv hch
      have hlen : vs'.length = ch.length := by simpa using hinv.length_eq
      refine ⟨vs'.map (fun w => (⟨i, '=', some (.discrete w)⟩, sd.filter (fun x => discValAt x i == w))), ch,
        ?_, ?_, ?_⟩
      · unfold Node.childrenDiscrete
        rw [e', e]
        simp only [res_bind_ok]
        exact hch
      · refine ⟨vs', hfo.nodup, ?_, ?_⟩
        · intro w
          rw [hfo.mem_iff]
          simp only [List.mem_map]
          exact ⟨fun ⟨x, hx, h⟩ => ⟨x, hperm.mem_iff.1 hx, h⟩, fun ⟨x, hx, h⟩ => ⟨x, hperm.mem_iff.2 hx, h⟩⟩
        · rw [List.forall₂_map_right_iff, List.forall₂_same]
          intro w _
          exact ⟨rfl, hperm.filter _⟩
      · refine ⟨by simpa using hlen, ?_⟩
        intro k bb n hbk hnk
        have hk : k < vs'.length := by
          by_contra hc
          rw [List.getElem?_eq_none (by simpa using hc)] at hbk; cases hbk
        rw [List.getElem?_eq_getElem (by simpa using hk)] at hbk
        rw [List.getElem?_eq_getElem (by omega)] at hnk
        simp only [List.getElem_map, Option.some.injEq] at hbk hnk
        subst hbk
        refine ⟨?_, hgood _ (List.getElem_mem hk)⟩
        have := (List.forall₂_iff_get.1 hinv).2 k (by simpa using hk) (by omega)
        simp only [List.get_eq_getElem, List.getElem_zipIdx, Nat.zero_add] at this
        rw [hchild k hk, hnk] at this
        exact this
    | indexed _ _ _ => simp [typeOf] at hat
    | continuous _ => simp [typeOf] at hat
    | binary _ => simp [typeOf] at hat
  | indexed j k =>
    obtain ⟨h1, hbk⟩ := hb
    have hij : i = j := by rw [hbi] at h1; cases h1; rfl
    subst hij
    obtain ⟨hty, hk, x, hx, hxk⟩ := hS
    have hat : typeOf a = .discreteIndexed := by
      have := ha.symm.trans hty; simpa using this
    cases a with
    | indexed v kk m =>
      simp only [Attr.isDiscreteIndexed, if_true, Attr.getMaxIndex, res_bind_ok, hbk]
      have hv : ∀ x ∈ sd, IndexAt x i (idxValAt x i) := fun x hx => idx_of_type (hts' x hx) hty
      obtain ⟨p0, p1, e, h0, h1, _⟩ := C22_partition_by_indexed sd i k _ hv
      obtain ⟨y, hy, hyk⟩ : ∃ y ∈ sd, idxValAt y i ≠ k := by
        by_contra hc
        push Not at hc
        have : (Split.indexed i k).entropy data = shannon (data.map Inst.label) :=
          condEntropy_const hne (fun x hx y hy => by
            rw [hc x (hperm.mem_iff.2 hx), hc y (hperm.mem_iff.2 hy)])
        linarith
      have hp0 : p0 ≠ [] ∧ p0.length < data.length ∧ ∀ x ∈ p0, x ∈ data := by
        refine ⟨?_, ?_, by rw [h0]; exact hin _⟩
        · rw [h0]; exact List.ne_nil_of_mem (List.mem_filter.2 ⟨hperm.mem_iff.2 hx, by simpa using hxk⟩)
        · rw [h0, ← hperm.length_eq]; exact filter_length_lt hy (by simpa using hyk)
      have hp1 : p1 ≠ [] ∧ p1.length < data.length ∧ ∀ x ∈ p1, x ∈ data := by
        refine ⟨?_, ?_, by rw [h1]; exact hin _⟩
        · rw [h1]; exact List.ne_nil_of_mem (List.mem_filter.2 ⟨hy, by simpa using hyk⟩)
        · rw [h1, ← hperm.length_eq]; exact filter_length_lt (hperm.mem_iff.2 hx) (by simpa using hxk)
      obtain ⟨c0, hc0⟩ := hrec p0 ⟨i, '=', some (.indexed "" k m)⟩ hp0.1 hp0.2.1 hp0.2.2
      obtain ⟨c1, hc1⟩ := hrec p1 ⟨i, '=', some (.indexed "" (-1) m)⟩ hp1.1 hp1.2.1 hp1.2.2
      refine ⟨_, [c0, c1], ?_, ⟨p0, p1, m, rfl, ?_, ?_⟩, grownBranches_two ⟨hc0, hp0⟩ ⟨hc1, hp1⟩⟩
      · unfold Node.childrenIndexed
        rw [e]
        simp only [res_bind_ok, atR_cons_zero, hc0]
        rw [show atR [p0, p1] 1 = .ok p1 from rfl]
        simp only [res_bind_ok, hc1]
        rfl
      · rw [h0]; exact hperm.filter _
      · rw [h1]; exact hperm.filter _
    | discrete _ => simp [typeOf] at hat
    | continuous _ => simp [typeOf] at hat
    | binary _ => simp [typeOf] at hat
  | threshold j t =>
    obtain ⟨h1, hbt⟩ := hb
    have hij : i = j := by rw [hbi] at h1; cases h1; rfl
    subst hij
    obtain ⟨hty, x, hx, y, hy, hxy, _, htm⟩ := hS
    have hat : typeOf a = .continuous := by
      have := ha.symm.trans hty; simpa using this
    cases a with
    | continuous v =>
      simp only [Attr.isDiscreteIndexed, Attr.isDiscrete, Attr.isContinuous, Bool.false_eq_true,
        if_false, if_true, hbt]
      have hv : ∀ x ∈ sd, ContAt x i (contValAt x i) := fun x hx => cont_of_type (hts' x hx) hty
      obtain ⟨p0, p1, e, h0, h1, _⟩ := C23_partition_by_threshold sd i t _ hv
      have hxt : contValAt x i ≤ t := by rw [htm]; linarith
      have hyt : ¬ contValAt y i ≤ t := by rw [htm]; push Not; linarith
      have hp0 : p0 ≠ [] ∧ p0.length < data.length ∧ ∀ x ∈ p0, x ∈ data := by
        refine ⟨?_, ?_, by rw [h0]; exact hin _⟩
        · rw [h0]; exact List.ne_nil_of_mem (List.mem_filter.2 ⟨hperm.mem_iff.2 hx, by simpa using hxt⟩)
        · rw [h0, ← hperm.length_eq]; exact filter_length_lt (hperm.mem_iff.2 hy) (by simpa using hyt)
      have hp1 : p1 ≠ [] ∧ p1.length < data.length ∧ ∀ x ∈ p1, x ∈ data := by
        refine ⟨?_, ?_, by rw [h1]; exact hin _⟩
        · rw [h1]; exact List.ne_nil_of_mem (List.mem_filter.2 ⟨hperm.mem_iff.2 hy, by simpa using hyt⟩)
        · rw [h1, ← hperm.length_eq]; exact filter_length_lt (hperm.mem_iff.2 hx) (by simpa using hxt)
      obtain ⟨c0, hc0⟩ := hrec p0 ⟨i, '<', some (.continuous t)⟩ hp0.1 hp0.2.1 hp0.2.2
      obtain ⟨c1, hc1⟩ := hrec p1 ⟨i, '>', some (.continuous t)⟩ hp1.1 hp1.2.1 hp1.2.2
      refine ⟨_, [c0, c1], ?_, ⟨p0, p1, rfl, ?_, ?_⟩, grownBranches_two ⟨hc0, hp0⟩ ⟨hc1, hp1⟩⟩
      · unfold Node.childrenContinuous
        rw [e]
        simp only [res_bind_ok, atR_cons_zero, hc0]
        rw [show atR [p0, p1] 1 = .ok p1 from rfl]
        simp only [res_bind_ok, hc1]
        rfl
      · rw [h0]
        refine (hperm.filter _).trans (List.Perm.of_eq ?_)
        apply List.filter_congr; intro z _; simp
      · rw [h1]
        refine (hperm.filter _).trans (List.Perm.of_eq ?_)
        apply List.filter_congr; intro z _; simp [← not_le]
    | discrete _ => simp [typeOf] at hat
    | indexed _ _ _ => simp [typeOf] at hat
    | binary _ => simp [typeOf] at hat

/-! ## the node -/

theorem triedIndices_ok {param : Node.SubsetParam} (hp : ValidParam param) (n : Nat) :
    ∃ is, Node.triedIndices param n = .ok is := by
  unfold Node.triedIndices
  cases hpar : param with
  | none => exact ⟨_, rfl⟩
  | some p =>
    obtain ⟨size, arr⟩ := p
    simp only
    split
    · rename_i hlt
      have harr := hp size arr hpar n
      have : ∀ (js : List Nat) (r : List Nat), (∀ j ∈ js, j < n) → ∃ r', js.foldlM (fun r j => do
          let i ← atR (arr n) j
          (pure (r ++ [i]) : Res (List Nat))) r = .ok r' := by
        intro js
        induction js with
        | nil => intro r _; exact ⟨r, rfl⟩
        | cons j js ih =>
          intro r hj
          obtain ⟨r', hr'⟩ := ih (r ++ [(arr n)[j]'(by
            rw [harr.length_eq, List.length_range]; exact hj j (by simp))]) (fun k hk => hj k (by simp [hk]))
          refine ⟨r', ?_⟩
          rw [List.foldlM_cons, atR_ok_of_lt (by
            rw [harr.length_eq, List.length_range]; exact hj j (by simp))]
          exact hr'
      exact this _ _ (fun j hj => by have := List.mem_range.1 hj; omega)
    · exact ⟨_, rfl⟩

theorem triedIndices_nodup {param : Node.SubsetParam} (hp : ValidParam param) {n : Nat} {is : List Nat}
    (h : Node.triedIndices param n = .ok is) : is.Nodup := by
  unfold Node.triedIndices at h
  cases hpar : param with
  | none => rw [hpar] at h; cases h; exact List.nodup_range
  | some p =>
    obtain ⟨size, arr⟩ := p
    rw [hpar] at h
    simp only at h
    split at h
    · have harr : (arr n).Nodup := (hp size arr hpar n).nodup_iff.2 List.nodup_range
      have key : ∀ (js r r' : List Nat), js.foldlM (fun r j => do
          let i ← atR (arr n) j
          (pure (r ++ [i]) : Res (List Nat))) r = .ok r' →
          r' = r ++ js.map (fun j => (arr n).getD j 0) ∧ ∀ j ∈ js, j < (arr n).length := by
        intro js
        induction js with
        | nil => intro r r' h; cases h; simp
        | cons j js ih =>
          intro r r' h
          rw [List.foldlM_cons, bind_ok_iff] at h
          obtain ⟨r1, h1, h⟩ := h
          rw [bind_ok_iff] at h1
          obtain ⟨i, hi, h1⟩ := h1
          cases h1
          obtain ⟨e, hlt⟩ := ih _ _ h
          have hji := atR_eq_ok.1 hi
          refine ⟨?_, ?_⟩
          · rw [e]; simp [List.getD_eq_getElem?_getD, hji]
          · intro k hk
            rcases List.mem_cons.1 hk with rfl | hk
            · exact (List.getElem?_eq_some_iff.1 hji).1
            · exact hlt k hk
      obtain ⟨e, hlt⟩ := key _ _ _ h
      rw [e, List.nil_append]
      refine List.Nodup.map_on ?_ List.nodup_range
      intro a ha b hb hab
      have h1 := hlt a ha
      have h2 := hlt b hb
      rw [List.getD_eq_getElem?_getD, List.getD_eq_getElem?_getD, List.getElem?_eq_getElem h1, List.getElem?_eq_getElem h2] at hab
      exact harr.getElem_inj_iff.1 hab
    · cases h; exact List.nodup_range

theorem distinct_length_iff {data : IList ℝ} :
    data.getDistinctClassLabels.length = 1 ↔
      data ≠ [] ∧ ∀ x ∈ data, ∀ y ∈ data, x.label = y.label := by
  have hfo := C07_distinct_class_labels data
  constructor
  · intro h
    obtain ⟨a, ha⟩ := List.length_eq_one_iff.1 h
    refine ⟨distinct_one_ne_nil h, ?_⟩
    intro x hx y hy
    have h1 := (hfo.mem_iff x.label).2 (List.mem_map_of_mem hx)
    have h2 := (hfo.mem_iff y.label).2 (List.mem_map_of_mem hy)
    rw [ha] at h1 h2
    simp only [List.mem_singleton] at h1 h2
    rw [h1, h2]
  · rintro ⟨hne, h⟩
    obtain ⟨x0, hx0⟩ := List.exists_mem_of_ne_nil _ hne
    have hmem := (hfo.mem_iff x0.label).2 (List.mem_map_of_mem hx0)
    have hall : ∀ a ∈ data.getDistinctClassLabels, a = x0.label := by
      intro a ha
      obtain ⟨y, hy, rfl⟩ := List.mem_map.1 ((hfo.mem_iff a).1 ha)
      exact h y hy x0 hx0
    match hd : data.getDistinctClassLabels with
    | [] => rw [hd] at hmem; cases hmem
    | [a] => rfl
    | a :: b :: r =>
      exfalso
      have hnd := hfo.nodup
      rw [hd] at hnd hall
      have h1 := hall a (by simp)
      have h2 := hall b (by simp)
      rw [h1, h2] at hnd
      simp at hnd

/-- the splits considered at a node: those on the tried attributes -/
def Considered (ts : List AttrType) (tried : List Nat) (data : IList ℝ) (S : Split) : Prop :=
  S.Candidate ts data ∧ S.attr ∈ tried

/-- `rec`, but refusing empty lists and lists of `b` or more instances -/
def ifData (b : Nat) (rec : IList ℝ → Cond ℝ → Res (Node ℝ)) (p : IList ℝ) (c : Cond ℝ) : Res (Node ℝ) :=
  if p.length = 0 ∨ b ≤ p.length then .error (.ub "") else rec p c

theorem ifData_ok_iff {b : Nat} {rec : IList ℝ → Cond ℝ → Res (Node ℝ)} {p : IList ℝ} {c : Cond ℝ} {n : Node ℝ} :
    ifData b rec p c = .ok n ↔ (p ≠ [] ∧ p.length < b) ∧ rec p c = .ok n := by
  unfold ifData
  by_cases h : p.length = 0 ∨ b ≤ p.length
  · rw [if_pos h]
    constructor
    · intro h'; cases h'
    · rintro ⟨⟨h1, h2⟩, _⟩
      rcases h with h | h
      · exact absurd (List.length_eq_zero_iff.1 h) h1
      · omega
  · rw [if_neg h]
    push Not at h
    exact ⟨fun h' => ⟨⟨fun h0 => h.1 (by rw [h0]; rfl), h.2⟩, h'⟩, fun h' => h'.2⟩

theorem childrenKind_mono {r1 r2 : IList ℝ → Cond ℝ → Res (Node ℝ)} (h : ∀ p c n, r1 p c = .ok n → r2 p c = .ok n)
    {data : IList ℝ} {b : Node.Best ℝ} {i : Nat} {a : Attr ℝ} {ch : List (Node ℝ)}
    (hch : Node.childrenKind r1 data b i a = .ok ch) : Node.childrenKind r2 data b i a = .ok ch := by
  unfold Node.childrenKind at hch ⊢
  split
  · rename_i h1
    rw [if_pos h1] at hch
    simp only [bind_ok_iff] at hch
    obtain ⟨m, hm, hch⟩ := hch
    rw [hm, res_bind_ok]
    unfold Node.childrenIndexed at hch ⊢
    simp only [bind_ok_iff] at hch ⊢
    obtain ⟨ps, h1, p0, h2, c0, h3, p1, h4, c1, h5, h6⟩ := hch
    exact ⟨ps, h1, p0, h2, c0, h _ _ _ h3, p1, h4, c1, h _ _ _ h5, h6⟩
  · rename_i h1
    rw [if_neg h1] at hch
    split
    · rename_i h2
      rw [if_pos h2] at hch
      unfold Node.childrenDiscrete at hch ⊢
      simp only [bind_ok_iff] at hch ⊢
      obtain ⟨vs, h1, ps, h2, h3⟩ := hch
      refine ⟨vs, h1, ps, h2, ?_⟩
      have hall := mapM_ok_inv h3
      clear h3
      generalize vs.zipIdx = l at hall ⊢
      induction hall with
      | nil => rfl
      | cons h0 _ ih =>
        rw [List.mapM_cons]
        unfold Node.childDiscrete at h0 ⊢
        simp only [bind_ok_iff] at h0
        obtain ⟨part, e1, e2⟩ := h0
        unfold Node.childDiscrete at ih
        rw [e1, res_bind_ok, h _ _ _ e2, res_bind_ok, ih]
        rfl
    · rename_i h2
      rw [if_neg h2] at hch
      split
      · rename_i h3
        rw [if_pos h3] at hch
        unfold Node.childrenContinuous at hch ⊢
        simp only [bind_ok_iff] at hch ⊢
        obtain ⟨ps, h1, p0, h2, c0, h3, p1, h4, c1, h5, h6⟩ := hch
        exact ⟨ps, h1, p0, h2, c0, h _ _ _ h3, p1, h4, c1, h _ _ _ h5, h6⟩
      · rename_i h3
        rw [if_neg h3] at hch
        exact hch

/-- every part of the data handed to a node: the node carries the class counts of its part, and a
node with children hands each of them a non-empty, strictly smaller part, the parts together being
the data of the node -/
inductive Shrinking : IList ℝ → Node ℝ → Prop
  | leaf (data : IList ℝ) (c : Cond ℝ) (s : String) (d : DD) :
      data ≠ [] → Counts d (data.map Inst.label) → Shrinking data (.mk c true s d [])
  | split (data : IList ℝ) (c : Cond ℝ) (s : String) (d : DD) (parts : List (IList ℝ × Node ℝ)) :
      Counts d (data.map Inst.label) → (parts.map Prod.fst).flatten.Perm data →
      (∀ p ∈ parts, p.1 ≠ [] ∧ p.1.length < data.length) →
      (∀ p ∈ parts, Shrinking p.1 p.2) →
      Shrinking data (.mk c false s d (parts.map Prod.snd))

theorem grow_ok {ts : List AttrType} {param : Node.SubsetParam} (hp : ValidParam param)
    {tried : List Nat} (htr : Node.triedIndices param ts.length = .ok tried) (st : Bool) :
    ∀ (fuel : Nat) (data : IList ℝ) (c : Cond ℝ), data ≠ [] → (∀ x ∈ data, typesOf x = ts) →
    data.length ≤ fuel →
    ∃ n, Node.grow param st fuel data c = .ok n ∧
      (st = false → IndexBounded data → OptimalTree (Considered ts tried) (Split.Before tried) data n) ∧ n.cond = c ∧ Grown ts data n ∧
      Shrinking data n := by
  intro fuel
  induction fuel with
  | zero => intro data c hne _ hl; exact absurd (List.length_eq_zero_iff.1 (by omega)) hne
  | succ fuel ih =>
    intro data c hne hts hl
    have hmaj := C44_majority (data.map Inst.label) (by simpa using hne)
    have hcnt : Counts (DD.ofList (data.map Inst.label)) (data.map Inst.label) := by
      rw [← classDistribution_eq]; exact C10_class_distribution data
    rw [Node.grow]
    simp only [getClassLabels_eq]
    by_cases hdist : data.getDistinctClassLabels.length = 1
    · rw [if_pos hdist]
      exact ⟨_, rfl, fun _ _ => .pure _ _ _ _ hne hmaj hcnt (distinct_length_iff.1 hdist).2, rfl, .leaf data c hne, .leaf _ _ _ _ hne hcnt⟩
    · rw [if_neg hdist]
      by_cases hst : st = true ∧ c.attr ≠ -1
      · rw [if_pos hst]
        exact ⟨_, rfl, (fun h => by rw [hst.1] at h; cases h), rfl, .leaf data c hne, .leaf _ _ _ _ hne hcnt⟩
      · rw [if_neg hst]
        have hmixed : ∃ x ∈ data, ∃ y ∈ data, x.label ≠ y.label := by
          by_contra hc
          push Not at hc
          exact hdist (distinct_length_iff.2 ⟨hne, hc⟩)
        unfold Node.splitNode
        obtain ⟨x0, rest, hx0⟩ := List.exists_cons_of_ne_nil hne
        have hx0d : x0 ∈ data := by rw [hx0]; simp
        have hsz : x0.attributeSize = ts.length := by
          rw [← hts x0 hx0d]; simp [typesOf, Inst.attributeSize]
        have hat0 : atR data 0 = .ok x0 := by rw [hx0]; rfl
        rw [hat0]
        simp only [res_bind_ok, hsz, htr]
        have hs0 : SearchOk ts tried data [] (⟨data, data.classDistribution,
            ⟨data.classDistribution.entropy, none, 0, Dbl.zero⟩⟩ : Node.Search ℝ) := by
          refine ⟨List.Perm.refl _, classDistribution_eq _, fun _ => False, ⟨?_, by simp, .inl ⟨rfl, ?_⟩⟩, by simp, by simp⟩
          · simp only; rw [classDistribution_eq, DD.entropy_ofList]
          · simp only; rw [classDistribution_eq, DD.entropy_ofList]
        have hlt : ∀ i ∈ tried, i < ts.length := triedIndices_lt hp htr
        obtain ⟨s, hs, hok⟩ := search_ok hne hts (triedIndices_nodup hp htr) tried [] _ rfl hs0 hlt
        rw [hs]
        simp only [res_bind_ok]
        rw [List.nil_append] at hok
        obtain ⟨P, hb, hP1, hP2⟩ := hok.best
        unfold Node.finish
        rcases hb.wit with ⟨hnone, hent⟩ | ⟨S, hPS, hnm, hent, hless, hfst⟩
        · rw [hnone]
          refine ⟨_, rfl, fun _ hbd => .stop _ _ _ _ hmaj hcnt hmixed ?_, rfl, .leaf data c hne, .leaf _ _ _ _ hne hcnt⟩
          intro S hS
          rw [← hent]
          exact hb.min S (hP2 hbd S hS.1 hS.2)
        · have hSi : s.best.attr = some S.attr := by
            cases S with
            | discrete i => exact hnm
            | indexed i k => exact hnm.1
            | threshold i t => exact hnm.1
          rw [hSi]
          simp only
          have hsne : s.data ≠ [] := by
            intro h; have := hok.perm; rw [h] at this; exact hne this.symm.eq_nil
          obtain ⟨y0, rest', hy0⟩ := List.exists_cons_of_ne_nil hsne
          have hy0d : y0 ∈ data := hok.perm.mem_iff.1 (by rw [hy0]; simp)
          have haty : atR s.data 0 = .ok y0 := by rw [hy0]; rfl
          have hylen : S.attr < y0.attrs.length := by
            have h1 := hlt _ (hP1 S hPS).2
            have h2 := hts y0 hy0d
            rw [← h2, typesOf, List.length_map] at h1; exact h1
          have hga : y0.getAttribute S.attr = .ok y0.attrs[S.attr] := atR_ok_of_lt hylen
          rw [haty]
          simp only [res_bind_ok, hga]
          have hta := type_of_attr (hts y0 hy0d) hga
          have hrec : ∀ p c', p ≠ [] → p.length < data.length → (∀ x ∈ p, x ∈ data) →
              ∃ n, ifData data.length (Node.grow param st fuel) p c' = .ok n := by
            intro p c' h1 h2 h3
            obtain ⟨n, hn, _⟩ := ih p c' h1 (fun x hx => hts x (h3 x hx)) (by omega)
            exact ⟨n, ifData_ok_iff.2 ⟨⟨h1, h2⟩, hn⟩⟩
          obtain ⟨bs, ch, hch', hbr, hlen, hgb⟩ := children_ok hne hts hok.perm hrec (hP1 S hPS).1 hless hnm hSi hta
          have hch : Node.childrenKind (Node.grow param st fuel) s.data s.best S.attr y0.attrs[S.attr] = .ok ch :=
            childrenKind_mono (fun p c n h => (ifData_ok_iff.1 h).2) hch'
          rw [hch]
          simp only [res_bind_ok]
          refine ⟨_, rfl, fun hst0 hbd => .split _ _ _ _ S bs ch hmaj hcnt hmixed (hP1 S hPS) hless ?_ (fun S' hS' => hfst S' (hP2 hbd S' hS'.1 hS'.2)) hbr hlen ?_ ?_, rfl, ?_⟩
          · intro S' hS'
            rw [← hent]
            exact hb.min S' (hP2 hbd S' hS'.1 hS'.2)
          · intro k b n hbk hnk
            exact grow_cond (ifData_ok_iff.1 (hgb k b n hbk hnk).1).2
          · intro k b n hbk hnk
            obtain ⟨h1, h2, h3, h4⟩ := hgb k b n hbk hnk
            obtain ⟨n', hn', hopt, _⟩ := ih b.2 b.1 h2 (fun x hx => hts x (h4 x hx)) (by omega)
            rw [(ifData_ok_iff.1 h1).2] at hn'
            cases hn'
            exact hopt hst0 (hbd.mono h4)
          · have hts' : ∀ x ∈ s.data, typesOf x = ts := fun x hx => hts x (hok.perm.mem_iff.1 hx)
            have hnb : typeOf y0.attrs[S.attr] ≠ .binary := by
              intro hbin
              have := (hP1 S hPS).1
              cases S with
              | discrete i => have h' := hta.symm.trans this; rw [hbin] at h'; simp at h'
              | indexed i k => have h' := hta.symm.trans this.1; rw [hbin] at h'; simp at h'
              | threshold i t => have h' := hta.symm.trans this.1; rw [hbin] at h'; simp at h'
            have hkpos : 0 ≤ s.best.k := (search_inv (n := ts.length) hlt ⟨List.Perm.refl _, le_refl _, by simp⟩ hs).kpos
            obtain ⟨parts, hcok, hprec⟩ := childrenKind_ok (fun p c n h => grow_cond (ifData_ok_iff.1 h).2) hts' hta
              (fun _ _ _ _ => by simp) hkpos hnb (.inl (by simp)) hch'
            have hmem : ∀ p ∈ parts, ∀ x ∈ p.1, x ∈ data := by
              intro p hp x hx
              exact hok.perm.mem_iff.1 (hcok.perm.mem_iff.1
                (List.mem_flatten.2 ⟨p.1, List.mem_map_of_mem hp, hx⟩))
            rw [hcok.nodes]
            refine ⟨.split data c parts hne ?_ (hcok.perm.trans hok.perm) hcok.route hcok.defd,
              .split data c _ _ parts hcnt (hcok.perm.trans hok.perm)
                (fun p hp => (ifData_ok_iff.1 (hprec p hp)).1) ?_⟩
            all_goals
              intro p hp
              obtain ⟨⟨h1, hlt'⟩, h2⟩ := ifData_ok_iff.1 (hprec p hp)
              obtain ⟨n', hn', _, _, hg, hsh⟩ := ih p.1 p.2.cond h1 (fun x hx => hts x (hmem p hp x hx)) (by omega)
              rw [h2] at hn'
              cases hn'
              assumption

/-! ## the properties -/

/-- **C56.** In exact arithmetic, growing a tree, a stump or a random-forest tree from a non-empty
homogeneous list terminates without error; the recursion is never deeper than the number of
instances, because every child of a split node receives a non-empty, strictly smaller part of the
data of the node. -/
theorem C56_growth_terminates {param : Node.SubsetParam} (hp : ValidParam param) (st : Bool)
    {ts : List AttrType} {data : IList ℝ} (hne : data ≠ []) (hts : ∀ x ∈ data, typesOf x = ts)
    (c : Cond ℝ) (fuel : Nat) (hfuel : data.length ≤ fuel) :
    ∃ n, Node.grow param st fuel data c = .ok n ∧ Shrinking data n := by
  obtain ⟨tried, htr⟩ := triedIndices_ok hp ts.length
  obtain ⟨n, h, _, _, _, hsh⟩ := grow_ok hp htr st fuel data c hne hts hfuel
  exact ⟨n, h, hsh⟩

/-- **C56.** So training a decision tree without pruning and training a stump always succeed. -/
theorem C56_training_terminates {ts : List AttrType} {data : IList ℝ} (hne : data ≠ [])
    (hts : ∀ x ∈ data, typesOf x = ts) :
    (∃ n, treeTrain data none = .ok n ∧ Shrinking data n) ∧
      ∃ n, stumpTrain data = .ok n ∧ Shrinking data n :=
  ⟨C56_growth_terminates (param := none) (by intro _ _ h; cases h) false hne hts _ _ (by omega),
   C56_growth_terminates (param := none) (by intro _ _ h; cases h) true hne hts _ _ (by omega)⟩

/-- **C107.** In exact arithmetic every node of the grown tree that mixes labels and has a split
below its entropy is divided by the candidate split of least remaining entropy, the first one in
the order of the attributes and of the values if there are several, and the other nodes are leaves.
Every node carries the majority label and the class counts of its data. `tried` are the attributes the node looks at: all, or the drawn subset. -/
theorem C107_optimal_splits {param : Node.SubsetParam} (hp : ValidParam param)
    {ts : List AttrType} {data : IList ℝ} (hne : data ≠ []) (hts : ∀ x ∈ data, typesOf x = ts)
    (hbd : IndexBounded data) {tried : List Nat} (htr : Node.triedIndices param ts.length = .ok tried)
    {c : Cond ℝ} {fuel : Nat} (hfuel : data.length ≤ fuel) :
    ∃ n, Node.grow param false fuel data c = .ok n ∧ OptimalTree (Considered ts tried) (Split.Before tried) data n := by
  obtain ⟨n, h, hopt, _⟩ := grow_ok hp htr false fuel data c hne hts hfuel
  exact ⟨n, h, hopt rfl hbd⟩

/-! ## the hypotheses are met by a list with all kinds of attributes -/

/-- three labels, a continuous, a discrete, an indexed and a binary attribute -/
def treeWitness : IList ℝ :=
  [⟨"a", [.continuous 0, .discrete "u", .indexed "p" 0 3, .binary "true"], none⟩,
   ⟨"b", [.continuous 1, .discrete "u", .indexed "q" 1 3, .binary "false"], none⟩,
   ⟨"a", [.continuous 1, .discrete "w", .indexed "p" 0 3, .binary "true"], none⟩,
   ⟨"c", [.continuous 2, .discrete "v", .indexed "r" 2 3, .binary "true"], none⟩]

/-- its attribute types -/
def treeWitnessTypes : List AttrType := [.continuous, .discrete, .discreteIndexed, .binary]

theorem treeWitness_types : ∀ x ∈ treeWitness, typesOf x = treeWitnessTypes := by
  intro x hx
  simp only [treeWitness, List.mem_cons, List.not_mem_nil, or_false] at hx
  rcases hx with rfl | rfl | rfl | rfl <;> rfl

theorem treeWitness_bounded : IndexBounded treeWitness := by
  intro x hx y hy i v k m v' k' m' h1 h2
  simp only [treeWitness, List.mem_cons, List.not_mem_nil, or_false] at hx hy
  rcases hx with rfl | rfl | rfl | rfl <;> rcases hy with rfl | rfl | rfl | rfl <;>
    (match i, h1, h2 with
     | 0, h1, _ => simp at h1
     | 1, h1, _ => simp at h1
     | 2, h1, h2 => simp at h1 h2; omega
     | 3, h1, _ => simp at h1
     | i + 4, h1, _ => simp at h1)

theorem treeWitness_ord : DataOrd treeWitnessTypes treeWitness := fun _ _ _ _ => ord_real _

/-- on this list a split is found, so the root is not a leaf, every training instance is routed to
its own leaf and at least half of the labels are right -/
example : ∃ n, treeTrain treeWitness none = .ok n ∧
    OptimalTree (Considered treeWitnessTypes [0, 1, 2, 3]) (Split.Before [0, 1, 2, 3]) treeWitness n ∧
    (∀ x ∈ treeWitness, ∃ path leaf, Reaches n x path leaf) ∧
    2 ≤ correctOn (treePredict n) treeWitness := by
  have hp : ValidParam none := by intro _ _ h; cases h
  obtain ⟨n, h, hopt⟩ := C107_optimal_splits (c := Cond.root) (fuel := treeWitness.length + 1) hp
    (by simp [treeWitness]) treeWitness_types treeWitness_bounded
    (show Node.triedIndices none treeWitnessTypes.length = .ok [0, 1, 2, 3] from rfl) (by omega)
  refine ⟨n, h, hopt, ?_, ?_⟩
  · intro x hx
    obtain ⟨path, leaf, hr, _⟩ := C57_training_routing hp treeWitness_types treeWitness_ord h x hx
    exact ⟨path, leaf, hr⟩
  · refine le_trans ?_ (C59_at_least_majority hp treeWitness_types treeWitness_ord (by
      intro x hx
      simp only [treeWitness, List.mem_cons, List.not_mem_nil, or_false] at hx
      rcases hx with rfl | rfl | rfl | rfl <;> rfl) h "a")
    simp [correctOn, treeWitness]

end Verif
