import Verif.Props.TreeGrow
import Mathlib.Analysis.SpecialFunctions.Log.NegMulLog

/-! # Properties C150 and C151: how well trees fit their training data, and how large they get -/

set_option linter.unusedSectionVars false

namespace Verif
open Dbl

/-! ## entropy falls when a pure group is split off -/

theorem length_mul_shannon (l : List String) (hne : l ≠ []) (T : Finset String) (hT : l.toFinset ⊆ T) :
    (l.length : ℝ) * shannon l =
      ((l.length : ℝ) * Real.log l.length - ∑ s ∈ T, (l.count s : ℝ) * Real.log (l.count s)) / Real.log 2 := by
  have hn : (l.length : ℝ) ≠ 0 := by simpa using hne
  have hsum : ∑ s ∈ T, (l.count s : ℝ) = l.length := by
    have h1 : (∑ s ∈ l.toFinset, l.count s) = l.length := List.sum_toFinset_count_eq_length l
    rw [← h1, Nat.cast_sum]
    symm
    apply Finset.sum_subset hT
    intro s _ hs
    rw [List.count_eq_zero_of_not_mem (by simpa using hs)]; simp
  have h2 : shannon l = ∑ s ∈ T, -((l.count s : ℝ) / l.length * Real.logb 2 ((l.count s : ℝ) / l.length)) := by
    unfold shannon
    apply Finset.sum_subset hT
    intro s _ hs
    rw [List.count_eq_zero_of_not_mem (by simpa using hs)]; simp
  rw [h2, Finset.mul_sum]
  conv_rhs => rw [← hsum, Finset.sum_mul, ← Finset.sum_sub_distrib, Finset.sum_div]
  rw [hsum]
  apply Finset.sum_congr rfl
  intro s _
  by_cases hc : (l.count s : ℝ) = 0
  · simp [hc]
  · have hl2 : Real.log 2 ≠ 0 := (Real.log_pos (by norm_num)).ne'
    rw [Real.logb, Real.log_div hc hn]
    field_simp
    ring

theorem mul_log_gap {a b c d : ℝ} (ha : 0 ≤ a) (hab : a < b) (hac : a < c) (h : a + d = b + c) :
    b * Real.log b + c * Real.log c < a * Real.log a + d * Real.log d := by
  have hda : 0 < d - a := by linarith
  have hd : d ≠ a := by linarith
  have key : ∀ x, a < x → x < d → x * Real.log x <
      (d - x) / (d - a) * (a * Real.log a) + (x - a) / (d - a) * (d * Real.log d) := by
    intro x h1 h2
    have w1 : 0 < (d - x) / (d - a) := div_pos (by linarith) hda
    have w2 : 0 < (x - a) / (d - a) := div_pos (by linarith) hda
    have hs := Real.strictConvexOn_mul_log.2 (Set.mem_Ici.2 ha)
      (Set.mem_Ici.2 (by linarith : (0 : ℝ) ≤ d)) hd.symm w1 w2 (by field_simp; ring)
    have e : (d - x) / (d - a) * a + (x - a) / (d - a) * d = x := by field_simp; ring
    simp only [smul_eq_mul, e] at hs
    exact hs
  have h1 := key b hab (by linarith)
  have h2 := key c hac (by linarith)
  have e : (d - b) / (d - a) + (d - c) / (d - a) = 1 := by field_simp; linarith
  have e' : (b - a) / (d - a) + (c - a) / (d - a) = 1 := by field_simp; linarith
  have : (d - b) / (d - a) * (a * Real.log a) + (b - a) / (d - a) * (d * Real.log d) +
      ((d - c) / (d - a) * (a * Real.log a) + (c - a) / (d - a) * (d * Real.log d)) =
      a * Real.log a + d * Real.log d := by
    have : (d - b) / (d - a) * (a * Real.log a) + (b - a) / (d - a) * (d * Real.log d) +
      ((d - c) / (d - a) * (a * Real.log a) + (c - a) / (d - a) * (d * Real.log d)) =
      ((d - b) / (d - a) + (d - c) / (d - a)) * (a * Real.log a) +
      ((b - a) / (d - a) + (c - a) / (d - a)) * (d * Real.log d) := by ring
    rw [this, e, e']; ring
  linarith

/-- splitting off a non-empty group of one label `a` from a mixed list lowers the entropy -/
theorem shannon_split_pure {L R : List String} {a : String} (hL : L ≠ []) (hLa : ∀ s ∈ L, s = a)
    (hR : ∃ s ∈ R, s ≠ a) :
    (R.length : ℝ) / (L ++ R).length * shannon R < shannon (L ++ R) := by
  have hRne : R ≠ [] := by rintro rfl; obtain ⟨s, hs, _⟩ := hR; cases hs
  have hne : L ++ R ≠ [] := by simp [hL]
  have hn : (0 : ℝ) < (L ++ R).length := by
    have := List.length_pos_iff.2 hne; exact_mod_cast this
  have hT1 : (L ++ R).toFinset ⊆ insert a R.toFinset := by
    intro s hs
    simp only [List.mem_toFinset, List.mem_append] at hs
    rcases hs with h | h
    · simp [hLa s h]
    · simp [h]
  have hT2 : R.toFinset ⊆ insert a R.toFinset := Finset.subset_insert _ _
  have e1 := length_mul_shannon (L ++ R) hne _ hT1
  have e2 := length_mul_shannon R hRne _ hT2
  rw [div_mul_eq_mul_div, div_lt_iff₀ hn, mul_comm (shannon (L ++ R)), e1, e2]
  apply div_lt_div_of_pos_right _ (Real.log_pos (by norm_num))
  have hcount : ∀ s ∈ (insert a R.toFinset).erase a, (L ++ R).count s = R.count s := by
    intro s hs
    have hsa : s ≠ a := (Finset.mem_erase.1 hs).1
    rw [List.count_append, List.count_eq_zero_of_not_mem (fun h => hsa (hLa s h)), zero_add]
  have hLc : L.count a = L.length := by
    rw [List.count_eq_length]; intro s hs; exact (hLa s hs).symm
  have hs1 := Finset.add_sum_erase (insert a R.toFinset)
    (fun s => ((L ++ R).count s : ℝ) * Real.log ((L ++ R).count s)) (Finset.mem_insert_self a R.toFinset)
  have hs2 := Finset.add_sum_erase (insert a R.toFinset)
    (fun s => (R.count s : ℝ) * Real.log (R.count s)) (Finset.mem_insert_self a R.toFinset)
  have hs3 : ∑ s ∈ (insert a R.toFinset).erase a, ((L ++ R).count s : ℝ) * Real.log ((L ++ R).count s) =
      ∑ s ∈ (insert a R.toFinset).erase a, (R.count s : ℝ) * Real.log (R.count s) :=
    Finset.sum_congr rfl (fun s hs => by rw [hcount s hs])
  rw [hs3] at hs1
  rw [← hs1, ← hs2]
  have hlt : R.count a < R.length := by
    obtain ⟨s, hs, hsa⟩ := hR
    rcases Nat.lt_or_ge (R.count a) R.length with h | h
    · exact h
    · have := List.count_eq_length.1 (le_antisymm List.count_le_length h) s hs
      exact absurd this.symm hsa
  have hLpos : 0 < L.length := List.length_pos_iff.2 hL
  have := mul_log_gap (a := R.count a) (b := R.length) (c := (L ++ R).count a) (d := (L ++ R).length)
    (by positivity) (by exact_mod_cast hlt)
    (by rw [List.count_append, hLc]; exact_mod_cast (by omega))
    (by rw [List.count_append, hLc, List.length_append]; push_cast; ring)
  linarith

/-! ## an attribute that decides the label always allows a useful split -/

theorem shannon_pure {l : List String} (h : ∀ s ∈ l, ∀ t ∈ l, s = t) : shannon l = 0 := by
  unfold shannon
  apply Finset.sum_eq_zero
  intro s hs
  rw [List.mem_toFinset] at hs
  have : l.count s = l.length := List.count_eq_length.2 (fun t ht => h s hs t ht)
  have hn : (l.length : ℝ) ≠ 0 := by
    have := List.length_pos_of_mem hs; exact_mod_cast this.ne'
  rw [this, div_self hn]; simp

/-- a mixed list is split with gain by a yes/no question whose "yes" instances agree in the label -/
theorem condEntropy_yes_pure {data : IList ℝ} (q : Inst ℝ → Bool) {x0 : Inst ℝ} (hx0 : x0 ∈ data)
    (hq0 : q x0 = true) (hpure : ∀ x ∈ data, q x = true → x.label = x0.label)
    (hmixed : ∃ x ∈ data, ∃ y ∈ data, x.label ≠ y.label) :
    condEntropy data q < shannon (data.map Inst.label) := by
  have hperm : data.Perm (data.filter q ++ data.filter (fun x => !q x)) :=
    (List.filter_append_perm q data).symm
  have hA : ∀ x ∈ data.filter q, q x = true := fun x hx => (List.mem_filter.1 hx).2
  have hB : ∀ x ∈ data.filter (fun x => !q x), q x = false := by
    intro x hx; simpa using (List.mem_filter.1 hx).2
  rw [condEntropy_bool hperm hA hB]
  have hpl : ∀ s ∈ (data.filter q).map Inst.label, s = x0.label := by
    intro s hs
    obtain ⟨x, hx, rfl⟩ := List.mem_map.1 hs
    exact hpure x (List.mem_filter.1 hx).1 (hA x hx)
  rw [shannon_pure (l := (data.filter q).map Inst.label) (fun s hs t ht => by rw [hpl s hs, hpl t ht]),
    mul_zero, zero_add]
  have hLne : (data.filter q).map Inst.label ≠ [] := by
    have : x0 ∈ data.filter q := List.mem_filter.2 ⟨hx0, hq0⟩
    intro h; rw [List.map_eq_nil_iff] at h; rw [h] at this; cases this
  have hR : ∃ s ∈ (data.filter (fun x => !q x)).map Inst.label, s ≠ x0.label := by
    have : ∃ y ∈ data, y.label ≠ x0.label := by
      obtain ⟨x, hx, y, hy, hxy⟩ := hmixed
      by_cases h : x.label = x0.label
      · exact ⟨y, hy, fun h' => hxy (h.trans h'.symm)⟩
      · exact ⟨x, hx, h⟩
    obtain ⟨y, hy, hyl⟩ := this
    refine ⟨y.label, List.mem_map_of_mem (List.mem_filter.2 ⟨hy, ?_⟩), hyl⟩
    cases hqy : q y with
    | false => rfl
    | true => exact absurd (hpure y hy hqy) hyl
  have := shannon_split_pure hLne hpl hR
  rw [← List.map_append, List.length_map, List.length_map, ← hperm.length_eq,
    ← shannon_perm (hperm.map Inst.label)] at this
  exact this

theorem decided_candidate {ts : List AttrType} {data : IList ℝ} (hts : ∀ x ∈ data, typesOf x = ts)
    {i : Nat} {t : AttrType} (hi : ts[i]? = some t) (ht : t ≠ .binary)
    (hidx : ∀ x ∈ data, 0 ≤ idxValAt x i)
    (hdec : ∀ x ∈ data, ∀ y ∈ data, SameAt i x y → x.label = y.label)
    (hmixed : ∃ x ∈ data, ∃ y ∈ data, x.label ≠ y.label) :
    ∃ S : Split, S.Candidate ts data ∧ S.attr = i ∧ S.entropy data < shannon (data.map Inst.label) := by
  classical
  have hat : ∀ x ∈ data, (x.attrs[i]?).map typeOf = some t := fun x hx => by
    rw [← typesOf_get (hts x hx)]; exact hi
  obtain ⟨x0, hx0, y0, hy0, hxy⟩ := hmixed
  cases t with
  | binary => exact absurd rfl ht
  | discrete =>
    have hc : ∀ x ∈ data, contValAt x i = Dbl.zero ∧ idxValAt x i = 0 := by
      intro x hx
      have := disc_of_type (hts x hx) hi
      simp [contValAt, idxValAt, this]
    refine ⟨.discrete i, hi, rfl, ?_⟩
    have h0 : (Split.discrete i).entropy data = 0 := by
      simp only [Split.entropy, condEntropy]
      apply Finset.sum_eq_zero
      intro a _
      rw [shannon_pure, mul_zero]
      intro s hs t ht
      obtain ⟨x, hx, rfl⟩ := List.mem_map.1 hs
      obtain ⟨y, hy, rfl⟩ := List.mem_map.1 ht
      rw [List.mem_filter] at hx hy
      obtain ⟨c1, i1⟩ := hc x hx.1
      obtain ⟨c2, i2⟩ := hc y hy.1
      refine hdec x hx.1 y hy.1 ⟨c1.trans c2.symm, ?_, i1.trans i2.symm⟩
      have a1 := of_decide_eq_true hx.2
      have a2 := of_decide_eq_true hy.2
      exact a1.trans a2.symm
    rw [h0]
    have := condEntropy_yes_pure (data := data) (fun x => decide (x.label = x0.label)) hx0 (by simp)
      (fun x _ h => by simpa using h) ⟨x0, hx0, y0, hy0, hxy⟩
    refine lt_of_le_of_lt ?_ this
    unfold condEntropy
    apply Finset.sum_nonneg
    intro a _
    refine mul_nonneg (by positivity) ?_
    unfold shannon
    apply Finset.sum_nonneg
    intro s _
    rw [neg_nonneg]
    apply mul_nonpos_of_nonneg_of_nonpos (by positivity)
    apply Real.logb_nonpos (by norm_num) (by positivity)
    apply div_le_one_of_le₀ _ (by positivity)
    exact_mod_cast List.count_le_length
  | discreteIndexed =>
    have hc : ∀ x ∈ data, contValAt x i = Dbl.zero ∧ discValAt x i = "" := by
      intro x hx
      have := idx_of_type (hts x hx) hi
      unfold IndexAt at this
      obtain ⟨v, m, hv⟩ := this
      simp [contValAt, discValAt, hv]
    refine ⟨.indexed i (idxValAt x0 i), ⟨hi, hidx x0 hx0, x0, hx0, rfl⟩, rfl, ?_⟩
    refine condEntropy_yes_pure _ hx0 (by simp) ?_ ⟨x0, hx0, y0, hy0, hxy⟩
    intro x hx h
    obtain ⟨c1, d1⟩ := hc x hx
    obtain ⟨c2, d2⟩ := hc x0 hx0
    exact hdec x hx x0 hx0 ⟨c1.trans c2.symm, d1.trans d2.symm, of_decide_eq_true h⟩
  | continuous =>
    have hc : ∀ x ∈ data, discValAt x i = "" ∧ idxValAt x i = 0 := by
      intro x hx
      have := cont_of_type (hts x hx) hi
      unfold ContAt at this
      simp [discValAt, idxValAt, this]
    have same : ∀ x ∈ data, ∀ y ∈ data, contValAt x i = contValAt y i → x.label = y.label := by
      intro x hx y hy h
      obtain ⟨d1, i1⟩ := hc x hx
      obtain ⟨d2, i2⟩ := hc y hy
      exact hdec x hx y hy ⟨h, d1.trans d2.symm, i1.trans i2.symm⟩
    -- the least value, and the least value above it
    obtain ⟨m, hm, hmin⟩ := Finset.exists_min_image data.toFinset (fun x => contValAt x i)
      ⟨x0, List.mem_toFinset.2 hx0⟩
    rw [List.mem_toFinset] at hm
    have hmin' : ∀ z ∈ data, contValAt m i ≤ contValAt z i := fun z hz => hmin z (List.mem_toFinset.2 hz)
    have hup : ∃ z ∈ data, contValAt m i < contValAt z i := by
      by_contra hcon
      push Not at hcon
      have e : ∀ z ∈ data, contValAt z i = contValAt m i := fun z hz => le_antisymm (hcon z hz) (hmin' z hz)
      exact hxy (same x0 hx0 y0 hy0 ((e x0 hx0).trans (e y0 hy0).symm))
    obtain ⟨z0, hz0, hz0m⟩ := hup
    obtain ⟨u, hu, humin⟩ := Finset.exists_min_image
      (data.filter (fun z => decide (contValAt m i < contValAt z i))).toFinset (fun x => contValAt x i)
      ⟨z0, List.mem_toFinset.2 (List.mem_filter.2 ⟨hz0, decide_eq_true hz0m⟩)⟩
    rw [List.mem_toFinset, List.mem_filter] at hu
    have hmu : contValAt m i < contValAt u i := of_decide_eq_true hu.2
    have hnb : ∀ z ∈ data, contValAt z i ≤ contValAt m i ∨ contValAt u i ≤ contValAt z i := by
      intro z hz
      rcases le_or_gt (contValAt z i) (contValAt m i) with h | h
      · exact .inl h
      · exact .inr (humin z (List.mem_toFinset.2 (List.mem_filter.2 ⟨hz, decide_eq_true h⟩)))
    refine ⟨.threshold i ((contValAt m i + contValAt u i) / 2), ⟨hi, m, hm, u, hu.1, hmu, hnb, rfl⟩, rfl, ?_⟩
    refine condEntropy_yes_pure _ hm (decide_eq_true (by linarith)) ?_ ⟨x0, hx0, y0, hy0, hxy⟩
    intro x hx h
    have h' := of_decide_eq_true h
    refine same x hx m hm (le_antisymm ?_ (hmin' x hx))
    rcases hnb x hx with h1 | h1
    · exact h1
    · linarith

/-! ## instances that take the same way through an optimal tree -/

theorem branch_mem {ts : List AttrType} {data : IList ℝ} (hts : ∀ x ∈ data, typesOf x = ts)
    {S : Split} (hS : S.Candidate ts data) {bs : List (Cond ℝ × IList ℝ)} (hbs : S.Branches data bs)
    {ch : List (Node ℝ)} (hlen : bs.length = ch.length)
    (hcond : ∀ (k : Nat) b n, bs[k]? = some b → ch[k]? = some n → n.cond = b.1)
    {x : Inst ℝ} (hx : x ∈ data) {k : Nat} {c : Node ℝ} (hc : ch[k]? = some c)
    (hsat : c.cond.satisfy x = .ok true)
    (hfirst : ∀ j < k, ∀ q, ch[j]? = some q → q.cond.satisfy x = .ok false) :
    ∃ b, bs[k]? = some b ∧ x ∈ b.2 := by
  have hk : k < bs.length := by
    rw [hlen]; exact (List.getElem?_eq_some_iff.1 hc).1
  have hcb := hcond k bs[k] c (List.getElem?_eq_getElem hk) hc
  refine ⟨bs[k], List.getElem?_eq_getElem hk, ?_⟩
  rw [hcb] at hsat
  cases S with
  | discrete i =>
    obtain ⟨vs, _, hmem, hf⟩ := hbs
    have hk' : k < vs.length := by rw [hf.length_eq]; exact hk
    obtain ⟨h1, h2⟩ := (List.forall₂_iff_get.1 hf).2 k hk' hk
    simp only [List.get_eq_getElem] at h1 h2
    rw [h1, satisfy_discrete (disc_of_type (hts x hx) hS)] at hsat
    refine h2.mem_iff.2 (List.mem_filter.2 ⟨hx, ?_⟩)
    simpa using hsat
  | indexed i j =>
    obtain ⟨p, q, m, rfl, hp, hq⟩ := hbs
    obtain ⟨ht, hj0, _⟩ := hS
    have hv := idx_of_type (hts x hx) ht
    match k, hk with
    | 0, _ =>
      simp only [List.getElem_cons_zero] at hsat ⊢
      rw [satisfy_indexed hv (by omega)] at hsat
      exact hp.mem_iff.2 (List.mem_filter.2 ⟨hx, by simpa using hsat⟩)
    | 1, _ =>
      simp only [List.getElem_cons_succ, List.getElem_cons_zero]
      have hl : 0 < ch.length := by rw [← hlen]; simp
      have h0 := hfirst 0 (by omega) ch[0] (List.getElem?_eq_getElem hl)
      rw [hcond 0 _ _ rfl (List.getElem?_eq_getElem hl), satisfy_indexed hv (by omega)] at h0
      exact hq.mem_iff.2 (List.mem_filter.2 ⟨hx, by simpa using h0⟩)
  | threshold i t =>
    obtain ⟨p, q, rfl, hp, hq⟩ := hbs
    obtain ⟨ht, _⟩ := hS
    have hv := cont_of_type (hts x hx) ht
    match k, hk with
    | 0, _ =>
      simp only [List.getElem_cons_zero] at hsat ⊢
      rw [(satisfy_threshold hv).1] at hsat
      exact hp.mem_iff.2 (List.mem_filter.2 ⟨hx, by simpa using hsat⟩)
    | 1, _ =>
      simp only [List.getElem_cons_succ, List.getElem_cons_zero] at hsat ⊢
      rw [(satisfy_threshold hv).2] at hsat
      exact hq.mem_iff.2 (List.mem_filter.2 ⟨hx, by simpa using hsat⟩)

theorem Split.Branches.subset {data : IList ℝ} {S : Split} {bs : List (Cond ℝ × IList ℝ)}
    (hbs : S.Branches data bs) {b : Cond ℝ × IList ℝ} (hb : b ∈ bs) : ∀ x ∈ b.2, x ∈ data := by
  intro x hx
  cases S with
  | discrete i =>
    obtain ⟨vs, _, _, hf⟩ := hbs
    obtain ⟨k, hk, rfl⟩ := List.mem_iff_getElem.1 hb
    obtain ⟨_, h2⟩ := (List.forall₂_iff_get.1 hf).2 k (by rw [hf.length_eq]; exact hk) hk
    exact (List.mem_filter.1 (h2.mem_iff.1 hx)).1
  | indexed i j =>
    obtain ⟨p, q, m, rfl, hp, hq⟩ := hbs
    simp only [List.mem_cons, List.not_mem_nil, or_false] at hb
    rcases hb with rfl | rfl
    · exact (List.mem_filter.1 (hp.mem_iff.1 hx)).1
    · exact (List.mem_filter.1 (hq.mem_iff.1 hx)).1
  | threshold i t =>
    obtain ⟨p, q, rfl, hp, hq⟩ := hbs
    simp only [List.mem_cons, List.not_mem_nil, or_false] at hb
    rcases hb with rfl | rfl
    · exact (List.mem_filter.1 (hp.mem_iff.1 hx)).1
    · exact (List.mem_filter.1 (hq.mem_iff.1 hx)).1

theorem same_path_same_label {ts : List AttrType} {tried : List Nat} {before : Split → Split → Prop} {data : IList ℝ} {n : Node ℝ}
    (h : OptimalTree (Considered ts tried) before data n) (hts : ∀ x ∈ data, typesOf x = ts)
    {i : Nat} {t : AttrType} (hi : ts[i]? = some t) (ht : t ≠ .binary) (hit : i ∈ tried)
    (hidx : ∀ x ∈ data, 0 ≤ idxValAt x i)
    (hdec : ∀ x ∈ data, ∀ y ∈ data, SameAt i x y → x.label = y.label) :
    ∀ x ∈ data, ∀ y ∈ data, ∀ path l m, Reaches n x path l → Reaches n y path m → x.label = y.label := by
  induction h with
  | pure data c lab d hne _ _ h => intro x hx y hy _ _ _ _ _; exact h x hx y hy
  | stop data c lab d _ _ hmixed h =>
    obtain ⟨S, hS, hSi, hlt⟩ := decided_candidate hts hi ht hidx hdec hmixed
    exact absurd (h S ⟨hS, hSi ▸ hit⟩) (not_le.2 hlt)
  | split data c lab d S bs ch _ _ hmixed hS hless hmin _ hbs hlen hcond hch ih =>
    intro x hx y hy path l m h1 h2
    cases h1 with
    | here _ _ hl => cases hl
    | step _ _ k c1 path' _ _ hc1 hsat1 hfirst1 hrest1 =>
      cases h2 with
      | step _ _ _ c2 _ _ _ hc2 hsat2 hfirst2 hrest2 =>
        have hcc : c1 = c2 := by rw [hc1] at hc2; exact Option.some.inj hc2
        subst hcc
        obtain ⟨b, hb, hxb⟩ := branch_mem hts hS.1 hbs hlen hcond hx hc1 hsat1 hfirst1
        obtain ⟨b', hb', hyb⟩ := branch_mem hts hS.1 hbs hlen hcond hy hc1 hsat2 hfirst2
        rw [hb] at hb'; cases hb'
        have hsub := hbs.subset (List.mem_of_getElem? hb)
        exact ih k b c1 hb hc1 (fun z hz => hts z (hsub z hz)) (fun z hz => hidx z (hsub z hz))
          (fun z hz w hw => hdec z (hsub z hz) w (hsub w hw)) x hxb y hyb path' l m hrest1 hrest2

/-! ## the properties -/

/-- **C150**, as far as it is true. In exact arithmetic, an unpruned decision tree answers every
training instance with its own label if some attribute (continuous, discrete or indexed) never
has the same value in two classes. -/
theorem C150_decisive_attribute_partial {ts : List AttrType} {data : IList ℝ} (hne : data ≠ [])
    (hts : ∀ x ∈ data, typesOf x = ts) (hplain : ∀ x ∈ data, x.isComposite = false)
    (hbd : IndexBounded data) {i : Nat} {t : AttrType} (hi : ts[i]? = some t) (ht : t ≠ .binary)
    (hidx : ∀ x ∈ data, 0 ≤ idxValAt x i)
    (hdec : ∀ x ∈ data, ∀ y ∈ data, SameAt i x y → x.label = y.label) :
    ∃ n, treeTrain data none = .ok n ∧ ∀ x ∈ data, treePredict n x = .ok x.label := by
  classical
  have hp : ValidParam none := by intro _ _ h; cases h
  have htr : Node.triedIndices none ts.length = .ok (List.range ts.length) := rfl
  obtain ⟨n, hn, hopt⟩ := C107_optimal_splits (c := Cond.root) (fuel := data.length + 1) hp hne hts hbd htr
    (by omega)
  refine ⟨n, hn, fun x hx => ?_⟩
  have hit : i ∈ List.range ts.length := List.mem_range.2 (List.getElem?_eq_some_iff.1 hi).1
  obtain ⟨path, leaf, hr, _, hmaj⟩ := C57_training_routing hp hts (fun _ _ _ _ => ord_real _) hn x hx
  rw [C57_predicts_leaf_label hr (hplain x hx)]
  obtain ⟨y, hy, hyl⟩ := List.mem_map.1 hmaj.mem
  rw [List.mem_filter] at hy
  obtain ⟨m, hm⟩ := of_decide_eq_true hy.2
  rw [← hyl, same_path_same_label hopt hts hi ht hit hidx hdec x hx y hy.1 path leaf m hr hm]

/-- exclusive or of two discrete attributes -/
def xorData : IList ℝ :=
  [⟨"a", [.discrete "u", .discrete "u"], none⟩, ⟨"b", [.discrete "u", .discrete "v"], none⟩,
   ⟨"b", [.discrete "v", .discrete "u"], none⟩, ⟨"a", [.discrete "v", .discrete "v"], none⟩]

theorem shannon_two {s t : String} (h : s ≠ t) : shannon [s, t] = 1 := by
  unfold shannon
  have e : ([s, t] : List String).toFinset = {s, t} := by simp
  rw [e, Finset.sum_pair h]
  have c1 : [s, t].count s = 1 := by simp [h.symm]
  have c2 : [s, t].count t = 1 := by simp [h]
  rw [c1, c2]
  have : Real.logb 2 (1 / 2 : ℝ) = -1 := by
    rw [one_div, Real.logb_inv, Real.logb_self_eq_one (by norm_num)]
  norm_num [this]

theorem xor_shannon : shannon (xorData.map Inst.label) = 1 := by
  have e : (xorData.map Inst.label).toFinset = {"a", "b"} := by
    simp only [xorData, List.map_cons, List.map_nil]; decide
  unfold shannon
  rw [e, Finset.sum_pair (by decide)]
  have c1 : (xorData.map Inst.label).count "a" = 2 := by
    simp only [xorData, List.map_cons, List.map_nil]; decide
  have c2 : (xorData.map Inst.label).count "b" = 2 := by
    simp only [xorData, List.map_cons, List.map_nil]; decide
  have c3 : (xorData.map Inst.label).length = 4 := rfl
  rw [c1, c2, c3]
  have : Real.logb 2 (1 / 2 : ℝ) = -1 := by
    rw [one_div, Real.logb_inv, Real.logb_self_eq_one (by norm_num)]
  norm_num
  rw [this]; norm_num

theorem xor_entropy {S : Split} (hS : S.Candidate [.discrete, .discrete] xorData) :
    S.entropy xorData = 1 := by
  cases S with
  | indexed i k =>
    obtain ⟨h, _⟩ := hS
    match i, h with
    | 0, h => simp at h
    | 1, h => simp at h
    | i + 2, h => simp at h
  | threshold i t =>
    obtain ⟨h, _⟩ := hS
    match i, h with
    | 0, h => simp at h
    | 1, h => simp at h
    | i + 2, h => simp at h
  | discrete i =>
    have key : ∀ i, i < 2 → (Split.discrete i).entropy xorData = 1 := by
      intro i hi
      simp only [Split.entropy]
      rw [condEntropy_superset xorData _ {"u", "v"} (by
        intro a ha
        match i, hi with
        | 0, _ => simpa [xorData, discValAt] using ha
        | 1, _ =>
          simp [xorData, discValAt] at ha ⊢
          tauto)]
      rw [Finset.sum_pair (by decide)]
      match i, hi with
      | 0, _ =>
        simp [xorData, discValAt]
        rw [shannon_two (by decide), shannon_two (by decide)]; norm_num
      | 1, _ =>
        simp [xorData, discValAt]
        rw [shannon_two (by decide), shannon_two (by decide)]; norm_num
    match i, hS with
    | 0, _ => exact key 0 (by omega)
    | 1, _ => exact key 1 (by omega)
    | i + 2, h => simp [Split.Candidate] at h

/-- **C150** is false of the code: data without contradictions (no two instances with the same
attributes and different labels) need not be learned. On the exclusive or no single split lowers
the entropy, so the tree is one leaf. -/
theorem C150_refuted : ¬ ∀ (ts : List AttrType) (data : IList ℝ), data ≠ [] →
    (∀ x ∈ data, typesOf x = ts) → (∀ x ∈ data, x.isComposite = false) → IndexBounded data →
    (∀ x ∈ data, ∀ y ∈ data, x.attrs = y.attrs → x.label = y.label) →
    ∃ n, treeTrain data none = .ok n ∧ ∀ x ∈ data, treePredict n x = .ok x.label := by
  intro hall
  have hts : ∀ x ∈ xorData, typesOf x = [.discrete, .discrete] := by
    intro x hx
    simp only [xorData, List.mem_cons, List.not_mem_nil, or_false] at hx
    rcases hx with rfl | rfl | rfl | rfl <;> rfl
  have hne : xorData ≠ [] := by simp [xorData]
  have hbd : IndexBounded xorData := by
    intro x hx y hy i v k m v' k' m' h1 h2
    have := type_of_attr (hts x hx) (atR_eq_ok.2 h1)
    match i, this with
    | 0, h => simp [typeOf] at h
    | 1, h => simp [typeOf] at h
    | i + 2, h => simp at h
  obtain ⟨n, hn, hok⟩ := hall [.discrete, .discrete] xorData hne hts
    (by
      intro x hx
      simp only [xorData, List.mem_cons, List.not_mem_nil, or_false] at hx
      rcases hx with rfl | rfl | rfl | rfl <;> rfl)
    hbd
    (by
      intro x hx y hy h
      simp only [xorData, List.mem_cons, List.not_mem_nil, or_false] at hx hy
      rcases hx with rfl | rfl | rfl | rfl <;> rcases hy with rfl | rfl | rfl | rfl <;> simp_all)
  obtain ⟨n', hn', hopt⟩ := C107_optimal_splits (param := none) (c := Cond.root)
    (fuel := xorData.length + 1) (by intro _ _ h; cases h) hne hts hbd
    (show Node.triedIndices none _ = .ok [0, 1] from rfl) (by omega)
  have : n = n' := by
    have : treeTrain xorData none = .ok n' := hn'
    rw [hn] at this; exact Except.ok.inj this
  subst this
  cases hopt with
  | pure _ c lab d _ _ _ h => exact absurd (h ⟨"a", [.discrete "u", .discrete "u"], none⟩ (by simp [xorData])
      ⟨"b", [.discrete "u", .discrete "v"], none⟩ (by simp [xorData])) (by decide)
  | split _ c lab d S bs ch _ _ hm hS hless => rw [xor_entropy hS.1, xor_shannon] at hless; exact lt_irrefl _ hless
  | stop _ c lab d _ _ hm h =>
    have h1 := hok ⟨"a", [.discrete "u", .discrete "u"], none⟩ (by simp [xorData])
    have h2 := hok ⟨"b", [.discrete "u", .discrete "v"], none⟩ (by simp [xorData])
    simp [treePredict, Node.predict, Node.predictPlain, Inst.isComposite] at h1 h2
    rw [h1] at h2; exact absurd h2 (by decide)

/-! ## sizes -/

section
variable {F : Type} [Dbl F]

theorem countLeavesIn_append (l r : List (Node F)) :
    Node.countLeavesIn (l ++ r) = Node.countLeavesIn l + Node.countLeavesIn r := by
  induction l with
  | nil => simp [Node.countLeavesIn]
  | cons n l ih => simp only [List.cons_append, Node.countLeavesIn, ih]; omega

theorem Grown.leaves_le {ts : List AttrType} {data : IList F} {n : Node F} (h : Grown ts data n) :
    n.countLeaves ≤ data.length := by
  induction h with
  | leaf data c hne =>
    simp only [Node.countLeaves, if_true]
    exact List.length_pos_iff.2 hne
  | split data c parts hne hch hperm hroute hdef ih =>
    simp only [Node.countLeaves, Bool.false_eq_true, if_false]
    rw [← hperm.length_eq]
    clear hperm hroute hdef hch
    induction parts with
    | nil => simp [Node.countLeavesIn]
    | cons p ps ihp =>
      simp only [List.map_cons, Node.countLeavesIn, List.flatten_cons, List.length_append]
      exact Nat.add_le_add (ih p (by simp)) (ihp (fun q hq => ih q (by simp [hq])))

/-- **C151.** A grown tree (also a tree of a random forest) has at most as many leaves as it was
given instances. -/
theorem C151_leaves [LawfulOrd F] {param : Node.SubsetParam} (hp : ValidParam param)
    {ts : List AttrType} {data : IList F} (hts : ∀ x ∈ data, typesOf x = ts) (hord : DataOrd ts data)
    {fuel : Nat} {c : Cond F} {n : Node F} (h : Node.grow param false fuel data c = .ok n) :
    n.countLeaves ≤ data.length :=
  (grow_grown hp fuel data c n hts hord h).leaves_le

end

theorem OptimalTree.two_children {data : IList ℝ} {S : Split}
    {bs : List (Cond ℝ × IList ℝ)} (hne : data ≠ []) (hbs : S.Branches data bs)
    (hless : S.entropy data < shannon (data.map Inst.label)) : 2 ≤ bs.length := by
  cases S with
  | indexed i k => obtain ⟨p, q, m, rfl, _⟩ := hbs; simp
  | threshold i t => obtain ⟨p, q, rfl, _⟩ := hbs; simp
  | discrete i =>
    obtain ⟨vs, hnd, hmem, hf⟩ := hbs
    rw [← hf.length_eq]
    by_contra hcon
    have hle : vs.length ≤ 1 := by omega
    refine absurd (condEntropy_const hne (key := fun x => discValAt x i) ?_) (ne_of_lt hless)
    intro x hx y hy
    have h1 := (hmem _).2 (List.mem_map_of_mem (f := fun x => discValAt x i) hx)
    have h2 := (hmem _).2 (List.mem_map_of_mem (f := fun x => discValAt x i) hy)
    match vs, hle with
    | [], _ => cases h1
    | [v], _ =>
      simp only [List.mem_singleton] at h1 h2
      exact h1.trans h2.symm

theorem OptimalTree.counts {ts : List AttrType} {tried : List Nat} {before : Split → Split → Prop} {data : IList ℝ} {n : Node ℝ}
    (h : OptimalTree (Considered ts tried) before data n) : n.countNodes + 1 ≤ 2 * n.countLeaves ∧ 1 ≤ n.countLeaves ∧
      ∀ x path m, Follows n x path m → path.length + 1 ≤ n.countLeaves := by
  induction h with
  | pure data c lab d hne _ _ h =>
    simp only [Node.countNodes, Node.countLeaves, Node.countNodesIn, if_true]
    refine ⟨by omega, by omega, ?_⟩
    intro x path m hf
    cases hf with
    | here => simp
    | step _ _ _ _ _ _ hl => cases hl
  | stop data c lab d _ _ hmixed h =>
    simp only [Node.countNodes, Node.countLeaves, Node.countNodesIn, if_true]
    refine ⟨by omega, by omega, ?_⟩
    intro x path m hf
    cases hf with
    | here => simp
    | step _ _ _ _ _ _ hl => cases hl
  | split data c lab d S bs ch _ _ hmixed hS hless hmin _ hbs hlen hcond hch ih =>
    have hne : data ≠ [] := by obtain ⟨x, hx, _⟩ := hmixed; intro h; rw [h] at hx; cases hx
    have h2 : 2 ≤ ch.length := by rw [← hlen]; exact OptimalTree.two_children hne hbs hless
    have hall : ∀ (k : Nat) n, ch[k]? = some n → n.countNodes + 1 ≤ 2 * n.countLeaves ∧ 1 ≤ n.countLeaves ∧
        ∀ x path m, Follows n x path m → path.length + 1 ≤ n.countLeaves := by
      intro k n hk
      have hkl : k < bs.length := by rw [hlen]; exact (List.getElem?_eq_some_iff.1 hk).1
      exact ih k bs[k] n (List.getElem?_eq_getElem hkl) hk
    simp only [Node.countNodes, Node.countLeaves, Bool.false_eq_true, if_false]
    have gen : ∀ l : List (Node ℝ), (∀ n ∈ l, n.countNodes + 1 ≤ 2 * n.countLeaves ∧ 1 ≤ n.countLeaves) →
        Node.countNodesIn l + l.length ≤ 2 * Node.countLeavesIn l ∧ l.length ≤ Node.countLeavesIn l := by
      intro l
      induction l with
      | nil => intro _; simp [Node.countNodesIn, Node.countLeavesIn]
      | cons n l ihl =>
        intro hl
        obtain ⟨a1, a2⟩ := hl n (by simp)
        obtain ⟨b1, b2⟩ := ihl (fun m hm => hl m (by simp [hm]))
        simp only [Node.countNodesIn, Node.countLeavesIn, List.length_cons]
        omega
    have hmem : ∀ n ∈ ch, n.countNodes + 1 ≤ 2 * n.countLeaves ∧ 1 ≤ n.countLeaves := by
      intro n hn
      obtain ⟨k, hk, rfl⟩ := List.mem_iff_getElem.1 hn
      obtain ⟨a, b, _⟩ := hall k _ (List.getElem?_eq_getElem hk)
      exact ⟨a, b⟩
    obtain ⟨g1, g2⟩ := gen ch hmem
    refine ⟨by omega, by omega, ?_⟩
    intro x path m hf
    cases hf with
    | here => simp only [List.length_nil]; omega
    | step _ _ k c' path' _ _ hc' _ _ hrest =>
      simp only [Node.children] at hc'
      have hd := (hall k c' hc').2.2 x path' m hrest
      have hk := (List.getElem?_eq_some_iff.1 hc').1
      have hsplit : ch = ch.take k ++ c' :: ch.drop (k + 1) := by
        have := (List.getElem?_eq_some_iff.1 hc').2
        rw [← this]; simp
      have hlen2 : (ch.take k).length + (ch.drop (k + 1)).length + 1 = ch.length := by
        simp; omega
      obtain ⟨_, t1⟩ := gen (ch.take k) (fun n hn => hmem n (List.mem_of_mem_take hn))
      obtain ⟨_, t2⟩ := gen (ch.drop (k + 1)) (fun n hn => hmem n (List.mem_of_mem_drop hn))
      rw [hsplit, countLeavesIn_append, Node.countLeavesIn]
      simp only [List.length_cons]
      omega

/-- **C151.** In exact arithmetic a tree grown from `n` instances has at most `n` leaves and
`2n - 1` nodes, and no way through it is longer than `n - 1` steps. -/
theorem C151_size {param : Node.SubsetParam} (hp : ValidParam param) {ts : List AttrType}
    {data : IList ℝ} (hne : data ≠ []) (hts : ∀ x ∈ data, typesOf x = ts) (hbd : IndexBounded data)
    {c : Cond ℝ} {fuel : Nat} (hfuel : data.length ≤ fuel) {n : Node ℝ}
    (h : Node.grow param false fuel data c = .ok n) :
    n.countLeaves ≤ data.length ∧ n.countNodes ≤ 2 * data.length - 1 ∧
      ∀ x path m, Follows n x path m → path.length ≤ data.length - 1 := by
  obtain ⟨tried, htr⟩ := triedIndices_ok hp ts.length
  obtain ⟨n', hn', hopt⟩ := C107_optimal_splits (c := c) (fuel := fuel) hp hne hts hbd htr hfuel
  rw [h] at hn'; cases hn'
  have h1 := C151_leaves hp hts (fun _ _ _ _ => ord_real _) h
  obtain ⟨h2, _, h3⟩ := hopt.counts
  refine ⟨h1, by omega, fun x path m hf => ?_⟩
  have := h3 x path m hf
  omega

/-! ## the hypotheses are met -/

/-- the continuous attribute of this list decides the label (with a value shared by two instances
of one class), the discrete one does not -/
example : ∃ n, treeTrain ([⟨"a", [.continuous 0, .discrete "u"], none⟩, ⟨"b", [.continuous 1, .discrete "u"], none⟩,
      ⟨"a", [.continuous 2, .discrete "v"], none⟩, ⟨"b", [.continuous 1, .discrete "v"], none⟩] : IList ℝ) none = .ok n ∧
    treePredict n ⟨"b", [.continuous 1, .discrete "v"], none⟩ = .ok "b" ∧
    n.countLeaves ≤ 4 ∧ n.countNodes ≤ 7 := by
  set data : IList ℝ := [⟨"a", [.continuous 0, .discrete "u"], none⟩, ⟨"b", [.continuous 1, .discrete "u"], none⟩,
      ⟨"a", [.continuous 2, .discrete "v"], none⟩, ⟨"b", [.continuous 1, .discrete "v"], none⟩] with hd
  have hts : ∀ x ∈ data, typesOf x = [.continuous, .discrete] := by
    intro x hx
    simp only [hd, List.mem_cons, List.not_mem_nil, or_false] at hx
    rcases hx with rfl | rfl | rfl | rfl <;> rfl
  have hbd : IndexBounded data := by
    intro x hx y hy i v k m v' k' m' h1 h2
    have := type_of_attr (hts x hx) (atR_eq_ok.2 h1)
    match i, this with
    | 0, h => simp [typeOf] at h
    | 1, h => simp [typeOf] at h
    | i + 2, h => simp at h
  have hne : data ≠ [] := by simp [hd]
  obtain ⟨n, hn, hok⟩ := C150_decisive_attribute_partial hne hts
    (by
      intro x hx
      simp only [hd, List.mem_cons, List.not_mem_nil, or_false] at hx
      rcases hx with rfl | rfl | rfl | rfl <;> rfl) hbd (i := 0) (t := .continuous) rfl (by simp)
    (by
      intro x hx
      simp only [hd, List.mem_cons, List.not_mem_nil, or_false] at hx
      rcases hx with rfl | rfl | rfl | rfl <;> simp [idxValAt])
    (by
      intro x hx y hy h
      simp only [hd, List.mem_cons, List.not_mem_nil, or_false] at hx hy
      obtain ⟨h1, _⟩ := h
      rcases hx with rfl | rfl | rfl | rfl <;> rcases hy with rfl | rfl | rfl | rfl <;>
        simp_all [contValAt])
  obtain ⟨s1, s2, _⟩ := C151_size (param := none) (by intro _ _ h; cases h) hne hts hbd
    (Nat.le_succ _) hn
  exact ⟨n, hn, hok _ (by simp [hd]), by simpa [hd] using s1, by simpa [hd] using s2⟩

end Verif
