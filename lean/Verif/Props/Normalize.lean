import Verif.Props.Filter
import Verif.Props.Stats

/-! # Property C98: normalisation (exact arithmetic) -/

set_option linter.unusedSectionVars false

namespace Verif
open Dbl

/-- the number in a continuous attribute -/
def contVal? {F : Type} : Attr F → Option F
  | .continuous v => some v
  | _ => none

theorem numbersAt_eq {F : Type} (l : IList F) (i : Nat) :
    numbersAt l i = l.filterMap (fun x => x.attrs[i]?.bind contVal?) := by
  unfold numbersAt
  apply List.filterMap_congr
  intro x _
  cases x.attrs[i]? with
  | none => rfl
  | some a => cases a <;> rfl

theorem continuous_of_type {F : Type} {a : Attr F} (h : typeOf a = .continuous) :
    ∃ v, a = .continuous v := by
  cases a <;> simp_all [typeOf]

section
variable {F : Type} [Dbl F]

theorem numbersAt_continuous {l : IList F} {ts : List AttrType}
    (hc : ∀ x ∈ l, typesOf x = ts) {i : Nat} (hi : ts[i]? = some .continuous) :
    ∃ v : Inst F → F, (∀ x ∈ l, ContAt x i (v x)) ∧ numbersAt l i = l.map v := by
  have h : ∀ x ∈ l, ∃ v, x.attrs[i]? = some (.continuous v) := by
    intro x hx
    have h1 := typeOf_at hc hx i
    rw [hi] at h1
    cases h2 : x.attrs[i]? with
    | none => rw [h2] at h1; simp at h1
    | some a =>
      rw [h2] at h1
      obtain ⟨v, rfl⟩ := continuous_of_type (by simpa using h1)
      exact ⟨v, rfl⟩
  refine ⟨fun x => ((x.attrs[i]?).bind contVal?).getD Dbl.zero, ?_, ?_⟩
  · intro x hx
    obtain ⟨v, e⟩ := h x hx
    simp [ContAt, e, contVal?]
  · rw [numbersAt_eq, ← List.filterMap_eq_map]
    apply List.filterMap_congr
    intro x hx
    obtain ⟨v, e⟩ := h x hx
    simp [e, contVal?]

/-- the average of every column is defined -/
theorem attributeAverage_total {l : IList F} {ts : List AttrType} (hne : l ≠ [])
    (hc : ∀ x ∈ l, typesOf x = ts) {i : Nat} (hi : i < ts.length) :
    ∃ a, l.attributeAverage i = .ok a := by
  obtain ⟨x, hx, h0⟩ := first_of_ne hne
  have h1 := typeOf_at hc hx i
  have hlt : i < x.attrs.length := by rw [← hc x hx] at hi; simpa [typesOf] using hi
  have hg : x.getAttribute i = .ok x.attrs[i] := atR_ok_of_lt hlt
  rw [List.getElem?_eq_getElem hlt, List.getElem?_eq_getElem hi] at h1
  have h1 : typeOf x.attrs[i] = ts[i] := by simpa using h1
  unfold IList.attributeAverage
  rw [h0]
  simp only [res_bind_ok, hg]
  cases ha : x.attrs[i] with
  | discrete v =>
    obtain ⟨w, hw, _⟩ := colVals_discrete hc (i := i)
      (by rw [List.getElem?_eq_getElem hi, ← h1, ha]; rfl)
    have hm : ∀ r0 : List String, l.foldlM (fun r x => do
        let v ← x.discAt i
        (pure (r ++ [v]) : Res (List String))) r0 = .ok (r0 ++ l.map w) := by
      intro r0
      rw [foldlM_ok (g := fun r x => r ++ [w x])]
      · rw [foldl_push_map]
      · intro y hy s
        rw [discAt_ok (.inl (hw y hy))]; rfl
    simp only [Attr.isDiscrete, if_true]
    rw [hm]
    exact ⟨_, rfl⟩
  | continuous v =>
    obtain ⟨w, hw, _⟩ := numbersAt_continuous hc (i := i)
      (by rw [List.getElem?_eq_getElem hi, ← h1, ha]; rfl)
    have hm : l.foldlM (fun s x => do
        let v ← x.contAt i
        (pure (s +. v) : Res F)) (Dbl.zero : F) = .ok (l.foldl (fun s x => s +. w x) Dbl.zero) := by
      rw [foldlM_ok (g := fun s x => s +. w x)]
      intro y hy s
      rw [contAt_ok (hw y hy)]; rfl
    simp only [Attr.isDiscrete, Attr.isContinuous, Bool.false_eq_true, if_false, if_true]
    rw [hm]
    exact ⟨_, rfl⟩
  | binary v => simp [Attr.isDiscrete, Attr.isContinuous]
  | indexed v k m => simp [Attr.isDiscrete, Attr.isContinuous]

/-- one attribute sent through the column's function -/
def mapNumber (f : Nat → F → F) (i : Nat) : Attr F → Attr F
  | .continuous v => .continuous (f i v)
  | a => a

theorem normalizeLoop_ok (m s : List (Option (Attr F))) (x : Inst F) (μ σ : Nat → F)
    (hm : ∀ (i : Nat) v, x.attrs[i]? = some (.continuous v) → m[i]? = some (some (.continuous (μ i))))
    (hs : ∀ (i : Nat) v, x.attrs[i]? = some (.continuous v) → s[i]? = some (some (.continuous (σ i)))) :
    ∀ n ≤ x.attrs.length, ∃ y, (List.range n).foldlM (normalizeStep m s) x = .ok y ∧
      y.label = x.label ∧ y.possible = x.possible ∧ y.attrs.length = x.attrs.length ∧
      ∀ (i : Nat) a, x.attrs[i]? = some a → y.attrs[i]? =
        some (if i < n then mapNumber (fun i v => (v -. μ i) /. σ i) i a else a) := by
  intro n
  induction n with
  | zero => intro _; exact ⟨x, rfl, rfl, rfl, rfl, by simp⟩
  | succ n ih =>
    intro hn
    obtain ⟨y, e, h1, h2, h3, h4⟩ := ih (by omega)
    rw [List.range_succ, foldlM_append', e]
    simp only [res_bind_ok, List.foldlM_cons, List.foldlM_nil]
    have hxa : x.attrs[n]? = some x.attrs[n] := List.getElem?_eq_getElem (by omega)
    have hya := h4 n _ hxa
    rw [if_neg (by omega)] at hya
    have hg : y.getAttribute n = .ok x.attrs[n] := by
      unfold Inst.getAttribute; rw [atR_eq_ok]; exact hya
    have keep : ∀ (i : Nat) a, i ≠ n → x.attrs[i]? = some a →
        y.attrs[i]? = some (if i < n + 1 then mapNumber (fun i v => (v -. μ i) /. σ i) i a else a) := by
      intro i a hi ha
      rw [h4 i a ha]
      by_cases hlt : i < n
      · simp [hlt, show i < n + 1 by omega]
      · simp [hlt, show ¬ i < n + 1 by omega]
    unfold normalizeStep
    rw [hg]
    simp only [res_bind_ok]
    cases ha : x.attrs[n] with
    | continuous v =>
      rw [ha] at hxa
      simp only [Attr.isContinuous, if_true, Attr.contVal, res_bind_ok]
      have e1 : optContAt m n = .ok (μ n) := by
        unfold optContAt
        rw [show atR m n = .ok (some (.continuous (μ n))) by rw [atR_eq_ok]; exact hm n v hxa]
        rfl
      have e2 : optContAt s n = .ok (σ n) := by
        unfold optContAt
        rw [show atR s n = .ok (some (.continuous (σ n))) by rw [atR_eq_ok]; exact hs n v hxa]
        rfl
      rw [e1, e2]
      refine ⟨_, rfl, h1, h2, by simp [h3], ?_⟩
      intro i a hia
      by_cases hi : i = n
      · subst hi
        rw [hxa] at hia; cases hia
        simp [mapNumber, h3, show i < x.attrs.length by omega]
      · simp only
        rw [List.getElem?_set_ne (Ne.symm hi)]
        exact keep i a hi hia
    | discrete v =>
      refine ⟨y, rfl, h1, h2, h3, ?_⟩
      intro i a hia
      by_cases hi : i = n
      · subst hi
        rw [hxa] at hia; cases hia
        rw [hya, ha]; simp [mapNumber]
      · exact keep i a hi hia
    | binary v =>
      refine ⟨y, rfl, h1, h2, h3, ?_⟩
      intro i a hia
      by_cases hi : i = n
      · subst hi
        rw [hxa] at hia; cases hia
        rw [hya, ha]; simp [mapNumber]
      · exact keep i a hi hia
    | indexed v k q =>
      refine ⟨y, rfl, h1, h2, h3, ?_⟩
      intro i a hia
      by_cases hi : i = n
      · subst hi
        rw [hxa] at hia; cases hia
        rw [hya, ha]; simp [mapNumber]
      · exact keep i a hi hia

theorem normalizeInstance_ok (m s : List (Option (Attr F))) (x : Inst F) (μ σ : Nat → F)
    (hm : ∀ (i : Nat) v, x.attrs[i]? = some (.continuous v) → m[i]? = some (some (.continuous (μ i))))
    (hs : ∀ (i : Nat) v, x.attrs[i]? = some (.continuous v) → s[i]? = some (some (.continuous (σ i)))) :
    ∃ y, normalizeInstance m s x = .ok y ∧
      NumbersMapped (fun i v => (v -. μ i) /. σ i) x y := by
  obtain ⟨y, e, h1, h2, h3, h4⟩ := normalizeLoop_ok m s x μ σ hm hs _ le_rfl
  refine ⟨y, e, h1, h2, h3, ?_, ?_⟩
  · intro i v hv
    rw [h4 i _ hv, if_pos (List.getElem?_eq_some_iff.1 hv).1]
    rfl
  · intro i a hia ha
    rw [h4 i _ hia, if_pos (List.getElem?_eq_some_iff.1 hia).1]
    cases a <;> simp_all [typeOf, mapNumber]

/-- the pointers of a converted heap refer to the converted instances -/
theorem ChangedAt.points {R : Inst F → Inst F → Prop} {h h' : Heap F} {refs : List Nat}
    {l : IList F} (hp : PointTo h refs l) (hc : ChangedAt R refs h h') :
    ∃ l', PointTo h' refs l' ∧ List.Forall₂ R l l' := by
  have : ∀ (refs : List Nat) (l : IList F), PointTo h refs l →
      (∀ r ∈ refs, ∀ x, h[r]? = some x → ∃ y, h'[r]? = some y ∧ R x y) →
      ∃ l', PointTo h' refs l' ∧ List.Forall₂ R l l' := by
    intro refs l hp
    induction hp with
    | nil => intro _; exact ⟨[], List.Forall₂.nil, List.Forall₂.nil⟩
    | @cons r x rs l h1 _ ih =>
      intro hch
      obtain ⟨l', h2, h3⟩ := ih (fun r hr => hch r (by simp [hr]))
      obtain ⟨y, ey, hR⟩ := hch r (by simp) x h1
      exact ⟨y :: l', List.Forall₂.cons (R := fun r x => h'[r]? = some x) ey h2, .cons hR h3⟩
  exact this refs l hp hc.changed

theorem numbersAt_mapped {f : Nat → F → F} {l l' : IList F}
    (h : List.Forall₂ (NumbersMapped f) l l') (i : Nat) :
    numbersAt l' i = (numbersAt l i).map (f i) := by
  rw [numbersAt_eq, numbersAt_eq]
  induction h with
  | nil => rfl
  | @cons x y l l' h1 _ ih =>
    rw [List.filterMap_cons, List.filterMap_cons]
    have key : (y.attrs[i]?.bind contVal?) = (x.attrs[i]?.bind contVal?).map (f i) := by
      cases hx : x.attrs[i]? with
      | none =>
        have : y.attrs[i]? = none := by
          rw [List.getElem?_eq_none_iff, h1.width]
          exact List.getElem?_eq_none_iff.1 hx
        rw [this]; rfl
      | some a =>
        by_cases ha : typeOf a = .continuous
        · obtain ⟨v, rfl⟩ := continuous_of_type ha
          rw [h1.number i v hx]; rfl
        · rw [h1.other i a hx ha]
          cases a <;> simp_all [typeOf, contVal?]
    rw [key]
    cases x.attrs[i]?.bind contVal? with
    | none => exact ih
    | some v => simp [ih]

end

/-! ## C98 -/

theorem average_total {l : IList ℝ} {ts : List AttrType} (hne : l ≠ [])
    (hc : ∀ x ∈ l, typesOf x = ts) :
    ∃ lbl ms, l.average = .ok (lbl, ms) ∧ ∀ (i : Nat), ts[i]? = some .continuous →
      ms[i]? = some (some (.continuous (mean (numbersAt l i)))) := by
  obtain ⟨x, hx, h0⟩ := first_of_ne hne
  have hlen : x.attributeSize = ts.length := by
    rw [← hc x hx]; simp [typesOf, Inst.attributeSize]
  classical
  have hall : ∀ i, ∃ a, i < ts.length → l.attributeAverage i = .ok a := by
    intro i
    by_cases hi : i < ts.length
    · obtain ⟨a, e⟩ := attributeAverage_total hne hc hi
      exact ⟨a, fun _ => e⟩
    · exact ⟨none, fun h => absurd h hi⟩
  choose g hg using hall
  refine ⟨x.label, (List.range ts.length).map g, ?_, ?_⟩
  · unfold IList.average
    rw [h0]
    simp only [res_bind_ok, hlen]
    rw [rangeLoop_ok (fun i => l.attributeAverage i) g ts.length hg []]
    rfl
  · intro i hi
    have hlt : i < ts.length := (List.getElem?_eq_some_iff.1 hi).1
    obtain ⟨v, hv, e⟩ := numbersAt_continuous hc hi
    have h1 := hg i hlt
    rw [C16_mean l hne i v hv] at h1
    rw [List.getElem?_map, List.getElem?_range hlt, e]
    simpa using h1.symm

theorem sd_total {l : IList ℝ} {ts : List AttrType} (h2 : 2 ≤ l.length)
    (hc : ∀ x ∈ l, typesOf x = ts) :
    ∃ lbl ms, l.standardDeviation = .ok (lbl, ms) ∧ ∀ (i : Nat), ts[i]? = some .continuous →
      ms[i]? = some (some (.continuous (sampleSD (numbersAt l i)))) := by
  have hne : l ≠ [] := by rintro rfl; simp at h2
  obtain ⟨x, hx, h0⟩ := first_of_ne hne
  have hlen : x.attributeSize = ts.length := by
    rw [← hc x hx]; simp [typesOf, Inst.attributeSize]
  have hall : ∀ i, ∃ a, i < ts.length → l.attributeStandardDeviation i = .ok a := by
    intro i
    by_cases hi : i < ts.length
    · by_cases ht : ts[i]? = some .continuous
      · obtain ⟨v, hv, _⟩ := numbersAt_continuous hc ht
        exact ⟨_, fun _ => C17_sample_sd l h2 i v hv⟩
      · refine ⟨none, fun _ => ?_⟩
        have hlt : i < x.attrs.length := by rw [← hc x hx] at hi; simpa [typesOf] using hi
        have h1 := typeOf_at hc hx i
        rw [List.getElem?_eq_getElem hlt] at h1
        unfold IList.attributeStandardDeviation
        rw [h0]
        have hg : x.getAttribute i = .ok x.attrs[i] := atR_ok_of_lt hlt
        simp only [res_bind_ok, hg]
        have : x.attrs[i].isContinuous = false := by
          rw [← h1] at ht
          cases ha : x.attrs[i] <;> simp_all [typeOf, Attr.isContinuous]
        rw [this]; rfl
    · exact ⟨none, fun h => absurd h hi⟩
  choose g hg using hall
  refine ⟨x.label, (List.range ts.length).map g, ?_, ?_⟩
  · unfold IList.standardDeviation
    rw [h0]
    simp only [res_bind_ok, hlen]
    rw [rangeLoop_ok (fun i => l.attributeStandardDeviation i) g ts.length hg []]
    rfl
  · intro i hi
    have hlt : i < ts.length := (List.getElem?_eq_some_iff.1 hi).1
    obtain ⟨v, hv, e⟩ := numbersAt_continuous hc hi
    have h1 := hg i hlt
    rw [C17_sample_sd l h2 i v hv] at h1
    rw [List.getElem?_map, List.getElem?_range hlt, e]
    simpa using h1.symm

theorem mean_standardised {vs : List ℝ} (hne : vs ≠ []) (s : ℝ) :
    mean (vs.map (fun v => (v - mean vs) / s)) = 0 := by
  have h := deviations_sum_zero hne
  have : (vs.map (fun v => (v - mean vs) / s)).sum = (vs.map (fun v => v - mean vs)).sum / s := by
    generalize mean vs = m
    clear h hne
    induction vs with
    | nil => simp
    | cons a vs ih => simp only [List.map_cons, List.sum_cons, ih]; ring
  unfold mean at *
  rw [this, h]; simp

theorem sampleSD_standardised {vs : List ℝ} (hne : vs ≠ []) (hs : 0 < sampleSD vs) :
    sampleSD (vs.map (fun v => (v - mean vs) / sampleSD vs)) = 1 := by
  set s := sampleSD vs with hsd
  have hm := mean_standardised hne s
  have hs2 : sampleVar vs = s ^ 2 := by
    rw [hsd, sampleSD, Real.sq_sqrt]
    by_contra hneg
    rw [hsd, sampleSD, Real.sqrt_eq_zero_of_nonpos (by linarith)] at hs
    exact lt_irrefl _ hs
  have hsum : ((vs.map (fun v => (v - mean vs) / s)).map (fun v => (v - 0) ^ 2)).sum =
      (vs.map (fun v => (v - mean vs) ^ 2)).sum / s ^ 2 := by
    generalize mean vs = m
    clear hm hs2 hne
    clear hsd
    clear_value s
    induction vs with
    | nil => simp
    | cons a vs ih =>
      simp only [List.map_cons, List.sum_cons]
      have := ih
      rw [this]; ring
  have hvar : sampleVar (vs.map (fun v => (v - mean vs) / s)) = 1 := by
    unfold sampleVar
    rw [hm, hsum, List.length_map]
    have : sampleVar vs / s ^ 2 = 1 := by
      rw [hs2]; field_simp
    unfold sampleVar at this
    rw [div_right_comm]; exact this
  rw [sampleSD, hvar, Real.sqrt_one]

/-- **C98.** `Normalize(ds).convert()`, for a data set of at least two distinct instance
objects that fits its definition (exact arithmetic): every number `v` of column `i` becomes
`(v - mean) / sd`, all other attributes, labels and memory are kept. Every column with positive
standard deviation then has mean 0 and sample standard deviation 1, and its values are in the
same order as before. -/
theorem C98_normalize (h : Heap ℝ) (ds : RefSet) (l : IList ℝ) (hp : PointTo h ds.refs l)
    (hnd : ds.refs.Nodup) (h2 : 2 ≤ l.length) (hc : ∀ x ∈ l, typesOf x = ds.definition.types) :
    ∃ h' l', normalize h ds = .ok (h', ds) ∧ PointTo h' ds.refs l' ∧
      ChangedAt (NumbersMapped (fun i v => (v - mean (numbersAt l i)) / sampleSD (numbersAt l i)))
        ds.refs h h' ∧
      ∀ i, 0 < sampleSD (numbersAt l i) →
        mean (numbersAt l' i) = 0 ∧ sampleSD (numbersAt l' i) = 1 ∧
        (numbersAt l' i).length = (numbersAt l i).length ∧
        ∀ (p q : Nat) v w v' w', (numbersAt l i)[p]? = some v → (numbersAt l i)[q]? = some w →
          (numbersAt l' i)[p]? = some v' → (numbersAt l' i)[q]? = some w' → (v < w ↔ v' < w') := by
  have hne : l ≠ [] := by rintro rfl; simp at h2
  obtain ⟨lm, m, hm, hmi⟩ := average_total hne hc
  obtain ⟨ls, s, hs, hsi⟩ := sd_total h2 hc
  have htype : ∀ x ∈ l, ∀ (i : Nat) v, x.attrs[i]? = some (.continuous v) →
      ds.definition.types[i]? = some .continuous := by
    intro x hx i v hv
    rw [← typeOf_at hc hx i, hv]; rfl
  have hone : ∀ x ∈ l, ∃ y, normalizeInstance m s x = .ok y ∧
      NumbersMapped (fun i v => (v -. mean (numbersAt l i)) /. sampleSD (numbersAt l i)) x y :=
    fun x hx => normalizeInstance_ok m s x _ _
      (fun i v hv => hmi i (htype x hx i v hv)) (fun i v hv => hsi i (htype x hx i v hv))
  obtain ⟨h', e, hch⟩ := convertAll_ok (normalizeInstance m s) ds.refs h hnd (by
    intro r hr
    obtain ⟨x, hx, ex⟩ := hp.exists r hr
    obtain ⟨y, ey, _⟩ := hone x hx
    exact ⟨x, y, ex, ey⟩)
  have hch' : ChangedAt (NumbersMapped (fun i v => (v - mean (numbersAt l i)) / sampleSD (numbersAt l i)))
      ds.refs h h' := hch.mono (by
    intro r hr x y hx hy
    obtain ⟨y', ey, hR⟩ := hone x (hp.mem r hr x hx)
    rw [hy] at ey; cases ey
    exact hR)
  obtain ⟨l', hp', hR⟩ := hch'.points hp
  refine ⟨h', l', ?_, hp', hch', ?_⟩
  · unfold normalize
    rw [deref_ok hp]
    simp only [res_bind_ok]
    rw [hm]
    simp only [res_bind_ok]
    rw [hs]
    simp only [res_bind_ok]
    unfold convert
    rw [e]; rfl
  · intro i hpos
    have hcol := numbersAt_mapped hR i
    have hcne : numbersAt l i ≠ [] := by
      intro h0
      rw [h0] at hpos
      simp [sampleSD, sampleVar] at hpos
    rw [hcol]
    refine ⟨mean_standardised hcne _, sampleSD_standardised hcne hpos, by simp, ?_⟩
    intro p q v w v' w' hv hw hv' hw'
    rw [List.getElem?_map, hv] at hv'
    rw [List.getElem?_map, hw] at hw'
    simp only [Option.map_some, Option.some.injEq] at hv' hw'
    subst hv' hw'
    rw [div_lt_div_iff_of_pos_right hpos]
    constructor <;> intro hlt <;> linarith

/-- **C97.** `Normalize` keeps definition and instances in step. -/
theorem C97_normalize (h : Heap ℝ) (ds : RefSet) (l : IList ℝ) (hp : PointTo h ds.refs l)
    (hnd : ds.refs.Nodup) (h2 : 2 ≤ l.length) (hc : ∀ x ∈ l, typesOf x = ds.definition.types) :
    ∃ h' ds', normalize h ds = .ok (h', ds') ∧
      ∀ r ∈ ds'.refs, ∃ y, h'[r]? = some y ∧ typesOf y = ds'.definition.types := by
  obtain ⟨h', l', e, _, hch, _⟩ := C98_normalize h ds l hp hnd h2 hc
  refine ⟨h', ds, e, ?_⟩
  intro r hr
  obtain ⟨x, hx, ex⟩ := hp.exists r hr
  obtain ⟨y, ey, hR⟩ := hch.changed r hr x ex
  refine ⟨y, ey, ?_⟩
  rw [← hc x hx]
  unfold typesOf
  apply List.ext_getElem?
  intro i
  rw [List.getElem?_map, List.getElem?_map]
  cases hxi : x.attrs[i]? with
  | none =>
    have : y.attrs[i]? = none := by
      rw [List.getElem?_eq_none_iff, hR.width]
      exact List.getElem?_eq_none_iff.1 hxi
    rw [this]
  | some a =>
    by_cases ha : typeOf a = .continuous
    · obtain ⟨v, rfl⟩ := continuous_of_type ha
      rw [hR.number i v hxi]; rfl
    · rw [hR.other i a hxi ha]

/-- two instances, a colour and a number: 1 and 3 have mean 2 and positive deviation -/
def exNormHeap : Heap ℝ :=
  [⟨"a", [.discrete "red", .continuous 1], none⟩, ⟨"b", [.discrete "blue", .continuous 3], none⟩]

example : PointTo exNormHeap [0, 1] exNormHeap ∧
    (∀ x ∈ exNormHeap, typesOf x = [.discrete, .continuous]) ∧ 2 ≤ exNormHeap.length ∧
    0 < sampleSD (numbersAt exNormHeap 1) := by
  refine ⟨List.Forall₂.cons (R := fun r x => exNormHeap[r]? = some x) rfl
    (List.Forall₂.cons (R := fun r x => exNormHeap[r]? = some x) rfl List.Forall₂.nil), ?_, ?_, ?_⟩
  · intro x hx
    simp only [exNormHeap, List.mem_cons, List.not_mem_nil, or_false] at hx
    rcases hx with rfl | rfl <;> rfl
  · simp [exNormHeap]
  · have : numbersAt exNormHeap 1 = [1, 3] := rfl
    rw [this, sampleSD, Real.sqrt_pos]
    norm_num [sampleVar, mean]

/-- A constant column (standard deviation 0) turns into NaN. -/
theorem C98_constant_column :
    normalize ([⟨"a", [.continuous (.fin 5)], none⟩, ⟨"b", [.continuous (.fin 5)], none⟩] : Heap XR)
      ⟨[0, 1], ⟨[.continuous], []⟩⟩ =
    .ok ([⟨"a", [.continuous .nan], none⟩, ⟨"b", [.continuous .nan], none⟩],
      ⟨[0, 1], ⟨[.continuous], []⟩⟩) := by decide +kernel

/-- **C98 fails of the code for a data set listing an object twice**: numbers 0, 0, 0, 4, where
the zeros are one object, which is normalised three times; the column does not get mean 0. -/
theorem C98_repeated_refuted :
    normalize ([⟨"a", [.continuous (.fin 0)], none⟩, ⟨"b", [.continuous (.fin 4)], none⟩] : Heap XR)
      ⟨[0, 0, 0, 1], ⟨[.continuous], []⟩⟩ =
    .ok ([⟨"a", [.continuous (.fin (-7 / 8))], none⟩, ⟨"b", [.continuous (.fin (3 / 2))], none⟩],
      ⟨[0, 0, 0, 1], ⟨[.continuous], []⟩⟩) := by decide +kernel

/-! ### columns without a mean -/

section
variable {F : Type} [Dbl F]

/-- the steps before column `n` do not touch column `n` -/
theorem normalizeLoop_later (m s : List (Option (Attr F))) (k : Nat) :
    ∀ n ≤ k, ∀ x y : Inst F, (List.range n).foldlM (normalizeStep m s) x = .ok y →
      y.attrs[k]? = x.attrs[k]? := by
  intro n
  induction n with
  | zero => intro _ x y e; cases e; rfl
  | succ n ih =>
    intro hn x y e
    rw [List.range_succ, foldlM_append'] at e
    cases e1 : (List.range n).foldlM (normalizeStep m s) x with
    | error er => rw [e1] at e; exact absurd e (by simp)
    | ok z =>
      rw [e1] at e
      simp only [res_bind_ok, List.foldlM_cons, List.foldlM_nil] at e
      rw [← ih (by omega) x z e1]
      cases e2 : normalizeStep m s z n with
      | error er => rw [e2] at e; exact absurd e (by simp)
      | ok w =>
        rw [e2] at e
        cases e
        unfold normalizeStep at e2
        cases e3 : z.getAttribute n with
        | error er => rw [e3] at e2; exact absurd e2 (by simp)
        | ok a =>
          rw [e3] at e2
          simp only [res_bind_ok] at e2
          split at e2
          · cases e4 : a.contVal with
            | error er => rw [e4] at e2; exact absurd e2 (by simp)
            | ok v =>
              cases e5 : optContAt m n with
              | error er => rw [e4, e5] at e2; exact absurd e2 (by simp)
              | ok u =>
                cases e6 : optContAt s n with
                | error er => rw [e4, e5, e6] at e2; exact absurd e2 (by simp)
                | ok t =>
                  rw [e4, e5, e6] at e2
                  cases e2
                  exact List.getElem?_set_ne (by omega)
          · cases e2; rfl

/-- an instance with a number where the list has no mean cannot be normalised -/
theorem normalizeInstance_null {m s : List (Option (Attr F))} {x : Inst F} {i : Nat} {v : F}
    (hx : x.attrs[i]? = some (.continuous v)) (hm : m[i]? = some none) :
    ∀ y, normalizeInstance m s x ≠ .ok y := by
  intro y e
  unfold normalizeInstance at e
  have hi : i < x.attrs.length := (List.getElem?_eq_some_iff.1 hx).1
  have hr : List.range x.attributeSize = List.range (i + 1) ++ (List.range' (i + 1) (x.attrs.length - (i + 1))) := by
    rw [List.range_eq_range', List.range_eq_range']
    have h1 := List.range'_append_1 (s := 0) (m := i + 1) (n := x.attrs.length - (i + 1))
    rw [Nat.zero_add] at h1
    rw [h1]
    congr 1
    unfold Inst.attributeSize
    omega
  rw [hr, foldlM_append', List.range_succ, foldlM_append'] at e
  cases e1 : (List.range i).foldlM (normalizeStep m s) x with
  | error er => rw [e1] at e; exact absurd e (by simp)
  | ok z =>
    rw [e1] at e
    have hz := normalizeLoop_later m s i i le_rfl x z e1
    rw [hx] at hz
    have : normalizeStep m s z i = .error (.ub "null attribute") := by
      unfold normalizeStep
      rw [show z.getAttribute i = .ok (.continuous v) by unfold Inst.getAttribute; rw [atR_eq_ok]; exact hz]
      have e2 : optContAt m i = .error (.ub "null attribute") := by
        unfold optContAt
        rw [show atR m i = .ok none by rw [atR_eq_ok]; exact hm]
        rfl
      simp only [res_bind_ok, Attr.isContinuous, if_true, Attr.contVal]
      rw [e2]; rfl
    simp only [res_bind_ok, List.foldlM_cons, this] at e
    exact absurd e (by simp)

theorem convertAll_fails {f : Inst F → Res (Inst F)} {h : Heap F} {refs : List Nat} {r : Nat} {x : Inst F}
    (hr : r ∈ refs) (hx : h[r]? = some x) (hf : ∀ y, f x ≠ .ok y) : ∀ h', convertAll f h refs ≠ .ok h' := by
  intro h' e
  obtain ⟨a, b, rfl, hra⟩ := List.eq_append_cons_of_mem hr
  unfold convertAll at e
  have keep : ∀ (a : List Nat), r ∉ a → ∀ h h1 : Heap F, a.foldlM (convertAt f) h = .ok h1 → h1[r]? = h[r]? := by
    intro a
    induction a with
    | nil => intro _ h h1 e; cases e; rfl
    | cons q a ih =>
      intro hra h h1 e
      rw [List.foldlM_cons] at e
      cases e1 : convertAt f h q with
      | error er => rw [e1] at e; exact absurd e (by simp)
      | ok h2 =>
        rw [e1] at e
        rw [ih (fun hm => hra (List.mem_cons_of_mem _ hm)) h2 h1 e]
        unfold convertAt at e1
        cases e2 : idxR h q with
        | error er => rw [e2] at e1; exact absurd e1 (by simp)
        | ok y =>
          cases e3 : f y with
          | error er => rw [e2] at e1; simp only [res_bind_ok] at e1; rw [e3] at e1; exact absurd e1 (by simp)
          | ok w =>
            rw [e2] at e1; simp only [res_bind_ok] at e1; rw [e3] at e1
            cases e1
            exact List.getElem?_set_ne (fun hq => hra (by simp [hq]))
  rw [foldlM_append'] at e
  cases e1 : a.foldlM (convertAt f) h with
  | error er => rw [e1] at e; exact absurd e (by simp)
  | ok h1 =>
    rw [e1] at e
    simp only [res_bind_ok, List.foldlM_cons] at e
    have hx1 := keep a hra h h1 e1
    rw [hx] at hx1
    have : convertAt f h1 r = f x >>= fun y => .ok (h1.set r y) := by
      unfold convertAt
      rw [show idxR h1 r = .ok x by rw [idxR_eq_ok]; exact hx1]
      rfl
    rw [this] at e
    cases e2 : f x with
    | error er => rw [e2] at e; exact absurd e (by simp)
    | ok y => exact hf y e2

theorem rangeLoop_inv {α : Type} (g : Nat → Res α) : ∀ (n : Nat) (as : List α),
    (List.range n).foldlM (fun r i => do
      let a ← g i
      pure (r ++ [a])) ([] : List α) = .ok as →
    as.length = n ∧ ∀ i < n, ∃ a, as[i]? = some a ∧ g i = .ok a := by
  intro n
  induction n with
  | zero => intro as e; cases e; simp
  | succ n ih =>
    intro as e
    rw [List.range_succ, foldlM_append'] at e
    cases e1 : (List.range n).foldlM (fun r i => do
      let a ← g i
      pure (r ++ [a])) ([] : List α) with
    | error er => rw [e1] at e; exact absurd e (by simp)
    | ok bs =>
      rw [e1] at e
      simp only [res_bind_ok, List.foldlM_cons, List.foldlM_nil] at e
      obtain ⟨h1, h2⟩ := ih bs e1
      cases e2 : g n with
      | error er => rw [e2] at e; exact absurd e (by simp)
      | ok a =>
        rw [e2] at e
        cases e
        refine ⟨by simp [h1], fun i hi => ?_⟩
        by_cases hin : i < n
        · obtain ⟨b, hb, eb⟩ := h2 i hin
          exact ⟨b, by rw [List.getElem?_append_left (by omega)]; exact hb, eb⟩
        · obtain rfl : i = n := by omega
          exact ⟨a, by rw [← h1]; simp, e2⟩

theorem pointTo_ref {h : Heap F} {refs : List Nat} {l : IList F} (hp : PointTo h refs l) :
    ∀ x ∈ l, ∃ r ∈ refs, h[r]? = some x := by
  induction hp with
  | nil => intro x hx; cases hx
  | @cons r y rs l h1 _ ih =>
    intro x hx
    rcases List.mem_cons.1 hx with rfl | hx
    · exact ⟨r, by simp, h1⟩
    · obtain ⟨q, hq, hqx⟩ := ih x hx
      exact ⟨q, by simp [hq], hqx⟩

/-- **C98 needs columns of one kind.** If the first instance has a binary or an indexed attribute
in a column in which another instance has a number, `Normalize(ds).convert()` does not end
normally: the mean of that column is a null pointer, and it is dereferenced. -/
theorem C98_mixed_column (h : Heap F) (ds : RefSet) (l : IList F) (hp : PointTo h ds.refs l)
    (first x : Inst F) (i : Nat) (a : Attr F) (v : F) (hf : l[0]? = some first)
    (ha : first.attrs[i]? = some a) (hk : typeOf a = .binary ∨ typeOf a = .discreteIndexed)
    (hx : x ∈ l) (hxi : x.attrs[i]? = some (.continuous v)) :
    ∀ r, normalize h ds ≠ .ok r := by
  intro r e
  unfold normalize at e
  rw [deref_ok hp] at e
  simp only [res_bind_ok] at e
  cases em : l.average with
  | error er => rw [em] at e; exact absurd e (by simp)
  | ok m =>
    rw [em] at e
    simp only [res_bind_ok] at e
    cases es : l.standardDeviation with
    | error er => rw [es] at e; exact absurd e (by simp)
    | ok s =>
      rw [es] at e
      simp only [res_bind_ok] at e
      have hm : m.2[i]? = some none := by
        unfold IList.average at em
        rw [show atR l 0 = .ok first by rw [atR_eq_ok]; exact hf] at em
        simp only [res_bind_ok] at em
        cases ea : (List.range first.attributeSize).foldlM (fun r i => do
            let a ← l.attributeAverage i
            pure (r ++ [a])) ([] : List (Option (Attr F))) with
        | error er => rw [ea] at em; exact absurd em (by simp)
        | ok as =>
          rw [ea] at em
          cases em
          have hlt : i < first.attributeSize := (List.getElem?_eq_some_iff.1 ha).1
          obtain ⟨b, hb, eb⟩ := (rangeLoop_inv _ _ _ ea).2 i hlt
          rw [hb]
          unfold IList.attributeAverage at eb
          rw [show atR l 0 = .ok first by rw [atR_eq_ok]; exact hf] at eb
          simp only [res_bind_ok] at eb
          rw [show first.getAttribute i = .ok a by unfold Inst.getAttribute; rw [atR_eq_ok]; exact ha] at eb
          simp only [res_bind_ok] at eb
          cases a <;> simp_all [typeOf, Attr.isDiscrete, Attr.isContinuous]
      obtain ⟨q, hq, hqx⟩ := pointTo_ref hp x hx
      unfold convert at e
      cases ec : convertAll (normalizeInstance m.2 s.2) h ds.refs with
      | error er => rw [ec] at e; exact absurd e (by simp)
      | ok h' => exact convertAll_fails hq hqx (normalizeInstance_null hxi hm) h' ec

example : ∀ r, normalize ([⟨"a", [.binary "True"], none⟩, ⟨"b", [.continuous (.fin 4)], none⟩] : Heap XR)
    ⟨[0, 1], ⟨[.binary], []⟩⟩ ≠ .ok r :=
  C98_mixed_column _ _ [⟨"a", [.binary "True"], none⟩, ⟨"b", [.continuous (.fin 4)], none⟩]
    (.cons rfl (.cons rfl .nil)) _ _ 0 (.binary "True") (.fin 4) rfl rfl (.inl rfl)
    (List.mem_cons_of_mem _ (List.mem_singleton.2 rfl)) rfl

end

end Verif
