import Verif.Props.Filter
import Verif.Props.Normalize

/-! # C203: applying a filter a second time -/

namespace Verif
open Dbl

section
variable {F : Type} [Dbl F]
set_option linter.unusedSectionVars false

theorem list_set_self {α : Type} (h : List α) (r : Nat) (x : α) (e : h[r]? = some x) :
    h.set r x = h := by
  apply List.ext_getElem?
  intro i
  by_cases hi : i = r
  · subst hi
    have : i < h.length := (List.getElem?_eq_some_iff.1 e).1
    rw [e]; simp [this]
  · rw [List.getElem?_set_ne (Ne.symm hi)]

/-- converting with a function that keeps every instance keeps the memory -/
theorem convertAll_id (f : Inst F → Res (Inst F)) (h : Heap F) : ∀ (refs : List Nat),
    (∀ r ∈ refs, ∃ x, h[r]? = some x ∧ f x = .ok x) → convertAll f h refs = .ok h := by
  intro refs
  induction refs with
  | nil => intro _; rfl
  | cons r refs ih =>
    intro hf
    obtain ⟨x, hx, hy⟩ := hf r (by simp)
    unfold convertAll
    rw [List.foldlM_cons]
    have : convertAt f h r = .ok h := by
      unfold convertAt
      rw [show idxR h r = .ok x by simp [hx]]
      simp [hy, list_set_self h r x hx]
    rw [this]
    exact ih (fun s hs => hf s (by simp [hs]))

theorem addTypes_empty (ts : DD → List AttrType) (dists : List DD)
    (he : ∀ d ∈ dists, d.isEmpty = true) (dd : DataDef) : ∀ m ≤ dists.length,
    (List.range m).foldlM (addTypesStep ts dists) dd = .ok dd := by
  intro m
  induction m with
  | zero => intro _; rfl
  | succ m ih =>
    intro hm
    rw [List.range_succ, foldlM_append', ih (by omega)]
    simp only [res_bind_ok, List.foldlM_cons, List.foldlM_nil]
    unfold addTypesStep
    rw [atR_ok_of_lt (show m < dists.length by omega)]
    simp [he _ (List.getElem_mem (show m < dists.length by omega))]

theorem removeTypes_empty (dists : List DD)
    (he : ∀ d ∈ dists, d.isEmpty = true) (dd : DataDef) : ∀ m ≤ dists.length,
    (List.range m).foldlM (removeTypeStep dists) (dd, 0) = .ok (dd, m) := by
  intro m
  induction m with
  | zero => intro _; rfl
  | succ m ih =>
    intro hm
    rw [List.range_succ, foldlM_append', ih (by omega)]
    simp only [res_bind_ok, List.foldlM_cons, List.foldlM_nil]
    unfold removeTypeStep
    rw [atR_ok_of_lt (show m < dists.length by omega)]
    simp [he _ (List.getElem_mem (show m < dists.length by omega))]

/-- a discrete filter does nothing to data without discrete attributes, whatever the definition
says (as long as it does not list more attributes than there are) -/
theorem laryFilter_id (enc : DD → Attr F → List (Attr F)) (tsf : DD → List AttrType) (h : Heap F)
    (ds : RefSet) (l : IList F) (ts : List AttrType) (hp : PointTo h ds.refs l) (hne : l ≠ [])
    (hc : ∀ x ∈ l, typesOf x = ts) (hd : AttrType.discrete ∉ ts)
    (hlen : ds.definition.types.length ≤ ts.length) :
    laryFilter enc tsf h ds = .ok (h, ds) := by
  set dists := (List.range ts.length).map (fun (i : Nat) => DD.ofList (colVals l i)) with hdists
  have he : ∀ d ∈ dists, d.isEmpty = true := by
    intro d hd'
    simp only [hdists, List.mem_map, List.mem_range] at hd'
    obtain ⟨i, _, rfl⟩ := hd'
    rw [isEmpty_ofList, colVals_other hc]
    · rfl
    · intro e; exact hd (List.mem_of_getElem? e)
  have hdl : dists.length = ts.length := by simp [hdists]
  have hone : ∀ x ∈ l, laryConvert enc dists x = .ok x := by
    intro x hx
    have hxl : dists.length = x.attrs.length := by
      have := congrArg List.length (hc x hx)
      simp only [typesOf, List.length_map] at this
      omega
    rw [laryConvert_ok enc dists x hxl]
    have h1 : (dists.zip x.attrs).filter (fun p => p.1.isEmpty) = dists.zip x.attrs := by
      rw [List.filter_eq_self]
      intro p hp'
      exact he _ (List.of_mem_zip hp').1
    have h2 : (dists.zip x.attrs).map (fun p => if p.1.isEmpty then [] else enc p.1 p.2) =
        (dists.zip x.attrs).map (fun _ => []) := by
      apply List.map_congr_left
      intro p hp'
      rw [if_pos (he _ (List.of_mem_zip hp').1)]
    rw [h1, h2, List.map_snd_zip (by omega)]
    have : ((dists.zip x.attrs).map (fun _ => ([] : List (Attr F)))).flatten = [] := by
      simp
    rw [this, List.append_nil]
  unfold laryFilter
  rw [deref_ok hp]
  simp only [res_bind_ok]
  rw [allAttributesDistribution_col hne hc]
  simp only [res_bind_ok]
  unfold convert
  rw [← hdists, convertAll_id (laryConvert enc dists) h ds.refs (by
    intro r hr
    obtain ⟨x, hx, e⟩ := hp.exists r hr
    exact ⟨x, e, hone x hx⟩)]
  simp only [res_bind_ok]
  unfold laryConvertDefinition removeDiscreteTypes DataDef.attributeCount
  dsimp only
  rw [addTypes_empty tsf dists he _ _ (by omega)]
  simp only [res_bind_ok]
  rw [removeTypes_empty dists he _ _ (by omega)]
  rfl

/-- what one discrete filter makes of the types -/
def typesAfter (tsf : DD → List AttrType) (dists : List DD) (ts : List AttrType) : List AttrType :=
  ((dists.zip ts).filter (fun p => p.1.isEmpty)).map Prod.snd ++
    (dists.map (fun d => if d.isEmpty then [] else tsf d)).flatten

theorem typesOf_converted (enc : DD → Attr F → List (Attr F)) (tsf : DD → List AttrType)
    (henc : ∀ d a, (enc d a).map typeOf = tsf d) : ∀ (dists : List DD) (as : List (Attr F)),
    dists.length = as.length →
    (((dists.zip as).filter (fun p => p.1.isEmpty)).map Prod.snd ++
      ((dists.zip as).map (fun p => if p.1.isEmpty then [] else enc p.1 p.2)).flatten).map typeOf =
      typesAfter tsf dists (as.map typeOf) := by
  intro dists as hl
  unfold typesAfter
  rw [List.map_append]
  congr 1
  · induction dists generalizing as with
    | nil => rfl
    | cons d dists ih =>
      cases as with
      | nil => simp at hl
      | cons a as =>
        have := ih as (by simpa using hl)
        simp only [List.zip_cons_cons, List.map_cons, List.filter_cons]
        split <;> simp_all
  · induction dists generalizing as with
    | nil => rfl
    | cons d dists ih =>
      cases as with
      | nil => simp at hl
      | cons a as =>
        have := ih as (by simpa using hl)
        simp only [List.zip_cons_cons, List.map_cons, List.flatten_cons, List.map_append]
        rw [this]
        congr 1
        split
        · rfl
        · exact henc _ _

theorem typesAfter_length (tsf : DD → List AttrType)
    (h1 : ∀ d : DD, d.isEmpty = false → 1 ≤ (tsf d).length) :
    ∀ (dists : List DD) (ts : List AttrType), dists.length = ts.length →
    ts.length ≤ (typesAfter tsf dists ts).length := by
  intro dists
  induction dists with
  | nil => intro ts hl; simp at hl; simp [hl.symm]
  | cons d dists ih =>
    intro ts hl
    cases ts with
    | nil => simp
    | cons t ts =>
      have := ih ts (by simpa using hl)
      simp only [typesAfter, List.zip_cons_cons, List.filter_cons, List.map_cons,
        List.flatten_cons, List.length_append, List.length_map] at this ⊢
      cases hd : d.isEmpty
      · have := h1 d hd
        simp only [Bool.false_eq_true, if_false, List.length_cons]
        omega
      · simp only [if_true, List.length_cons, List.length_nil]
        omega

theorem typesAfter_other (tsf : DD → List AttrType)
    (h1 : ∀ d : DD, AttrType.discrete ∉ tsf d) (dists : List DD) (ts : List AttrType)
    (h2 : ∀ p ∈ dists.zip ts, p.1.isEmpty = true → p.2 ≠ .discrete) :
    AttrType.discrete ∉ typesAfter tsf dists ts := by
  unfold typesAfter
  rw [List.mem_append, not_or]
  constructor
  · intro h
    rw [List.mem_map] at h
    obtain ⟨p, hp, e⟩ := h
    rw [List.mem_filter] at hp
    exact h2 p hp.1 hp.2 e
  · intro h
    rw [List.mem_flatten] at h
    obtain ⟨b, hb, hm⟩ := h
    rw [List.mem_map] at hb
    obtain ⟨d, _, rfl⟩ := hb
    split at hm
    · simp at hm
    · exact h1 d hm

/-- after a discrete filter all instances have the same types, at least as many as the
definition lists, none of them discrete -/
theorem laryFilter_types (enc : DD → Attr F → List (Attr F)) (tsf : DD → List AttrType)
    (henc : ∀ d a, (enc d a).map typeOf = tsf d)
    (h1 : ∀ d : DD, d.isEmpty = false → 1 ≤ (tsf d).length)
    (hnd : ∀ d : DD, AttrType.discrete ∉ tsf d)
    (h : Heap F) (ds : RefSet) (l : IList F) (hp : PointTo h ds.refs l) (hne : l ≠ [])
    (hdist : ds.refs.Nodup) (hc : ∀ x ∈ l, typesOf x = ds.definition.types) :
    ∃ h' l' ts, laryFilter enc tsf h ds = .ok (h', ds) ∧ PointTo h' ds.refs l' ∧ l' ≠ [] ∧
      (∀ y ∈ l', typesOf y = ts) ∧ AttrType.discrete ∉ ts ∧
      ds.definition.types.length ≤ ts.length := by
  set n := ds.definition.types.length with hn
  set dists := (List.range n).map (fun (i : Nat) => DD.ofList (colVals l i)) with hdists
  have hdl : dists.length = n := by simp [hdists]
  have hlen : ∀ x ∈ l, dists.length = x.attrs.length := by
    intro x hx
    have := congrArg List.length (hc x hx)
    simp only [typesOf, List.length_map] at this
    omega
  obtain ⟨h', e, hch⟩ := convertAll_ok (laryConvert enc dists) ds.refs h hdist (by
    intro r hr
    obtain ⟨x, hx, e⟩ := hp.exists r hr
    exact ⟨x, _, e, laryConvert_ok enc dists x (hlen x hx)⟩)
  obtain ⟨l', hp', hR⟩ := hch.points hp
  refine ⟨h', l', typesAfter tsf dists ds.definition.types, ?_, hp', ?_, ?_, ?_, ?_⟩
  · obtain ⟨r, er⟩ := convertDefinition_ok tsf dists ds (by omega)
    have hds : laryConvertDefinition tsf dists ds = .ok ds := by
      rw [er]
      unfold laryConvertDefinition removeDiscreteTypes at er
      simp only [bind_ok_iff] at er
      obtain ⟨_, _, _, _, er⟩ := er
      exact er ▸ rfl
    unfold laryFilter
    rw [deref_ok hp]
    simp only [res_bind_ok]
    rw [allAttributesDistribution_col hne hc]
    simp only [res_bind_ok]
    unfold convert
    rw [e]
    simp only [res_bind_ok]
    rw [hds]; rfl
  · rintro rfl
    cases hR
    exact hne rfl
  · have hall : ∀ (l l' : IList F), List.Forall₂ (fun x y => laryConvert enc dists x = .ok y) l l' →
        (∀ x ∈ l, dists.length = x.attrs.length) → (∀ x ∈ l, typesOf x = ds.definition.types) →
        ∀ y ∈ l', typesOf y = typesAfter tsf dists ds.definition.types := by
      intro l l' hR
      induction hR with
      | nil => intro _ _ y hy; simp at hy
      | @cons x y l l' hxy _ ih =>
        intro h1 h2 z hz
        rcases List.mem_cons.1 hz with rfl | hz
        · rw [laryConvert_ok enc dists x (h1 x (by simp))] at hxy
          cases hxy
          rw [← h2 x (by simp)]
          exact typesOf_converted enc tsf henc dists x.attrs (h1 x (by simp))
        · exact ih (fun x hx => h1 x (by simp [hx])) (fun x hx => h2 x (by simp [hx])) z hz
    exact hall l l' hR hlen hc
  · apply typesAfter_other tsf hnd
    intro p hpz he hdis
    obtain ⟨i, hi⟩ := List.getElem?_of_mem hpz
    rw [List.getElem?_zip_eq_some] at hi
    have hdi : DD.ofList (colVals l i) = p.1 := by
      have := hi.1
      rw [hdists, List.getElem?_map] at this
      cases hr : (List.range n)[i]? with
      | none => rw [hr] at this; simp at this
      | some j =>
        rw [hr] at this
        have hj : j = i := by
          rw [List.getElem?_eq_some_iff] at hr
          obtain ⟨_, hr⟩ := hr
          simpa using hr.symm
        simpa [hj] using this
    have ht : ds.definition.types[i]? = some .discrete := by rw [hi.2, hdis]
    obtain ⟨v, _, hv⟩ := colVals_discrete hc ht
    rw [← hdi, isEmpty_ofList, hv] at he
    cases l with
    | nil => exact hne rfl
    | cons => simp at he
  · exact typesAfter_length tsf h1 dists _ (by omega)

theorem size_pos {d : DD} (h : d.isEmpty = false) : 1 ≤ d.size := by
  unfold DD.isEmpty at h
  unfold DD.size
  cases hm : d.m with
  | nil => rw [hm] at h; simp at h
  | cons => simp

/-- the three filters that replace the discrete attributes of a data set -/
inductive DiscreteFilter (showD : F → String) :
    (Heap F → RefSet → Res (Heap F × RefSet)) → Prop
  | continuous : DiscreteFilter showD (discreteToContinuous showD)
  | binary : DiscreteFilter showD (laryToBinary showD)
  | indexed : DiscreteFilter showD (discreteToIndexed showD)

/-- **C203** for `DiscreteToContinuous`, `LaryToBinary` and `DiscreteToIndexed`, in every
arithmetic: a data set of distinct instance objects that fits its definition. Converting it with
one of the three filters succeeds, and converting the result with any of the three (the same or
another) changes neither an instance nor the data set, although the definition was left stale
by the first (C97). -/
theorem C203_discrete (showD : F → String) (h : Heap F) (ds : RefSet) (l : IList F)
    (hp : PointTo h ds.refs l) (hnd : ds.refs.Nodup) (hne : l ≠ [])
    (hc : ∀ x ∈ l, typesOf x = ds.definition.types)
    (f g : Heap F → RefSet → Res (Heap F × RefSet))
    (hf : DiscreteFilter showD f) (hg : DiscreteFilter showD g) :
    ∃ h', f h ds = .ok (h', ds) ∧ g h' ds = .ok (h', ds) := by
  have key : ∃ h' l' ts, f h ds = .ok (h', ds) ∧ PointTo h' ds.refs l' ∧ l' ≠ [] ∧
      (∀ y ∈ l', typesOf y = ts) ∧ AttrType.discrete ∉ ts ∧
      ds.definition.types.length ≤ ts.length := by
    cases hf with
    | continuous =>
      refine laryFilter_types _ _ ?_ ?_ ?_ h ds l hp hne hnd hc
      · intro d a
        simp only [encContinuous, List.map_map]
        rw [List.eq_replicate_iff]
        refine ⟨by simp, ?_⟩
        intro b hb
        simp only [List.mem_map] at hb
        obtain ⟨j, _, rfl⟩ := hb
        simp only [Function.comp]
        split <;> rfl
      · intro d hd; simpa using size_pos hd
      · intro d hm; simp at hm
    | binary =>
      refine laryFilter_types _ _ ?_ ?_ ?_ h ds l hp hne hnd hc
      · intro d a
        simp only [encBinary, List.map_map]
        rw [List.eq_replicate_iff]
        refine ⟨by simp, ?_⟩
        intro b hb
        simp only [List.mem_map] at hb
        obtain ⟨j, _, rfl⟩ := hb
        simp only [Function.comp]
        split <;> rfl
      · intro d hd; simpa using size_pos hd
      · intro d hm; simp at hm
    | indexed =>
      refine laryFilter_types _ _ ?_ ?_ ?_ h ds l hp hne hnd hc
      · intro d a; rfl
      · intro d _; simp
      · intro d hm; simp at hm
  obtain ⟨h', l', ts, e, hp', hne', hts, hd, hlen⟩ := key
  refine ⟨h', e, ?_⟩
  cases hg <;> exact laryFilter_id _ _ h' ds l' ts hp' hne' hts hd hlen

end

theorem forall₂_source {α β : Type} {R : α → β → Prop} {l : List α} {l' : List β}
    (h : List.Forall₂ R l l') : ∀ y ∈ l', ∃ x ∈ l, R x y := by
  induction h with
  | nil => intro y hy; simp at hy
  | @cons a b l l' hab _ ih =>
    intro y hy
    rcases List.mem_cons.1 hy with rfl | hy
    · exact ⟨a, by simp, hab⟩
    · obtain ⟨x, hx, hR⟩ := ih y hy
      exact ⟨x, by simp [hx], hR⟩

theorem mapped_types {f : Nat → ℝ → ℝ} {x y : Inst ℝ} (hR : NumbersMapped f x y) :
    typesOf y = typesOf x := by
  unfold typesOf
  apply List.ext_getElem?
  intro i
  rw [List.getElem?_map, List.getElem?_map]
  cases hxi : x.attrs[i]? with
  | none =>
    have : y.attrs[i]? = none := by
      rw [List.getElem?_eq_none_iff, hR.width]
      exact List.getElem?_eq_none_iff.1 hxi
    rw [this]
  | some a =>
    by_cases ha : typeOf a = .continuous
    · obtain ⟨v, rfl⟩ := continuous_of_type ha
      rw [hR.number i v hxi]; rfl
    · rw [hR.other i a hxi ha]

theorem mapped_id {f : Nat → ℝ → ℝ} {x y : Inst ℝ} (hR : NumbersMapped f x y)
    (hf : ∀ (i : Nat) v, x.attrs[i]? = some (.continuous v) → f i v = v) : y = x := by
  have ha : y.attrs = x.attrs := by
    apply List.ext_getElem?
    intro i
    cases hxi : x.attrs[i]? with
    | none =>
      rw [List.getElem?_eq_none_iff, hR.width]
      exact List.getElem?_eq_none_iff.1 hxi
    | some a =>
      by_cases ha : typeOf a = .continuous
      · obtain ⟨v, rfl⟩ := continuous_of_type ha
        rw [hR.number i v hxi, hf i v hxi]
      · rw [hR.other i a hxi ha]
  cases x; cases y
  have h1 := hR.label
  have h2 := hR.possible
  simp_all

/-- **C203** for `Normalize` (exact arithmetic): a data set of at least two distinct instance
objects that fits its definition, every numeric column of which has a positive standard
deviation. Normalising it succeeds, and normalising the result changes nothing. -/
theorem C203_normalize (h : Heap ℝ) (ds : RefSet) (l : IList ℝ) (hp : PointTo h ds.refs l)
    (hnd : ds.refs.Nodup) (h2 : 2 ≤ l.length) (hc : ∀ x ∈ l, typesOf x = ds.definition.types)
    (hpos : ∀ i : Nat, ds.definition.types[i]? = some .continuous → 0 < sampleSD (numbersAt l i)) :
    ∃ h', normalize h ds = .ok (h', ds) ∧ normalize h' ds = .ok (h', ds) := by
  obtain ⟨h', l', e, hp', hch, hcol⟩ := C98_normalize h ds l hp hnd h2 hc
  obtain ⟨l1, hp1, hR⟩ := hch.points hp
  have hll : l1 = l' := by
    have h1 := deref_ok hp1
    rw [deref_ok hp'] at h1
    exact (Except.ok.inj h1).symm
  subst hll
  have hc' : ∀ y ∈ l1, typesOf y = ds.definition.types := by
    intro y hy
    obtain ⟨x, hx, hxy⟩ := forall₂_source hR y hy
    rw [mapped_types hxy, hc x hx]
  obtain ⟨h'', _, e'', _, hch'', _⟩ := C98_normalize h' ds l1 hp1 hnd
    (by rw [← hR.length_eq]; exact h2) hc'
  refine ⟨h', e, ?_⟩
  rw [e'']
  have : h'' = h' := by
    apply List.ext_getElem?
    intro r
    by_cases hr : r ∈ ds.refs
    · obtain ⟨x, hx, ex⟩ := hp1.exists r hr
      obtain ⟨y, ey, hxy⟩ := hch''.changed r hr x ex
      rw [ex, ey, mapped_id hxy]
      intro i v hv
      have ht : ds.definition.types[i]? = some .continuous := by
        rw [← typeOf_at hc' hx i, hv]; rfl
      obtain ⟨hm, hs, _⟩ := hcol i (hpos i ht)
      rw [hm, hs]; simp
    · exact hch''.rest r hr
  rw [this]

example : ∃ h', normalize exNormHeap ⟨[0, 1], ⟨[.discrete, .continuous], []⟩⟩ = .ok (h', ⟨[0, 1], ⟨[.discrete, .continuous], []⟩⟩) ∧
    normalize h' ⟨[0, 1], ⟨[.discrete, .continuous], []⟩⟩ = .ok (h', ⟨[0, 1], ⟨[.discrete, .continuous], []⟩⟩) := by
  refine C203_normalize exNormHeap _ exNormHeap
    (List.Forall₂.cons (R := fun r x => exNormHeap[r]? = some x) rfl
      (List.Forall₂.cons (R := fun r x => exNormHeap[r]? = some x) rfl List.Forall₂.nil))
    (by decide) (by simp [exNormHeap]) ?_ ?_
  · intro x hx
    simp only [exNormHeap, List.mem_cons, List.not_mem_nil, or_false] at hx
    rcases hx with rfl | rfl <;> rfl
  · intro i hi
    match i, hi with
    | 1, _ =>
      have : numbersAt exNormHeap 1 = [1, 3] := rfl
      rw [this, sampleSD, Real.sqrt_pos]
      norm_num [sampleVar, mean]

/-- one filter after another on concrete data: the second does nothing -/
example : ∃ h', discreteToIndexed (fun _ => "") exFilterHeap exFilterSet = .ok (h', exFilterSet) ∧
    h' ≠ exFilterHeap ∧ discreteToContinuous (fun _ => "") h' exFilterSet = .ok (h', exFilterSet) :=
  ⟨[⟨"a", [.continuous (.fin 1), .indexed "red" 1 2], none⟩,
    ⟨"b", [.continuous (.fin 2), .indexed "blue" 0 2], none⟩],
    by decide +kernel, by decide +kernel, by decide +kernel⟩

end Verif
