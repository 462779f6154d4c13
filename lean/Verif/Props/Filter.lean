import Verif.Spec.Filter
import Verif.Spec.Stats
import Verif.Props.NaiveBayes
import Verif.Model.DblXR

/-! # Properties C94–C98: feature filters -/

set_option linter.unusedSectionVars false

namespace Verif
open Dbl

section
variable {F : Type} [Dbl F]

theorem deref_ok {h : Heap F} {refs : List Nat} {l : IList F} (hp : PointTo h refs l) :
    deref h refs = .ok l := by
  unfold deref
  induction hp with
  | nil => rfl
  | cons h1 _ ih =>
    rw [List.mapM_cons, ih]
    have : ∀ (x : Inst F) r, h[r]? = some x → idxR h r = .ok x := by
      intro x r e; simp [e]
    rw [this _ _ h1]; rfl

theorem PointTo.mem {h : Heap F} {refs : List Nat} {l : IList F} (hp : PointTo h refs l) :
    ∀ r ∈ refs, ∀ x, h[r]? = some x → x ∈ l := by
  induction hp with
  | nil => simp
  | cons h1 _ ih =>
    intro r hr x hx
    rcases List.mem_cons.1 hr with rfl | hr
    · rw [h1] at hx; cases hx; simp
    · exact List.mem_cons_of_mem _ (ih r hr x hx)

theorem PointTo.exists {h : Heap F} {refs : List Nat} {l : IList F} (hp : PointTo h refs l) :
    ∀ r ∈ refs, ∃ x ∈ l, h[r]? = some x := by
  induction hp with
  | nil => simp
  | @cons r x _ _ h1 _ ih =>
    intro r' hr
    rcases List.mem_cons.1 hr with rfl | hr
    · exact ⟨x, by simp, h1⟩
    · obtain ⟨y, hy, e⟩ := ih r' hr
      exact ⟨y, List.mem_cons_of_mem _ hy, e⟩

/-- converting distinct objects one after the other converts each of them once -/
theorem convertAll_ok (f : Inst F → Res (Inst F)) (refs : List Nat) : ∀ (h : Heap F),
    refs.Nodup → (∀ r ∈ refs, ∃ x y, h[r]? = some x ∧ f x = .ok y) →
    ∃ h', convertAll f h refs = .ok h' ∧
      ChangedAt (fun x y => f x = .ok y) refs h h' := by
  induction refs with
  | nil =>
    intro h _ _
    exact ⟨h, rfl, rfl, by simp, by simp⟩
  | cons r refs ih =>
    intro h hnd hf
    rw [List.nodup_cons] at hnd
    obtain ⟨x, y, hx, hy⟩ := hf r (by simp)
    have hlt : r < h.length := by
      rw [List.getElem?_eq_some_iff] at hx; exact hx.1
    have hset : ∀ s, s ≠ r → (h.set r y)[s]? = h[s]? := by
      intro s hs; rw [List.getElem?_set_ne (Ne.symm hs)]
    obtain ⟨h', e, hc⟩ := ih (h.set r y) hnd.2 (by
      intro s hs
      rw [hset s (by rintro rfl; exact hnd.1 hs)]
      exact hf s (by simp [hs]))
    refine ⟨h', ?_, ?_, ?_, ?_⟩
    · unfold convertAll
      rw [List.foldlM_cons]
      have : convertAt f h r = .ok (h.set r y) := by
        unfold convertAt
        rw [show idxR h r = .ok x by simp [hx]]
        simp [hy]
      rw [this]; exact e
    · rw [hc.size, List.length_set]
    · intro s hs z hz
      by_cases hsr : s = r
      · subst hsr
        rw [hx] at hz; cases hz
        refine ⟨y, ?_, hy⟩
        rw [hc.rest _ hnd.1]
        simp [hlt]
      · rcases List.mem_cons.1 hs with e' | hs
        · exact absurd e' hsr
        · exact hc.changed s hs z (by rw [hset s hsr]; exact hz)
    · intro s hs
      rw [List.mem_cons, not_or] at hs
      rw [hc.rest s hs.2, hset s hs.1]

theorem ChangedAt.mono {R S : Inst F → Inst F → Prop} {refs : List Nat} {h h' : Heap F}
    (hc : ChangedAt R refs h h')
    (hi : ∀ r ∈ refs, ∀ x y, h[r]? = some x → R x y → S x y) : ChangedAt S refs h h' :=
  ⟨hc.size, fun r hr x hx => by
    obtain ⟨y, e, hR⟩ := hc.changed r hr x hx
    exact ⟨y, e, hi r hr x y hx hR⟩, hc.rest⟩

/-! ## the loops of the discrete filters -/

/-- the value of a discrete attribute -/
def discVal? : Attr F → Option String
  | .discrete v => some v
  | _ => none

/-- the values attribute `i` takes, in data order -/
def colVals (l : IList F) (i : Nat) : List String :=
  l.filterMap (fun x => x.attrs[i]?.bind discVal?)

theorem foldl_addAttribute (as : List (Attr F)) : ∀ x : Inst F,
    as.foldl Inst.addAttribute x = { x with attrs := x.attrs ++ as } := by
  induction as with
  | nil => intro x; simp
  | cons a as ih => intro x; rw [List.foldl_cons, ih]; simp [Inst.addAttribute]

theorem laryLoop_ok (enc : DD → Attr F → List (Attr F)) (dists : List DD) (x : Inst F)
    (hn : dists.length = x.attrs.length) : ∀ m ≤ x.attrs.length,
    (List.range m).foldlM (laryStep enc dists) x =
      .ok { x with attrs := x.attrs ++ (((dists.zip x.attrs).take m).map
        (fun p => if p.1.isEmpty then [] else enc p.1 p.2)).flatten } := by
  intro m
  induction m with
  | zero => intro _; simp
  | succ m ih =>
    intro hm
    rw [List.range_succ, foldlM_append', ih (by omega)]
    simp only [res_bind_ok, List.foldlM_cons, List.foldlM_nil]
    have hd : atR dists m = .ok dists[m] := atR_ok_of_lt (by omega)
    have ht : (dists.zip x.attrs).take (m + 1) =
        (dists.zip x.attrs).take m ++ [(dists[m], x.attrs[m])] := by
      rw [List.take_add_one]
      simp [List.zip, show m < dists.length by omega,
        show m < x.attrs.length by omega]
    unfold laryStep
    rw [hd, ht]
    simp only [res_bind_ok]
    by_cases he : dists[m].isEmpty = true
    · simp [he]
    · rw [Bool.not_eq_true] at he
      have hg : ({ x with attrs := x.attrs ++ (((dists.zip x.attrs).take m).map
          (fun p => if p.1.isEmpty then [] else enc p.1 p.2)).flatten } : Inst F).getAttribute m =
          .ok x.attrs[m] := by
        unfold Inst.getAttribute
        rw [atR_eq_ok, List.getElem?_append_left (by omega),
          List.getElem?_eq_getElem (by omega)]
      simp only [he, hg, res_bind_ok, foldl_addAttribute, Bool.false_eq_true, if_false]
      simp [he]

theorem removeLoop_ok (dists : List DD) (y : Inst F) (n : Nat) (hn : dists.length = n)
    (hy : n ≤ y.attrs.length) : ∀ m ≤ n,
    (List.range m).foldlM (removeStep dists) (y, 0) =
      .ok ({ y with attrs := (((dists.zip y.attrs).take m).filter (fun p => p.1.isEmpty)).map Prod.snd ++ y.attrs.drop m },
        (((dists.zip y.attrs).take m).filter (fun p => p.1.isEmpty)).length) := by
  intro m
  induction m with
  | zero => intro _; simp
  | succ m ih =>
    intro hm
    rw [List.range_succ, foldlM_append', ih (by omega)]
    simp only [res_bind_ok, List.foldlM_cons, List.foldlM_nil]
    have hd : atR dists m = .ok dists[m] := atR_ok_of_lt (by omega)
    have ht : (dists.zip y.attrs).take (m + 1) =
        (dists.zip y.attrs).take m ++ [(dists[m], y.attrs[m])] := by
      rw [List.take_add_one]
      simp [List.zip, show m < dists.length by omega,
        show m < y.attrs.length by omega]
    have hdrop : y.attrs.drop m = y.attrs[m] :: y.attrs.drop (m + 1) := by
      rw [List.drop_eq_getElem_cons]
    unfold removeStep
    rw [hd, ht]
    simp only [res_bind_ok]
    by_cases he : dists[m].isEmpty = true
    · simp only [he, if_true, List.filter_append, List.filter_cons, List.filter_nil,
        List.map_append, List.map_cons, List.map_nil, List.length_append, List.length_cons,
        List.length_nil, res_pure, res_bind_ok]
      rw [hdrop]; simp
    · rw [Bool.not_eq_true] at he
      simp only [he, if_false, List.filter_append, List.filter_cons, List.filter_nil,
        List.append_nil, Bool.false_eq_true]
      rw [hdrop]
      unfold Inst.removeAttribute
      simp [List.eraseIdx_append, show m < y.attrs.length by omega]

/-- what a discrete filter makes of one instance -/
theorem laryConvert_ok (enc : DD → Attr F → List (Attr F)) (dists : List DD) (x : Inst F)
    (hn : dists.length = x.attrs.length) :
    laryConvert enc dists x = .ok { x with attrs :=
      ((dists.zip x.attrs).filter (fun p => p.1.isEmpty)).map Prod.snd ++
      ((dists.zip x.attrs).map (fun p => if p.1.isEmpty then [] else enc p.1 p.2)).flatten } := by
  have hz : (dists.zip x.attrs).length = x.attrs.length := by simp [hn]
  unfold laryConvert removeDiscreteAttributes
  simp only [Inst.attributeSize]
  rw [laryLoop_ok enc dists x hn _ le_rfl]
  simp only [res_bind_ok]
  rw [removeLoop_ok dists _ x.attrs.length hn (by simp) _ le_rfl]
  have h1 : ∀ bs : List (Attr F), (dists.zip (x.attrs ++ bs)).take x.attrs.length = dists.zip x.attrs := by
    intro bs
    have : dists.zip (x.attrs ++ bs) = dists.zip x.attrs := by
      conv_lhs => rw [show dists = dists ++ [] by simp]
      rw [List.zip_append (by simpa using hn)]
      simp
    rw [this]
    exact List.take_of_length_le (by omega)
  simp only [res_bind_ok, h1, res_pure]
  have h2 : (dists.zip x.attrs).take x.attrs.length = dists.zip x.attrs :=
    List.take_of_length_le (by omega)
  simp [h2]

/-! ## the distributions the filters work with -/

theorem isEmpty_ofList (vs : List String) : (DD.ofList vs).isEmpty = vs.isEmpty := by
  have hc := DD.counts_ofList vs
  unfold DD.isEmpty
  cases vs with
  | nil => rfl
  | cons a vs =>
    have h1 : a ∈ (DD.ofList (a :: vs)).getItems := (hc.mem_items a).2 (by simp)
    unfold DD.getItems OMap.keys at h1
    cases h : (DD.ofList (a :: vs)).m with
    | nil => rw [h] at h1; simp at h1
    | cons => rfl

theorem typeOf_at {l : IList F} {ts : List AttrType} (hc : ∀ x ∈ l, typesOf x = ts) {x : Inst F}
    (hx : x ∈ l) (i : Nat) : x.attrs[i]?.map typeOf = ts[i]? := by
  rw [← hc x hx, typesOf, List.getElem?_map]

theorem discrete_of_type {a : Attr F} (h : typeOf a = .discrete) : ∃ v, a = .discrete v := by
  cases a <;> simp_all [typeOf]

theorem colVals_discrete {l : IList F} {ts : List AttrType} (hc : ∀ x ∈ l, typesOf x = ts)
    {i : Nat} (hi : ts[i]? = some .discrete) :
    ∃ v : Inst F → String, (∀ x ∈ l, x.attrs[i]? = some (.discrete (v x))) ∧
      colVals l i = l.map v := by
  have h : ∀ x ∈ l, ∃ v, x.attrs[i]? = some (.discrete v) := by
    intro x hx
    have h1 := typeOf_at hc hx i
    rw [hi] at h1
    cases h2 : x.attrs[i]? with
    | none => rw [h2] at h1; simp at h1
    | some a =>
      rw [h2] at h1
      obtain ⟨v, rfl⟩ := discrete_of_type (by simpa using h1)
      exact ⟨v, rfl⟩
  refine ⟨fun x => ((x.attrs[i]?).bind discVal?).getD "", ?_, ?_⟩
  · intro x hx
    obtain ⟨v, e⟩ := h x hx
    simp [e, discVal?]
  · unfold colVals
    rw [← List.filterMap_eq_map]
    apply List.filterMap_congr
    intro x hx
    obtain ⟨v, e⟩ := h x hx
    simp [e, discVal?]

theorem colVals_other {l : IList F} {ts : List AttrType} (hc : ∀ x ∈ l, typesOf x = ts)
    {i : Nat} (hi : ts[i]? ≠ some .discrete) : colVals l i = [] := by
  unfold colVals
  rw [List.filterMap_eq_nil_iff]
  intro x hx
  have h1 := typeOf_at hc hx i
  cases h2 : x.attrs[i]? with
  | none => rfl
  | some a =>
    rw [h2] at h1
    cases a <;> simp_all [discVal?, typeOf]

theorem attributeDistribution_col {l : IList F} {ts : List AttrType} (hne : l ≠ [])
    (hc : ∀ x ∈ l, typesOf x = ts) {i : Nat} (hi : i < ts.length) :
    l.attributeDistribution i = .ok (DD.ofList (colVals l i)) := by
  by_cases ht : ts[i]? = some .discrete
  · obtain ⟨v, h1, h2⟩ := colVals_discrete hc ht
    rw [h2]
    exact attributeDistribution_ok l hne i v h1
  · rw [colVals_other hc ht]
    obtain ⟨x, hx, h0⟩ := first_of_ne hne
    have h1 := typeOf_at hc hx i
    have hlt : i < x.attrs.length := by
      rw [← hc x hx] at hi; simpa [typesOf] using hi
    unfold IList.attributeDistribution
    have hg : x.getAttribute i = .ok x.attrs[i] := atR_ok_of_lt hlt
    rw [h0]
    simp only [res_bind_ok, hg]
    rw [List.getElem?_eq_getElem hlt] at h1
    have : x.attrs[i].isDiscrete = false := by
      rw [← h1] at ht
      cases ha : x.attrs[i] <;> simp_all [typeOf, Attr.isDiscrete]
    rw [this]; rfl

theorem allAttributesDistribution_col {l : IList F} {ts : List AttrType} (hne : l ≠ [])
    (hc : ∀ x ∈ l, typesOf x = ts) :
    l.allAttributesDistribution =
      .ok ((List.range ts.length).map (fun (i : Nat) => DD.ofList (colVals l i))) := by
  obtain ⟨x, hx, h0⟩ := first_of_ne hne
  unfold IList.allAttributesDistribution
  rw [h0]
  have hlen : x.attributeSize = ts.length := by
    rw [← hc x hx]; simp [typesOf, Inst.attributeSize]
  simp only [res_bind_ok, hlen]
  have := rangeLoop_ok (fun i => l.attributeDistribution i)
    (fun (i : Nat) => DD.ofList (colVals l i)) ts.length (by
      intro i hi
      exact attributeDistribution_col hne hc hi) []
  rw [this]; rfl

theorem valueTable_col (l : IList F) (i : Nat) :
    IsValueTable l i (DD.ofList (colVals l i)).getItems := by
  have hc := DD.counts_ofList (colVals l i)
  refine ⟨hc.sorted, ?_⟩
  intro v
  rw [hc.mem_items, colVals, List.mem_filterMap]
  constructor
  · rintro ⟨x, hx, e⟩
    refine ⟨x, hx, ?_⟩
    cases h : x.attrs[i]? with
    | none => rw [h] at e; simp at e
    | some a => rw [h] at e; cases a <;> simp_all [discVal?]
  · rintro ⟨x, hx, e⟩
    exact ⟨x, hx, by simp [e, discVal?]⟩

theorem flatten_filterMap {α β γ : Type} (g : α → Option β) (f : α → List γ) (k : β → List γ)
    (ps : List α) (h : ∀ p ∈ ps, f p = match g p with | some c => k c | none => []) :
    (ps.map f).flatten = ((ps.filterMap g).map k).flatten := by
  induction ps with
  | nil => rfl
  | cons p ps ih =>
    have h1 := h p (by simp)
    have h2 := ih (fun q hq => h q (by simp [hq]))
    cases hg : g p with
    | none => rw [List.filterMap_cons_none hg]; simp [h1, hg, h2]
    | some c => rw [List.filterMap_cons_some hg]; simp [h1, hg, h2]

theorem zip_range_map {α β : Type} (D : Nat → α) (as : List β) :
    ((List.range as.length).map D).zip as = as.zipIdx.map (fun p => (D p.2, p.1)) := by
  apply List.ext_getElem?
  intro i
  rw [List.getElem?_map, List.getElem?_zipIdx]
  simp only [List.zip, List.getElem?_zipWith, List.getElem?_map]
  by_cases hi : i < as.length
  · simp [hi]
  · simp [hi]

/-- the position of a value that occurs -/
theorem getIndex_table {l : IList F} {x : Inst F} (hx : x ∈ l) {i : Nat} {v : String}
    (h : x.attrs[i]? = some (.discrete v)) :
    ∃ k : Nat, (DD.ofList (colVals l i)).getIndex v = k ∧
      (DD.ofList (colVals l i)).getItems[k]? = some v ∧
      ∀ (j : Nat), (DD.ofList (colVals l i)).getItems[j]? = some v → j = k := by
  have ht := valueTable_col l i
  have hm : v ∈ (DD.ofList (colVals l i)).getItems := (ht.mem_iff v).2 ⟨x, hx, h⟩
  refine ⟨(DD.ofList (colVals l i)).getItems.idxOf v, ?_, ?_, ?_⟩
  · unfold DD.getIndex; simp [hm]
  · rw [List.getElem?_eq_getElem (List.idxOf_lt_length_iff.2 hm)]
    simp
  · intro j hj
    have hnd : (DD.ofList (colVals l i)).getItems.Nodup := ht.sorted.imp (fun h => ne_of_lt h)
    obtain ⟨hlt, e⟩ := List.getElem?_eq_some_iff.1 hj
    subst e
    exact (hnd.idxOf_getElem j hlt).symm

/-- what a discrete filter does to a data set, for any encoding of a value -/
theorem laryFilter_ok (enc : DD → Attr F → List (Attr F)) (ts : DD → List AttrType)
    (block : List String → String → List (Attr F) → Prop) (h : Heap F) (ds : RefSet)
    (l : IList F) (hp : PointTo h ds.refs l) (hne : l ≠ []) (hnd : ds.refs.Nodup)
    (hc : ∀ x ∈ l, typesOf x = ds.definition.types)
    (henc : ∀ x ∈ l, ∀ (i : Nat) v, x.attrs[i]? = some (.discrete v) →
      block (DD.ofList (colVals l i)).getItems v
        (enc (DD.ofList (colVals l i)) (.discrete v)))
    (hdef : ∃ r, laryConvertDefinition ts ((List.range ds.definition.types.length).map (fun (i : Nat) => DD.ofList (colVals l i))) ds = .ok r) :
    ∃ h', laryFilter enc ts h ds = .ok (h', ds) ∧
      ChangedAt (ReplacesDiscrete block l) ds.refs h h' := by
  set n := ds.definition.types.length with hn
  set dists := (List.range n).map (fun (i : Nat) => DD.ofList (colVals l i)) with hdists
  have hlen : ∀ x ∈ l, dists.length = x.attrs.length := by
    intro x hx
    have := congrArg List.length (hc x hx)
    simp [typesOf] at this
    simp [hdists, hn, this]
  obtain ⟨h', e, hch⟩ := convertAll_ok (laryConvert enc dists) ds.refs h hnd (by
    intro r hr
    obtain ⟨x, hx, e⟩ := hp.exists r hr
    exact ⟨x, _, e, laryConvert_ok enc dists x (hlen x hx)⟩)
  have hds : laryConvertDefinition ts dists ds = .ok ds := by
    obtain ⟨r, er⟩ := hdef
    rw [er]
    unfold laryConvertDefinition removeDiscreteTypes at er
    simp only [bind_ok_iff] at er
    obtain ⟨_, _, _, _, er⟩ := er
    exact er ▸ rfl
  refine ⟨h', ?_, hch.mono ?_⟩
  · unfold laryFilter
    rw [deref_ok hp]
    simp only [res_bind_ok]
    rw [allAttributesDistribution_col hne hc]
    simp only [res_bind_ok]
    unfold convert
    rw [e]
    simp only [res_bind_ok]
    rw [hds]; rfl
  · intro r hr x y hx hy
    have hxl := hp.mem r hr x hx
    rw [laryConvert_ok enc dists x (hlen x hxl)] at hy
    have hy' := (Except.ok.inj hy).symm
    subst hy'
    have hxn : n = x.attrs.length := by rw [← hlen x hxl]; simp [hdists]
    have hz : dists.zip x.attrs =
        x.attrs.zipIdx.map (fun p => (DD.ofList (colVals l p.2), p.1)) := by
      rw [hdists, hxn, zip_range_map]
    have hat : ∀ p ∈ x.attrs.zipIdx, x.attrs[p.2]? = some p.1 := by
      intro p hp
      have := List.mem_zipIdx_iff_getElem?.1 hp
      simpa using this
    have hemp : ∀ p ∈ x.attrs.zipIdx,
        (DD.ofList (colVals l p.2)).isEmpty = decide (typeOf p.1 ≠ .discrete) := by
      intro p hp
      rw [isEmpty_ofList]
      have h1 := typeOf_at hc hxl p.2
      rw [hat p hp] at h1
      by_cases hd : typeOf p.1 = .discrete
      · simp only [hd, ne_eq, not_true_eq_false, decide_false]
        obtain ⟨v, _, e2⟩ := colVals_discrete hc (i := p.2) (by rw [← h1]; simp [hd])
        rw [e2]
        cases l with
        | nil => exact absurd rfl hne
        | cons => rfl
      · rw [colVals_other hc (by rw [← h1]; simpa using hd)]
        simp [hd]
    refine ⟨rfl, rfl, (discreteCells x).map (fun c => enc (DD.ofList (colVals l c.1)) (.discrete c.2)),
      ?_, ?_⟩
    · simp only
      congr 1
      · rw [hz, List.filter_map, List.map_map, otherAttrs]
        have : x.attrs.zipIdx.filter ((fun p : DD × Attr F => p.1.isEmpty) ∘
            (fun p => (DD.ofList (colVals l p.2), p.1))) =
            x.attrs.zipIdx.filter ((fun a => decide (typeOf a ≠ .discrete)) ∘ Prod.fst) := by
          apply List.filter_congr
          intro p hp
          simp only [Function.comp_apply]
          exact hemp p hp
        rw [this]
        have h2 := List.filter_map (p := fun a => decide (typeOf a ≠ .discrete))
          (f := Prod.fst) (l := x.attrs.zipIdx)
        rw [List.zipIdx_map_fst] at h2
        rw [h2]
        rfl
      · rw [hz, List.map_map]
        unfold discreteCells
        apply flatten_filterMap
        intro p hp
        simp only [Function.comp_apply]
        rw [hemp p hp]
        obtain ⟨a, i⟩ := p
        cases a <;> simp [typeOf]
    · rw [List.forall₂_map_right_iff, List.forall₂_same]
      intro c hcm
      unfold discreteCells at hcm
      rw [List.mem_filterMap] at hcm
      obtain ⟨⟨a, i⟩, hp, e⟩ := hcm
      have h3 := hat _ hp
      cases a <;> simp at e
      subst e
      exact ⟨_, valueTable_col l i, henc x hxl i _ h3⟩

/-! ## the data definition -/

theorem addTypes_ok (ts : DD → List AttrType) (dists : List DD) : ∀ m ≤ dists.length, ∀ dd,
    ∃ r, (List.range m).foldlM (addTypesStep ts dists) dd = .ok r := by
  intro m
  induction m with
  | zero => intro _ dd; exact ⟨dd, rfl⟩
  | succ m ih =>
    intro hm dd
    obtain ⟨r, e⟩ := ih (by omega) dd
    rw [List.range_succ, foldlM_append', e]
    simp only [res_bind_ok, List.foldlM_cons, List.foldlM_nil]
    unfold addTypesStep
    rw [atR_ok_of_lt (show m < dists.length by omega)]
    simp only [res_bind_ok]
    split <;> exact ⟨_, rfl⟩

theorem removeTypes_ok (dists : List DD) (dd : DataDef) (hn : dists.length = dd.types.length) :
    ∀ m ≤ dists.length, ∃ r, (List.range m).foldlM (removeTypeStep dists) (dd, 0) = .ok r ∧
      r.1.types.length = r.2 + (dists.length - m) := by
  intro m
  induction m with
  | zero => intro _; exact ⟨_, rfl, by simp [hn]⟩
  | succ m ih =>
    intro hm
    obtain ⟨r, e, hr⟩ := ih (by omega)
    rw [List.range_succ, foldlM_append', e]
    simp only [res_bind_ok, List.foldlM_cons, List.foldlM_nil]
    unfold removeTypeStep
    rw [atR_ok_of_lt (show m < dists.length by omega)]
    simp only [res_bind_ok]
    split
    · exact ⟨_, rfl, by simp; omega⟩
    · unfold DataDef.removeAttribute
      rw [if_pos (by omega)]
      refine ⟨_, rfl, ?_⟩
      simp only
      rw [List.length_eraseIdx]
      split <;> omega

theorem convertDefinition_ok (ts : DD → List AttrType) (dists : List DD) (ds : RefSet)
    (hn : dists.length = ds.definition.types.length) :
    ∃ r, laryConvertDefinition ts dists ds = .ok r := by
  unfold laryConvertDefinition removeDiscreteTypes DataDef.attributeCount
  rw [← hn]
  obtain ⟨r, e⟩ := addTypes_ok ts dists _ le_rfl ds.definition
  obtain ⟨r', e', _⟩ := removeTypes_ok dists ds.definition hn _ le_rfl
  dsimp only
  rw [e]
  simp only [res_bind_ok]
  rw [e']
  exact ⟨_, rfl⟩

theorem toStr_discrete (showD : F → String) {v : String} (h : v ≠ ",") :
    (Attr.discrete v : Attr F).toStr showD = v := by
  simp [Attr.toStr, h]

/-! ## C94–C96 -/

/-- what the statements about the discrete filters assume of a data set: the pointers refer to
`l`, no object occurs twice, there is data, it fits the definition and no value is a comma -/
structure Filterable (h : Heap F) (ds : RefSet) (l : IList F) : Prop where
  points : PointTo h ds.refs l
  distinct : ds.refs.Nodup
  nonempty : l ≠ []
  types : ∀ x ∈ l, typesOf x = ds.definition.types
  noComma : ∀ x ∈ l, Attr.discrete "," ∉ x.attrs

theorem Filterable.ne {h : Heap F} {ds : RefSet} {l : IList F} (hf : Filterable h ds l)
    {x : Inst F} (hx : x ∈ l) {i : Nat} {v : String} (hv : x.attrs[i]? = some (.discrete v)) :
    v ≠ "," := by
  rintro rfl
  exact hf.noComma x hx (List.mem_of_getElem? hv)

theorem block_of_index {α : Type} {vs : List String} {v : String} {k : Nat}
    (hk : vs[k]? = some v) (hu : ∀ (j : Nat), vs[j]? = some v → j = k) (f : Bool → α) :
    ((List.range vs.length).map (fun (j : Nat) => if (j : Int) ≠ (k : Int) then f false else f true)).length =
      vs.length ∧ ∀ (j : Nat) u, vs[j]? = some u →
      ((List.range vs.length).map (fun (j : Nat) => if (j : Int) ≠ (k : Int) then f false else f true))[j]? =
        some (f (decide (u = v))) := by
  refine ⟨by simp, ?_⟩
  intro j u hj
  have hlt : j < vs.length := (List.getElem?_eq_some_iff.1 hj).1
  rw [List.getElem?_map, List.getElem?_range hlt]
  simp only [Option.map_some, Option.some.injEq]
  by_cases huv : u = v
  · subst huv
    rw [hu j hj]; simp
  · have : (j : Int) ≠ (k : Int) := by
      intro e
      have : j = k := by exact_mod_cast e
      subst this
      rw [hk] at hj
      exact huv (Option.some.inj hj).symm
    simp [this, huv]

theorem size_eq (d : DD) : d.size = d.getItems.length := by
  simp [DD.size, DD.getItems, OMap.keys]

/-- **C94** (partial: values other than the text `","`, no object listed twice).
`DiscreteToContinuous` replaces every discrete attribute by the one-hot vector of its value
over the sorted values of the attribute in the data, appended in attribute order after the
remaining attributes; nothing else in memory changes. -/
theorem C94_partial (showD : F → String) (h : Heap F) (ds : RefSet) (l : IList F)
    (hf : Filterable h ds l) :
    ∃ h', discreteToContinuous showD h ds = .ok (h', ds) ∧
      ChangedAt (ReplacesDiscrete OneHotBlock l) ds.refs h h' := by
  unfold discreteToContinuous
  apply laryFilter_ok _ _ _ h ds l hf.points hf.nonempty hf.distinct hf.types
  · intro x hx i v hv
    obtain ⟨k, h1, h2, h3⟩ := getIndex_table hx hv
    have := block_of_index h2 h3 (fun b => (.continuous (if b then Dbl.one else Dbl.zero) : Attr F))
    unfold encContinuous
    rw [toStr_discrete showD (hf.ne hx hv)]
    simp only [h1, size_eq]
    simpa [OneHotBlock] using this
  · exact convertDefinition_ok _ _ _ (by simp)

/-- **C95** (partial, as C94). `LaryToBinary` replaces every discrete attribute by one truth
value per value of the attribute, true for exactly the value of the instance. -/
theorem C95_partial (showD : F → String) (h : Heap F) (ds : RefSet) (l : IList F)
    (hf : Filterable h ds l) :
    ∃ h', laryToBinary showD h ds = .ok (h', ds) ∧
      ChangedAt (ReplacesDiscrete BinaryBlock l) ds.refs h h' := by
  unfold laryToBinary
  apply laryFilter_ok _ _ _ h ds l hf.points hf.nonempty hf.distinct hf.types
  · intro x hx i v hv
    obtain ⟨k, h1, h2, h3⟩ := getIndex_table hx hv
    have := block_of_index h2 h3 (fun b => (.binary (if b then "true" else "false") : Attr F))
    unfold encBinary
    rw [toStr_discrete showD (hf.ne hx hv)]
    simp only [h1, size_eq]
    simpa [BinaryBlock, Attr.ofBool] using this
  · exact convertDefinition_ok _ _ _ (by simp)

/-- **C96** (partial, as C94). `DiscreteToIndexed` replaces every discrete attribute by an
indexed one with the position of the value among the sorted values and their number; the
position is in range. -/
theorem C96_partial (showD : F → String) (h : Heap F) (ds : RefSet) (l : IList F)
    (hf : Filterable h ds l) :
    ∃ h', discreteToIndexed showD h ds = .ok (h', ds) ∧
      ChangedAt (ReplacesDiscrete IndexBlock l) ds.refs h h' := by
  unfold discreteToIndexed
  apply laryFilter_ok _ _ _ h ds l hf.points hf.nonempty hf.distinct hf.types
  · intro x hx i v hv
    obtain ⟨k, h1, h2, h3⟩ := getIndex_table hx hv
    unfold encIndexed
    rw [toStr_discrete showD (hf.ne hx hv)]
    simp only [h1, size_eq]
    exact ⟨k, (List.getElem?_eq_some_iff.1 h2).1, h2, rfl⟩
  · exact convertDefinition_ok _ _ _ (by simp)

/-- the blocks contain no plain discrete attribute -/
theorem oneHot_other {vs : List String} {v : String} {b : List (Attr F)}
    (h : OneHotBlock vs v b) : ∀ a ∈ b, typeOf a = .continuous := by
  intro a ha
  obtain ⟨j, hj⟩ := List.mem_iff_getElem?.1 ha
  have hlt : j < vs.length := by rw [← h.1]; exact (List.getElem?_eq_some_iff.1 hj).1
  have := h.2 j _ (List.getElem?_eq_getElem hlt)
  rw [hj] at this
  cases this; rfl

theorem binary_other {vs : List String} {v : String} {b : List (Attr F)}
    (h : BinaryBlock vs v b) : ∀ a ∈ b, typeOf a = .binary := by
  intro a ha
  obtain ⟨j, hj⟩ := List.mem_iff_getElem?.1 ha
  have hlt : j < vs.length := by rw [← h.1]; exact (List.getElem?_eq_some_iff.1 hj).1
  have := h.2 j _ (List.getElem?_eq_getElem hlt)
  rw [hj] at this
  cases this; rfl

theorem index_other {vs : List String} {v : String} {b : List (Attr F)}
    (h : IndexBlock vs v b) : ∀ a ∈ b, typeOf a = .discreteIndexed := by
  obtain ⟨k, _, _, rfl⟩ := h
  intro a ha
  rw [List.mem_singleton] at ha
  subst ha; rfl

theorem replaced_other {block : List String → String → List (Attr F) → Prop} {l : IList F}
    {x y : Inst F} {t : AttrType} (ht : t ≠ .discrete) (hr : ReplacesDiscrete block l x y)
    (hb : ∀ vs v b, block vs v b → ∀ a ∈ b, typeOf a = t) :
    ∀ a ∈ y.attrs, typeOf a ≠ .discrete := by
  obtain ⟨bs, e, hf⟩ := hr.attrs
  rw [e]
  intro a ha
  rcases List.mem_append.1 ha with ha | ha
  · have := (List.mem_filter.1 ha).2
    simpa using this
  · obtain ⟨b, hbm, hab⟩ := List.mem_flatten.1 ha
    have : ∀ {cs : List (Nat × String)} {bs : List (List (Attr F))}, List.Forall₂ (fun (c : Nat × String) b =>
        ∃ vs, IsValueTable l c.1 vs ∧ block vs c.2 b) cs bs → ∀ b ∈ bs, ∃ vs v, block vs v b := by
      intro cs bs hf
      induction hf with
      | nil => simp
      | cons h1 _ ih =>
        intro b hb
        rcases List.mem_cons.1 hb with rfl | hb
        · obtain ⟨vs, _, h2⟩ := h1; exact ⟨vs, _, h2⟩
        · exact ih b hb
    obtain ⟨vs, v, h2⟩ := this hf b hbm
    rw [hb vs v b h2 a hab]; exact ht

/-- **C94–C96.** After a discrete filter no plain discrete attribute is left. -/
theorem C94_none_left (showD : F → String) (h : Heap F) (ds : RefSet) (l : IList F)
    (hf : Filterable h ds l) (filter : Heap F → RefSet → Res (Heap F × RefSet))
    (hfilter : filter = discreteToContinuous showD ∨ filter = laryToBinary showD ∨
      filter = discreteToIndexed showD) :
    ∃ h', filter h ds = .ok (h', ds) ∧
      ∀ r ∈ ds.refs, ∃ y, h'[r]? = some y ∧ ∀ a ∈ y.attrs, typeOf a ≠ .discrete := by
  rcases hfilter with rfl | rfl | rfl
  · obtain ⟨h', e, hc⟩ := C94_partial showD h ds l hf
    refine ⟨h', e, fun r hr => ?_⟩
    obtain ⟨x, _, ex⟩ := hf.points.exists r hr
    obtain ⟨y, ey, hR⟩ := hc.changed r hr x ex
    exact ⟨y, ey, replaced_other (t := .continuous) (by decide) hR (fun _ _ _ hb => oneHot_other hb)⟩
  · obtain ⟨h', e, hc⟩ := C95_partial showD h ds l hf
    refine ⟨h', e, fun r hr => ?_⟩
    obtain ⟨x, _, ex⟩ := hf.points.exists r hr
    obtain ⟨y, ey, hR⟩ := hc.changed r hr x ex
    exact ⟨y, ey, replaced_other (t := .binary) (by decide) hR (fun _ _ _ hb => binary_other hb)⟩
  · obtain ⟨h', e, hc⟩ := C96_partial showD h ds l hf
    refine ⟨h', e, fun r hr => ?_⟩
    obtain ⟨x, _, ex⟩ := hf.points.exists r hr
    obtain ⟨y, ey, hR⟩ := hc.changed r hr x ex
    exact ⟨y, ey, replaced_other (t := .discreteIndexed) (by decide) hR
      (fun _ _ _ hb => index_other hb)⟩

/-! ## C97 -/

theorem replaced_same {block : List String → String → List (Attr F) → Prop} {l : IList F}
    {x y : Inst F} (hr : ReplacesDiscrete block l x y)
    (hx : ∀ a ∈ x.attrs, typeOf a ≠ .discrete) : y.attrs = x.attrs := by
  obtain ⟨bs, e, hf⟩ := hr.attrs
  have h1 : discreteCells x = [] := by
    unfold discreteCells
    rw [List.filterMap_eq_nil_iff]
    rintro ⟨a, i⟩ hp
    have ha : a ∈ x.attrs := by
      have := List.mem_zipIdx_iff_getElem?.1 hp
      simp only at this
      exact List.mem_of_getElem? (by simpa using this)
    have := hx a ha
    cases a <;> simp_all [typeOf]
  rw [h1] at hf
  cases hf
  rw [e]
  simp only [List.flatten_nil, List.append_nil, otherAttrs, List.filter_eq_self]
  intro a ha
  simpa using hx a ha

/-- **C97** (partial; the full statement is refuted below). `convert()` never changes the data
definition, so definition and instances agree afterwards exactly when there was no discrete
attribute to replace. -/
theorem C97_partial (showD : F → String) (h : Heap F) (ds : RefSet) (l : IList F)
    (hf : Filterable h ds l) (filter : Heap F → RefSet → Res (Heap F × RefSet))
    (hfilter : filter = discreteToContinuous showD ∨ filter = laryToBinary showD ∨
      filter = discreteToIndexed showD) :
    ∃ h' ds', filter h ds = .ok (h', ds') ∧ ds' = ds ∧
      ((∀ r ∈ ds'.refs, ∀ y, h'[r]? = some y → typesOf y = ds'.definition.types) ↔
        .discrete ∉ ds.definition.types) := by
  obtain ⟨h', e, hnone⟩ := C94_none_left showD h ds l hf filter hfilter
  refine ⟨h', ds, e, rfl, ?_, ?_⟩
  · intro hall hmem
    obtain ⟨r, hr⟩ : ∃ r, r ∈ ds.refs := by
      have := hf.points.length_eq
      cases hr : ds.refs with
      | nil =>
        rw [hr] at this
        exact absurd (List.length_eq_zero_iff.1 this.symm) hf.nonempty
      | cons r rs => exact ⟨r, by simp⟩
    obtain ⟨y, ey, hy⟩ := hnone r hr
    rw [← hall r hr y ey, typesOf, List.mem_map] at hmem
    obtain ⟨a, ha, hta⟩ := hmem
    exact hy a ha hta
  · intro hno r hr y ey
    obtain ⟨x, hx, ex⟩ := hf.points.exists r hr
    have hxd : ∀ a ∈ x.attrs, typeOf a ≠ .discrete := by
      intro a ha hta
      apply hno
      rw [← hf.types x hx, typesOf, List.mem_map]
      exact ⟨a, ha, hta⟩
    have key : ∀ block : List String → String → List (Attr F) → Prop,
        ChangedAt (ReplacesDiscrete block l) ds.refs h h' → typesOf y = ds.definition.types := by
      intro block hc
      obtain ⟨y', ey', hR⟩ := hc.changed r hr x ex
      rw [ey] at ey'; cases ey'
      rw [← hf.types x hx, typesOf, replaced_same hR hxd, typesOf]
    rcases hfilter with rfl | rfl | rfl
    · obtain ⟨h2, e2, hc⟩ := C94_partial showD h ds l hf
      rw [e2] at e; cases e; exact key _ hc
    · obtain ⟨h2, e2, hc⟩ := C95_partial showD h ds l hf
      rw [e2] at e; cases e; exact key _ hc
    · obtain ⟨h2, e2, hc⟩ := C96_partial showD h ds l hf
      rw [e2] at e; cases e; exact key _ hc

end

/-! ## Concrete data -/

section
open XR

/-- two instances, a colour and a number -/
def exFilterHeap : Heap XR :=
  [⟨"a", [.discrete "red", .continuous (.fin 1)], none⟩,
   ⟨"b", [.discrete "blue", .continuous (.fin 2)], none⟩]

def exFilterSet : RefSet := ⟨[0, 1], ⟨[.discrete, .continuous], []⟩⟩

example : Filterable exFilterHeap exFilterSet exFilterHeap :=
  ⟨List.Forall₂.cons (R := fun r x => exFilterHeap[r]? = some x) rfl
    (List.Forall₂.cons (R := fun r x => exFilterHeap[r]? = some x) rfl List.Forall₂.nil),
   by decide, by decide, by decide, by decide⟩

example : discreteToContinuous (fun _ => "") exFilterHeap exFilterSet =
    .ok ([⟨"a", [.continuous (.fin 1), .continuous (.fin 0), .continuous (.fin 1)], none⟩,
          ⟨"b", [.continuous (.fin 2), .continuous (.fin 1), .continuous (.fin 0)], none⟩],
      exFilterSet) := by decide +kernel

example : discreteToIndexed (fun _ => "") exFilterHeap exFilterSet =
    .ok ([⟨"a", [.continuous (.fin 1), .indexed "red" 1 2], none⟩,
          ⟨"b", [.continuous (.fin 2), .indexed "blue" 0 2], none⟩],
      exFilterSet) := by decide +kernel

/-- **C97 fails of the code**: after `DiscreteToContinuous(ds).convert()` the definition still
says discrete, continuous while the instances have three continuous attributes. -/
theorem C97_refuted : ∃ (h : Heap XR) (ds : RefSet) (h' : Heap XR) (ds' : RefSet),
    (∀ r ∈ ds.refs, ∀ x ∈ h[r]?, typesOf x = ds.definition.types) ∧
    discreteToContinuous (fun _ => "") h ds = .ok (h', ds') ∧
    ∃ r ∈ ds'.refs, ∃ y ∈ h'[r]?, typesOf y ≠ ds'.definition.types :=
  ⟨exFilterHeap, exFilterSet,
    [⟨"a", [.continuous (.fin 1), .continuous (.fin 0), .continuous (.fin 1)], none⟩,
     ⟨"b", [.continuous (.fin 2), .continuous (.fin 1), .continuous (.fin 0)], none⟩],
    exFilterSet, by decide, by decide +kernel, 0, by decide, _, rfl, by decide⟩

/-- a data set in which a value is a comma -/
def exCommaHeap : Heap XR := [⟨"a", [.discrete ","], none⟩, ⟨"b", [.discrete "."], none⟩]

def exCommaSet : RefSet := ⟨[0, 1], ⟨[.discrete], []⟩⟩

/-- **C94, C95, C96 fail of the code for the value `","`**, which is looked up as `"comma"`: the
one-hot vector is zero everywhere, no truth value is true, and the index is -1, out of range. -/
theorem C94_comma_refuted :
    discreteToContinuous (fun _ => "") exCommaHeap exCommaSet =
      .ok ([⟨"a", [.continuous (.fin 0), .continuous (.fin 0)], none⟩,
            ⟨"b", [.continuous (.fin 0), .continuous (.fin 1)], none⟩], exCommaSet) ∧
    laryToBinary (fun _ => "") exCommaHeap exCommaSet =
      .ok ([⟨"a", [.binary "false", .binary "false"], none⟩,
            ⟨"b", [.binary "false", .binary "true"], none⟩], exCommaSet) ∧
    discreteToIndexed (fun _ => "") exCommaHeap exCommaSet =
      .ok ([⟨"a", [.indexed "comma" (-1) 2], none⟩,
            ⟨"b", [.indexed "." 1 2], none⟩], exCommaSet) := by
  refine ⟨?_, ?_, ?_⟩ <;> decide +kernel

/-- **C94 fails of the code for a data set listing an object twice** (a bootstrap sample): the
object is converted twice, here ending in an exception. -/
theorem C94_repeated_refuted :
    discreteToContinuous (fun _ => "") exFilterHeap ⟨[0, 0, 1], ⟨[.discrete, .continuous], []⟩⟩ =
      .error (.throw "out_of_range") := by decide +kernel

end
end Verif
