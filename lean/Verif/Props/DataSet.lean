import Verif.Spec.DataSet
import Verif.Props.InstanceList
import Verif.Props.Instance
import Verif.Props.Partition
import Verif.Model.DblXR

/-! # Properties C26–C32: data definitions, data sets, data files -/

set_option linter.unusedSectionVars false

namespace Verif
open Dbl

section
variable {F : Type} [Dbl F]

theorem kindOf_eq (a : Attr F) : kindOf a = some (typeOf a) := by
  cases a <;> rfl

theorem drop_eq_getElem? {α : Type} (l : List α) (i : Nat) :
    l.drop i = match l[i]? with | some a => a :: l.drop (i + 1) | none => [] := by
  cases h : l[i]? with
  | none => simpa using h
  | some a =>
    obtain ⟨hi, rfl⟩ := List.getElem?_eq_some_iff.1 h
    simp

theorem checkFrom_spec (d : DataDef) : ∀ (as : List (Attr F)) (i : Nat),
    (DataSet.checkFrom d as i = .ok true ↔ as.map typeOf <+: d.types.drop i) ∧
    (∀ e, DataSet.checkFrom d as i = .error e →
      e = .throw "out_of_range" ∧ d.types.drop i <+: as.map typeOf ∧
        (d.types.drop i).length < as.length) := by
  intro as
  induction as with
  | nil => intro i; simp [DataSet.checkFrom]
  | cons a as ih =>
    intro i
    simp only [DataSet.checkFrom, kindOf_eq, DataDef.getAttributeType, atR]
    rw [drop_eq_getElem? d.types i]
    cases h : d.types[i]? with
    | none => simp
    | some t =>
      simp only [res_bind_ok]
      by_cases ht : t = typeOf a
      · subst ht
        obtain ⟨h1, h2⟩ := ih (i + 1)
        simp only [ne_eq, not_true_eq_false, if_false, List.map_cons, List.cons_prefix_cons, true_and,
          List.length_cons, Nat.add_lt_add_iff_right]
        exact ⟨h1, h2⟩
      · simp only [ne_eq, ht, not_false_eq_true, if_true, res_pure, List.map_cons,
          List.cons_prefix_cons]
        constructor
        · constructor
          · intro h; cases h
          · intro h; exact absurd h.1.symm ht
        · intro e h; cases h

/-- What `addInstance` does on a data set with a non-empty definition. -/
theorem addInstance_cases (ds : DataSet F) (hd : ds.definition.types ≠ []) (x : Inst F) :
    (typesOf x <+: ds.definition.types ∧
      ds.addInstance x = .ok { ds with instances := ds.instances ++ [x] }) ∨
    (¬ typesOf x <+: ds.definition.types ∧ ds.addInstance x = .ok ds) ∨
    (ds.definition.types <+: typesOf x ∧ ds.definition.types.length < x.attrs.length ∧
      ds.addInstance x = .error (.throw "out_of_range")) := by
  have h0 : ds.definition.attributeCount ≠ 0 := by
    simpa [DataDef.attributeCount] using hd
  obtain ⟨h1, h2⟩ := checkFrom_spec ds.definition x.attrs 0
  simp only [List.drop_zero] at h1 h2
  unfold DataSet.addInstance DataSet.checkDefinition
  rw [if_neg h0]
  cases hc : DataSet.checkFrom ds.definition x.attrs 0 with
  | error e =>
    obtain ⟨rfl, h3, h4⟩ := h2 e hc
    right; right
    exact ⟨h3, h4, rfl⟩
  | ok b =>
    cases b with
    | true => left; exact ⟨h1.1 hc, rfl⟩
    | false =>
      right; left
      refine ⟨?_, rfl⟩
      intro h
      rw [h1.2 h] at hc
      cases hc

theorem setDefinition_types (ds : DataSet F) (x : Inst F) :
    (ds.setDefinition x).definition.types = typesOf x ∧ (ds.setDefinition x).instances = ds.instances := by
  refine ⟨?_, rfl⟩
  unfold DataSet.setDefinition DataDef.ofTypes typesOf
  simp only [kindOf_eq]
  have : ∀ (as : List (Attr F)) (r : List AttrType),
      as.foldl (fun ts a => ts ++ [typeOf a]) r = r ++ as.map typeOf := by
    intro as
    induction as with
    | nil => simp
    | cons a as ih => intro r; simp [ih]
  simpa using this x.attrs []

/-- What `addInstance` does while the definition is still empty. -/
theorem addInstance_empty (ds : DataSet F) (hd : ds.definition.types = []) (x : Inst F) :
    ∃ ds', ds.addInstance x = .ok ds' ∧ ds'.instances = ds.instances ++ [x] ∧
      ds'.definition.types = typesOf x := by
  obtain ⟨h1, h2⟩ := setDefinition_types ds x
  refine ⟨{ ds.setDefinition x with instances := (ds.setDefinition x).instances.add x }, ?_, ?_, h1⟩
  · unfold DataSet.addInstance
    rw [if_pos (by simp [DataDef.attributeCount, hd])]
  · simp [IList.add, h2]

/-! ## C26 -/

/-- invariant of a history of additions -/
theorem addInstance_prefix (ds : DataSet F)
    (hinv : ∀ x ∈ ds.instances, typesOf x <+: ds.definition.types) (x : Inst F) (ds' : DataSet F)
    (h : ds.addInstance x = .ok ds') :
    ∀ y ∈ ds'.instances, typesOf y <+: ds'.definition.types := by
  by_cases hd : ds.definition.types = []
  · obtain ⟨ds2, e, h1, h2⟩ := addInstance_empty ds hd x
    rw [h] at e; cases e
    intro y hy
    rw [h1, List.mem_append] at hy
    rw [h2]
    rcases hy with hy | hy
    · have := hinv y hy
      rw [hd, List.prefix_nil] at this
      rw [this]; exact List.nil_prefix
    · simp only [List.mem_singleton] at hy; subst hy; exact List.prefix_rfl
  · rcases addInstance_cases ds hd x with ⟨h1, e⟩ | ⟨_, e⟩ | ⟨_, _, e⟩
    · rw [h] at e; cases e
      intro y hy
      simp only [List.mem_append, List.mem_singleton] at hy
      rcases hy with hy | rfl
      · exact hinv y hy
      · exact h1
    · rw [h] at e; cases e; exact hinv
    · rw [h] at e; cases e

theorem addInstanceList_prefix : ∀ (l : List (Inst F)) (ds ds' : DataSet F),
    (∀ x ∈ ds.instances, typesOf x <+: ds.definition.types) → ds.addInstanceList l = .ok ds' →
    ∀ y ∈ ds'.instances, typesOf y <+: ds'.definition.types := by
  intro l
  induction l with
  | nil => intro ds ds' hinv h; cases h; exact hinv
  | cons x l ih =>
    intro ds ds' hinv h
    simp only [DataSet.addInstanceList, List.foldlM_cons] at h
    cases h1 : ds.addInstance x with
    | error e => rw [h1] at h; cases h
    | ok ds1 =>
      rw [h1] at h
      exact ih ds1 ds' (addInstance_prefix ds hinv x ds1 h1) h

/-- **C26 refuted.** An instance with fewer attributes than the definition is admitted. -/
theorem C26_refuted : ¬ ∀ (history : List (List (Inst XR))) (ds : DataSet XR),
    history.foldlM (fun ds l => ds.addInstanceList l) DataSet.new = .ok ds →
    ∀ x ∈ ds.instances, typesOf x = ds.definition.types := by
  intro h
  have := h [[⟨"a", [.discrete "u", .discrete "v"], none⟩, ⟨"b", [.discrete "u"], none⟩]]
    ⟨[⟨"a", [.discrete "u", .discrete "v"], none⟩, ⟨"b", [.discrete "u"], none⟩],
     ⟨[.discrete, .discrete], []⟩⟩ (by decide) ⟨"b", [.discrete "u"], none⟩ (by decide)
  exact absurd this (by decide)

/-- **C26 (partial).** After every history of additions each instance agrees with the
definition on all the attributes it has; it may have fewer, never more, and it conforms
exactly when its attribute count is right. -/
theorem C26_partial (history : List (List (Inst F))) (ds : DataSet F)
    (h : history.foldlM (fun ds l => ds.addInstanceList l) DataSet.new = .ok ds) :
    ∀ x ∈ ds.instances, typesOf x <+: ds.definition.types ∧
      (x.attrs.length = ds.definition.types.length → typesOf x = ds.definition.types) := by
  have key : ∀ (hist : List (List (Inst F))) (d0 d1 : DataSet F),
      (∀ x ∈ d0.instances, typesOf x <+: d0.definition.types) →
      hist.foldlM (fun ds l => ds.addInstanceList l) d0 = .ok d1 →
      ∀ x ∈ d1.instances, typesOf x <+: d1.definition.types := by
    intro hist
    induction hist with
    | nil => intro d0 d1 hinv h; cases h; exact hinv
    | cons l hist ih =>
      intro d0 d1 hinv h
      simp only [List.foldlM_cons] at h
      cases h1 : d0.addInstanceList l with
      | error e => rw [h1] at h; cases h
      | ok d2 =>
        rw [h1] at h
        exact ih d2 d1 (addInstanceList_prefix l d0 d2 hinv h1) h
  intro x hx
  have hp := key history DataSet.new ds (by intro x hx; cases hx) h x hx
  refine ⟨hp, fun hl => hp.eq_of_length ?_⟩
  simpa [typesOf] using hl

example : (DataSet.new : DataSet XR).addInstanceList
    [⟨"a", [.discrete "u", .continuous (.fin 1)], none⟩,
     ⟨"b", [.continuous (.fin 1), .discrete "u"], none⟩,
     ⟨"c", [.discrete "w", .continuous (.fin 2)], none⟩] =
    .ok ⟨[⟨"a", [.discrete "u", .continuous (.fin 1)], none⟩,
          ⟨"c", [.discrete "w", .continuous (.fin 2)], none⟩],
         ⟨[.discrete, .continuous], []⟩⟩ := by decide +kernel

/-! ## C27 -/

/-- **C27.** With a non-empty definition, one addition either appends the instance or leaves
the data set as it is (or throws); it appends whenever the types are those of the
definition, and rejects or throws whenever they are not a leading part of it. -/
theorem C27_step (ds : DataSet F) (hd : ds.definition.types ≠ []) (x : Inst F) :
    (typesOf x = ds.definition.types →
      ds.addInstance x = .ok ⟨ds.instances ++ [x], ds.definition⟩) ∧
    (∀ ds', ds.addInstance x = .ok ds' →
      ds' = ds ∨ ds' = ⟨ds.instances ++ [x], ds.definition⟩) ∧
    (∀ ds', ds.addInstance x = .ok ds' → ¬ typesOf x <+: ds.definition.types → ds' = ds) := by
  rcases addInstance_cases ds hd x with ⟨h1, e⟩ | ⟨h1, e⟩ | ⟨h1, h2, e⟩
  · rw [e]
    refine ⟨fun _ => rfl, ?_, ?_⟩
    · intro ds' h; cases h; right; rfl
    · intro ds' _ hn; exact absurd h1 hn
  · rw [e]
    refine ⟨fun h => absurd (h ▸ List.prefix_rfl) h1, ?_, ?_⟩
    · intro ds' h; cases h; left; rfl
    · intro ds' h _; cases h; rfl
  · rw [e]
    refine ⟨?_, ?_, ?_⟩
    · intro h
      have := congrArg List.length h
      simp [typesOf] at this
      omega
    · intro ds' h; cases h
    · intro ds' h; cases h

/-- **C27.** Over a whole history the definition never changes and the instances are the old
ones followed by a selection, in order, of the new ones that contains every instance of the
definition's types. -/
theorem C27_history : ∀ (l : List (Inst F)) (ds ds' : DataSet F), ds.definition.types ≠ [] →
    ds.addInstanceList l = .ok ds' →
    ds'.definition = ds.definition ∧ ∃ added : List (Inst F), ds'.instances = ds.instances ++ added ∧
      added.Sublist l ∧
      l.filter (fun x => decide (typesOf x = ds.definition.types)) =
        added.filter (fun x => decide (typesOf x = ds.definition.types)) := by
  intro l
  induction l with
  | nil =>
    intro ds ds' _ h; cases h
    exact ⟨rfl, [], by simp, List.Sublist.refl _, rfl⟩
  | cons x l ih =>
    intro ds ds' hd h
    obtain ⟨s1, s2, _⟩ := C27_step ds hd x
    simp only [DataSet.addInstanceList, List.foldlM_cons] at h
    cases h1 : ds.addInstance x with
    | error e => rw [h1] at h; cases h
    | ok d1 =>
      rw [h1] at h
      by_cases ht : typesOf x = ds.definition.types
      · rw [s1 ht] at h1
        cases h1
        obtain ⟨e1, added, e2, e3, e4⟩ := ih ⟨ds.instances ++ [x], ds.definition⟩ ds' hd h
        refine ⟨e1, x :: added, by simpa using e2, e3.cons_cons x, ?_⟩
        rw [List.filter_cons_of_pos (by simpa using ht), List.filter_cons_of_pos (by simpa using ht), e4]
      · rcases s2 d1 h1 with rfl | rfl
        · obtain ⟨e1, added, e2, e3, e4⟩ := ih _ ds' hd h
          refine ⟨e1, added, e2, e3.cons x, ?_⟩
          rw [List.filter_cons_of_neg (by simpa using ht), e4]
        · obtain ⟨e1, added, e2, e3, e4⟩ := ih ⟨ds.instances ++ [x], ds.definition⟩ ds' hd h
          refine ⟨e1, x :: added, by simpa using e2, e3.cons_cons x, ?_⟩
          rw [List.filter_cons_of_neg (by simpa using ht), List.filter_cons_of_neg (by simpa using ht), e4]

/-- **C27.** The first instance with an attribute fixes the definition to its own types. -/
theorem C27_first (x : Inst F) : ∃ ds, (DataSet.new : DataSet F).addInstance x = .ok ds ∧
    ds.definition.types = typesOf x ∧ ds.instances = [x] := by
  obtain ⟨ds, e, h1, h2⟩ := addInstance_empty (DataSet.new : DataSet F) rfl x
  exact ⟨ds, e, h2, by simpa [DataSet.new] using h1⟩

example : (⟨[], ⟨[.discrete], []⟩⟩ : DataSet XR).definition.types ≠ [] ∧
    (⟨[], ⟨[.discrete], []⟩⟩ : DataSet XR).addInstance ⟨"a", [.continuous (.fin 1)], none⟩ =
      .ok ⟨[], ⟨[.discrete], []⟩⟩ := by decide +kernel

/-! ## C28 -/

theorem countLoop (p : AttrType → Prop) [DecidablePred p] : ∀ (ts : List AttrType) (c : Nat),
    ts.foldl (fun c t => if p t then c + 1 else c) c = c + ts.countP (fun t => decide (p t)) := by
  intro ts
  induction ts with
  | nil => simp
  | cons t ts ih =>
    intro c
    simp only [List.foldl_cons, ih, List.countP_cons]
    by_cases h : p t <;> simp [h]; omega

/-- **C28.** The reported counts are the numbers of attributes of each kind. -/
theorem C28_counts (d : DataDef) :
    d.discreteAttributeCount = d.types.count .discrete + d.types.count .binary ∧
    d.continuousAttributeCount = d.types.count .continuous ∧
    d.discreteAttributeCount + d.continuousAttributeCount + d.types.count .discreteIndexed =
      d.attributeCount := by
  have h1 : d.discreteAttributeCount = d.types.count .discrete + d.types.count .binary := by
    rw [DataDef.discreteAttributeCount, countLoop (fun t => t = .discrete ∨ t = .binary)]
    induction d.types with
    | nil => rfl
    | cons t ts ih =>
      simp only [List.countP_cons, List.count_cons] at ih ⊢
      cases t <;> simp at ih ⊢ <;> omega
  have h2 : d.continuousAttributeCount = d.types.count .continuous := by
    rw [DataDef.continuousAttributeCount, countLoop (fun t => t = .continuous)]
    simp [List.count, List.countP_eq_length_filter]
    congr
  refine ⟨h1, h2, ?_⟩
  rw [h1, h2, DataDef.attributeCount]
  induction d.types with
  | nil => rfl
  | cons t ts ih => cases t <;> simp at ih ⊢ <;> omega

example : (⟨[.discrete, .continuous, .binary, .discreteIndexed], []⟩ : DataDef).discreteAttributeCount
    = 2 := by decide

/-! ## C29 -/

theorem findFrom_eq (v : String) : ∀ (vs : List String) (i : Int),
    DataDef.findFrom v vs i = if v ∈ vs then i + (vs.idxOf v : Int) else -1 := by
  intro vs
  induction vs with
  | nil => intro i; simp [DataDef.findFrom]
  | cons a vs ih =>
    intro i
    simp only [DataDef.findFrom]
    by_cases h : a = v
    · subst h; simp
    · rw [if_neg h, ih, List.idxOf_cons_ne _ h]
      have : v ∈ a :: vs ↔ v ∈ vs := by
        simp only [List.mem_cons, or_iff_right_iff_imp]; intro e; exact absurd e.symm h
      by_cases hm : v ∈ vs
      · rw [if_pos hm, if_pos (this.2 hm)]; push_cast; ring
      · rw [if_neg hm, if_neg (fun h => hm (this.1 h))]

theorem idxOf_le_of_getElem? {α : Type} [DecidableEq α] {v : α} : ∀ {vs : List α} {j : Nat},
    vs[j]? = some v → vs.idxOf v ≤ j := by
  intro vs
  induction vs with
  | nil => intro j h; simp at h
  | cons a vs ih =>
    intro j h
    by_cases ha : a = v
    · subst ha; simp
    · rw [List.idxOf_cons_ne _ ha]
      cases j with
      | zero => simp at h; exact absurd h ha
      | succ j =>
        have := ih (j := j) (by simpa using h)
        omega

/-- **C29.** The value index is the first position of the value in the list, or -1. -/
theorem C29_value_index (d : DataDef) (i : Nat) (vs : List String) (hvs : d.values[i]? = some vs)
    (v : String) : ∃ k n, d.featureValueIndex i v = .ok k ∧ d.numberOfValues i = .ok n ∧
      n = vs.length ∧
      (v ∉ vs → k = -1) ∧ (v ∈ vs ↔ 0 ≤ k ∧ k < n) ∧
      (∀ j : Nat, k = j → vs[j]? = some v ∧ ∀ j' < j, vs[j']? ≠ some v) := by
  refine ⟨if v ∈ vs then (vs.idxOf v : Int) else -1, vs.length, ?_, ?_, rfl, ?_, ?_, ?_⟩
  · simp [DataDef.featureValueIndex, idxR, hvs, findFrom_eq]
  · simp [DataDef.numberOfValues, idxR, hvs]
  · intro h; simp [h]
  · by_cases h : v ∈ vs
    · simp [h, List.idxOf_lt_length_iff]
    · simp [h]
  · intro j hj
    by_cases h : v ∈ vs
    · rw [if_pos h] at hj
      have hj' : vs.idxOf v = j := by exact_mod_cast hj
      subst hj'
      refine ⟨?_, ?_⟩
      · rw [List.getElem?_eq_getElem (List.idxOf_lt_length_iff.2 h)]
        simp
      · intro j' hlt he
        have := idxOf_le_of_getElem? he
        omega
    · rw [if_neg h] at hj; omega

/-- **C29.** Outside the value lists (for example for every definition given by types alone)
the lookup is undefined behaviour. -/
theorem C29_no_value_list (d : DataDef) (i : Nat) (h : d.values.length ≤ i) (v : String) :
    d.featureValueIndex i v = .error (.ub "operator[]") ∧
    d.numberOfValues i = .error (.ub "operator[]") := by
  have : d.values[i]? = none := by simpa using h
  simp [DataDef.featureValueIndex, DataDef.numberOfValues, idxR, this]

/-- **C29.** A cell read with an indexed type is one-hot encoded with a single 1 exactly when
its value is known. -/
theorem C29_one_hot {F : Type} [Dbl F] (stod : String → Res F) (d : DataDef) (i : Nat)
    (vs : List String) (hvs : d.values[i]? = some vs) (ht : d.types[i]? = some .discreteIndexed)
    (c : String) : ∃ a, readCell stod d i c = .ok a ∧
      ∃ r, a.continuousAttributes = .ok r ∧ r.length = vs.length ∧
      ∀ j (hj : j < r.length), r[j] = if vs.idxOf c = j then (Dbl.one : F) else Dbl.zero := by
  obtain ⟨k, n, h1, h2, h3, h4, h5, h6⟩ := C29_value_index d i vs hvs c
  obtain ⟨r, r1, r2, _, r4⟩ := C01_one_hot (F := F) c k n (by omega)
  refine ⟨.indexed c k n, ?_, r, r1, by omega, ?_⟩
  · simp [readCell, DataDef.getAttributeType, atR, ht, h1, h2]
  · intro j hj
    rw [r4 j hj]
    have hj : j < vs.length := by omega
    by_cases hc : c ∈ vs
    · have hk := (h5.1 hc)
      obtain ⟨m, rfl⟩ := Int.eq_ofNat_of_zero_le hk.1
      obtain ⟨h7, h8⟩ := h6 m rfl
      have hm : vs.idxOf c = m := by
        have hlt : vs.idxOf c < vs.length := List.idxOf_lt_length_iff.2 hc
        rcases Nat.lt_trichotomy (vs.idxOf c) m with h | h | h
        · exact absurd (by rw [List.getElem?_eq_getElem hlt]; simp) (h8 _ h)
        · exact h
        · have := idxOf_le_of_getElem? h7
          omega
      rw [hm]
      by_cases hjm : m = j
      · simp [hjm]
      · have : ¬ ((j : Int) = (m : Int)) := by omega
        simp [hjm, this]
    · rw [h4 hc]
      have h9 : vs.idxOf c = vs.length := List.idxOf_eq_length hc
      have h10 : ¬ vs.length = j := by omega
      rw [if_neg (by omega), if_neg (by rw [h9]; exact h10)]

example : (⟨[.discreteIndexed], [["r", "g", "b"]]⟩ : DataDef).featureValueIndex 0 "b" = .ok 2 := by
  decide

end
end Verif
