import Verif.Props.MemoryRel
import Verif.Model.DblXR

/-! # Properties C142–C145: instances in memory

C142: when programs may treat instances as values. C143, C144: deleting instances. C145: what a
trained k-nearest-neighbour classifier depends on. -/

set_option linter.unusedSectionVars false

namespace Verif
open Dbl

variable {F : Type} [Dbl F]

/-! ## One call -/

theorem look_error {m : Mem F} {i : Nat} {e : Err} (h : m.obj i = .error e) :
    m.look i = .error e := by rw [Mem.look, h]; rfl

theorem convert_sim {sep : Bool} {m : Mem F} {s : Vals F} (h : Rel sep m s)
    {f : Mem F → Nat → Res (Mem F)} {g : Inst F → Res (Inst F)}
    (he : ∀ m i e, Mem.obj m i = .error e → f m i = .error e)
    (hf : ∀ s i m x, At sep s i m x → Agree (At sep s i) (f m i) (g x))
    (d : RefSet → Res RefSet) (ds : RefSet) :
    Agree (Rel sep) (Mem.convert f d m ds) (convertVals g d s ds) := by
  rw [Mem.convert, convertVals]
  refine (Agree.fold (R := Rel sep) ?_ ds.refs m s h).bind ?_
  · intro m s i hm
    exact upd_sim hm (fun e => he m i e) (fun x hx => hf s i m x hx)
  · intro m s hm
    cases d ds with
    | error e => exact .err e
    | ok _ => exact .ok hm

theorem lary_sim {sep : Bool} {m : Mem F} {s : Vals F} (h : Rel sep m s)
    (enc : DD → Attr F → List (Attr F)) (ts : DD → List AttrType) (ds : RefSet) :
    Agree (Rel sep) (m.laryFilter enc ts ds) (laryVals enc ts s ds) := by
  rw [Mem.laryFilter, laryVals, h.look_eq]
  cases ds.refs.mapM (valAt s) with
  | error e => exact .err e
  | ok l =>
    rw [res_bind_ok, res_bind_ok]
    cases IList.allAttributesDistribution l with
    | error e => exact .err e
    | ok dists =>
      rw [res_bind_ok, res_bind_ok]
      refine convert_sim h ?_ (fun s i m x hx => hx.lary enc dists) _ ds
      intro m i e he
      rw [Mem.laryConvert, he]; rfl

theorem normalize_sim {m : Mem F} {s : Vals F} (h : Rel true m s) (ds : RefSet) :
    Agree (Rel true) (m.normalize ds) (normalizeVals s ds) := by
  rw [Mem.normalize, normalizeVals, h.look_eq]
  cases ds.refs.mapM (valAt s) with
  | error e => exact .err e
  | ok l =>
    rw [res_bind_ok, res_bind_ok]
    cases IList.average l with
    | error e => exact .err e
    | ok avg =>
      rw [res_bind_ok, res_bind_ok]
      cases IList.standardDeviation l with
      | error e => exact .err e
      | ok sd =>
        rw [res_bind_ok, res_bind_ok]
        refine convert_sim h ?_ (fun s i m x hx => hx.norm avg.2 sd.2) _ ds
        intro m i e he
        rw [Mem.normalizeConvert, he]; rfl

theorem pca_sim {sep : Bool} {m : Mem F} {s : Vals F} (h : Rel sep m s) (E : Ext F) (k : Nat)
    (ds : RefSet) : Agree (Rel sep) (m.pca E.characteristics k ds) (pcaVals E k s ds) := by
  rw [Mem.pca, pcaVals, h.look_eq]
  cases ds.refs.mapM (valAt s) with
  | error e => exact .err e
  | ok l =>
    rw [res_bind_ok, res_bind_ok]
    cases pcaTrain E.characteristics l k with
    | error e => exact .err e
    | ok es =>
      rw [res_bind_ok, res_bind_ok]
      refine convert_sim h ?_ (fun s i m x hx => hx.pca es) _ ds
      intro m i e he
      rw [Mem.pcaConvert, look_error he]; rfl

theorem projectList_sim (m : Mem F) {o : IObj} {x : Inst F} (ho : ObjRel m.attrs o x)
    (fs : List Nat) :
    Agree (fun ps (y : Inst F) => y.label = x.label ∧ y.possible = none ∧
        List.Forall₂ (fun (p : Nat) a => m.attrs[p]? = some (some a)) ps y.attrs)
      (fs.foldlM (Mem.projectStep o) []) (x.getSubSetOfFeatures fs) := by
  rw [Inst.getSubSetOfFeatures]
  refine Agree.fold ?_ fs _ _ ⟨rfl, rfl, .nil⟩
  intro ps y f hps
  rw [Mem.projectStep]
  rcases ho.read (m := m) f with ⟨p, a, hp, hx, h1, h2, h3⟩ | ⟨h1, h2⟩
  · rw [h1, res_bind_ok]
    have h3' : atR x.attrs f = .ok a := h3
    rw [h3', res_bind_ok]
    refine .ok ⟨hps.1, hps.2.1, ?_⟩
    refine List.rel_append hps.2.2 (.cons ?_ .nil)
    have h2 := h2
    simp only [Mem.attr, idxR] at h2
    cases hq : m.attrs[p]? with
    | none => rw [hq] at h2; cases h2
    | some c =>
      rw [hq] at h2
      cases c with
      | none => cases h2
      | some b => cases h2; rfl
  · have h2' : atR x.attrs f = .error (.throw "out_of_range") := h2
    rw [h1, h2']; exact .err _

theorem project_sim {m : Mem F} {s : Vals F} (h : Rel false m s) (i : Nat) (fs : List Nat) :
    Agree (Rel false) (m.project i fs) (do
      let x ← valAt s i
      let y ← x.getSubSetOfFeatures fs
      pure (s ++ [some y])) := by
  rw [Mem.project]
  rcases h.cases i with ⟨h1, h2⟩ | ⟨h1, h2⟩ | ⟨o, x, _, hx, ho, h1, h2⟩
  · rw [h1, h2]; exact .err _
  · rw [h1, h2]; exact .err _
  · rw [h1, h2, res_bind_ok, res_bind_ok]
    refine (projectList_sim m ho fs).bind ?_
    intro ps y hy
    refine .ok (h.append ⟨?_, ?_, hy.2.2⟩ (fun h => by cases h))
    · exact ho.label.trans hy.1.symm
    · exact hy.2.1.symm

/-- deleting different live attribute objects -/
theorem deleteAll : ∀ (ps : List Nat) (m : Mem F), ps.Nodup →
    (∀ p ∈ ps, ∃ a, m.attrs[p]? = some (some a)) →
    ∃ as', ps.foldlM Mem.deleteAttr m = .ok ⟨as', m.insts⟩ ∧
      (∀ q, q ∉ ps → as'[q]? = m.attrs[q]?) ∧ (∀ q ∈ ps, as'[q]? = some none) := by
  intro ps
  induction ps with
  | nil => intro m _ _; exact ⟨m.attrs, rfl, fun _ _ => rfl, fun q hq => by cases hq⟩
  | cons p ps ih =>
    intro m hnd hl
    obtain ⟨a, ha⟩ := hl p (by simp)
    have hp : m.attr p = .ok a := by simp [Mem.attr, idxR, ha, live]
    rw [List.nodup_cons] at hnd
    obtain ⟨as', h1, h2, h3⟩ := ih { m with attrs := m.attrs.set p none } hnd.2 (by
      intro q hq
      obtain ⟨b, hb⟩ := hl q (by simp [hq])
      have : p ≠ q := by rintro rfl; exact hnd.1 hq
      exact ⟨b, by simp only [List.getElem?_set_ne this]; exact hb⟩)
    refine ⟨as', ?_, ?_, ?_⟩
    · rw [List.foldlM_cons, Mem.deleteAttr, hp]
      exact h1
    · intro q hq
      rw [List.mem_cons, not_or] at hq
      rw [h2 q hq.2]
      exact List.getElem?_set_ne (Ne.symm hq.1)
    · intro q hq
      rw [List.mem_cons] at hq
      by_cases hq' : q ∈ ps
      · exact h3 q hq'
      · rcases hq with rfl | hq
        · rw [h2 q hq']
          simp [(List.getElem?_eq_some_iff.1 ha).1]
        · exact absurd hq hq'

theorem destroy_spec {m : Mem F} {s : Vals F} (h : Rel true m s) {i : Nat} {o : IObj}
    (hi : m.insts[i]? = some (some o)) :
    ∃ m', m.destroy i = .ok m' ∧ Rel true m' (s.set i none) ∧
      (∀ p ∈ o.attrs, m'.attrs[p]? = some none) ∧
      (∀ p, p ∉ o.attrs → m'.attrs[p]? = m.attrs[p]?) ∧ m'.insts = m.insts.set i none := by
  obtain ⟨x, hx, ho⟩ := h.cell i o hi
  obtain ⟨as', h1, h2, h3⟩ := deleteAll o.attrs m (h.nodup rfl i o hi) ho.live
  have hobj : m.obj i = .ok o := by simp [Mem.obj, idxR, hi, live]
  refine ⟨⟨as', m.insts.set i none⟩, ?_, ?_, h3, h2, rfl⟩
  · rw [Mem.destroy, hobj, res_bind_ok, h1]; rfl
  · have hlt : i < m.insts.length := (List.getElem?_eq_some_iff.1 hi).1
    have hlt' : i < s.length := h.len ▸ hlt
    have key : ∀ {j : Nat} {oj : IObj}, (m.insts.set i none)[j]? = some (some oj) →
        i ≠ j ∧ m.insts[j]? = some (some oj) := by
      intro j oj hj
      by_cases e : i = j
      · subst e; simp [hlt] at hj
      · rw [List.getElem?_set_ne e] at hj
        exact ⟨e, hj⟩
    refine ⟨by simpa using h.len, ?_, ?_, ?_, ?_⟩
    · intro j hj
      by_cases e : i = j
      · subst e; simp [hlt']
      · simp only [List.getElem?_set_ne e] at hj ⊢
        exact h.dead j hj
    · intro j oj hj
      obtain ⟨e, hj⟩ := key hj
      obtain ⟨xj, hxj, hoj⟩ := h.cell j oj hj
      refine ⟨xj, by rw [List.getElem?_set_ne e]; exact hxj, hoj.mono ?_⟩
      intro p hp a ha
      have : p ∉ o.attrs := h.disj rfl j i oj o (Ne.symm e) hj hi p hp
      rw [h2 p this]; exact ha
    · intro _ j oj hj
      exact h.nodup rfl j oj (key hj).2
    · intro _ j k oj ok hjk hj hk
      exact h.disj rfl j k oj ok hjk (key hj).2 (key hk).2

theorem destroy_sim {m : Mem F} {s : Vals F} (h : Rel true m s) (i : Nat) :
    Agree (Rel true) (m.destroy i) (do
      let _ ← valAt s i
      pure (s.set i none)) := by
  rcases h.cases i with ⟨h1, h2⟩ | ⟨h1, h2⟩ | ⟨o, x, hi, hx, ho, h1, h2⟩
  · rw [Mem.destroy, h1, h2]; exact .err _
  · rw [Mem.destroy, h1, h2]; exact .err _
  · obtain ⟨m', h3, h4, _⟩ := destroy_spec h hi
    rw [h3, h2, res_bind_ok]
    exact .ok h4

/-- one call, in memory and on values -/
theorem step_sim (E : Ext F) {sep : Bool} {m : Mem F} {s : Vals F} (h : Rel sep m s) (c : Cmd F)
    (hc : if sep then c.copies = false else c.writes = false) :
    Agree (Rel sep) (m.step E c) (stepVals E s c) := by
  cases c with
  | create l p =>
    refine .ok (h.append ⟨rfl, rfl, .nil⟩ (fun _ => rfl))
  | add i a =>
    refine upd_sim h ?_ fun x hx => hx.add a
    intro e he; simp only [Mem.step, Mem.addAttribute, he]; rfl
  | remove i k =>
    refine upd_sim h ?_ fun x hx => hx.remove k
    intro e he; simp only [Mem.step, Mem.removeAttribute, he]; rfl
  | removeAll i =>
    refine upd_sim h ?_ fun x hx => hx.removeAll
    intro e he; simp only [Mem.step, Mem.removeAllAttributes, he]; rfl
  | set i k v =>
    cases sep with
    | false => cases hc
    | true =>
      refine upd_sim h ?_ fun x hx => hx.set k v
      intro e he; simp only [Mem.step, Mem.setValue, he]; rfl
  | project i fs =>
    cases sep with
    | true => cases hc
    | false => exact project_sim h i fs
  | destroy i =>
    cases sep with
    | false => cases hc
    | true => exact destroy_sim h i
  | toContinuous ds => exact lary_sim h _ _ ds
  | toBinary ds => exact lary_sim h _ _ ds
  | toIndexed ds => exact lary_sim h _ _ ds
  | normalize ds =>
    cases sep with
    | false => cases hc
    | true => exact normalize_sim h ds
  | pca k ds => exact pca_sim h E k ds

theorem run_sim (E : Ext F) {sep : Bool} (cs : List (Cmd F)) {m : Mem F} {s : Vals F}
    (h : Rel sep m s) (hc : ∀ c ∈ cs, if sep then c.copies = false else c.writes = false) :
    Agree (Rel sep) (m.run E cs) (runVals E s cs) :=
  Agree.fold_mem cs m s (fun c hcc _ _ hm => step_sim E hm c (hc c hcc)) h

/-! ## C142 -/

theorem same_of_agree {sep : Bool} {r : Res (Mem F)} {q : Res (Vals F)}
    (h : Agree (Rel sep) r q) : SameOutcome r q := by
  cases h with
  | ok h => exact fun i => h.look i
  | err e => rfl

/-- **C142 (as far as it holds)**: a program that never projects on a feature subset, or that
never writes or deletes attribute objects, behaves as if every instance were a value of its own:
it fails exactly when the program on values fails, with the same error, and otherwise every
instance reads the same. -/
theorem C142_values_partial (E : Ext F) (cs : List (Cmd F))
    (h : (∀ c ∈ cs, c.copies = false) ∨ (∀ c ∈ cs, c.writes = false)) :
    SameOutcome (Mem.empty.run E cs) (runVals E [] cs) := by
  rcases h with h | h
  · exact same_of_agree (run_sim E (sep := true) cs (rel_empty true) (fun c hc => h c hc))
  · exact same_of_agree (run_sim E (sep := false) cs (rel_empty false) (fun c hc => h c hc))

/-- **C142 fails of the code**, for every instance: write the attribute of a feature projection,
and the instance it was made from changes. -/
theorem C142_refuted (E : Ext F) (m : Mem F) (i k : Nat) (x : Inst F) (c v : F)
    (hx : m.look i = .ok x) (hk : x.attrs[k]? = some (.continuous c)) :
    ∃ m' x', m.run E [.project i [k], .set m.insts.length 0 v] = .ok m' ∧
      m'.look i = .ok x' ∧ x'.attrs[k]? = some (.continuous v) := by
  rw [Mem.look] at hx
  obtain ⟨o, ho, hx'⟩ := bind_ok_iff.1 hx
  obtain ⟨as, has, hx''⟩ := bind_ok_iff.1 hx'
  clear hx hx'
  cases hx''
  have hall := mapM_ok_inv has
  have hi : m.insts[i]? = some (some o) := by
    rw [Mem.obj] at ho
    obtain ⟨c', h1, h2⟩ := bind_ok_iff.1 ho
    cases c' with
    | none => cases h2
    | some o' => cases h2; exact idxR_eq_ok.1 h1
  have hlt : i < m.insts.length := (List.getElem?_eq_some_iff.1 hi).1
  obtain ⟨hk1, hk2⟩ := List.getElem?_eq_some_iff.1 hk
  have hkl : k < o.attrs.length := by rw [hall.length_eq]; exact hk1
  have hp : o.attrs[k]? = some o.attrs[k] := List.getElem?_eq_getElem hkl
  have hpa : m.attr o.attrs[k] = .ok (.continuous c) := by
    have := hall.get hkl hk1
    simp only [List.get_eq_getElem] at this
    simp only at hk2
    rw [this, hk2]
  generalize hpe : o.attrs[k] = p at hp hpa
  have hplt : p < m.attrs.length ∧ m.attrs[p]? = some (some (.continuous c)) := by
    rw [Mem.attr] at hpa
    obtain ⟨c', h1, h2⟩ := bind_ok_iff.1 hpa
    cases c' with
    | none => cases h2
    | some a =>
      cases h2
      exact ⟨(List.getElem?_eq_some_iff.1 (idxR_eq_ok.1 h1)).1, idxR_eq_ok.1 h1⟩
  have hat : atR o.attrs k = .ok p := by simp [atR, hp]
  -- after the projection
  have h1 : m.step E (.project i [k]) =
      .ok { m with insts := m.insts ++ [some ⟨o.label, [p], none⟩] } := by
    simp only [Mem.step, Mem.project, ho, res_bind_ok, List.foldlM_cons, List.foldlM_nil,
      Mem.projectStep, hat, res_pure, List.nil_append]
  have h2 : ({ m with insts := m.insts ++ [some ⟨o.label, [p], none⟩] } : Mem F).step E
      (.set m.insts.length 0 v) =
      .ok { attrs := m.attrs.set p (some (.continuous v)),
            insts := m.insts ++ [some ⟨o.label, [p], none⟩] } := by
    simp only [Mem.step, Mem.setValue, Mem.obj, idxR, List.getElem?_concat_length, live,
      res_bind_ok, atR, List.getElem?_cons_zero, Mem.attr, hplt.2, Attr.contVal, res_pure]
  -- reading the original
  have hrun : m.run E [.project i [k], .set m.insts.length 0 v] =
      .ok { attrs := m.attrs.set p (some (.continuous v)),
            insts := m.insts ++ [some ⟨o.label, [p], none⟩] } := by
    rw [Mem.run, List.foldlM_cons, h1, res_bind_ok, List.foldlM_cons, h2]; rfl
  obtain ⟨m', hm'⟩ : ∃ m' : Mem F, m' = ⟨m.attrs.set p (some (.continuous v)),
      m.insts ++ [some ⟨o.label, [p], none⟩]⟩ := ⟨_, rfl⟩
  rw [← hm'] at hrun
  have hobj' : m'.obj i = .ok o := by
    subst hm'
    simp only [Mem.obj, idxR, List.getElem?_append_left hlt, hi, live, res_bind_ok]
  have hread : ∀ q, m'.attr q = (if q = p then .ok (.continuous v) else m.attr q) := by
    intro q
    subst hm'
    by_cases e : q = p
    · subst e
      simp [Mem.attr, idxR, hplt.1, live]
    · simp only [Mem.attr, idxR, List.getElem?_set_ne (Ne.symm e), if_neg e]
  have hmap : o.attrs.mapM m'.attr = .ok ((o.attrs.zip as).map
      (fun q => if q.1 = p then .continuous v else q.2)) := by
    clear hk hk1 hk2 hkl hp hpe hat has hi ho hobj' h1
    generalize o.attrs = ps at hall
    induction hall with
    | nil => rfl
    | @cons q a ps as hqa _ ih =>
      rw [List.mapM_cons, hread, ih]
      by_cases e : q = p
      · rw [if_pos e]
        simp [e]
      · rw [if_neg e, hqa]
        simp [e]
  refine ⟨m', _, hrun, by rw [Mem.look, hobj', res_bind_ok, hmap]; rfl, ?_⟩
  show ((o.attrs.zip as).map (fun q => if q.1 = p then Attr.continuous v else q.2))[k]? = _
  rw [List.getElem?_map]
  have : (o.attrs.zip as)[k]? = some (p, as[k]) := by
    rw [List.getElem?_zip_eq_some]
    exact ⟨hp, List.getElem?_eq_getElem hk1⟩
  rw [this]
  simp

/-! ### The filters on values are those of C94–C98 -/

theorem valAt_live (h : Heap F) (i : Nat) : valAt (h.map some) i = idxR h i := by
  rw [valAt, idxR, idxR, List.getElem?_map]
  cases h[i]? <;> rfl

theorem convertVals_live (f : Inst F → Res (Inst F)) (d : RefSet → Res RefSet) (h : Heap F)
    (ds : RefSet) :
    convertVals f d (h.map some) ds = (convert f d h ds).map (fun r => r.1.map some) := by
  have key : ∀ (refs : List Nat) (h : Heap F), refs.foldlM (updAt f) (h.map some) =
      (convertAll f h refs).map (fun r => r.map some) := by
    intro refs
    induction refs with
    | nil => intro h; rfl
    | cons r refs ih =>
      intro h
      rw [List.foldlM_cons, convertAll, List.foldlM_cons, updAt, valAt_live, convertAt]
      cases idxR h r with
      | error e => rfl
      | ok x =>
        rw [res_bind_ok, res_bind_ok]
        cases f x with
        | error e => rfl
        | ok y =>
          rw [res_bind_ok, res_bind_ok, res_pure, res_pure, res_bind_ok, res_bind_ok,
            ← List.map_set]
          exact ih _
  rw [convertVals, key, convert]
  cases convertAll f h ds.refs with
  | error e => rfl
  | ok h' =>
    cases d ds with
    | error e => simp [Except.map]
    | ok _ => simp [Except.map]

theorem mapM_valAt (h : Heap F) (refs : List Nat) : refs.mapM (valAt (h.map some)) = deref h refs :=
  by
  rw [deref, funext (valAt_live h)]

/-- On instances none of which is deleted, the filters of C142 are those of C94 to C98. -/
theorem C142_filters (E : Ext F) (h : Heap F) (ds : RefSet) (k : Nat) :
    stepVals E (h.map some) (.toContinuous ds) =
      (discreteToContinuous E.showD h ds).map (fun r => r.1.map some) ∧
    stepVals E (h.map some) (.toBinary ds) =
      (laryToBinary E.showD h ds).map (fun r => r.1.map some) ∧
    stepVals E (h.map some) (.toIndexed ds) =
      (discreteToIndexed E.showD h ds).map (fun r => r.1.map some) ∧
    stepVals E (h.map some) (.normalize ds) = (normalize h ds).map (fun r => r.1.map some) ∧
    stepVals E (h.map some) (.pca k ds) =
      (pca E.characteristics k h ds).map (fun r => r.1.map some) := by
  have hl : ∀ enc ts, laryVals enc ts (h.map some) ds =
      (laryFilter enc ts h ds).map (fun r => r.1.map some) := by
    intro enc ts
    rw [laryVals, laryFilter, mapM_valAt]
    cases deref h ds.refs with
    | error e => rfl
    | ok l =>
      rw [res_bind_ok, res_bind_ok]
      cases IList.allAttributesDistribution l with
      | error e => rfl
      | ok dists => exact convertVals_live _ _ h ds
  refine ⟨hl _ _, hl _ _, hl _ _, ?_, ?_⟩
  · rw [stepVals, normalizeVals, normalize, mapM_valAt]
    cases deref h ds.refs with
    | error e => rfl
    | ok l =>
      rw [res_bind_ok, res_bind_ok]
      cases IList.average l with
      | error e => rfl
      | ok avg =>
        rw [res_bind_ok, res_bind_ok]
        cases IList.standardDeviation l with
        | error e => rfl
        | ok sd => exact convertVals_live _ _ h ds
  · rw [stepVals, pcaVals, pca, mapM_valAt]
    cases deref h ds.refs with
    | error e => rfl
    | ok l =>
      rw [res_bind_ok, res_bind_ok]
      cases pcaTrain E.characteristics l k with
      | error e => rfl
      | ok es => exact convertVals_live _ _ h ds

/-! ### A program that meets the hypotheses, and one that does not -/

/-- what filters take from outside, for the examples -/
def exExt : Ext XR := ⟨fun _ => "", fun _ => none⟩

/-- two instances, a conversion of their discrete attribute, a normalisation, a deletion -/
def exProgram : List (Cmd XR) :=
  [.create "a" none, .add 0 (.continuous (.fin 1)), .add 0 (.discrete "red"),
   .create "b" (some ["b", "c"]), .add 1 (.continuous (.fin 3)), .add 1 (.discrete "blue"),
   .toContinuous ⟨[0, 1], ⟨[.continuous, .discrete], []⟩⟩, .set 0 0 (.fin 7), .destroy 1]

example : ∀ c ∈ exProgram, c.copies = false := by decide

example : (Mem.empty.run exExt exProgram).map (fun m => m.look 0) =
    .ok (.ok ⟨"a", [.continuous (.fin 7), .continuous (.fin 0), .continuous (.fin 1)], none⟩) := by
  decide +kernel

/-- a projection, then a conversion of the original: the projection keeps its attribute -/
def exShared : List (Cmd XR) :=
  [.create "a" none, .add 0 (.continuous (.fin 1)), .add 0 (.discrete "red"), .project 0 [1, 0],
   .toIndexed ⟨[0], ⟨[.continuous, .discrete], []⟩⟩]

example : ∀ c ∈ exShared, c.writes = false := by decide

example : (Mem.empty.run exExt exShared).map (fun m => (m.look 0, m.look 1)) =
    .ok (.ok ⟨"a", [.continuous (.fin 1), .indexed "red" 0 1], none⟩,
      .ok ⟨"a", [.discrete "red", .continuous (.fin 1)], none⟩) := by decide +kernel

/-- the hypotheses of `C142_refuted` hold of a program's memory; the memory and the values differ
afterwards -/
example : ¬ SameOutcome
    (Mem.empty.run exExt [.create "a" none, .add 0 (.continuous (.fin 1)), .project 0 [0],
      .set 1 0 (.fin 2)])
    (runVals exExt [] [.create "a" none, .add 0 (.continuous (.fin 1)), .project 0 [0],
      .set 1 0 (.fin 2)]) := by
  intro h
  have h0 := h 0
  have e1 : (Mem.look (F := XR) ⟨[some (.continuous (.fin 2))], [some ⟨"a", [0], none⟩,
    some ⟨"a", [0], none⟩]⟩ 0) = .ok ⟨"a", [.continuous (.fin 2)], none⟩ := by decide +kernel
  have e2 : (valAt (F := XR) [some ⟨"a", [.continuous (.fin 1)], none⟩,
    some ⟨"a", [.continuous (.fin 2)], none⟩] 0) = .ok ⟨"a", [.continuous (.fin 1)], none⟩ := by
    decide +kernel
  exact absurd ((e1.symm.trans h0).trans e2) (by decide +kernel)

/-! ## C143: deleting instances -/

/-- **C143 (as far as it holds)**: after any program without feature projections, every instance
that was not deleted can be deleted. This deletes exactly its attributes and changes no other
instance. -/
theorem C143_destroy_partial (E : Ext F) (cs : List (Cmd F)) (h : ∀ c ∈ cs, c.copies = false)
    (m : Mem F) (hm : Mem.empty.run E cs = .ok m) (i : Nat) (o : IObj) (hi : m.obj i = .ok o) :
    ∃ m', m.destroy i = .ok m' ∧ m'.look i = .error (.ub "deleted object") ∧
      (∀ j, j ≠ i → m'.look j = m.look j) ∧
      (∀ p ∈ o.attrs, m'.attr p = .error (.ub "deleted object")) ∧
      (∀ p, p ∉ o.attrs → m'.attr p = m.attr p) := by
  have hs := run_sim E (sep := true) cs (rel_empty (F := F) true) (fun c hc => h c hc)
  rw [hm] at hs
  obtain ⟨s, hq, hs⟩ : ∃ s, runVals E [] cs = .ok s ∧ Rel true m s := by
    revert hs
    generalize runVals E [] cs = q
    intro hs
    cases hs with
    | ok hs => exact ⟨_, rfl, hs⟩
  have hi' : m.insts[i]? = some (some o) := by
    rw [Mem.obj] at hi
    obtain ⟨c', h1, h2⟩ := bind_ok_iff.1 hi
    cases c' with
    | none => cases h2
    | some o' => cases h2; exact idxR_eq_ok.1 h1
  obtain ⟨m', h1, h2, h3, h4, h5⟩ := destroy_spec hs hi'
  have hlt : i < m.insts.length := (List.getElem?_eq_some_iff.1 hi').1
  refine ⟨m', h1, ?_, ?_, ?_, ?_⟩
  · refine look_error ?_
    simp [Mem.obj, idxR, h5, hlt, live]
  · intro j hj
    rw [h2.look, hs.look, valAt, valAt, idxR, idxR, List.getElem?_set_ne (Ne.symm hj)]
  · intro p hp
    simp [Mem.attr, idxR, h3 p hp, live]
  · intro p hp
    simp only [Mem.attr, idxR, h4 p hp]

/-- **C143 (as far as it holds)**: all instances can be deleted, in any order. -/
theorem C143_destroy_all_partial (E : Ext F) (cs : List (Cmd F))
    (h : ∀ c ∈ cs, c.copies = false) (m : Mem F) (hm : Mem.empty.run E cs = .ok m)
    (is : List Nat) (hnd : is.Nodup) (hl : ∀ i ∈ is, ∃ o, m.obj i = .ok o) :
    ∃ m', m.run E (is.map Cmd.destroy) = .ok m' := by
  induction is generalizing cs m with
  | nil => exact ⟨m, rfl⟩
  | cons i is ih =>
    obtain ⟨o, ho⟩ := hl i (by simp)
    rw [List.nodup_cons] at hnd
    obtain ⟨m1, h1, _, h3, _⟩ := C143_destroy_partial E cs h m hm i o ho
    have hrun : Mem.empty.run E (cs ++ [.destroy i]) = .ok m1 := by
      rw [Mem.run, List.foldlM_append]
      rw [Mem.run] at hm
      rw [hm, res_bind_ok]
      show (Mem.step E m (.destroy i) >>= fun m => List.foldlM (Mem.step E) m []) = _
      rw [Mem.step, h1]; rfl
    obtain ⟨m', hm'⟩ := ih (cs ++ [.destroy i]) (by
        intro c hc
        rw [List.mem_append, List.mem_singleton] at hc
        rcases hc with hc | rfl
        · exact h c hc
        · rfl) m1 hrun hnd.2 (by
        intro j hj
        obtain ⟨oj, hoj⟩ := hl j (by simp [hj])
        have hne : j ≠ i := by rintro rfl; exact hnd.1 hj
        have hlook := h3 j hne
        cases hobj : m1.obj j with
        | ok o' => exact ⟨o', rfl⟩
        | error e =>
          rw [look_error hobj] at hlook
          exfalso
          -- the instance is readable before
          have hs := run_sim E (sep := true) cs (rel_empty (F := F) true) (fun c hc => h c hc)
          rw [hm] at hs
          revert hs
          generalize runVals E [] cs = q
          intro hs
          cases hs with
          | @ok _ s hs =>
            rcases hs.cases j with ⟨hj1, _⟩ | ⟨hj1, _⟩ | ⟨_, x, _, _, _, _, hj2⟩
            · rw [hoj] at hj1; cases hj1
            · rw [hoj] at hj1; cases hj1
            · rw [hs.look, hj2] at hlook; cases hlook)
    refine ⟨m', ?_⟩
    rw [Mem.run, List.map_cons, List.foldlM_cons, Mem.step, h1, res_bind_ok]
    exact hm'

example : ∃ m : Mem XR, Mem.empty.run exExt (exProgram.take 7) = .ok m ∧
    ([1, 0].all fun (i : Nat) => (m.obj i).toBool) = true ∧
    (m.run exExt ([1, 0].map Cmd.destroy)).toBool = true := by
  have h : (match Mem.empty.run exExt (exProgram.take 7) with
      | .ok m => ([1, 0].all fun (i : Nat) => (m.obj i).toBool) &&
          (m.run exExt ([1, 0].map Cmd.destroy)).toBool
      | _ => false) = true := by decide +kernel
  split at h
  · rename_i m hm
    rw [Bool.and_eq_true] at h
    exact ⟨m, hm, h⟩
  · cases h

/-- **C143 fails of the code** for every instance and every nonempty feature subset: delete the
original, and the projection can neither be read nor deleted. -/
theorem C143_refuted (E : Ext F) (cs : List (Cmd F)) (h : ∀ c ∈ cs, c.copies = false)
    (m : Mem F) (hm : Mem.empty.run E cs = .ok m) (i : Nat) (o : IObj) (hi : m.obj i = .ok o)
    (fs : List Nat) (hne : fs ≠ []) (hfs : ∀ f ∈ fs, f < o.attrs.length) :
    ∃ m', m.run E [.project i fs, .destroy i] = .ok m' ∧
      (∃ o', m'.obj m.insts.length = .ok o') ∧
      m'.look m.insts.length = .error (.ub "deleted object") ∧
      m'.destroy m.insts.length = .error (.ub "deleted object") := by
  have hs := run_sim E (sep := true) cs (rel_empty (F := F) true) (fun c hc => h c hc)
  rw [hm] at hs
  obtain ⟨s, hq, hs⟩ : ∃ s, runVals E [] cs = .ok s ∧ Rel true m s := by
    revert hs
    generalize runVals E [] cs = q
    intro hs
    cases hs with
    | ok hs => exact ⟨_, rfl, hs⟩
  have hi' : m.insts[i]? = some (some o) := by
    rw [Mem.obj] at hi
    obtain ⟨c', h1, h2⟩ := bind_ok_iff.1 hi
    cases c' with
    | none => cases h2
    | some o' => cases h2; exact idxR_eq_ok.1 h1
  obtain ⟨x, hx, ho⟩ := hs.cell i o hi'
  have hlt : i < m.insts.length := (List.getElem?_eq_some_iff.1 hi').1
  -- the projection
  have hproj : ∀ (fs : List Nat) (ps : List Nat), (∀ f ∈ fs, f < o.attrs.length) →
      (∀ p ∈ ps, p ∈ o.attrs) →
      ∃ qs, fs.foldlM (Mem.projectStep o) ps = .ok (ps ++ qs) ∧ (∀ p ∈ ps ++ qs, p ∈ o.attrs) ∧
        qs.length = fs.length := by
    intro fs
    induction fs with
    | nil => intro ps _ hps; exact ⟨[], by simp, by simpa using hps, rfl⟩
    | cons f fs ih =>
      intro ps hfs hps
      have hf := hfs f (by simp)
      have hat : atR o.attrs f = .ok o.attrs[f] := by simp [atR, List.getElem?_eq_getElem hf]
      obtain ⟨qs, h1, h2, h3⟩ := ih (ps ++ [o.attrs[f]]) (fun g hg => hfs g (by simp [hg])) (by
        intro p hp
        rw [List.mem_append, List.mem_singleton] at hp
        rcases hp with hp | rfl
        · exact hps p hp
        · exact List.getElem_mem hf)
      refine ⟨o.attrs[f] :: qs, ?_, by simpa using h2, by simp [h3]⟩
      rw [List.foldlM_cons, Mem.projectStep, hat, res_bind_ok]
      simpa using h1
  obtain ⟨qs, hqs, hmem, hlen⟩ := hproj fs [] hfs (by simp)
  rw [List.nil_append] at hqs hmem
  have h1 : m.step E (.project i fs) =
      .ok { m with insts := m.insts ++ [some (IObj.mk o.label qs none)] } := by
    simp only [Mem.step, Mem.project, hi, res_bind_ok, hqs, res_pure]
  -- the deletion
  obtain ⟨as', hd1, hd2, hd3⟩ := deleteAll o.attrs
    { m with insts := m.insts ++ [some (IObj.mk o.label qs none)] } (hs.nodup rfl i o hi') ho.live
  have h2 : ({ m with insts := m.insts ++ [some (IObj.mk o.label qs none)] } : Mem F).step E
      (.destroy i) = .ok ⟨as', (m.insts ++ [some (IObj.mk o.label qs none)]).set i none⟩ := by
    simp only [Mem.step, Mem.destroy, Mem.obj, idxR, List.getElem?_append_left hlt, hi', live,
      res_bind_ok]
    rw [hd1]; rfl
  have hobj : (⟨as', (m.insts ++ [some (IObj.mk o.label qs none)]).set i none⟩ : Mem F).obj
      m.insts.length = .ok ⟨o.label, qs, none⟩ := by
    simp only [Mem.obj, idxR]
    rw [List.getElem?_set_ne (by omega), List.getElem?_concat_length]
    rfl
  obtain ⟨q, qs', rfl⟩ : ∃ q qs', qs = q :: qs' := by
    cases qs with
    | nil => exact absurd (List.length_eq_zero_iff.1 hlen.symm) hne
    | cons q qs' => exact ⟨q, qs', rfl⟩
  have hdead : (⟨as', (m.insts ++ [some (IObj.mk o.label (q :: qs') none)]).set i none⟩ : Mem F).attr q =
      .error (.ub "deleted object") := by
    simp [Mem.attr, idxR, hd3 q (hmem q (by simp)), live]
  refine ⟨⟨as', (m.insts ++ [some (IObj.mk o.label (q :: qs') none)]).set i none⟩, ?_, ⟨_, hobj⟩, ?_, ?_⟩
  · rw [Mem.run, List.foldlM_cons, h1, res_bind_ok, List.foldlM_cons, h2]; rfl
  · rw [Mem.look, hobj, res_bind_ok, List.mapM_cons, hdead]; rfl
  · rw [Mem.destroy, hobj, res_bind_ok, List.foldlM_cons, Mem.deleteAttr, hdead]; rfl

/-- the hypotheses can be met -/
example : ∃ m : Mem XR, Mem.empty.run exExt (exProgram.take 6) = .ok m ∧
    (∃ o, m.obj 1 = .ok o ∧ ∀ f ∈ [1, 0, 1], f < o.attrs.length) := by
  refine ⟨⟨[some (.continuous (.fin 1)), some (.discrete "red"), some (.continuous (.fin 3)),
    some (.discrete "blue")], [some ⟨"a", [0, 1], none⟩, some ⟨"b", [2, 3], some ["b", "c"]⟩]⟩,
    by decide +kernel, ⟨"b", [2, 3], some ["b", "c"]⟩, by decide +kernel, by decide⟩

/-! ## C144: no attribute is left behind -/

/-- every attribute object belongs to an instance -/
def Owned (m : Mem F) : Prop := ∀ (p : Nat) (a : Attr F), m.attrs[p]? = some (some a) →
  ∃ (i : Nat) (o : IObj), m.insts[i]? = some (some o) ∧ p ∈ o.attrs

theorem obj_iff {m : Mem F} {i : Nat} {o : IObj} : m.obj i = .ok o ↔ m.insts[i]? = some (some o) := by
  constructor
  · intro hi
    rw [Mem.obj] at hi
    obtain ⟨c', h1, h2⟩ := bind_ok_iff.1 hi
    cases c' with
    | none => cases h2
    | some o' => cases h2; exact idxR_eq_ok.1 h1
  · intro hi
    simp [Mem.obj, idxR, hi, live]

theorem attr_iff {m : Mem F} {p : Nat} {a : Attr F} :
    m.attr p = .ok a ↔ m.attrs[p]? = some (some a) := by
  constructor
  · intro hi
    rw [Mem.attr] at hi
    obtain ⟨c', h1, h2⟩ := bind_ok_iff.1 hi
    cases c' with
    | none => cases h2
    | some o' => cases h2; exact idxR_eq_ok.1 h1
  · intro hi
    simp [Mem.attr, idxR, hi, live]

/-- writing a live attribute keeps ownership -/
theorem Owned.write {m : Mem F} (h : Owned m) {p : Nat} {a b : Attr F} (hp : m.attr p = .ok a) :
    Owned { m with attrs := m.attrs.set p (some b) } := by
  intro q c hq
  by_cases e : p = q
  · subst e; exact h p a (attr_iff.1 hp)
  · rw [List.getElem?_set_ne e] at hq
    exact h q c hq

theorem Owned.deleteMany {insts : List (Option IObj)} : ∀ (ps : List Nat) (m m' : Mem F),
    m.insts = insts → ps.foldlM Mem.deleteAttr m = .ok m' → m'.insts = insts ∧
      (∀ (q : Nat) (a : Attr F), m'.attrs[q]? = some (some a) →
        m.attrs[q]? = some (some a) ∧ q ∉ ps) := by
  intro ps
  induction ps with
  | nil => intro m m' hi h; cases h; exact ⟨hi, fun q a hq => ⟨hq, by simp⟩⟩
  | cons p ps ih =>
    intro m m' hi h
    rw [List.foldlM_cons] at h
    obtain ⟨m1, h1, h2⟩ := bind_ok_iff.1 h
    rw [Mem.deleteAttr] at h1
    obtain ⟨a0, h3, h4⟩ := bind_ok_iff.1 h1
    cases h4
    obtain ⟨h5, h6⟩ := ih _ m' (by exact hi) h2
    refine ⟨h5, fun q a hq => ?_⟩
    obtain ⟨h7, h8⟩ := h6 q a hq
    by_cases e : p = q
    · subst e
      rw [List.getElem?_set_self'] at h7
      cases hh : m.attrs[p]? <;> rw [hh] at h7 <;> cases h7
    · simp only [List.getElem?_set_ne e] at h7
      exact ⟨h7, by simp [h8, Ne.symm e]⟩

theorem Owned.step (E : Ext F) {m m' : Mem F} (h : Owned m) (c : Cmd F)
    (hc : c.removes = false) (hs : m.step E c = .ok m') : Owned m' := by
  cases c with
  | create l p =>
    cases hs
    intro q a hq
    obtain ⟨i, o, hi, ho⟩ := h q a hq
    refine ⟨i, o, ?_, ho⟩
    show (m.insts ++ [_])[i]? = _
    rw [List.getElem?_append_left (List.getElem?_eq_some_iff.1 hi).1]; exact hi
  | add i a =>
    simp only [Mem.step, Mem.addAttribute] at hs
    obtain ⟨o, ho, hs⟩ := bind_ok_iff.1 hs
    cases hs
    have hi := obj_iff.1 ho
    have hlt := (List.getElem?_eq_some_iff.1 hi).1
    intro q b hq
    by_cases hql : q < m.attrs.length
    · have hq' : m.attrs[q]? = some (some b) := by
        rw [← hq]; exact (List.getElem?_append_left hql).symm
      obtain ⟨j, oj, hj, hoj⟩ := h q b hq'
      by_cases e : i = j
      · subst e
        rw [hi] at hj; cases hj
        exact ⟨i, _, by simp [Mem.setObj, hlt]; rfl, by simp [hoj]⟩
      · exact ⟨j, oj, by simp only [Mem.setObj, List.getElem?_set_ne e]; exact hj, hoj⟩
    · have hq2 : q < (m.attrs ++ [some a]).length := (List.getElem?_eq_some_iff.1 hq).1
      simp only [List.length_append, List.length_singleton] at hq2
      have : q = m.attrs.length := by omega
      exact ⟨i, _, by simp [Mem.setObj, hlt]; rfl, by simp [this]⟩
  | remove i k => cases hc
  | removeAll i => cases hc
  | set i k v =>
    simp only [Mem.step, Mem.setValue] at hs
    obtain ⟨o, ho, hs⟩ := bind_ok_iff.1 hs
    obtain ⟨p, hp, hs⟩ := bind_ok_iff.1 hs
    obtain ⟨a, ha, hs⟩ := bind_ok_iff.1 hs
    obtain ⟨_, _, hs⟩ := bind_ok_iff.1 hs
    cases hs
    exact h.write ha
  | project i fs =>
    simp only [Mem.step, Mem.project] at hs
    obtain ⟨o, ho, hs⟩ := bind_ok_iff.1 hs
    obtain ⟨ps, hp, hs⟩ := bind_ok_iff.1 hs
    cases hs
    intro q a hq
    obtain ⟨i, o, hi, ho⟩ := h q a hq
    refine ⟨i, o, ?_, ho⟩
    show (m.insts ++ [_])[i]? = _
    rw [List.getElem?_append_left (List.getElem?_eq_some_iff.1 hi).1]; exact hi
  | destroy i =>
    simp only [Mem.step, Mem.destroy] at hs
    obtain ⟨o, ho, hs⟩ := bind_ok_iff.1 hs
    obtain ⟨m1, h1, hs⟩ := bind_ok_iff.1 hs
    cases hs
    obtain ⟨h2, h3⟩ := Owned.deleteMany o.attrs m m1 rfl h1
    have hi := obj_iff.1 ho
    intro q a hq
    obtain ⟨h4, h5⟩ := h3 q a hq
    obtain ⟨j, oj, hj, hoj⟩ := h q a h4
    have e : i ≠ j := by
      rintro rfl
      rw [hi] at hj; cases hj
      exact h5 hoj
    refine ⟨j, oj, ?_, hoj⟩
    show (m1.insts.set i none)[j]? = _
    rw [List.getElem?_set_ne e, h2]; exact hj
  | toContinuous ds => cases hc
  | toBinary ds => cases hc
  | toIndexed ds => cases hc
  | normalize ds =>
    simp only [Mem.step, Mem.normalize] at hs
    obtain ⟨l, _, hs⟩ := bind_ok_iff.1 hs
    obtain ⟨avg, _, hs⟩ := bind_ok_iff.1 hs
    obtain ⟨sd, _, hs⟩ := bind_ok_iff.1 hs
    rw [Mem.convert] at hs
    obtain ⟨m1, h1, hs⟩ := bind_ok_iff.1 hs
    obtain ⟨_, _, hs⟩ := bind_ok_iff.1 hs
    cases hs
    refine foldlM_keeps (P := Owned) ?_ _ _ _ h1 h
    intro m2 i m3 hm2 h2
    rw [Mem.normalizeConvert] at h2
    obtain ⟨o, _, h2⟩ := bind_ok_iff.1 h2
    refine foldlM_keeps (P := Owned) ?_ _ _ _ h2 hm2
    intro m4 k m5 hm4 h4
    rw [Mem.normalizeStep] at h4
    obtain ⟨o, _, h4⟩ := bind_ok_iff.1 h4
    obtain ⟨p, _, h4⟩ := bind_ok_iff.1 h4
    obtain ⟨a, ha, h4⟩ := bind_ok_iff.1 h4
    split at h4
    · obtain ⟨_, _, h4⟩ := bind_ok_iff.1 h4
      obtain ⟨_, _, h4⟩ := bind_ok_iff.1 h4
      obtain ⟨_, _, h4⟩ := bind_ok_iff.1 h4
      cases h4
      exact hm4.write ha
    · cases h4; exact hm4
  | pca k ds => cases hc

/-- **C144 (as far as it holds)**: in a program that takes no attribute out of an instance, an
attribute object exists only as long as an instance has it; when all instances are deleted, no
attribute is left. -/
theorem C144_released_partial (E : Ext F) (cs : List (Cmd F)) (h : ∀ c ∈ cs, c.removes = false)
    (m : Mem F) (hm : Mem.empty.run E cs = .ok m) :
    (∀ p a, m.attr p = .ok a → ∃ i o, m.obj i = .ok o ∧ p ∈ o.attrs) ∧
    ((∀ i o, m.obj i ≠ .ok o) → ∀ p a, m.attr p ≠ .ok a) := by
  have hown : Owned m := by
    have key : ∀ (cs : List (Cmd F)) (m0 : Mem F), (∀ c ∈ cs, c.removes = false) →
        Owned m0 → m0.run E cs = .ok m → Owned m := by
      intro cs
      induction cs with
      | nil => intro m0 _ h0 hr; cases hr; exact h0
      | cons c cs ih =>
        intro m0 hc h0 hr
        rw [Mem.run, List.foldlM_cons] at hr
        obtain ⟨m1, h1, h2⟩ := bind_ok_iff.1 hr
        exact ih m1 (fun c' hc' => hc c' (by simp [hc'])) (h0.step E c (hc c (by simp)) h1) h2
    exact key cs Mem.empty h (by intro p a hp; simp [Mem.empty] at hp) hm
  have h1 : ∀ p a, m.attr p = .ok a → ∃ i o, m.obj i = .ok o ∧ p ∈ o.attrs := by
    intro p a hp
    obtain ⟨i, o, hi, ho⟩ := hown p a (attr_iff.1 hp)
    exact ⟨i, o, obj_iff.2 hi, ho⟩
  refine ⟨h1, fun h2 p a hp => ?_⟩
  obtain ⟨i, o, hi, _⟩ := h1 p a hp
  exact h2 i o hi

example : ∃ m : Mem XR, Mem.empty.run exExt [.create "a" none, .add 0 (.continuous (.fin 1)),
    .create "b" none, .add 1 (.discrete "c"), .set 0 0 (.fin 5), .destroy 1, .destroy 0] = .ok m ∧
    m.attrs = [none, none] ∧ m.insts = [none, none] := ⟨⟨[none, none], [none, none]⟩,
  by decide +kernel, rfl, rfl⟩

/-- **C144 fails of the code** for every attribute taken out of an instance: it exists for ever
after, although no instance has it. -/
theorem C144_refuted (E : Ext F) (cs : List (Cmd F)) (h : ∀ c ∈ cs, c.copies = false)
    (m : Mem F) (hm : Mem.empty.run E cs = .ok m) (i k : Nat) (o : IObj) (p : Nat)
    (hi : m.obj i = .ok o) (hp : o.attrs[k]? = some p) :
    ∃ m' a, m.run E [.remove i k] = .ok m' ∧ m'.attr p = .ok a ∧
      ∀ j oj, m'.obj j = .ok oj → p ∉ oj.attrs := by
  have hs := run_sim E (sep := true) cs (rel_empty (F := F) true) (fun c hc => h c hc)
  rw [hm] at hs
  obtain ⟨s, hq, hs⟩ : ∃ s, runVals E [] cs = .ok s ∧ Rel true m s := by
    revert hs
    generalize runVals E [] cs = q
    intro hs
    cases hs with
    | ok hs => exact ⟨_, rfl, hs⟩
  have hi' := obj_iff.1 hi
  have hlt : i < m.insts.length := (List.getElem?_eq_some_iff.1 hi').1
  obtain ⟨x, hx, ho⟩ := hs.cell i o hi'
  obtain ⟨hk1, hk2⟩ := List.getElem?_eq_some_iff.1 hp
  obtain ⟨a, ha⟩ := ho.live p (List.mem_iff_getElem?.2 ⟨k, hp⟩)
  refine ⟨m.setObj i { o with attrs := o.attrs.eraseIdx k }, a, ?_, attr_iff.2 ha, ?_⟩
  · rw [Mem.run, List.foldlM_cons]
    simp only [Mem.step, Mem.removeAttribute, hi, res_bind_ok, if_pos hk1]
    rfl
  · intro j oj hj hpj
    have hj := obj_iff.1 hj
    by_cases e : i = j
    · subst e
      simp only [Mem.setObj, List.getElem?_set_self hlt, Option.some.injEq] at hj
      subst hj
      have hnd := hs.nodup rfl i o hi'
      obtain ⟨l, hl1, hl2, hl3⟩ := List.mem_eraseIdx_iff_getElem.1 hpj
      exact hl2 ((List.Nodup.getElem_inj_iff hnd).1 (hl3.trans hk2.symm))
    · simp only [Mem.setObj, List.getElem?_set_ne e] at hj
      exact hs.disj rfl i j o oj e hi' hj p (List.mem_iff_getElem?.2 ⟨k, hp⟩) hpj

/-! ## C145: a trained k-nearest-neighbour classifier -/

theorem updAt_other {f : Inst F → Res (Inst F)} {s s' : Vals F} {i j : Nat}
    (h : updAt f s i = .ok s') (hij : i ≠ j) : s'[j]? = s[j]? := by
  rw [updAt] at h
  obtain ⟨x, _, h⟩ := bind_ok_iff.1 h
  obtain ⟨y, _, h⟩ := bind_ok_iff.1 h
  cases h
  exact List.getElem?_set_ne hij

theorem convertVals_other {f : Inst F → Res (Inst F)} {d : RefSet → Res RefSet} {s s' : Vals F}
    {ds : RefSet} {j : Nat} (h : convertVals f d s ds = .ok s') (hj : j ∉ ds.refs) :
    s'[j]? = s[j]? := by
  rw [convertVals] at h
  obtain ⟨s1, h1, h⟩ := bind_ok_iff.1 h
  obtain ⟨_, _, h⟩ := bind_ok_iff.1 h
  cases h
  have key : ∀ (refs : List Nat) (s s1 : Vals F), j ∉ refs → refs.foldlM (updAt f) s = .ok s1 →
      s1[j]? = s[j]? := by
    intro refs
    induction refs with
    | nil => intro s s1 _ h; cases h; rfl
    | cons r refs ih =>
      intro s s1 hj h
      rw [List.foldlM_cons] at h
      obtain ⟨s2, h2, h3⟩ := bind_ok_iff.1 h
      rw [List.mem_cons, not_or] at hj
      rw [ih s2 s1 hj.2 h3, updAt_other h2 (Ne.symm hj.1)]
  exact key ds.refs _ _ hj h1

theorem stepVals_other (E : Ext F) {s s' : Vals F} {c : Cmd F} {j : Nat}
    (h : stepVals E s c = .ok s') (hc : c.touches j = false) (hj : j < s.length) :
    s'[j]? = s[j]? ∧ j < s'.length := by
  have hlen : s'[j]? = s[j]? → j < s'.length := by
    intro e
    have : s[j]? = some s[j] := List.getElem?_eq_getElem hj
    rw [this] at e
    exact (List.getElem?_eq_some_iff.1 e).1
  suffices hsuf : s'[j]? = s[j]? from ⟨hsuf, hlen hsuf⟩
  have hl : ∀ enc ts ds, laryVals enc ts s ds = .ok s' → j ∉ ds.refs → s'[j]? = s[j]? := by
    intro enc ts ds h hj
    rw [laryVals] at h
    obtain ⟨_, _, h⟩ := bind_ok_iff.1 h
    obtain ⟨_, _, h⟩ := bind_ok_iff.1 h
    exact convertVals_other h hj
  cases c with
  | create l p => cases h; exact List.getElem?_append_left hj
  | add i a => exact updAt_other h (by simpa [Cmd.touches] using hc)
  | remove i k => exact updAt_other h (by simpa [Cmd.touches] using hc)
  | removeAll i => exact updAt_other h (by simpa [Cmd.touches] using hc)
  | set i k v => exact updAt_other h (by simpa [Cmd.touches] using hc)
  | project i fs =>
    rw [stepVals] at h
    obtain ⟨_, _, h⟩ := bind_ok_iff.1 h
    obtain ⟨_, _, h⟩ := bind_ok_iff.1 h
    cases h
    exact List.getElem?_append_left hj
  | destroy i =>
    rw [stepVals] at h
    obtain ⟨_, _, h⟩ := bind_ok_iff.1 h
    cases h
    exact List.getElem?_set_ne (by simpa [Cmd.touches] using hc)
  | toContinuous ds => exact hl _ _ ds h (by simpa [Cmd.touches] using hc)
  | toBinary ds => exact hl _ _ ds h (by simpa [Cmd.touches] using hc)
  | toIndexed ds => exact hl _ _ ds h (by simpa [Cmd.touches] using hc)
  | normalize ds =>
    rw [stepVals, normalizeVals] at h
    obtain ⟨_, _, h⟩ := bind_ok_iff.1 h
    obtain ⟨_, _, h⟩ := bind_ok_iff.1 h
    obtain ⟨_, _, h⟩ := bind_ok_iff.1 h
    exact convertVals_other h (by simpa [Cmd.touches] using hc)
  | pca k ds =>
    rw [stepVals, pcaVals] at h
    obtain ⟨_, _, h⟩ := bind_ok_iff.1 h
    obtain ⟨_, _, h⟩ := bind_ok_iff.1 h
    exact convertVals_other h (by simpa [Cmd.touches] using hc)

theorem runVals_other (E : Ext F) {j : Nat} : ∀ (cs : List (Cmd F)) (s s' : Vals F),
    runVals E s cs = .ok s' → (∀ c ∈ cs, c.touches j = false) → j < s.length →
    s'[j]? = s[j]? := by
  intro cs
  induction cs with
  | nil => intro s s' h _ _; cases h; rfl
  | cons c cs ih =>
    intro s s' h hc hj
    rw [runVals, List.foldlM_cons] at h
    obtain ⟨s1, h1, h2⟩ := bind_ok_iff.1 h
    obtain ⟨h3, h4⟩ := stepVals_other E h1 (hc c (by simp)) hj
    rw [ih s1 s' h2 (fun c' hc' => hc c' (by simp [hc'])) h4, h3]

/-- **C142 (as far as it holds)**: in a program that copies no attribute pointers, or writes no
attribute objects, calls that do not concern an instance leave it as it is. -/
theorem C142_frame_partial (E : Ext F) (cs ds : List (Cmd F))
    (h : (∀ c ∈ cs ++ ds, c.copies = false) ∨ (∀ c ∈ cs ++ ds, c.writes = false))
    (m m' : Mem F) (hm : Mem.empty.run E cs = .ok m) (hm' : m.run E ds = .ok m') (j : Nat)
    (x : Inst F) (hx : m.look j = .ok x) (hj : ∀ c ∈ ds, c.touches j = false) :
    m'.look j = .ok x := by
  have key : ∀ sep : Bool,
      (∀ c ∈ cs ++ ds, if sep then c.copies = false else c.writes = false) →
      m'.look j = .ok x := by
    intro sep hc
    have h1 := run_sim E (sep := sep) cs (rel_empty (F := F) sep)
      (fun c hcc => hc c (by simp [hcc]))
    rw [hm] at h1
    obtain ⟨s, hs⟩ : ∃ s, Rel sep m s := by
      revert h1
      generalize runVals E [] cs = q
      intro h1
      cases h1 with
      | ok h1 => exact ⟨_, h1⟩
    have h2 := run_sim E (sep := sep) ds hs (fun c hcc => hc c (by simp [hcc]))
    rw [hm'] at h2
    obtain ⟨s', hq, hs'⟩ : ∃ s', runVals E s ds = .ok s' ∧ Rel sep m' s' := by
      revert h2
      generalize runVals E s ds = q
      intro h2
      cases h2 with
      | ok h2 => exact ⟨_, rfl, h2⟩
    rw [hs.look] at hx
    have hlt : j < s.length := by
      rw [valAt] at hx
      obtain ⟨c, hc1, _⟩ := bind_ok_iff.1 hx
      exact (List.getElem?_eq_some_iff.1 (idxR_eq_ok.1 hc1)).1
    rw [hs'.look, ← hx, valAt, valAt, idxR, idxR, runVals_other E ds s s' hq hj hlt]
  rcases h with h | h
  · exact key true (fun c hc => h c hc)
  · exact key false (fun c hc => h c hc)

/-- **C145 (as far as it holds)**: after training a k-nearest-neighbour classifier, calls that do
not concern its training instances do not change what it predicts. -/
theorem C145_knn_partial (E : Ext F) (cs ds : List (Cmd F))
    (h : (∀ c ∈ cs ++ ds, c.copies = false) ∨ (∀ c ∈ cs ++ ds, c.writes = false))
    (m m' : Mem F) (hm : Mem.empty.run E cs = .ok m) (hm' : m.run E ds = .ok m')
    (refs : List Nat) (hr : ∀ r ∈ refs, ∃ x, m.look r = .ok x)
    (hj : ∀ r ∈ refs, ∀ c ∈ ds, c.touches r = false) (k : Int)
    (dist : Inst F → Inst F → Res F) (x : Inst F) :
    m'.knnPredict refs k dist x = m.knnPredict refs k dist x := by
  have : refs.mapM m'.look = refs.mapM m.look := by
    have hall : ∀ r ∈ refs, m'.look r = m.look r := by
      intro r hrr
      obtain ⟨y, hy⟩ := hr r hrr
      rw [hy]
      exact C142_frame_partial E cs ds h m m' hm hm' r y hy (hj r hrr)
    clear hr hj
    induction refs with
    | nil => rfl
    | cons r refs ih =>
      rw [List.mapM_cons, List.mapM_cons, hall r (by simp),
        ih (fun q hq => hall q (by simp [hq]))]
  rw [Mem.knnPredict, Mem.knnPredict, this]

/-- **C145 fails of the code**: editing a training instance after training changes the
prediction. -/
theorem C145_refuted : ∃ (cs : List (Cmd XR)) (m m' : Mem XR) (x : Inst XR),
    Mem.empty.run exExt cs = .ok m ∧ m.run exExt [.set 0 0 (.fin 9)] = .ok m' ∧
    m.knnPredict [0, 1] 1 euclidean x = .ok "a" ∧
    m'.knnPredict [0, 1] 1 euclidean x = .ok "b" := by
  refine ⟨[.create "a" none, .add 0 (.continuous (.fin 1)), .create "b" none,
    .add 1 (.continuous (.fin 3))],
    ⟨[some (.continuous (.fin 1)), some (.continuous (.fin 3))],
      [some ⟨"a", [0], none⟩, some ⟨"b", [1], none⟩]⟩,
    ⟨[some (.continuous (.fin 9)), some (.continuous (.fin 3))],
      [some ⟨"a", [0], none⟩, some ⟨"b", [1], none⟩]⟩,
    ⟨"?", [.continuous (.fin 1)], none⟩, ?_, ?_, ?_, ?_⟩ <;> decide +kernel

/-- the hypotheses of `C145_knn_partial` can be met: editing the other instance -/
example : ∃ (m m' : Mem XR), Mem.empty.run exExt (exProgram.take 7) = .ok m ∧
    m.run exExt [.set 0 0 (.fin 7)] = .ok m' ∧ (m.look 1).toBool = true ∧
    (Cmd.set 0 0 (XR.fin 7)).touches 1 = false := by
  have h : (match Mem.empty.run exExt (exProgram.take 7) with
      | .ok m => (match m.run exExt [.set 0 0 (.fin 7)] with
        | .ok _ => (m.look 1).toBool
        | _ => false)
      | _ => false) = true := by decide +kernel
  split at h
  · rename_i m hm
    split at h
    · rename_i m' hm'; exact ⟨m, m', hm, hm', h, by decide⟩
    · cases h
  · cases h

end Verif
