import Verif.Props.DataSet

/-! # Properties C30–C32: projection of data sets, data files -/

set_option linter.unusedSectionVars false

namespace Verif
open Dbl

section
variable {F : Type} [Dbl F]

/-! ## C30 -/

theorem subset_types (x y : Inst F) (s : List Nat) (h : x.getSubSetOfFeatures s = .ok y)
    (hs : ∀ f ∈ s, f < x.attrs.length) :
    y.attrs.length = s.length ∧ ∀ (j f : Nat), s[j]? = some f → y.attrs[j]? = x.attrs[f]? := by
  obtain ⟨y', e, h1, h2, h3⟩ := C04_subset_valid x s hs
  rw [h] at e; cases e
  refine ⟨h2, ?_⟩
  intro j f hj
  obtain ⟨hj', rfl⟩ := List.getElem?_eq_some_iff.1 hj
  have h4 := h3 j hj'
  have h5 : s[j] < x.attrs.length := hs _ (List.getElem_mem _)
  simp only [Inst.getAttribute] at h4
  rw [atR_ok_of_lt h5, atR_eq_ok] at h4
  rw [h4, List.getElem?_eq_getElem h5]

theorem definition_subset (d : DataDef) (s : List Nat) (hs : ∀ f ∈ s, f < d.types.length) :
    ∃ ts, d.getSubSetOfFeatures s = .ok ⟨ts, []⟩ ∧ ts.length = s.length ∧
      ∀ (j f : Nat), s[j]? = some f → ts[j]? = d.types[f]? := by
  have key : ∀ (s : List Nat) (r : List AttrType), (∀ f ∈ s, f < d.types.length) →
      s.foldlM (fun r f => do
        let t ← atR d.types f
        (pure (r ++ [t]) : Res (List AttrType))) r =
      .ok (r ++ s.filterMap (fun f => d.types[f]?)) := by
    intro s
    induction s with
    | nil => intro r _; simp
    | cons f s ih =>
      intro r h
      have hf := h f (by simp)
      rw [List.foldlM_cons, atR_ok_of_lt hf]
      simp only [res_bind_ok]
      have := ih (r ++ [d.types[f]]) (fun g hg => h g (by simp [hg]))
      simp only [res_pure, res_bind_ok] at this ⊢
      rw [this]
      simp [hf]
  refine ⟨s.filterMap (fun f => d.types[f]?), ?_, ?_, ?_⟩
  · unfold DataDef.getSubSetOfFeatures
    rw [key s [] hs]; simp [DataDef.ofTypes]
  · clear key
    induction s with
    | nil => rfl
    | cons f s ih =>
      have hf := hs f (by simp)
      simp [hf, ih (fun g hg => hs g (by simp [hg]))]
  · clear key
    induction s with
    | nil => intro j f h; simp at h
    | cons g s ih =>
      have hg := hs g (by simp)
      intro j f h
      rw [List.filterMap_cons_some (List.getElem?_eq_getElem hg)]
      cases j with
      | zero => simp at h; subst h; simp [hg]
      | succ j => simpa using ih (fun g hg => hs g (by simp [hg])) j f (by simpa using h)

/-- **C30.** Projecting a conforming data set projects the definition and every instance, in
order, dropping none; the result conforms again. -/
theorem C30_projection (ds : DataSet F)
    (hconf : ∀ x ∈ ds.instances, typesOf x = ds.definition.types) (s : List Nat) (hne : s ≠ [])
    (hs : ∀ f ∈ s, f < ds.definition.types.length) :
    ∃ ds', ds.getSubSetOfFeatures s = .ok ds' ∧
      ds'.definition.types.length = s.length ∧
      (∀ (j f : Nat), s[j]? = some f → ds'.definition.types[j]? = ds.definition.types[f]?) ∧
      List.Forall₂ (fun (x y : Inst F) => y.label = x.label ∧ y.attrs.length = s.length ∧
        ∀ (j f : Nat), s[j]? = some f → y.attrs[j]? = x.attrs[f]?) ds.instances ds'.instances ∧
      ∀ y ∈ ds'.instances, typesOf y = ds'.definition.types := by
  obtain ⟨ts, e, hl, hj⟩ := definition_subset ds.definition s hs
  have hts : ts ≠ [] := by
    intro h; subst h; exact hne (List.length_eq_zero_iff.1 hl.symm)
  have key : ∀ (l : IList F) (acc : DataSet F), (∀ x ∈ l, typesOf x = ds.definition.types) →
      acc.definition = ⟨ts, []⟩ →
      ∃ ds', l.foldlM (fun (r : DataSet F) x => do
          let y ← x.getSubSetOfFeatures s
          r.addInstance y) acc = .ok ds' ∧ ds'.definition = ⟨ts, []⟩ ∧
        ∃ added, ds'.instances = acc.instances ++ added ∧
          List.Forall₂ (fun (x y : Inst F) => y.label = x.label ∧ y.attrs.length = s.length ∧
            ∀ (j f : Nat), s[j]? = some f → y.attrs[j]? = x.attrs[f]?) l added ∧
          ∀ y ∈ added, typesOf y = ts := by
    intro l
    induction l with
    | nil => intro acc _ hd; exact ⟨acc, rfl, hd, [], by simp, .nil, by simp⟩
    | cons x l ih =>
      intro acc hc hd
      have hx := hc x (by simp)
      have hlen : x.attrs.length = ds.definition.types.length := by
        rw [← hx]; simp [typesOf]
      have hs' : ∀ f ∈ s, f < x.attributeSize := by
        intro f hf; rw [Inst.attributeSize, hlen]; exact hs f hf
      obtain ⟨y, e1, e2, _, _⟩ := C04_subset_valid x s hs'
      obtain ⟨h3, h4⟩ := subset_types x y s e1 hs'
      have hty : typesOf y = ts := by
        apply List.ext_getElem?
        intro j
        by_cases hjl : j < s.length
        · have h5 := hj j s[j] (List.getElem?_eq_getElem hjl)
          have h6 := h4 j s[j] (List.getElem?_eq_getElem hjl)
          rw [h5, typesOf, List.getElem?_map, h6, ← hx, typesOf, List.getElem?_map]
        · rw [List.getElem?_eq_none (by rw [typesOf, List.length_map, h3]; omega),
            List.getElem?_eq_none (by omega)]
      obtain ⟨s1, _, _⟩ := C27_step acc (by rw [hd]; exact hts) y
      have e3 := s1 (by rw [hd]; exact hty)
      obtain ⟨ds', e4, e5, added, e6, e7, e8⟩ := ih ⟨acc.instances ++ [y], acc.definition⟩
        (fun z hz => hc z (by simp [hz])) hd
      refine ⟨ds', ?_, e5, y :: added, by simpa using e6, .cons ⟨e2, h3, h4⟩ e7, ?_⟩
      · rw [List.foldlM_cons, e1]
        simp only [res_bind_ok]
        rw [e3]
        exact e4
      · intro z hz
        rcases List.mem_cons.1 hz with rfl | hz
        · exact hty
        · exact e8 z hz
  obtain ⟨ds', e1, e2, added, e3, e4, e5⟩ := key ds.instances (DataSet.ofDefinition ⟨ts, []⟩) hconf rfl
  have e3' : ds'.instances = added := by simpa [DataSet.ofDefinition] using e3
  refine ⟨ds', ?_, by rw [e2]; exact hl, by rw [e2]; exact hj, by rw [e3']; exact e4, ?_⟩
  · unfold DataSet.getSubSetOfFeatures
    rw [e]; exact e1
  · rw [e3', e2]; exact e5

example : (⟨[⟨"a", [.discrete "u", .continuous (.fin 1), .discrete "w"], none⟩],
    ⟨[.discrete, .continuous, .discrete], []⟩⟩ : DataSet XR).getSubSetOfFeatures [2, 1] =
    .ok ⟨[⟨"a", [.discrete "w", .continuous (.fin 1)], none⟩],
      ⟨[.discrete, .continuous], []⟩⟩ := by decide +kernel

/-! ## C32 -/

theorem splitLines_rest : ∀ (cs : List Char) (cur : List Char), '\n' ∉ cs →
    splitLines cs cur = ([], String.ofList (cur ++ cs)) := by
  intro cs
  induction cs with
  | nil => intro cur _; simp [splitLines]
  | cons c cs ih =>
    intro cur h
    have hc : c ≠ '\n' := by intro e; subst e; simp at h
    simp only [splitLines, if_neg hc]
    rw [ih _ (by intro h'; exact h (by simp [h']))]
    simp

theorem splitLines_line : ∀ (cs : List Char) (cur more : List Char), '\n' ∉ cs →
    splitLines (cs ++ '\n' :: more) cur =
      (String.ofList (cur ++ cs) :: (splitLines more []).1, (splitLines more []).2) := by
  intro cs
  induction cs with
  | nil => intro cur more _; simp [splitLines]
  | cons c cs ih =>
    intro cur more h
    have hc : c ≠ '\n' := by intro e; subst e; simp at h
    simp only [List.cons_append, splitLines, if_neg hc]
    rw [ih _ _ (by intro h'; exact h (by simp [h']))]
    simp

theorem splitLines_fileText (lines : List String) (rest : String) (hl : ∀ s ∈ lines, OneLine s)
    (hr : OneLine rest) : splitLines (fileText lines rest) [] = (lines, rest) := by
  induction lines with
  | nil =>
    simp only [fileText, List.map_nil, List.flatten_nil, List.nil_append]
    rw [splitLines_rest _ _ hr]; simp
  | cons s lines ih =>
    have : fileText (s :: lines) rest = s.toList ++ '\n' :: fileText lines rest := by
      simp [fileText]
    rw [this, splitLines_line _ _ _ (hl s (by simp)), ih (fun t ht => hl t (by simp [ht]))]
    simp

/-- Every file content consists of terminated lines and a rest. -/
theorem every_content (content : List Char) : ∃ lines rest, (∀ s ∈ lines, OneLine s) ∧
    OneLine rest ∧ content = fileText lines rest := by
  induction content with
  | nil => exact ⟨[], "", by simp, by simp [OneLine], rfl⟩
  | cons c cs ih =>
    obtain ⟨lines, rest, h1, h2, rfl⟩ := ih
    by_cases hc : c = '\n'
    · subst hc
      refine ⟨"" :: lines, rest, ?_, h2, by simp [fileText]⟩
      intro s hs
      rcases List.mem_cons.1 hs with rfl | hs
      · simp [OneLine]
      · exact h1 s hs
    · cases lines with
      | nil =>
        refine ⟨[], String.ofList (c :: rest.toList), by simp, ?_, by simp [fileText]⟩
        simp only [OneLine, String.toList_ofList, List.mem_cons, not_or]
        exact ⟨fun e => hc e.symm, h2⟩
      | cons s lines =>
        refine ⟨String.ofList (c :: s.toList) :: lines, rest, ?_, h2, by simp [fileText]⟩
        intro t ht
        rcases List.mem_cons.1 ht with rfl | ht
        · simp only [OneLine, String.toList_ofList, List.mem_cons, not_or]
          exact ⟨fun e => hc e.symm, h1 s (by simp)⟩
        · exact h1 t (by simp [ht])

theorem addLoop (f : Nat → Res (Attr F)) : ∀ (n : Nat) (x0 : Inst F),
    (∀ x, (List.range n).foldlM (fun x i => do
        let a ← f i
        (pure (x.addAttribute a) : Res (Inst F))) x0 = .ok x →
      x.label = x0.label ∧ x.possible = x0.possible ∧ ∃ as, x.attrs = x0.attrs ++ as ∧
        as.length = n ∧ ∀ i (h : i < as.length), f i = .ok as[i]) ∧
    (∀ as : List (Attr F), as.length = n → (∀ i (h : i < as.length), f i = .ok as[i]) →
      (List.range n).foldlM (fun x i => do
        let a ← f i
        (pure (x.addAttribute a) : Res (Inst F))) x0 =
      .ok { x0 with attrs := x0.attrs ++ as }) := by
  intro n
  induction n with
  | zero =>
    intro x0
    constructor
    · intro x h; cases h; exact ⟨rfl, rfl, [], by simp, rfl, by simp⟩
    · intro as h _
      have : as = [] := by simpa using h
      subst this; simp
  | succ n ih =>
    intro x0
    obtain ⟨ih1, ih2⟩ := ih x0
    constructor
    · intro x h
      rw [List.range_succ, List.foldlM_append] at h
      cases h1 : (List.range n).foldlM (fun x i => do
        let a ← f i
        (pure (x.addAttribute a) : Res (Inst F))) x0 with
      | error e => rw [h1] at h; cases h
      | ok x1 =>
        rw [h1] at h
        obtain ⟨a1, a2, as, a3, a4, a5⟩ := ih1 x1 h1
        simp only [res_bind_ok, List.foldlM_cons, List.foldlM_nil] at h
        cases h2 : f n with
        | error e => rw [h2] at h; cases h
        | ok a =>
          rw [h2] at h
          cases h
          refine ⟨a1, a2, as ++ [a], by simp [Inst.addAttribute, a3], by simp [a4], ?_⟩
          intro i hi
          by_cases hin : i < as.length
          · rw [List.getElem_append_left hin]; exact a5 i hin
          · have : i = n := by simp at hi; omega
            subst this
            rw [List.getElem_append_right (by omega)]
            simp [a4, h2]
    · intro as hl hf
      have hne : as ≠ [] := by intro e; subst e; simp at hl
      obtain ⟨as', a, rfl⟩ : ∃ as' a, as = as' ++ [a] := ⟨as.dropLast, as.getLast hne,
        (List.dropLast_append_getLast hne).symm⟩
      have hl' : as'.length = n := by simpa using hl
      rw [List.range_succ, List.foldlM_append, ih2 as' hl' (by
        intro i hi
        have := hf i (by simp; omega)
        rwa [List.getElem_append_left hi] at this)]
      have hn := hf n (by simp [hl'])
      rw [List.getElem_append_right (by omega)] at hn
      simp only [hl', Nat.sub_self, List.getElem_cons_zero] at hn
      simp [hn, Inst.addAttribute]

theorem readRow_inv (stod : String → Res F) (d : DataDef) (fields : List String) (x : Inst F)
    (hc : fields.length = d.types.length + 1) (h : readRow stod d fields = .ok x) :
    RowMeans stod d fields x := by
  unfold readRow at h
  have hlt : fields.length - 1 < fields.length := by omega
  rw [idxR_ok_of_lt hlt] at h
  simp only [res_bind_ok] at h
  obtain ⟨h1, _⟩ := addLoop (fun i => do
    let cell ← idxR fields i
    readCell stod d i cell) (fields.length - 1) (⟨fields[fields.length - 1], [], none⟩ : Inst F)
  have h' : (List.range (fields.length - 1)).foldlM (fun x i => do
      let a ← (do
        let cell ← idxR fields i
        readCell stod d i cell)
      (pure (x.addAttribute a) : Res (Inst F))) (⟨fields[fields.length - 1], [], none⟩ : Inst F) =
      .ok x := by
    rw [← h]
    congr 1
    funext x i
    cases idxR fields i <;> rfl
  obtain ⟨a1, a2, as, a3, a4, a5⟩ := h1 x h'
  simp only [List.nil_append] at a3
  refine ⟨hc, a2, ?_, by rw [a3]; omega, ?_⟩
  · rw [List.getLast?_eq_getElem?, List.getElem?_eq_getElem hlt, a1]
  · intro i t c a ht hf ha
    rw [a3] at ha
    obtain ⟨hi, hai⟩ := List.getElem?_eq_some_iff.1 ha
    have h5 := a5 i hi
    rw [hai] at h5
    have hi2 : idxR fields i = .ok c := idxR_eq_ok.2 hf
    rw [hi2] at h5
    simp only [res_bind_ok, readCell, DataDef.getAttributeType] at h5
    rw [atR_eq_ok.2 ht] at h5
    simp only [res_bind_ok] at h5
    cases t with
    | continuous =>
      simp only at h5 ⊢
      cases hs : stod c with
      | error e => rw [hs] at h5; cases h5
      | ok v => rw [hs] at h5; cases h5; exact ⟨v, rfl, rfl⟩
    | discrete => cases h5; rfl
    | binary => cases h5; rfl
    | discreteIndexed =>
      simp only [DataDef.featureValueIndex, DataDef.numberOfValues] at h5 ⊢
      cases hv : d.values[i]? with
      | none => simp [idxR, hv] at h5
      | some vs =>
        simp [idxR, hv, findFrom_eq] at h5
        exact ⟨vs, rfl, h5.symm⟩

theorem readLines (split : String → String → List String) (stod : String → Res F) (d : DataDef)
    (sep : String) : ∀ (lines : List String) (acc l : IList F),
    lines.foldlM (readLine split stod d sep) acc = .ok l →
    ∃ rows, l = acc ++ rows ∧ List.Forall₂ (fun line x => RowMeans stod d (split line sep) x)
      (lines.filter (fun line => decide ((split line sep).length = d.types.length + 1))) rows := by
  intro lines
  induction lines with
  | nil => intro acc l h; cases h; exact ⟨[], by simp, .nil⟩
  | cons s lines ih =>
    intro acc l h
    rw [List.foldlM_cons] at h
    by_cases hc : (split s sep).length = d.types.length + 1
    · rw [List.filter_cons_of_pos (by simpa using hc)]
      have e : readLine split stod d sep acc s = (do
          let x ← readRow stod d (split s sep)
          pure (acc ++ [x])) := if_pos hc
      rw [e] at h
      cases h1 : readRow stod d (split s sep) with
      | error e => rw [h1] at h; cases h
      | ok x =>
        rw [h1] at h
        obtain ⟨rows, rfl, h2⟩ := ih (acc ++ [x]) l h
        exact ⟨x :: rows, by simp, .cons (readRow_inv stod d _ x hc h1) h2⟩
    · rw [List.filter_cons_of_neg (by simpa using hc)]
      have e : readLine split stod d sep acc s = .ok acc := if_neg hc
      rw [e] at h
      exact ih acc l h

/-- **C32.** When a file is read without exception, the instances are, in order, the meanings
of exactly those newline-terminated lines that have the right number of columns; the text
after the last newline is ignored. -/
theorem C32_rows (split : String → String → List String) (stod : String → Res F) (d : DataDef)
    (sep : String) (lines : List String) (rest : String) (hl : ∀ s ∈ lines, OneLine s)
    (hr : OneLine rest) (l : IList F)
    (h : IList.ofFile split stod d sep (fileText lines rest) = .ok l) :
    List.Forall₂ (fun line x => RowMeans stod d (split line sep) x)
      (lines.filter (fun line => decide ((split line sep).length = d.types.length + 1))) l := by
  unfold IList.ofFile at h
  rw [splitLines_fileText lines rest hl hr] at h
  obtain ⟨rows, h1, h2⟩ := readLines split stod d sep lines [] l h
  rw [List.nil_append] at h1
  rw [h1]; exact h2

theorem RowMeans.types {stod : String → Res F} {d : DataDef} {fields : List String} {x : Inst F}
    (h : RowMeans stod d fields x) : typesOf x = d.types := by
  apply List.ext_getElem
  · simp [typesOf, h.width]
  · intro i h1 h2
    have h3 : i < x.attrs.length := by rw [h.width]; exact h2
    have h4 : i < fields.length := by rw [h.columns]; omega
    have := h.cell i _ _ _ (List.getElem?_eq_getElem h2) (List.getElem?_eq_getElem h4)
      (List.getElem?_eq_getElem h3)
    simp only [typesOf, List.getElem_map]
    cases ht : d.types[i] with
    | continuous => rw [ht] at this; obtain ⟨v, _, e⟩ := this; rw [e]; rfl
    | discrete => rw [ht] at this; simp only at this; rw [this]; rfl
    | binary => rw [ht] at this; simp only at this; rw [this]; rfl
    | discreteIndexed => rw [ht] at this; obtain ⟨v, _, e⟩ := this; rw [e]; rfl

/-- **C32.** Whatever the file contains, every instance read has the definition's types. -/
theorem C32_types (split : String → String → List String) (stod : String → Res F) (d : DataDef)
    (sep : String) (content : List Char) (l : IList F)
    (h : IList.ofFile split stod d sep content = .ok l) : ∀ x ∈ l, typesOf x = d.types := by
  obtain ⟨lines, rest, h1, h2, rfl⟩ := every_content content
  have h3 := C32_rows split stod d sep lines rest h1 h2 l h
  intro x hx
  obtain ⟨i, hi, rfl⟩ := List.getElem_of_mem hx
  have h4 := List.Forall₂.get h3 (by rw [List.Forall₂.length_eq h3]; exact hi) hi
  exact h4.types

/-- a comma splitter for the examples -/
def exSplit (s : String) (_ : String) : List String :=
  s.toList.splitOn ',' |>.map String.ofList

example : (IList.ofFile exSplit (fun s => if s = "1" then .ok (XR.fin 1) else .error (.throw "invalid_argument"))
    ⟨[.discrete, .continuous], []⟩ "," (fileText ["u,1,yes", "u,no", "v,1,no"] "w,1,yes") :
      Res (IList XR)) =
    .ok [⟨"yes", [.discrete "u", .continuous (.fin 1)], none⟩,
         ⟨"no", [.discrete "v", .continuous (.fin 1)], none⟩] := by decide +kernel

/-! ## C31 -/

theorem toStr_plain (showD : F → String) (as : List (Attr F)) (lbl : String) :
    (⟨lbl, as, none⟩ : Inst F).toStr showD =
      joinWith "," (as.map (fun a => a.toStr showD) ++ [lbl]) := by
  have key : ∀ (as : List (Attr F)) (r : String),
      as.foldl (fun r a => r ++ (a.toStr showD ++ ",")) r ++ lbl =
        r ++ joinWith "," (as.map (fun a => a.toStr showD) ++ [lbl]) := by
    intro as
    induction as with
    | nil => intro r; simp [joinWith]
    | cons a as ih =>
      intro r
      rw [List.foldl_cons, ih]
      simp only [List.map_cons, List.cons_append]
      have : ∀ (b : String) (l : List String), l ≠ [] →
          joinWith "," (b :: l) = b ++ "," ++ joinWith "," l := by
        intro b l hl
        cases l with
        | nil => exact absurd rfl hl
        | cons c l => rfl
      rw [this _ _ (by simp)]
      simp only [String.append_assoc]
  unfold Inst.toStr
  simp only
  rw [key]
  simp

theorem joinWith_oneLine (fields : List String) (h : ∀ f ∈ fields, OneLine f) :
    OneLine (joinWith "," fields) := by
  induction fields with
  | nil => simp [joinWith, OneLine]
  | cons a l ih =>
    cases l with
    | nil => simpa [joinWith] using h a (by simp)
    | cons b l =>
      have h1 := h a (by simp)
      have h2 := ih (fun f hf => h f (by simp [hf]))
      simp only [joinWith, OneLine, String.toList_append, List.mem_append, not_or] at h1 h2 ⊢
      exact ⟨⟨h1, by decide⟩, h2⟩

theorem writeToFile_text (showD : F → String) (ds : DataSet F) :
    ds.writeToFile showD = fileText (ds.instances.map (fun x => x.toStr showD)) "" := by
  have key : ∀ (l : IList F) (out : List Char),
      l.foldl (fun out x => out ++ ((x.toStr showD).toList ++ ['\n'])) out =
        out ++ fileText (l.map (fun x => x.toStr showD)) "" := by
    intro l
    induction l with
    | nil => intro out; simp [fileText]
    | cons x l ih => intro out; rw [List.foldl_cons, ih]; simp [fileText]
  unfold DataSet.writeToFile
  rw [key]; simp

theorem cellText_toStr {showD : F → String} {stod : String → Res F} {d : DataDef} {i : Nat}
    {a : Attr F} (h : Writable showD stod d i a) (ht : d.types[i]? = some (typeOf a)) :
    CellText (a.toStr showD) ∧ readCell stod d i (a.toStr showD) = .ok a := by
  have nocomma : ∀ v : String, CellText v → ¬ v = "," := by
    intro v hv e; subst e; exact hv.noComma (by decide)
  cases a with
  | continuous v =>
    refine ⟨h.1, ?_⟩
    simp only [Attr.toStr, readCell, DataDef.getAttributeType]
    rw [atR_eq_ok.2 ht]
    simp [typeOf, h.2]
  | discrete v =>
    have := nocomma v h
    simp only [Attr.toStr, if_neg this]
    refine ⟨h, ?_⟩
    simp only [readCell, DataDef.getAttributeType]
    rw [atR_eq_ok.2 ht]
    simp [typeOf]
  | binary v =>
    have := nocomma v h
    simp only [Attr.toStr, if_neg this]
    refine ⟨h, ?_⟩
    simp only [readCell, DataDef.getAttributeType]
    rw [atR_eq_ok.2 ht]
    simp [typeOf]
  | indexed v k m =>
    obtain ⟨h1, vs, h2, h3, h4, h5, h6⟩ := h
    have := nocomma v h1
    simp only [Attr.toStr, if_neg this]
    refine ⟨h1, ?_⟩
    simp only [readCell, DataDef.getAttributeType]
    rw [atR_eq_ok.2 ht]
    have hmem : v ∈ vs := List.mem_of_getElem? h3
    have hidx : vs.idxOf v = k.toNat := by
      have hle := idxOf_le_of_getElem? h3
      rcases Nat.lt_or_ge (vs.idxOf v) k.toNat with hlt | hge
      · exfalso
        apply h5 _ hlt
        rw [List.getElem?_eq_getElem (List.idxOf_lt_length_iff.2 hmem)]
        simp
      · omega
    simp only [typeOf, res_bind_ok, DataDef.featureValueIndex, DataDef.numberOfValues,
      idxR_eq_ok.2 h2, res_pure, findFrom_eq, hmem, if_true, hidx, h6]
    congr 2
    omega

/-- **C31 (partial).** A data set of plain conforming instances whose values text can carry is
restored by writing it and reading it back. -/
theorem C31_partial (split : String → String → List String) (hsplit : SplitsCommas split)
    (showD : F → String) (stod : String → Res F) (ds : DataSet F)
    (hplain : ∀ x ∈ ds.instances, x.possible = none)
    (hconf : ∀ x ∈ ds.instances, typesOf x = ds.definition.types)
    (hlabel : ∀ x ∈ ds.instances, CellText x.label)
    (hval : ∀ x ∈ ds.instances, ∀ (i : Nat) a, x.attrs[i]? = some a →
      Writable showD stod ds.definition i a) :
    DataSet.ofFile split stod ds.definition "," (ds.writeToFile showD) = .ok ds := by
  have row : ∀ x ∈ ds.instances, (∀ f ∈ x.attrs.map (fun a => a.toStr showD) ++ [x.label], CellText f) ∧
      x.toStr showD = joinWith "," (x.attrs.map (fun a => a.toStr showD) ++ [x.label]) ∧
      readRow stod ds.definition (x.attrs.map (fun a => a.toStr showD) ++ [x.label]) = .ok x ∧
      x.attrs.length = ds.definition.types.length := by
    intro x hx
    have hlen : x.attrs.length = ds.definition.types.length := by
      rw [← hconf x hx]; simp [typesOf]
    have hcell : ∀ (i : Nat) (a : Attr F), x.attrs[i]? = some a →
        CellText (a.toStr showD) ∧ readCell stod ds.definition i (a.toStr showD) = .ok a := by
      intro i a ha
      apply cellText_toStr (hval x hx i a ha)
      rw [← hconf x hx, typesOf, List.getElem?_map, ha]; rfl
    refine ⟨?_, ?_, ?_, hlen⟩
    · intro f hf
      rw [List.mem_append, List.mem_map, List.mem_singleton] at hf
      rcases hf with ⟨a, ha, rfl⟩ | rfl
      · obtain ⟨i, hi, rfl⟩ := List.getElem_of_mem ha
        exact (hcell i _ (List.getElem?_eq_getElem hi)).1
      · exact hlabel x hx
    · obtain ⟨lbl, as, pos⟩ := x
      have : pos = none := hplain _ hx
      subst this
      exact toStr_plain showD as lbl
    · unfold readRow
      rw [idxR_ok_of_lt (by simp)]
      simp only [res_bind_ok]
      have hlast : (x.attrs.map (fun a => a.toStr showD) ++ [x.label])[
          (x.attrs.map (fun a => a.toStr showD) ++ [x.label]).length - 1]'(by simp) = x.label := by
        simp
      rw [hlast]
      obtain ⟨_, h2⟩ := addLoop (fun i => do
        let cell ← idxR (x.attrs.map (fun a => a.toStr showD) ++ [x.label]) i
        readCell stod ds.definition i cell)
        ((x.attrs.map (fun a => a.toStr showD) ++ [x.label]).length - 1) (⟨x.label, [], none⟩ : Inst F)
      have h3 := h2 x.attrs (by simp) (by
        intro i hi
        have : (x.attrs.map (fun a => a.toStr showD) ++ [x.label])[i]? =
            some (x.attrs[i].toStr showD) := by
          rw [List.getElem?_append_left (by simpa using hi)]
          simp [hi]
        rw [idxR_eq_ok.2 this]
        exact (hcell i _ (List.getElem?_eq_getElem hi)).2)
      have h4 : (⟨x.label, [] ++ x.attrs, none⟩ : Inst F) = x := by
        obtain ⟨lbl, as, pos⟩ := x
        have : pos = none := hplain _ hx
        subst this
        simp
      simp only at h3
      rw [h4] at h3
      rw [← h3]
      congr 1
      funext x' i
      cases idxR (x.attrs.map (fun a => a.toStr showD) ++ [x.label]) i <;> rfl
  have hone : ∀ s ∈ ds.instances.map (fun x => x.toStr showD), OneLine s := by
    intro s hs
    obtain ⟨x, hx, rfl⟩ := List.mem_map.1 hs
    obtain ⟨r1, r2, _, _⟩ := row x hx
    simp only [r2]
    exact joinWith_oneLine _ (fun f hf => (r1 f hf).oneLine)
  have loop : ∀ (l acc : IList F), (∀ x ∈ l, x ∈ ds.instances) →
      (l.map (fun x => x.toStr showD)).foldlM (readLine split stod ds.definition ",") acc =
        .ok (acc ++ l) := by
    intro l
    induction l with
    | nil => intro acc _; simp
    | cons x l ih =>
      intro acc hsub
      obtain ⟨r1, r2, r3, r4⟩ := row x (hsub x (by simp))
      rw [List.map_cons, List.foldlM_cons]
      have : readLine split stod ds.definition "," acc (x.toStr showD) = .ok (acc ++ [x]) := by
        unfold readLine
        simp only
        rw [r2, hsplit _ (by simp) (fun f hf => ⟨(r1 f hf).nonempty, (r1 f hf).noComma⟩)]
        rw [if_pos (by simp [DataDef.attributeCount, r4]), r3]
        rfl
      rw [this]
      simp only [res_bind_ok]
      rw [ih _ (fun y hy => hsub y (by simp [hy]))]
      simp
  unfold DataSet.ofFile IList.ofFile
  rw [writeToFile_text, splitLines_fileText _ _ hone (by simp [OneLine])]
  rw [loop ds.instances [] (fun x hx => hx)]
  rfl

/-- **C31 refuted (numbers).** `std::to_string` prints six decimals, so two different numbers
can print alike; then no reader restores both data sets. -/
theorem C31_numbers_refuted (split : String → String → List String) (showD : F → String)
    (stod : String → Res F) (a b : F) (hab : a ≠ b) (hshow : showD a = showD b) :
    ¬ ∀ v : F, DataSet.ofFile split stod ⟨[.continuous], []⟩ ","
        ((⟨[⟨"c", [.continuous v], none⟩], ⟨[.continuous], []⟩⟩ : DataSet F).writeToFile showD) =
      .ok ⟨[⟨"c", [.continuous v], none⟩], ⟨[.continuous], []⟩⟩ := by
  intro h
  have ha := h a
  have hb := h b
  have : (⟨[⟨"c", [.continuous a], none⟩], ⟨[.continuous], []⟩⟩ : DataSet F).writeToFile showD =
      (⟨[⟨"c", [.continuous b], none⟩], ⟨[.continuous], []⟩⟩ : DataSet F).writeToFile showD := by
    simp [DataSet.writeToFile, Inst.toStr, Attr.toStr, hshow]
  rw [this, hb] at ha
  simp only [Except.ok.injEq, DataSet.mk.injEq, List.cons.injEq, Inst.mk.injEq,
    Attr.continuous.injEq] at ha
  exact hab ha.1.1.2.1.1.symm

/-- **C31.** The value `,` itself is written as `comma` and read back as such: values must
be separator-free. -/
theorem C31_comma_value (split : String → String → List String) (showD : F → String)
    (stod : String → Res F) :
    ¬ ∀ v : String, DataSet.ofFile split stod ⟨[.discrete], []⟩ ","
        ((⟨[⟨"c", [.discrete v], none⟩], ⟨[.discrete], []⟩⟩ : DataSet F).writeToFile showD) =
      .ok ⟨[⟨"c", [.discrete v], none⟩], ⟨[.discrete], []⟩⟩ := by
  intro h
  have ha := h ","
  have hb := h "comma"
  have : (⟨[⟨"c", [.discrete ","], none⟩], ⟨[.discrete], []⟩⟩ : DataSet F).writeToFile showD =
      (⟨[⟨"c", [.discrete "comma"], none⟩], ⟨[.discrete], []⟩⟩ : DataSet F).writeToFile showD := by
    simp [DataSet.writeToFile, Inst.toStr, Attr.toStr]
  rw [this, hb] at ha
  simp at ha

example : (DataSet.ofFile exSplit (fun s => if s = "1" then .ok (XR.fin 1) else .error (.throw "invalid_argument"))
    ⟨[.discrete, .continuous], []⟩ "," ((⟨[⟨"yes", [.discrete "u", .continuous (.fin 1)], none⟩],
      ⟨[.discrete, .continuous], []⟩⟩ : DataSet XR).writeToFile (fun _ => "1"))) =
    .ok ⟨[⟨"yes", [.discrete "u", .continuous (.fin 1)], none⟩], ⟨[.discrete, .continuous], []⟩⟩ := by
  decide +kernel

end
end Verif
