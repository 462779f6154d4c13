import Verif.Model.DblXR
import Verif.Spec.DataSet
import Verif.Props.DataFile

/-! # Properties C110, C111: reading data files without declared types -/

set_option linter.unusedSectionVars false

namespace Verif
open Dbl

section
variable {F : Type} [Dbl F]

/-- the number reader either reads or reports text that is not a number -/
def OnlyInvalid (stod : String → Res F) : Prop :=
  ∀ c, (∃ v, stod c = .ok v) ∨ stod c = .error (.throw "invalid_argument")

/-- the attribute a cell gives -/
def cellAttr (stod : String → Res F) (t : AttrType) (c : String) : Option (Attr F) :=
  match t with
  | .continuous => (stod c).toOption.map Attr.continuous
  | .discrete => some (.discrete c)
  | _ => none

theorem guessTypes_eq {stod : String → Res F} (hs : OnlyInvalid stod) (cells : List String) :
    guessTypes stod cells = .ok ⟨cells.map (fun c => if (stod c).toOption.isSome then .continuous else .discrete), []⟩ := by
  unfold guessTypes
  have : ∀ (cells : List String) (ts : List AttrType),
      cells.foldlM (guessStep stod) ⟨ts, []⟩ =
      (.ok ⟨ts ++ cells.map (fun c => if (stod c).toOption.isSome then .continuous else .discrete), []⟩ : Res DataDef) := by
    intro cells
    induction cells with
    | nil => intro ts; simp
    | cons c cells ih =>
      intro ts
      rw [List.foldlM_cons]
      rcases hs c with ⟨v, hv⟩ | hv
      · have : guessStep stod ⟨ts, []⟩ c = .ok ⟨ts ++ [.continuous], []⟩ := by simp [guessStep, hv, DataDef.addAttribute]
        rw [this]
        simp only [res_bind_ok]
        rw [ih, List.map_cons, hv]
        simp [Except.toOption]
      · have : guessStep stod ⟨ts, []⟩ c = .ok ⟨ts ++ [.discrete], []⟩ := by
          simp [guessStep, hv, DataDef.addAttribute, isInvalidArgument]
        rw [this]
        simp only [res_bind_ok]
        rw [ih, List.map_cons, hv]
        simp [Except.toOption]
  exact this cells []

theorem readCells_eq {stod : String → Res F} (hs : OnlyInvalid stod) (d : DataDef) (cells : List String)
    (hl : d.types.length = cells.length) (x0 : Inst F) :
    readCells stod d cells x0 = .ok { x0 with
      attrs := x0.attrs ++ (cells.zip d.types).filterMap (fun p => cellAttr stod p.2 p.1) } := by
  unfold readCells
  have : ∀ n, n ≤ cells.length → (List.range n).foldlM (fun (x : Inst F) i => do
      let c ← idxR cells i
      let t ← d.getAttributeType i
      addCell stod t c x) x0 = (.ok { x0 with
      attrs := x0.attrs ++ ((cells.zip d.types).take n).filterMap (fun p => cellAttr stod p.2 p.1) } : Res (Inst F)) := by
    intro n
    induction n with
    | zero => intro _; simp
    | succ n ih =>
      intro hn
      have hn' : n < d.types.length := by omega
      have hz : n < (cells.zip d.types).length := by simp; omega
      rw [List.range_succ, foldlM_append', ih (by omega)]
      simp only [res_bind_ok, List.foldlM_cons, List.foldlM_nil]
      rw [idxR_ok_of_lt (by omega : n < cells.length)]
      simp only [res_bind_ok, DataDef.getAttributeType]
      rw [atR_ok_of_lt hn']
      simp only [res_bind_ok]
      rw [List.take_succ_eq_append_getElem hz, List.filterMap_append]
      have hget : (cells.zip d.types)[n] = (cells[n], d.types[n]) := List.getElem_zip
      rw [hget]
      cases ht : d.types[n] with
      | continuous =>
        rcases hs cells[n] with ⟨v, hv⟩ | hv
        · simp [addCell, cellAttr, hv, Except.toOption, Inst.addAttribute]
        · simp [addCell, cellAttr, hv, Except.toOption, isInvalidArgument]
      | discrete => simp [addCell, cellAttr, Inst.addAttribute]
      | binary => simp [addCell, cellAttr]
      | discreteIndexed => simp [addCell, cellAttr]
  have h := this cells.length (le_refl _)
  rw [h, List.take_of_length_le (by simp)]

theorem zip_all_of_length {α β : Type} (f : α → Option β) : ∀ (l : List α),
    (l.filterMap f).length = l.length → ∀ x ∈ l, (f x).isSome := by
  intro l
  induction l with
  | nil => simp
  | cons a l ih =>
    intro h x hx
    have hle := List.length_filterMap_le f l
    cases hf : f a with
    | none => rw [List.filterMap_cons, hf] at h; simp at h; omega
    | some b =>
      rw [List.filterMap_cons, hf] at h
      rcases List.mem_cons.1 hx with rfl | hx
      · simp [hf]
      · exact ih (by simpa using h) x hx

theorem filterMap_getElem {α β : Type} (f : α → Option β) : ∀ (l : List α), (∀ x ∈ l, (f x).isSome) →
    (l.filterMap f).length = l.length ∧ ∀ (i : Nat) (x : α), l[i]? = some x → (l.filterMap f)[i]? = f x := by
  intro l
  induction l with
  | nil => intro _; simp
  | cons a l ih =>
    intro h
    obtain ⟨b, hb⟩ := Option.isSome_iff_exists.1 (h a (by simp))
    obtain ⟨h1, h2⟩ := ih (fun x hx => h x (by simp [hx]))
    rw [List.filterMap_cons, hb]
    refine ⟨by simp [h1], ?_⟩
    intro i x hx
    cases i with
    | zero => simp at hx; subst hx; simp [hb]
    | succ i => simp at hx; simpa using h2 i x hx

theorem getLast?_dropLast_cells {fields : List String} {i : Nat} (hi : i < fields.length - 1) :
    fields.dropLast[i]? = fields[i]? := by
  rw [List.dropLast_eq_take, List.getElem?_take_of_lt hi]

/-- a line with the right number of columns contributes exactly its meaning, or nothing when it has
none -/
theorem readFields_spec {split : String → String → List String} {stod : String → Res F} (hs : OnlyInvalid stod)
    {is : IList F} {d : DataDef} (hd : ∀ t ∈ d.types, t = .continuous ∨ t = .discrete)
    {fields : List String} (hf : fields.length = d.types.length + 1) {ds : DataSet F}
    (h : readFields split stod is d fields = .ok ds) :
    ds.definition = d ∧ ((Unusable stod d.types fields ∧ ds.instances = is) ∨
      (¬ Unusable stod d.types fields ∧ ∃ x, GuessedRow split stod d.types fields x ∧ ds.instances = is ++ [x])) := by
  have hlen : fields.dropLast.length = d.types.length := by simp [hf]
  unfold readFields at h
  rw [idxR_ok_of_lt (by omega)] at h
  simp only [res_bind_ok] at h
  rw [bind_ok_iff] at h
  obtain ⟨x0, h0, h⟩ := h
  rw [readCells_eq hs d _ hlen.symm] at h
  simp only [res_bind_ok, res_pure] at h
  cases h
  have hx0 : x0.attrs = [] ∧ ((';' ∉ (fields[fields.length - 1]).toList ∧ x0.label = fields[fields.length - 1] ∧
      x0.possible = none) ∨ (';' ∈ (fields[fields.length - 1]).toList ∧
      ∃ ps, split fields[fields.length - 1] ";" = x0.label :: ps ∧ x0.possible = some ps)) := by
    unfold labelInst at h0
    split at h0
    · rename_i hm
      unfold Inst.ofPossible at h0
      split at h0
      · cases h0
      · rename_i c rest hsp
        cases h0
        exact ⟨rfl, .inr ⟨hm, rest, hsp, rfl⟩⟩
    · rename_i hm
      cases h0
      exact ⟨rfl, .inl ⟨hm, rfl, rfl⟩⟩
  obtain ⟨ha, hlab⟩ := hx0
  refine ⟨rfl, ?_⟩
  set as := (fields.dropLast.zip d.types).filterMap (fun p => cellAttr stod p.2 p.1) with has
  have hzl : (fields.dropLast.zip d.types).length = d.types.length := by simp [hlen]
  have hzget : ∀ (i : Nat) (t : AttrType) (c : String), d.types[i]? = some t → fields[i]? = some c →
      (fields.dropLast.zip d.types)[i]? = some (c, t) := by
    intro i t c ht hc
    have hi : i < d.types.length := (List.getElem?_eq_some_iff.1 ht).1
    rw [List.getElem?_zip_eq_some]
    exact ⟨by rw [getLast?_dropLast_cells (by omega)]; exact hc, ht⟩
  by_cases hall : ∀ p ∈ fields.dropLast.zip d.types, (cellAttr stod p.2 p.1).isSome
  · obtain ⟨hl, hg⟩ := filterMap_getElem (fun (p : String × AttrType) => cellAttr stod p.2 p.1) _ hall
    right
    refine ⟨?_, ⟨x0.label, x0.attrs ++ as, x0.possible⟩, ⟨hf, ?_, ?_, ?_⟩, ?_⟩
    · rintro (hu | ⟨i, c, ht, hc, hn⟩)
      · exact hu hf
      · have := hall _ (List.mem_of_getElem? (hzget i _ c ht hc))
        simp only [cellAttr] at this
        apply hn
        cases hv : stod c with
        | ok v => exact ⟨v, hv⟩
        | error e => rw [hv] at this; simp [Except.toOption] at this
    · simp only [ha, List.nil_append]; rw [hl, hzl]
    · intro i t c a ht hc hax
      simp only [ha, List.nil_append] at hax
      rw [hg i _ (hzget i t c ht hc)] at hax
      rcases hd t (List.mem_of_getElem? ht) with rfl | rfl
      · left
        refine ⟨rfl, ?_⟩
        simp only [cellAttr] at hax
        cases hv : stod c with
        | ok v =>
          rw [hv] at hax
          simp only [Except.toOption, Option.map_some, Option.some.injEq] at hax
          exact ⟨v, rfl, hax.symm⟩
        | error e => rw [hv] at hax; simp [Except.toOption] at hax
      · right
        simp only [cellAttr, Option.some.injEq] at hax
        exact ⟨rfl, hax.symm⟩
    · refine ⟨fields[fields.length - 1], ?_, hlab⟩
      rw [List.getLast?_eq_getElem?, List.getElem?_eq_getElem (by omega)]
    · rw [if_pos (by simp only [Inst.attributeSize, DataDef.attributeCount, ha, List.nil_append]; rw [hl, hzl])]
      rfl
  · left
    push Not at hall
    obtain ⟨p, hp, hn⟩ := hall
    refine ⟨?_, ?_⟩
    · right
      obtain ⟨i, hi⟩ := List.getElem?_of_mem hp
      obtain ⟨h1, h2⟩ := List.getElem?_zip_eq_some.1 hi
      have hil : i < d.types.length := (List.getElem?_eq_some_iff.1 h2).1
      rw [getLast?_dropLast_cells (by omega)] at h1
      rcases hd p.2 (List.mem_of_getElem? h2) with ht | ht
      · refine ⟨i, p.1, by rw [h2, ht], h1, ?_⟩
        rintro ⟨v, hv⟩
        apply hn
        simp [cellAttr, ht, hv, Except.toOption]
      · rw [ht] at hn; simp [cellAttr] at hn
    · rw [if_neg]
      simp only [Inst.attributeSize, DataDef.attributeCount, ha, List.nil_append]
      intro he
      have := zip_all_of_length (fun (p : String × AttrType) => cellAttr stod p.2 p.1) _ (by rw [he, hzl]) p hp
      exact hn this

open Classical in
theorem guessLoop {split : String → String → List String} {stod : String → Res F} (hs : OnlyInvalid stod) :
    ∀ (lines : List String) (ds ds' : DataSet F) (b : Bool),
    (∀ t ∈ ds.definition.types, t = .continuous ∨ t = .discrete) →
    lines.foldlM (readGuessLine split stod) (ds, false) = .ok (ds', b) →
    ds'.definition = ds.definition ∧ ∃ rows, ds'.instances = ds.instances ++ rows ∧
      List.Forall₂ (fun line x => GuessedRow split stod ds.definition.types (split line ",") x)
        (lines.filter (fun line => decide (¬ Unusable stod ds.definition.types (split line ",")))) rows := by
  intro lines
  induction lines with
  | nil => intro ds ds' b _ h; cases h; exact ⟨rfl, [], by simp, .nil⟩
  | cons s lines ih =>
    intro ds ds' b hd h
    rw [List.foldlM_cons, bind_ok_iff] at h
    obtain ⟨⟨ds1, b1⟩, h1, h⟩ := h
    unfold readGuessLine at h1
    simp only [Bool.false_eq_true, if_false] at h1
    split at h1
    · rename_i hc
      cases h1
      obtain ⟨e1, rows, e2, e3⟩ := ih ds ds' b hd h
      refine ⟨e1, rows, e2, ?_⟩
      rw [List.filter_cons_of_neg]
      · exact e3
      · simp only [decide_eq_true_eq, not_not]; exact .inl hc
    · rename_i hc
      rw [bind_ok_iff] at h1
      obtain ⟨ds2, h2, h1⟩ := h1
      cases h1
      have hlen : (split s ",").length = ds.definition.types.length + 1 := by
        simpa [DataDef.attributeCount] using hc
      obtain ⟨hdef, hcase⟩ := readFields_spec hs hd hlen h2
      obtain ⟨e1, rows, e2, e3⟩ := ih ds1 ds' b (by rw [hdef]; exact hd) h
      rw [hdef] at e1 e3
      refine ⟨e1, ?_⟩
      rcases hcase with ⟨hu, hi⟩ | ⟨hu, x, hx, hi⟩
      · refine ⟨rows, by rw [e2, hi], ?_⟩
        rw [List.filter_cons_of_neg (by simpa using hu)]
        exact e3
      · refine ⟨x :: rows, by rw [e2, hi]; simp, ?_⟩
        rw [List.filter_cons_of_pos (by simpa using hu)]
        exact .cons hx e3

open Classical in
/-- **C110.** Reading a file without declared types: the first line decides the types (a column is
numeric iff its first cell is a number), and the instances are, in order, the meanings of exactly
the usable lines (right number of columns, numbers in numeric columns), including the text after the
last newline. -/
theorem C110_rows {split : String → String → List String} {stod : String → Res F} (hs : OnlyInvalid stod)
    (content : List Char) (first : String) (lines : List String) (rest : String)
    (hl : ∀ s ∈ lines, OneLine s) (hr : OneLine rest) (hc : content = fileText lines rest)
    (hfirst : (lines ++ [rest]).head? = some first) (ds : DataSet F)
    (h : DataSet.ofStream split stod content = .ok ds) :
    ds.definition.types.length + 1 = (split first ",").length ∧
    (∀ (i : Nat) (c : String) (t : AttrType), (split first ",")[i]? = some c → ds.definition.types[i]? = some t →
      (IsNumber stod c ∧ t = .continuous) ∨ (¬ IsNumber stod c ∧ t = .discrete)) ∧
    List.Forall₂ (fun line x => GuessedRow split stod ds.definition.types (split line ",") x)
      ((lines ++ [rest]).filter (fun line => decide (¬ Unusable stod ds.definition.types (split line ",")))) ds.instances := by
  unfold DataSet.ofStream at h
  rw [hc, splitLines_fileText lines rest hl hr] at h
  simp only [bind_ok_iff, res_pure] at h
  obtain ⟨⟨dsr, b⟩, h, he⟩ := h
  cases he
  obtain ⟨tail, htail⟩ : ∃ tail, lines ++ [rest] = first :: tail := by
    cases hh : lines ++ [rest] with
    | nil => simp at hh
    | cons a t => rw [hh] at hfirst; simp at hfirst; exact ⟨t, by rw [hfirst]⟩
  rw [htail] at h ⊢
  rw [List.foldlM_cons, bind_ok_iff] at h
  obtain ⟨⟨ds1, b1⟩, h1, h⟩ := h
  unfold readGuessLine at h1
  simp only [if_true] at h1
  split at h1
  · cases h1
  · rename_i hne
    rw [guessTypes_eq hs] at h1
    simp only [res_bind_ok] at h1
    rw [bind_ok_iff] at h1
    obtain ⟨ds2, h2, h1⟩ := h1
    cases h1
    have hpos : 0 < (split first ",").length := List.length_pos_iff.2 hne
    obtain ⟨hdef, hcase⟩ := readFields_spec hs (by
      intro t ht
      obtain ⟨c, _, rfl⟩ := List.mem_map.1 ht
      split
      · exact .inl rfl
      · exact .inr rfl) (by simp; omega) h2
    have hdt : ∀ t ∈ ds1.definition.types, t = .continuous ∨ t = .discrete := by
      rw [hdef]
      intro t ht
      obtain ⟨c, _, rfl⟩ := List.mem_map.1 ht
      split
      · exact .inl rfl
      · exact .inr rfl
    obtain ⟨e1, rows, e2, e3⟩ := guessLoop hs tail ds1 dsr b hdt h
    rw [e1]
    refine ⟨by rw [hdef]; simp; omega, ?_, ?_⟩
    · intro i c t hic hit
      rw [hdef] at hit
      simp only [List.getElem?_map, Option.map_eq_some_iff] at hit
      obtain ⟨c', hc', rfl⟩ := hit
      have hi : i < (split first ",").length - 1 := by
        have := (List.getElem?_eq_some_iff.1 hc').1
        simpa using this
      rw [getLast?_dropLast_cells hi, hic] at hc'
      cases hc'
      rcases hs c with ⟨v, hv⟩ | hv
      · left; exact ⟨⟨v, hv⟩, by simp [hv, Except.toOption]⟩
      · right; exact ⟨by (rintro ⟨v, hv'⟩; rw [hv] at hv'; cases hv'), by simp [hv, Except.toOption]⟩
    · rw [← hdef] at hcase
      have hnew : (DataSet.new : DataSet F).instances = [] := rfl
      rw [hnew] at hcase
      rcases hcase with ⟨hu, hi⟩ | ⟨hu, x, hx, hi⟩
      · rw [List.filter_cons_of_neg (by simpa using hu), e2, hi]
        simpa using e3
      · rw [List.filter_cons_of_pos (by simpa using hu), e2, hi]
        exact List.Forall₂.cons (R := fun line x => GuessedRow split stod ds1.definition.types (split line ",") x) hx e3

/-! ## C111: round trip -/

/-- `a` can be written to and read back from a file without declared types; in the first row
(`first`) names must not look like numbers -/
def PlainCell (showD : F → String) (stod : String → Res F) (first : Bool) : Attr F → Prop
  | .continuous v => CellText (showD v) ∧ stod (showD v) = .ok v
  | .discrete v => CellText v ∧ (first = true → stod v = .error (.throw "invalid_argument"))
  | _ => False

/-- labels without separators; a composite instance has at least one possible label -/
structure PlainLabels (x : Inst F) : Prop where
  label : CellText x.label ∧ ';' ∉ x.label.toList
  possible : ∀ ps, x.possible = some ps → ps ≠ [] ∧ ∀ p ∈ ps, CellText p ∧ ';' ∉ p.toList

/-- the text of the class part -/
def labelText (x : Inst F) : String := joinWith ";" (x.label :: x.possible.getD [])

theorem joinWith_cons (sep b : String) {l : List String} (hl : l ≠ []) :
    joinWith sep (b :: l) = b ++ sep ++ joinWith sep l := by
  cases l with
  | nil => exact absurd rfl hl
  | cons c l => rfl

theorem joinWith_snoc_append (sep : String) (cells : List String) (a b : String) :
    joinWith sep (cells ++ [a]) ++ b = joinWith sep (cells ++ [a ++ b]) := by
  induction cells with
  | nil => rfl
  | cons c cells ih =>
    rw [List.cons_append, List.cons_append, joinWith_cons _ _ (by simp), joinWith_cons _ _ (by simp), ← ih]
    simp [String.append_assoc]

theorem toStr_any (showD : F → String) (x : Inst F) :
    x.toStr showD = joinWith "," (x.attrs.map (fun a => a.toStr showD) ++ [labelText x]) := by
  obtain ⟨lbl, as, pos⟩ := x
  have hbase := toStr_plain showD as lbl
  cases pos with
  | none => rw [hbase]; rfl
  | some ls =>
    have h1 : (⟨lbl, as, some ls⟩ : Inst F).toStr showD =
        ls.foldl (fun r l => r ++ ";" ++ l) ((⟨lbl, as, none⟩ : Inst F).toStr showD) := rfl
    rw [h1, hbase]
    have key : ∀ (ls : List String) (c : String),
        ls.foldl (fun r l => r ++ ";" ++ l) (joinWith "," (as.map (fun a => a.toStr showD) ++ [c])) =
        joinWith "," (as.map (fun a => a.toStr showD) ++ [ls.foldl (fun r l => r ++ ";" ++ l) c]) := by
      intro ls
      induction ls with
      | nil => intro c; rfl
      | cons l ls ih =>
        intro c
        rw [List.foldl_cons, List.foldl_cons, joinWith_snoc_append, joinWith_snoc_append, ih]
    rw [key]
    congr 3
    have key2 : ∀ (ls : List String) (c : String),
        ls.foldl (fun r l => r ++ ";" ++ l) c = joinWith ";" (c :: ls) := by
      intro ls
      induction ls with
      | nil => intro c; rfl
      | cons l ls ih =>
        intro c
        rw [List.foldl_cons, ih, joinWith_cons _ c (by simp)]
        cases ls with
        | nil => rfl
        | cons l' ls => simp [joinWith, String.append_assoc]
    exact key2 ls lbl

theorem joinWith_notMem (ch : Char) (sep : String) (hsep : ch ∉ sep.toList) (l : List String)
    (h : ∀ s ∈ l, ch ∉ s.toList) : ch ∉ (joinWith sep l).toList := by
  induction l with
  | nil => simp [joinWith]
  | cons a l ih =>
    cases l with
    | nil => simpa [joinWith] using h a (by simp)
    | cons b l =>
      rw [joinWith_cons _ _ (by simp)]
      simp only [String.toList_append, List.mem_append, not_or]
      exact ⟨⟨h a (by simp), hsep⟩, ih (fun s hs => h s (by simp [hs]))⟩

theorem joinWith_ne_empty (sep a : String) (l : List String) (ha : a ≠ "") : joinWith sep (a :: l) ≠ "" := by
  cases l with
  | nil => exact ha
  | cons b l =>
    rw [joinWith_cons _ _ (by simp)]
    intro h
    apply ha
    have := congrArg String.toList h
    simp only [String.toList_append, String.toList_empty, List.append_eq_nil_iff] at this
    rw [← String.ofList_toList (s := a), this.1.1]

theorem labelText_cell {x : Inst F} (h : PlainLabels x) : CellText (labelText x) := by
  have hall : ∀ s ∈ x.label :: x.possible.getD [], CellText s := by
    intro s hs
    rcases List.mem_cons.1 hs with rfl | hs
    · exact h.label.1
    · cases hp : x.possible with
      | none => rw [hp] at hs; simp at hs
      | some ps => rw [hp] at hs; exact ((h.possible ps hp).2 s hs).1
  exact ⟨joinWith_ne_empty _ _ _ h.label.1.nonempty,
    joinWith_notMem ',' ";" (by decide) _ (fun s hs => (hall s hs).noComma),
    joinWith_notMem '\n' ";" (by decide) _ (fun s hs => (hall s hs).oneLine)⟩

theorem labelInst_text {split : String → String → List String} (hsemi : SplitsAt split ';') {x : Inst F}
    (h : PlainLabels x) : labelInst split (labelText x) = (.ok ⟨x.label, [], x.possible⟩ : Res (Inst F)) := by
  unfold labelInst
  cases hp : x.possible with
  | none =>
    have : labelText x = x.label := by simp [labelText, hp, joinWith]
    rw [this, if_neg h.label.2]
  | some ps =>
    obtain ⟨hne, hps⟩ := h.possible ps hp
    have e : labelText x = joinWith ";" (x.label :: ps) := by simp [labelText, hp]
    have hmem : ';' ∈ (labelText x).toList := by
      rw [e, joinWith_cons _ _ hne]
      simp
    rw [if_pos hmem, e]
    have hs := hsemi (x.label :: ps) (by simp) (by
      intro f hf
      rcases List.mem_cons.1 hf with rfl | hf
      · exact ⟨h.label.1.nonempty, h.label.2⟩
      · exact ⟨(hps f hf).1.nonempty, (hps f hf).2⟩)
    have hsep : String.ofList [';'] = ";" := by decide
    rw [hsep] at hs
    rw [hs]
    rfl

theorem plainCell_toStr {showD : F → String} {stod : String → Res F} {b : Bool} {a : Attr F}
    (h : PlainCell showD stod b a) : CellText (a.toStr showD) ∧
    cellAttr stod (typeOf a) (a.toStr showD) = some a ∧ (typeOf a = .continuous ∨ typeOf a = .discrete) := by
  cases a with
  | continuous v => exact ⟨h.1, by simp [cellAttr, typeOf, Attr.toStr, h.2, Except.toOption], .inl rfl⟩
  | discrete v =>
    have hv : ¬ v = "," := by rintro rfl; exact h.1.noComma (by decide)
    simp only [Attr.toStr, if_neg hv]
    exact ⟨h.1, rfl, .inr rfl⟩
  | binary v => exact h.elim
  | indexed v k m => exact h.elim

theorem readFields_written {split : String → String → List String} (hsemi : SplitsAt split ';')
    {showD : F → String} {stod : String → Res F} (hs : OnlyInvalid stod) {d : DataDef} {x : Inst F} {b : Bool}
    (hl : PlainLabels x) (ht : typesOf x = d.types) (hc : ∀ a ∈ x.attrs, PlainCell showD stod b a) (is : IList F) :
    readFields split stod is d (x.attrs.map (fun a => a.toStr showD) ++ [labelText x]) = .ok ⟨is ++ [x], d⟩ := by
  have hlen : x.attrs.length = d.types.length := by rw [← ht]; simp [typesOf]
  have hz : ∀ (as : List (Attr F)), (∀ a ∈ as, PlainCell showD stod b a) →
      ((as.map (fun a => a.toStr showD)).zip (as.map typeOf)).filterMap (fun p => cellAttr stod p.2 p.1) = as := by
    intro as
    induction as with
    | nil => simp
    | cons a as ih =>
      intro h
      rw [List.map_cons, List.map_cons, List.zip_cons_cons, List.filterMap_cons,
        (plainCell_toStr (h a (by simp))).2.1]
      simp only
      rw [ih (fun a ha => h a (by simp [ha]))]
  unfold readFields
  have hlast : idxR (x.attrs.map (fun a => a.toStr showD) ++ [labelText x])
      ((x.attrs.map (fun a => a.toStr showD) ++ [labelText x]).length - 1) = .ok (labelText x) := by
    rw [idxR_ok_of_lt (by simp)]; simp
  rw [hlast]
  simp only [res_bind_ok]
  rw [labelInst_text hsemi hl]
  simp only [res_bind_ok]
  rw [readCells_eq hs d _ (by simp [hlen])]
  simp only [res_bind_ok, res_pure, List.dropLast_concat]
  have htt : d.types = x.attrs.map typeOf := by rw [← ht]; rfl
  rw [htt, hz _ hc]
  simp [Inst.attributeSize, DataDef.attributeCount, hlen, IList.add]

/-- **C111.** Writing a data set of discrete and continuous attributes, with plain or composite
instances, and reading it back without declared types restores it (given that text can carry the
values, and that no name in the first row looks like a number). -/
theorem C111_round_trip {split : String → String → List String} (hcomma : SplitsAt split ',')
    (hsemi : SplitsAt split ';') (hempty : split "" "," = []) {showD : F → String} {stod : String → Res F}
    (hs : OnlyInvalid stod) (ds : DataSet F) (x0 : Inst F) (xs : IList F) (hne : ds.instances = x0 :: xs)
    (hvals : ds.definition.values = []) (ht : ∀ x ∈ ds.instances, typesOf x = ds.definition.types)
    (hl : ∀ x ∈ ds.instances, PlainLabels x) (h0 : ∀ a ∈ x0.attrs, PlainCell showD stod true a)
    (hcell : ∀ x ∈ ds.instances, ∀ a ∈ x.attrs, PlainCell showD stod false a) :
    DataSet.ofStream split stod (ds.writeToFile showD) = .ok ds := by
  have hsep : String.ofList [','] = "," := by decide
  have hrow : ∀ x ∈ ds.instances, ∀ f ∈ x.attrs.map (fun a => a.toStr showD) ++ [labelText x], CellText f := by
    intro x hx f hf
    rw [List.mem_append, List.mem_map, List.mem_singleton] at hf
    rcases hf with ⟨a, ha, rfl⟩ | rfl
    · exact (plainCell_toStr (hcell x hx a ha)).1
    · exact labelText_cell (hl x hx)
  have hsplit : ∀ x ∈ ds.instances, split (x.toStr showD) "," = x.attrs.map (fun a => a.toStr showD) ++ [labelText x] := by
    intro x hx
    have := hcomma _ (by simp) (fun f hf => ⟨(hrow x hx f hf).nonempty, (hrow x hx f hf).noComma⟩)
    rw [hsep] at this
    rw [toStr_any, this]
  have hone : ∀ s ∈ ds.instances.map (fun x => x.toStr showD), OneLine s := by
    intro s hs'
    obtain ⟨x, hx, rfl⟩ := List.mem_map.1 hs'
    show OneLine (x.toStr showD)
    rw [toStr_any]
    exact joinWith_oneLine _ (fun f hf => (hrow x hx f hf).oneLine)
  have loop : ∀ (l acc : IList F), (∀ x ∈ l, x ∈ ds.instances) →
      (l.map (fun x => x.toStr showD)).foldlM (readGuessLine split stod) (⟨acc, ds.definition⟩, false) =
        .ok (⟨acc ++ l, ds.definition⟩, false) := by
    intro l
    induction l with
    | nil => intro acc _; simp
    | cons x l ih =>
      intro acc hsub
      have hx := hsub x (by simp)
      have hlen : x.attrs.length = ds.definition.types.length := by rw [← ht x hx]; simp [typesOf]
      rw [List.map_cons, List.foldlM_cons]
      have : readGuessLine split stod (⟨acc, ds.definition⟩, false) (x.toStr showD) =
          .ok (⟨acc ++ [x], ds.definition⟩, false) := by
        unfold readGuessLine
        simp only [Bool.false_eq_true, if_false]
        rw [hsplit x hx, if_neg (by simp [DataDef.attributeCount, hlen]),
          readFields_written hsemi hs (hl x hx) (ht x hx) (hcell x hx)]
        rfl
      rw [this]
      simp only [res_bind_ok]
      rw [ih _ (fun y hy => hsub y (by simp [hy]))]
      simp
  have hx0 : x0 ∈ ds.instances := by rw [hne]; simp
  have hfirst : readGuessLine split stod ((DataSet.new : DataSet F), true) (x0.toStr showD) =
      .ok (⟨[x0], ds.definition⟩, false) := by
    unfold readGuessLine
    simp only [if_true]
    rw [hsplit x0 hx0, if_neg (by simp), guessTypes_eq hs]
    simp only [res_bind_ok, List.dropLast_concat]
    have hd : (⟨(x0.attrs.map (fun a => a.toStr showD)).map
        (fun c => if (stod c).toOption.isSome then AttrType.continuous else .discrete), []⟩ : DataDef) = ds.definition := by
      have : (x0.attrs.map (fun a => a.toStr showD)).map
          (fun c => if (stod c).toOption.isSome then AttrType.continuous else .discrete) = ds.definition.types := by
        rw [← ht x0 hx0, typesOf, List.map_map]
        apply List.map_congr_left
        intro a ha
        have := h0 a ha
        cases a with
        | continuous v => simp [Attr.toStr, typeOf, this.2, Except.toOption]
        | discrete v =>
          have hv : ¬ v = "," := by rintro rfl; exact this.1.noComma (by decide)
          simp [Attr.toStr, if_neg hv, typeOf, this.2, Except.toOption]
        | binary v => exact this.elim
        | indexed v k m => exact this.elim
      rw [this]
      obtain ⟨is, ⟨ts, vs⟩⟩ := ds
      simp only at hvals
      subst hvals
      rfl
    rw [hd, readFields_written hsemi hs (hl x0 hx0) (ht x0 hx0) (hcell x0 hx0)]
    rfl
  unfold DataSet.ofStream
  rw [writeToFile_text, splitLines_fileText _ _ hone (by simp [OneLine])]
  simp only
  rw [foldlM_append', hne, List.map_cons, List.foldlM_cons, hfirst]
  simp only [res_bind_ok]
  rw [loop xs [x0] (fun x hx => by rw [hne]; simp [hx])]
  simp only [res_bind_ok, List.foldlM_cons, List.foldlM_nil]
  have hlast : readGuessLine split stod ((⟨[x0] ++ xs, ds.definition⟩ : DataSet F), false) "" =
      .ok (⟨[x0] ++ xs, ds.definition⟩, false) := by
    unfold readGuessLine
    simp only [Bool.false_eq_true, if_false]
    rw [hempty, if_pos (by simp)]
  rw [hlast]
  obtain ⟨is, d⟩ := ds
  simp only at hne
  subst hne
  rfl

end

/-- a splitter for the examples: empty text has no fields -/
def exSplitAt (s : String) (sep : String) : List String :=
  if s = "" then [] else (s.toList.splitOn (sep.toList.headD ',')).map String.ofList

def exStod (s : String) : Res XR :=
  if s = "1" then .ok (.fin 1) else if s = "2" then .ok (.fin 2) else .error (.throw "invalid_argument")

/-- two composite and one plain instance survive the round trip -/
example : DataSet.ofStream exSplitAt exStod
    ((⟨[⟨"yes", [.discrete "u", .continuous (.fin 1)], some ["no", "maybe"]⟩,
        ⟨"no", [.discrete "2", .continuous (.fin 1)], none⟩,
        ⟨"no", [.discrete "v", .continuous (.fin 1)], some ["yes"]⟩],
      ⟨[.discrete, .continuous], []⟩⟩ : DataSet XR).writeToFile (fun _ => "1")) =
    .ok ⟨[⟨"yes", [.discrete "u", .continuous (.fin 1)], some ["no", "maybe"]⟩,
        ⟨"no", [.discrete "2", .continuous (.fin 1)], none⟩,
        ⟨"no", [.discrete "v", .continuous (.fin 1)], some ["yes"]⟩],
      ⟨[.discrete, .continuous], []⟩⟩ := by
  decide +kernel

/-- unusable lines are dropped, the unterminated last line is read -/
example : DataSet.ofStream exSplitAt exStod (fileText ["1,u,a", "u,u,a", "2,u", "2,w,a;b"] "1,1,b") =
    .ok ⟨[⟨"a", [.continuous (.fin 1), .discrete "u"], none⟩, ⟨"a", [.continuous (.fin 2), .discrete "w"], some ["b"]⟩,
      ⟨"b", [.continuous (.fin 1), .discrete "1"], none⟩], ⟨[.continuous, .discrete], []⟩⟩ := by
  decide +kernel

/-- **C111 (why names in the first row must not look like numbers).** A data set whose first name is
a numeral comes back with a numeric column. -/
theorem C111_numeral_refuted : ¬ ∀ ds : DataSet XR, (∀ x ∈ ds.instances, typesOf x = ds.definition.types) →
    (∀ x ∈ ds.instances, PlainLabels x) →
    (∀ x ∈ ds.instances, ∀ a ∈ x.attrs, PlainCell (fun _ => "1") exStod false a) → ds.instances ≠ [] →
    DataSet.ofStream exSplitAt exStod (ds.writeToFile (fun _ => "1")) = .ok ds := by
  intro h
  have := h ⟨[⟨"a", [.discrete "2"], none⟩], ⟨[.discrete], []⟩⟩ (by decide)
    (by
      intro x hx
      rw [List.mem_singleton] at hx
      subst hx
      exact ⟨⟨⟨by decide, by decide, by simp [OneLine]⟩, by decide⟩, by intro ps h; cases h⟩)
    (by
      intro x hx a ha
      rw [List.mem_singleton] at hx
      subst hx
      rw [List.mem_singleton] at ha
      subst ha
      exact ⟨⟨by decide, by decide, by simp [OneLine]⟩, by intro h; cases h⟩) (by simp)
  revert this
  decide +kernel

end Verif
