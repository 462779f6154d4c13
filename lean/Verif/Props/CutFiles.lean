import Verif.Props.DataStream
import Verif.Props.PersistTrained
import Verif.Props.PersistLost

/-! # C178, C179: files that were cut short -/

set_option linter.unusedSectionVars false

namespace Verif
open Dbl

section
variable {F : Type} [Dbl F]

/-! ## C178: data files -/

/-- number of lines that are complete -/
def completeLines (t : List Char) : Nat := t.count '\n'

theorem splitLines_append : ∀ (a b cur : List Char),
    splitLines (a ++ b) cur = ((splitLines a cur).1 ++ (splitLines b (splitLines a cur).2.toList).1,
      (splitLines b (splitLines a cur).2.toList).2) := by
  intro a
  induction a with
  | nil => intro b cur; simp [splitLines]
  | cons c a ih =>
    intro b cur
    simp only [List.cons_append, splitLines]
    by_cases hc : c = '\n'
    · simp only [if_pos hc]
      rw [ih]; simp
    · simp only [if_neg hc]
      rw [ih]

theorem splitLines_count : ∀ (a cur : List Char), (splitLines a cur).1.length = completeLines a := by
  intro a
  induction a with
  | nil => intro cur; simp [splitLines, completeLines]
  | cons c a ih =>
    intro cur
    simp only [splitLines]
    by_cases hc : c = '\n'
    · simp only [if_pos hc, List.length_cons, ih, completeLines]
      subst hc; simp
    · simp only [if_neg hc, ih, completeLines]
      rw [List.count_cons_of_ne hc]

/-- the complete lines of a cut file are the first lines of the file -/
theorem splitLines_cut (a b : List Char) :
    (splitLines a []).1 = (splitLines (a ++ b) []).1.take (completeLines a) := by
  rw [splitLines_append]
  simp only
  rw [← splitLines_count a [], List.take_left]

/-- **C178, declared types.** A file that was cut at any place is read whenever the whole file is, and what it gives
is a beginning of what the whole file gives: no instance is damaged. -/
theorem C178_prefix (split : String → String → List String) (stod : String → Res F) (d : DataDef) (sep : String)
    (a b : List Char) (l : IList F) (h : IList.ofFile split stod d sep (a ++ b) = .ok l) :
    ∃ l', IList.ofFile split stod d sep a = .ok l' ∧ l' <+: l := by
  unfold IList.ofFile at h ⊢
  rw [splitLines_append, List.foldlM_append, bind_ok_iff] at h
  obtain ⟨l', h1, h2⟩ := h
  refine ⟨l', h1, ?_⟩
  obtain ⟨rows, e, -⟩ := readLines split stod d sep _ _ _ h2
  exact ⟨rows, e.symm⟩

/-- **C178, written data sets.** Of a data set whose file was cut at any place, exactly the instances whose lines are
complete come back. -/
theorem C178_written (split : String → String → List String) (hsplit : SplitsCommas split)
    (showD : F → String) (stod : String → Res F) (ds : DataSet F)
    (hplain : ∀ x ∈ ds.instances, x.possible = none)
    (hconf : ∀ x ∈ ds.instances, typesOf x = ds.definition.types)
    (hlabel : ∀ x ∈ ds.instances, CellText x.label)
    (hval : ∀ x ∈ ds.instances, ∀ (i : Nat) a, x.attrs[i]? = some a → Writable showD stod ds.definition i a)
    (a b : List Char) (hcut : a ++ b = ds.writeToFile showD) :
    DataSet.ofFile split stod ds.definition "," a = .ok ⟨ds.instances.take (completeLines a), ds.definition⟩ := by
  have hsub : ∀ x ∈ ds.instances.take (completeLines a), x ∈ ds.instances := fun x hx => List.mem_of_mem_take hx
  have whole : ∀ (l : IList F), (∀ x ∈ l, x ∈ ds.instances) → ∀ c, c = (⟨l, ds.definition⟩ : DataSet F).writeToFile showD →
      (splitLines c []).1.foldlM (readLine split stod ds.definition ",") [] = .ok l := by
    intro l hl c hc
    have := C31_partial split hsplit showD stod ⟨l, ds.definition⟩ (fun x hx => hplain x (hl x hx))
      (fun x hx => hconf x (hl x hx)) (fun x hx => hlabel x (hl x hx)) (fun x hx => hval x (hl x hx))
    rw [← hc] at this
    unfold DataSet.ofFile IList.ofFile at this
    rw [bind_ok_iff] at this
    obtain ⟨l', h1, h2⟩ := this
    rw [h1]
    have := Except.ok.inj h2
    simp only [DataSet.mk.injEq, and_true] at this
    rw [this]
  -- the lines of the written file
  have rowOne : ∀ x ∈ ds.instances, OneLine (x.toStr showD) := by
    intro x hx
    obtain ⟨lbl, as, pos⟩ := x
    have hp : pos = none := hplain _ hx
    subst hp
    rw [toStr_plain]
    refine joinWith_oneLine _ (fun f hf => ?_)
    rw [List.mem_append, List.mem_map, List.mem_singleton] at hf
    rcases hf with ⟨at', ha, rfl⟩ | rfl
    · obtain ⟨i, hi, rfl⟩ := List.getElem_of_mem ha
      refine (cellText_toStr (hval _ hx i _ (List.getElem?_eq_getElem hi)) ?_).1.oneLine
      rw [← hconf _ hx, typesOf, List.getElem?_map, List.getElem?_eq_getElem hi]; rfl
    · exact (hlabel _ hx).oneLine
  have linesOf : ∀ l : IList F, (∀ x ∈ l, x ∈ ds.instances) →
      (splitLines ((⟨l, ds.definition⟩ : DataSet F).writeToFile showD) []).1 = l.map (fun x => x.toStr showD) := by
    intro l hl
    rw [writeToFile_text, splitLines_fileText _ _ ?_ (by simp [OneLine])]
    intro s hs
    obtain ⟨x, hx, rfl⟩ := List.mem_map.1 hs
    exact rowOne x (hl x hx)
  have e1 : (splitLines a []).1 = (ds.instances.take (completeLines a)).map (fun x => x.toStr showD) := by
    rw [splitLines_cut a b, hcut, show ds = (⟨ds.instances, ds.definition⟩ : DataSet F) from rfl,
      linesOf ds.instances (fun _ h => h), List.map_take]
  have e2 := whole _ hsub _ rfl
  rw [linesOf _ hsub, ← e1] at e2
  unfold DataSet.ofFile IList.ofFile
  rw [e2]; rfl

/-! ### guessed types -/

/-- one line adds at most one instance and keeps the definition once it is known -/
theorem readGuessLine_step {split : String → String → List String} {stod : String → Res F} {ds : DataSet F} {line : String}
    {r : DataSet F × Bool} (h : readGuessLine split stod (ds, false) line = .ok r) :
    r.2 = false ∧ r.1.definition = ds.definition ∧ ∃ e, e.length ≤ 1 ∧ r.1.instances = ds.instances ++ e := by
  unfold readGuessLine at h
  simp only [Bool.false_eq_true, if_false] at h
  split at h
  · cases h; exact ⟨rfl, rfl, [], by simp, by simp⟩
  · rw [bind_ok_iff] at h
    obtain ⟨ds', h1, h2⟩ := h
    cases h2
    unfold readFields at h1
    simp only [bind_ok_iff] at h1
    obtain ⟨label, -, x0, -, x, -, h1⟩ := h1
    cases h1
    refine ⟨rfl, rfl, ?_⟩
    simp only
    split
    · exact ⟨[x], by simp, rfl⟩
    · exact ⟨[], by simp, by simp⟩

theorem readGuessLines_steps {split : String → String → List String} {stod : String → Res F} :
    ∀ (lines : List String) (ds : DataSet F) (r : DataSet F × Bool),
      lines.foldlM (readGuessLine split stod) (ds, false) = .ok r →
      r.2 = false ∧ r.1.definition = ds.definition ∧ ds.instances <+: r.1.instances := by
  intro lines
  induction lines with
  | nil => intro ds r h; cases h; exact ⟨rfl, rfl, List.prefix_rfl⟩
  | cons s lines ih =>
    intro ds r h
    rw [List.foldlM_cons, bind_ok_iff] at h
    obtain ⟨⟨ds', f⟩, h1, h2⟩ := h
    obtain ⟨rfl, e2, e, -, e3⟩ := readGuessLine_step h1
    simp only at e2 e3
    obtain ⟨i1, i2, i3⟩ := ih _ _ h2
    exact ⟨i1, i2.trans e2, List.IsPrefix.trans ⟨e, e3.symm⟩ i3⟩

theorem readGuessLine_first {split : String → String → List String} {stod : String → Res F} {ds : DataSet F} {b : Bool} {line : String}
    {r : DataSet F × Bool} (h : readGuessLine split stod (ds, b) line = .ok r) : r.2 = false := by
  cases b with
  | false => exact (readGuessLine_step h).1
  | true =>
    unfold readGuessLine at h
    simp only [if_true] at h
    split at h
    · cases h
    · simp only [bind_ok_iff] at h
      obtain ⟨d, -, ds', -, h⟩ := h
      cases h; rfl

/-- **C178, guessed types (partial).** If the first line is complete, a cut file is read with the types of the whole
file, and gives a beginning of the instances of the whole file, followed by at most one instance more, which the rest
of the last line was taken for. -/
theorem C178_guessed_partial (split : String → String → List String) (stod : String → Res F) (a b : List Char)
    (whole r : DataSet F) (hw : DataSet.ofStream split stod (a ++ b) = .ok whole)
    (hr : DataSet.ofStream split stod a = .ok r) (hline : '\n' ∈ a) :
    r.definition = whole.definition ∧
      ∃ p extra, r.instances = p ++ extra ∧ p <+: whole.instances ∧ extra.length ≤ 1 := by
  unfold DataSet.ofStream at hw hr
  simp only [bind_ok_iff] at hw hr
  obtain ⟨⟨w', fw⟩, hw, hw'⟩ := hw
  obtain ⟨⟨r', fr⟩, hr, hr'⟩ := hr
  cases hw'; cases hr'
  rw [splitLines_append] at hw
  simp only [List.append_assoc] at hw
  rw [List.foldlM_append, bind_ok_iff] at hw hr
  obtain ⟨⟨m, f⟩, hm, hw⟩ := hw
  obtain ⟨⟨m', f'⟩, hm', hr⟩ := hr
  rw [hm] at hm'
  cases hm'
  have hne : (splitLines a []).1 ≠ [] := by
    intro e
    have := splitLines_count a []
    rw [e] at this
    exact absurd (List.count_pos_iff.2 hline) (by rw [completeLines] at this; simp at this; omega)
  have hf : f = false := by
    obtain ⟨s, lines, e⟩ := List.exists_cons_of_ne_nil hne
    rw [e, List.foldlM_cons, bind_ok_iff] at hm
    obtain ⟨⟨d0, f0⟩, h1, h2⟩ := hm
    have := readGuessLine_first h1
    simp only at this
    subst this
    exact (readGuessLines_steps _ _ _ h2).1
  subst hf
  obtain ⟨-, e2, e3⟩ := readGuessLines_steps _ _ _ hw
  rw [List.foldlM_cons, bind_ok_iff] at hr
  obtain ⟨⟨r1, f1⟩, h1, h2⟩ := hr
  cases h2
  obtain ⟨-, e5, e, hlen, e6⟩ := readGuessLine_step h1
  exact ⟨e5.trans e2.symm, m.instances, e, e6, e3, hlen⟩

/-! ### numbers the number reader rejects (C110) -/

/-- the text of a cell is a number, or is reported as not being one (what the reader expects) -/
def Judged (stod : String → Res F) (c : String) : Prop :=
  IsNumber stod c ∨ stod c = .error (.throw "invalid_argument")

theorem judged_of {stod : String → Res F} {c : String} {α : Type} {a b : α} {f : F → Res α}
    (h : (match stod c with
      | .ok v => f v
      | .error e => if isInvalidArgument e then .ok a else .error e) = .ok b) : Judged stod c := by
  cases hc : stod c with
  | ok v => exact Or.inl ⟨v, hc⟩
  | error e =>
    rw [hc] at h
    simp only at h
    by_cases hi : isInvalidArgument e = true
    · refine Or.inr ?_
      unfold isInvalidArgument at hi
      split at hi
      · exact hc
      · cases hi
    · rw [if_neg hi] at h; cases h

theorem guessTypes_judged {stod : String → Res F} : ∀ (cells : List String) (d d' : DataDef),
    cells.foldlM (guessStep stod) d = .ok d' → ∀ c ∈ cells, Judged stod c := by
  intro cells
  induction cells with
  | nil => intro d d' _ c hc; cases hc
  | cons a cells ih =>
    intro d d' h c hc
    rw [List.foldlM_cons, bind_ok_iff] at h
    obtain ⟨d1, h1, h2⟩ := h
    rw [List.mem_cons] at hc
    rcases hc with rfl | hc
    · exact judged_of (f := fun _ => .ok (d.addAttribute .continuous)) h1
    · exact ih _ _ h2 c hc

theorem foldlM_ok_step {α β : Type} {f : β → α → Res β} : ∀ (l : List α) (b r : β), l.foldlM f b = .ok r →
    ∀ a ∈ l, ∃ b1 b2, f b1 a = .ok b2 := by
  intro l
  induction l with
  | nil => intro b r _ a ha; cases ha
  | cons x l ih =>
    intro b r h a ha
    rw [List.foldlM_cons, bind_ok_iff] at h
    obtain ⟨b1, h1, h2⟩ := h
    rw [List.mem_cons] at ha
    rcases ha with rfl | ha
    · exact ⟨b, b1, h1⟩
    · exact ih _ _ h2 a ha

theorem readFields_judged {split : String → String → List String} {stod : String → Res F} {is : IList F} {d : DataDef}
    {fields : List String} {r : DataSet F} (h : readFields split stod is d fields = .ok r) {i : Nat} {c : String}
    (hi : i + 1 < fields.length) (ht : d.types[i]? = some .continuous) (hc : fields[i]? = some c) : Judged stod c := by
  unfold readFields at h
  simp only [bind_ok_iff] at h
  obtain ⟨label, -, x0, -, x, h, -⟩ := h
  unfold readCells at h
  obtain ⟨b1, b2, h1⟩ := foldlM_ok_step _ _ _ h i (by simp; omega)
  simp only [bind_ok_iff] at h1
  obtain ⟨c', h2, t, h3, h4⟩ := h1
  have e1 : c' = c := by
    have := idxR_eq_ok.1 h2
    rw [getLast?_dropLast_cells (by omega), hc] at this
    cases this; rfl
  have e2 : t = .continuous := by
    rw [DataDef.getAttributeType] at h3
    have := atR_eq_ok.1 h3
    rw [ht] at this
    cases this; rfl
  subst e1; subst e2
  exact judged_of (f := fun v => .ok (b1.addAttribute (.continuous v))) h4

/-- **C110.** Text that is neither a number nor reported as not being one (a number outside the range of `double`)
is never read over silently: if reading succeeds, there is none in the columns of the first line, nor in
a numeric column of any line with the right number of columns. -/
theorem C110_out_of_range (split : String → String → List String) (stod : String → Res F)
    (lines : List String) (rest : String) (hl : ∀ s ∈ lines, OneLine s) (hr : OneLine rest) (ds : DataSet F)
    (h : DataSet.ofStream split stod (fileText lines rest) = .ok ds) :
    (∀ first, (lines ++ [rest]).head? = some first → ∀ c ∈ (split first ",").dropLast, Judged stod c) ∧
    ∀ s ∈ lines ++ [rest], (split s ",").length = ds.definition.types.length + 1 → ∀ (i : Nat) (c : String),
      ds.definition.types[i]? = some .continuous → (split s ",")[i]? = some c → Judged stod c := by
  unfold DataSet.ofStream at h
  rw [splitLines_fileText lines rest hl hr] at h
  simp only [bind_ok_iff] at h
  obtain ⟨⟨r, b⟩, h, he⟩ := h
  cases he
  obtain ⟨first, tail, hft⟩ : ∃ a t, lines ++ [rest] = a :: t := by
    cases hh : lines ++ [rest] with
    | nil => simp at hh
    | cons a t => exact ⟨a, t, rfl⟩
  simp only [hft] at h ⊢
  rw [List.foldlM_cons, bind_ok_iff] at h
  obtain ⟨⟨d1, f1⟩, h1, h2⟩ := h
  have hf := readGuessLine_first h1
  simp only at hf
  subst hf
  obtain ⟨-, hd, -⟩ := readGuessLines_steps _ _ _ h2
  simp only at hd
  -- the first line
  unfold readGuessLine at h1
  simp only [if_true] at h1
  split at h1
  · cases h1
  · simp only [bind_ok_iff] at h1
    obtain ⟨d, g1, d2, g2, g3⟩ := h1
    cases g3
    have hdd : d1.definition = d := by
      unfold readFields at g2
      simp only [bind_ok_iff] at g2
      obtain ⟨_, -, _, -, _, -, g2⟩ := g2
      cases g2; rfl
    refine ⟨?_, ?_⟩
    · intro f hf c hc
      rw [List.head?_cons] at hf
      cases hf
      exact guessTypes_judged _ _ _ g1 c hc
    · intro s hs hlen i c ht hc
      have hi : i + 1 < (split s ",").length := by
        have := (List.getElem?_eq_some_iff.1 ht).1
        omega
      rw [hd] at ht hlen
      rw [List.mem_cons] at hs
      rcases hs with rfl | hs
      · exact readFields_judged g2 hi (hdd ▸ ht) hc
      · -- a later line
        obtain ⟨l1, l2, e⟩ := List.append_of_mem hs
        rw [e, List.foldlM_append, bind_ok_iff] at h2
        obtain ⟨⟨m, fm⟩, k1, k2⟩ := h2
        obtain ⟨q1, q2, -⟩ := readGuessLines_steps _ _ _ k1
        simp only at q1 q2
        subst q1
        rw [List.foldlM_cons, bind_ok_iff] at k2
        obtain ⟨m2, k3, -⟩ := k2
        unfold readGuessLine at k3
        simp only [Bool.false_eq_true, if_false] at k3
        rw [if_neg (by rw [q2]; simpa [DataDef.attributeCount] using hlen), bind_ok_iff] at k3
        obtain ⟨ds', k4, -⟩ := k3
        exact readFields_judged k4 hi (q2 ▸ ht) hc

/-- a number outside the range: the exception ends the reading -/
example : DataSet.ofStream exSplitAt (fun s => if s = "1e400" then .error (.throw "out_of_range") else exStod s)
    "1,a\n1e400,b\n".toList = (.error (.throw "out_of_range") : Res (DataSet XR)) := by decide +kernel

end

/-- **C178 (refuted), guessed types.** A data set of two instances is written; without its last three characters the
file is read without complaint and has an instance of a class that the data set does not have. -/
theorem C178_refuted :
    let ds : DataSet XR := ⟨[⟨"ham", [.continuous (.fin 1)], none⟩, ⟨"spam", [.continuous (.fin 2)], none⟩], ⟨[.continuous], []⟩⟩
    let shown : XR → String := fun v => if v = .fin 1 then "1" else "2"
    DataSet.ofStream exSplitAt exStod (ds.writeToFile shown) = .ok ds ∧
    DataSet.ofStream exSplitAt exStod ((ds.writeToFile shown).dropLast.dropLast.dropLast) =
      .ok ⟨[⟨"ham", [.continuous (.fin 1)], none⟩, ⟨"sp", [.continuous (.fin 2)], none⟩], ⟨[.continuous], []⟩⟩ := by
  decide +kernel

/-- the reader for declared types gives the first instance only, for the same file -/
example :
    let ds : DataSet XR := ⟨[⟨"ham", [.continuous (.fin 1)], none⟩, ⟨"spam", [.continuous (.fin 2)], none⟩], ⟨[.continuous], []⟩⟩
    let shown : XR → String := fun v => if v = .fin 1 then "1" else "2"
    DataSet.ofFile exSplitAt exStod ds.definition "," (ds.writeToFile shown) = .ok ds ∧
    DataSet.ofFile exSplitAt exStod ds.definition "," ((ds.writeToFile shown).dropLast.dropLast.dropLast) =
      .ok ⟨[⟨"ham", [.continuous (.fin 1)], none⟩], ⟨[.continuous], []⟩⟩ := by
  decide +kernel

/-! ## C179: model files -/

section
variable {F : Type} [Dbl F]

/-- read at the end of a file, `m` gives `a` from the text `t` -/
def Gives {α : Type} (m : Rd α) (t : List Char) (a : α) : Prop :=
  ∀ pre, Blanks pre → ∃ i, m ⟨pre ++ t, false⟩ = .ok (a, i)

/-- read at the end of a file, `m` is undefined on the text `t` -/
def Undefined {α : Type} (m : Rd α) (t : List Char) : Prop :=
  ∀ pre, Blanks pre → ∃ s, m ⟨pre ++ t, false⟩ = .error (.ub s)

theorem Restores.gives {α : Type} {m : Rd α} {t : List Char} {a : α} (h : Restores m t a) : Gives m t a := by
  intro pre hp
  obtain ⟨p, _, e⟩ := h pre [] hp
  exact ⟨_, by simpa using e⟩

theorem Restores.bind_gives {α β : Type} {m : Rd α} {f : α → Rd β} {t u : List Char} {a : α} {b : β}
    (hm : Restores m t a) (hf : Gives (f a) u b) : Gives (m >>= f) (t ++ u) b := by
  intro pre hp
  obtain ⟨p1, h1, e1⟩ := hm pre u hp
  obtain ⟨i, e2⟩ := hf p1 h1
  exact ⟨i, by rw [rd_bind, e1]; exact e2⟩

theorem Restores.nil_bind_gives {α β : Type} {m : Rd α} {f : α → Rd β} {u : List Char} {a : α} {b : β}
    (hm : Restores m [] a) (hf : Gives (f a) u b) : Gives (m >>= f) u b := hm.bind_gives hf

theorem Gives.bind_any {α β : Type} {m : Rd α} {f : α → Rd β} {t : List Char} {a : α} {b : β}
    (hm : Gives m t a) (hf : ∀ i, f a i = .ok (b, i)) : Gives (m >>= f) t b := by
  intro pre hp
  obtain ⟨i, e⟩ := hm pre hp
  exact ⟨i, by rw [rd_bind, e]; exact hf i⟩

theorem Restores.bind_undefined {α β : Type} {m : Rd α} {f : α → Rd β} {t u : List Char} {a : α}
    (hm : Restores m t a) (hf : Undefined (f a) u) : Undefined (m >>= f) (t ++ u) := by
  intro pre hp
  obtain ⟨p1, h1, e1⟩ := hm pre u hp
  obtain ⟨s, e2⟩ := hf p1 h1
  exact ⟨s, by rw [rd_bind, e1]; exact e2⟩

theorem Undefined.bind {α β : Type} {m : Rd α} {f : α → Rd β} {t : List Char}
    (hm : Undefined m t) : Undefined (m >>= f) t := by
  intro pre hp
  obtain ⟨s, e⟩ := hm pre hp
  exact ⟨s, by rw [rd_bind, e]; rfl⟩

theorem rdLoop_add {σ : Type} (body : σ → Rd σ) (n k : Nat) (s : σ) :
    rdLoop body (n + k) s = (rdLoop body n s >>= rdLoop body k) := by
  induction n generalizing s with
  | zero => funext i; rw [Nat.zero_add, rd_bind]; rfl
  | succ n ih =>
    funext i
    rw [show n + 1 + k = (n + k) + 1 from by omega]
    simp only [rdLoop]
    rw [rd_bind, rd_bind, rd_bind]
    cases body s i with
    | error e => rfl
    | ok p => exact congrFun (ih p.1) p.2

theorem foldl_last {α : Type} (l : List α) (x : α) (o : Option α) (acc : List α) :
    (l ++ [x]).foldl (fun (s : Option α × List α) a => (some a, s.2 ++ [a])) (o, acc) = (some x, acc ++ l ++ [x]) := by
  induction l generalizing o acc with
  | nil => simp
  | cons a l ih => rw [List.cons_append, List.foldl_cons, ih]; simp

/-- values that are missing at the end of the file repeat the last one -/
theorem rest_repeated (T : Txt F) (x : F) : ∀ (n : Nat) (acc : List F), ∀ i : In, (i.failed = true ∨ Blanks i.rest) →
    ∃ j, rdLoop (Svm.readDoubleStep T) n (some x, acc) i = .ok ((some x, acc ++ List.replicate n x), j) := by
  intro n
  induction n with
  | zero => intro acc i _; exact ⟨i, by simp [rdLoop, rd_pure]⟩
  | succ n ih =>
    intro acc i hi
    have h1 : ∃ j : In, rdDouble T (some x) i = .ok (some x, j) ∧ j.failed = true := by
      by_cases hf : i.failed = true
      · exact ⟨i, rdNum_failed _ _ _ _ hf, hf⟩
      · refine ⟨⟨[], true⟩, ?_, rfl⟩
        have hb := hi.resolve_left hf
        have : i.rest.dropWhile isBlank = [] := by simpa using dropWhile_blanks hb []
        unfold rdDouble rdNum
        simp only [hf, this]
        rfl
    obtain ⟨j, e, hj⟩ := h1
    obtain ⟨k, e2⟩ := ih (acc ++ [x]) j (Or.inl hj)
    refine ⟨k, ?_⟩
    simp only [rdLoop]
    rw [rd_bind]
    have : Svm.readDoubleStep T (some x, acc) i = .ok ((some x, acc ++ [x]), j) := by
      unfold Svm.readDoubleStep
      rw [rd_bind, e]; rfl
    rw [this]
    simp only [res_bind_ok, e2]
    simp [List.replicate_succ]

/-- the last row of coefficients, cut after `x` -/
theorem cut_row {T : Txt F} {c1 c2 : List F} {x : F} (h : ∀ y ∈ c1 ++ [x], Survives T y)
    (s : (Option Int × Option F) × List (List F)) :
    Gives (Svm.readCoefStep T s) (intLine ((c1 ++ x :: c2).length : Nat) ++ (c1 ++ [x]).flatMap (fun v => line (T.shown v)))
      ((some ((c1 ++ x :: c2).length : Int), some x), s.2 ++ [c1 ++ x :: List.replicate c2.length x]) := by
  refine (Restores.intLine s.1.1 _).bind_gives ?_
  refine (Restores.use _).nil_bind_gives ?_
  refine Gives.bind_any (a := (some x, c1 ++ x :: List.replicate c2.length x)) ?_ (fun i => rfl)
  rw [show ((c1 ++ x :: c2).length : Int).toNat = (c1 ++ [x]).length + c2.length from by simp; omega, rdLoop_add]
  have hd := doubles_restores h s.1.2
  rw [foldl_last] at hd
  have key : Gives (rdLoop (Svm.readDoubleStep T) c2.length (some x, [] ++ c1 ++ [x])) []
      (some x, c1 ++ x :: List.replicate c2.length x) := by
    intro pre hp
    obtain ⟨j, e⟩ := rest_repeated T x c2.length ([] ++ c1 ++ [x]) ⟨pre ++ [], false⟩ (Or.inr (by simpa using hp))
    exact ⟨j, by rw [e]; simp⟩
  have := hd.bind_gives key
  simpa using this

/-- **C179 (refuted).** Take any machine whose numbers survive printing and whose last row of coefficients is not empty. If its file is
cut after any value of that row, loading ends normally, and the values that are missing are replaced by the last one
that is there. -/
theorem C179_refuted (T : Txt F) (L : MathLib F) (hL : LibOk T L) (m : Svm F) (h : m.Printable T)
    (rows : List (List F)) (c1 c2 : List F) (x : F) (hc : m.coefs = rows ++ [c1 ++ x :: c2])
    (a : List Char) (ha : a ++ c2.flatMap (fun v => line (T.shown v)) = m.text T L) :
    ∃ i, Svm.read T L (In.ofText a) =
      .ok ({ m with param := none, coefs := rows ++ [c1 ++ x :: List.replicate c2.length x] }, i) := by
  have hcs : ∀ c ∈ rows, ∀ y ∈ c, Survives T y := fun c hm => h.coefs c (by rw [hc]; exact List.mem_append_left _ hm)
  have hlast : ∀ y ∈ c1 ++ [x], Survives T y := fun y hy => h.coefs (c1 ++ x :: c2) (by rw [hc]; simp) y (by
    rw [List.mem_append] at hy ⊢
    rcases hy with hy | hy
    · exact Or.inl hy
    · exact Or.inr (by simp at hy; simp [hy]))
  have ea : a = intLine m.classes ++ (intLine m.problems ++ (L.ddText m.dist ++
      (intLine m.rho.length ++ (m.rho.flatMap (fun r => line (T.shown r)) ++
      (intLine m.svCounts.length ++ (m.svCounts.flatMap (fun (s : Nat) => intLine s) ++
      (intLine m.supportVectors.length ++ (m.supportVectors.flatMap (NodeL.text T) ++
      (intLine m.coefs.length ++ (rows.flatMap (Svm.coefText T) ++
      (intLine ((c1 ++ x :: c2).length : Nat) ++ (c1 ++ [x]).flatMap (fun v => line (T.shown v))))))))))))) := by
    refine List.append_cancel_right (bs := c2.flatMap (fun v => line (T.shown v))) (ha.trans ?_)
    unfold Svm.text
    rw [show m.coefs.flatMap (Svm.coefText T) = rows.flatMap (Svm.coefText T) ++
      (intLine ((c1 ++ x :: c2).length : Nat) ++ (c1 ++ x :: c2).flatMap (fun v => line (T.shown v))) from by
        rw [hc]; simp [Svm.coefText]]
    simp
  have main : Gives (Svm.read T L) a
      { m with param := none, coefs := rows ++ [c1 ++ x :: List.replicate c2.length x] } := by
    rw [ea]
    unfold Svm.read
    refine (Restores.intLine none _).bind_gives ?_
    refine (Restores.intLine none _).bind_gives ?_
    refine (hL.dd m.dist h.dist h.labels).bind_gives ?_
    refine (Restores.intLine none _).bind_gives ?_
    refine (Restores.use _).nil_bind_gives ?_
    refine (doubles_restores h.rho none).bind_gives ?_
    refine (Restores.intLine _ _).bind_gives ?_
    refine (Restores.use _).nil_bind_gives ?_
    refine (Restores.loop m.svCounts (fun _ => True) _ trivial
      (fun s _ c _ => ⟨trivial, count_step c s⟩)).bind_gives ?_
    refine (Restores.intLine _ _).bind_gives ?_
    refine (Restores.use _).nil_bind_gives ?_
    refine (Restores.loop m.supportVectors (fun _ => True) _ trivial
      (g := fun s v => s ++ [v]) (fun s _ v hv =>
        ⟨trivial, (nodes_restores (h.vectors v hv)).bind_nil (Restores.pure _)⟩)).bind_gives ?_
    refine (Restores.intLine _ _).bind_gives ?_
    refine (Restores.use _).nil_bind_gives ?_
    have e1 := foldl_snd (fun x : F => some x) (fun x => x) m.rho none []
    have e2 := foldl_snd (fun c : Nat => some (c : Int)) (fun x => x) m.svCounts none []
    have e3 := foldl_snoc m.supportVectors []
    have e4 := foldl_pair (fun (s : Option Int × Option F) (c : List F) =>
      (some (c.length : Int), lastOf s.2 c)) (fun x => x) rows (none, none) []
    refine Gives.bind_any (a := ((some ((c1 ++ x :: c2).length : Int), some x),
      rows ++ [c1 ++ x :: List.replicate c2.length x])) ?_ ?_
    · rw [show ((m.coefs.length : Nat) : Int).toNat = rows.length + 1 from by rw [hc]; simp, rdLoop_add]
      refine (Restores.loop rows (fun _ => True) _ trivial
        (fun s _ c hm => ⟨trivial, coef_step (hcs c hm) s⟩)).bind_gives ?_
      simp only [rdLoop]
      refine Gives.bind_any (cut_row hlast _) ?_
      intro i
      rw [e4]
      simp only [List.map_id', List.nil_append]
      rfl
    · intro i
      rw [e1, e2, e3]
      simp only [List.map_id', List.nil_append]
      rfl
  obtain ⟨i, e⟩ := main [] (by simp [Blanks])
  exact ⟨i, by simpa [In.ofText] using e⟩

/-- a machine with two classes and two support vectors: without the last line of the file, its second coefficient is 1
instead of -1 -/
example : (intLine 2 ++ (intLine 1 ++ ((plainLib intTxt).ddText savedSvm.dist ++ "1\n1\n2\n1\n1\n2\n1\n0\n2\n1\n1\n-1\n1\n2\n1\n".toList)))
      ++ [XR.fin (-1)].flatMap (fun v => line (intTxt.shown v)) = savedSvm.text intTxt (plainLib intTxt) ∧
    savedSvm.coefs = [] ++ [[] ++ XR.fin 1 :: [.fin (-1)]] := by
  decide +kernel

/-! ### sparse vectors -/

theorem undefined_node {T : Txt F} (t : List Char) (n : Int) (ht : t = [] ∨ t = intLine n) :
    Undefined (SNode.read T) t := by
  intro pre hp
  refine ⟨"uninitialised variable", ?_⟩
  unfold SNode.read
  rw [rd_bind]
  rcases ht with rfl | rfl
  · have e : rdInt none ⟨pre ++ [], false⟩ = .ok (none, ⟨[], true⟩) := by
      rw [List.append_nil]; exact rdInt_end none hp
    rw [e]
    simp only [res_bind_ok]
    rw [rd_bind, show rdDouble T none ⟨[], true⟩ = .ok (none, ⟨[], true⟩) from rdNum_failed _ _ _ _ rfl]
    rfl
  · obtain ⟨p, hb, e⟩ := Restores.intLine none n pre [] hp
    rw [List.append_nil] at e
    rw [e]
    simp only [res_bind_ok]
    have hd : rdDouble T none ⟨p ++ [], false⟩ = .ok (none, ⟨[], true⟩) := by
      have : (p ++ []).dropWhile isBlank = [] := by
        simpa using dropWhile_blanks hb []
      unfold rdDouble rdNum
      simp only [this]
      rfl
    rw [rd_bind, hd]
    rfl

/-- texts of whole lines: a beginning that ends with a line is a number of the lines -/
theorem whole_lines : ∀ (ls : List String), (∀ s ∈ ls, OneLine s) → ∀ a b : List Char, a ++ b = ls.flatMap line →
    (a = [] ∨ a.getLast? = some '\n') → ∃ k ≤ ls.length, a = (ls.take k).flatMap line ∧ b = (ls.drop k).flatMap line := by
  intro ls
  induction ls with
  | nil =>
    intro _ a b e _
    simp at e
    exact ⟨0, le_rfl, by simp [e.1], by simp [e.2]⟩
  | cons s ls ih =>
    intro hs a b e ha
    by_cases h0 : a = []
    · subst h0; exact ⟨0, Nat.zero_le _, rfl, by simpa using e⟩
    · have hl := ha.resolve_left h0
      rw [List.flatMap_cons] at e
      rcases List.append_eq_append_iff.1 e with ⟨a', e1, e2⟩ | ⟨c', e1, e2⟩
      · -- `a` is within the first line
        cases a' with
        | nil =>
          exact ⟨1, by simp, by simpa using e1.symm, by simpa using e2⟩
        | cons c r =>
          exfalso
          have hmem : '\n' ∈ s.toList := by
            have h1 : a <+: s.toList := by
              have : a ++ c :: r = s.toList ++ ['\n'] := e1.symm
              refine List.prefix_of_prefix_length_le (l₃ := s.toList ++ ['\n']) ⟨c :: r, this⟩ ⟨['\n'], rfl⟩ ?_
              have := congrArg List.length this
              simp at this; simp; omega
            exact h1.subset (List.mem_of_getLast? hl)
          exact hs s List.mem_cons_self hmem
      · cases c' with
        | nil =>
          exact ⟨1, by simp, by simpa using e1, by simpa using e2.symm⟩
        | cons c r =>
          obtain ⟨k, hk, k1, k2⟩ := ih (fun x hx => hs x (List.mem_cons_of_mem _ hx)) (c :: r) b e2.symm
            (Or.inr (by rw [e1, List.getLast?_append_of_ne_nil _ (by simp)] at hl; exact hl))
          exact ⟨k + 1, by simpa using hk, by rw [e1, k1]; simp, by simpa using k2⟩

/-- the lines of a sparse vector's entries -/
def nodeLines (T : Txt F) (l : NodeL F) : List String := l.flatMap (fun n => [toString (n.index : Int), T.shown n.value])

theorem nodeLines_text (T : Txt F) (l : NodeL F) : (nodeLines T l).flatMap line = l.flatMap (SNode.text T) := by
  induction l with
  | nil => rfl
  | cons n l ih =>
    simp only [nodeLines, List.flatMap_cons, List.flatMap_append] at ih ⊢
    rw [ih]
    simp [SNode.text, intLine, line]

theorem nodeLines_take (T : Txt F) : ∀ (l : NodeL F) (k : Nat), k < (nodeLines T l).length →
    ∃ l1 n l2, l = l1 ++ n :: l2 ∧ ((nodeLines T l).take k = nodeLines T l1 ∨
      (nodeLines T l).take k = nodeLines T l1 ++ [toString (n.index : Int)]) := by
  intro l
  induction l with
  | nil => intro k hk; simp [nodeLines] at hk
  | cons n l ih =>
    intro k hk
    match k with
    | 0 => exact ⟨[], n, l, rfl, Or.inl rfl⟩
    | 1 => exact ⟨[], n, l, rfl, Or.inr rfl⟩
    | k + 2 =>
      obtain ⟨l1, n', l2, e, h⟩ := ih k (by simp [nodeLines] at hk ⊢; omega)
      refine ⟨n :: l1, n', l2, by rw [e]; rfl, ?_⟩
      rcases h with h | h
      · refine Or.inl ?_
        change _ :: _ :: List.take k (nodeLines T l) = _
        rw [h]; rfl
      · refine Or.inr ?_
        change _ :: _ :: List.take k (nodeLines T l) = _
        rw [h]; rfl

/-- **C179 (partial), sparse vectors.** A file of a sparse vector that was cut after any line but the last cannot be
read as another vector: reading uses a variable that was never given a value. -/
theorem C179_vector_partial (T : Txt F) (l : NodeL F) (h : ∀ n ∈ l, Survives T n.value)
    (a b : List Char) (hcut : a ++ b = NodeL.text T l) (hb : b ≠ [])
    (hline : a = [] ∨ a.getLast? = some '\n') :
    ∃ s, NodeL.read T (In.ofText a) = .error (.ub s) := by
  have one : ∀ s ∈ toString (l.length : Int) :: nodeLines T l, OneLine s := by
    have nb : ∀ s : String, Word s → OneLine s := by
      intro s hs hc
      exact absurd (hs.2 _ hc) (by decide)
    intro s hs
    rw [List.mem_cons] at hs
    rcases hs with rfl | hs
    · exact nb _ (intText_word _)
    · simp only [nodeLines, List.mem_flatMap, List.mem_cons, List.not_mem_nil, or_false] at hs
      obtain ⟨n, hn, rfl | rfl⟩ := hs
      · exact nb _ (intText_word _)
      · exact nb _ (h n hn).1
  have htext : NodeL.text T l = (toString (l.length : Int) :: nodeLines T l).flatMap line := by
    rw [List.flatMap_cons, nodeLines_text]; rfl
  obtain ⟨k, hk, ea, eb⟩ := whole_lines _ one a b (hcut.trans htext) hline
  have hlt : k < (toString (l.length : Int) :: nodeLines T l).length := by
    by_contra hge
    rw [List.drop_of_length_le (by omega)] at eb
    exact hb (by simpa using eb)
  have main : Undefined (NodeL.read T) a := by
    unfold NodeL.read
    cases k with
    | zero =>
      intro pre hp
      refine ⟨"uninitialised variable", ?_⟩
      have : a = [] := by simpa using ea
      rw [this, List.append_nil, rd_bind, rdInt_end none hp]
      rfl
    | succ k =>
      obtain ⟨l1, n, l2, el, ht⟩ := nodeLines_take T l k (by simpa using hlt)
      have : ∃ t, (t = [] ∨ t = intLine (n.index : Int)) ∧ a = intLine (l.length : Nat) ++ (l1.flatMap (SNode.text T) ++ t) := by
        rw [List.take_succ_cons, List.flatMap_cons] at ea
        rcases ht with ht | ht
        · exact ⟨[], Or.inl rfl, by rw [ea, ht, nodeLines_text]; simp [intLine, line]⟩
        · exact ⟨intLine (n.index : Int), Or.inr rfl, by
            rw [ea, ht, List.flatMap_append, nodeLines_text]; simp [intLine, line]⟩
      obtain ⟨t, htt, e⟩ := this
      rw [e]
      refine (Restores.intLine none _).bind_undefined ?_
      refine Restores.bind_undefined (t := []) (Restores.use _) ?_
      have hl : Restores (rdLoop (NodeL.readStep T) l1.length []) (l1.flatMap (SNode.text T))
          (l1.foldl (fun acc a => acc ++ [a]) []) :=
        Restores.loop l1 (fun _ => True) [] trivial (fun s _ n hn =>
          ⟨trivial, (snode_restores (h n (by rw [el]; exact List.mem_append_left _ hn))).bind_nil (Restores.pure _)⟩)
      rw [show ((l.length : Nat) : Int).toNat = l1.length + (l2.length + 1) from by
        rw [Int.toNat_natCast, el, List.length_append, List.length_cons], rdLoop_add]
      refine hl.bind_undefined ?_
      simp only [rdLoop, NodeL.readStep]
      exact ((undefined_node t _ htt).bind).bind
  obtain ⟨s, e⟩ := main [] (by simp [Blanks])
  exact ⟨s, by simpa [In.ofText] using e⟩

/-- a vector with two entries, cut in the middle of the second one -/
example : "2\n0\n3\n4\n".toList ++ "-12\n".toList = NodeL.text intTxt [⟨0, .fin 3⟩, ⟨4, .fin (-12)⟩] := by decide +kernel

end

end Verif
