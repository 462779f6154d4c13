import Verif.Props.PersistLost

/-! # Property C103: what a saved list of instances contains -/

set_option linter.unusedSectionVars false

namespace Verif
open Dbl

variable {F : Type} [Dbl F]

theorem cut_at {c : Char} : ∀ {w w' r r' : List Char}, c ∉ w → c ∉ w' → w ++ c :: r = w' ++ c :: r' → w = w' ∧ r = r'
  | [], [], _, _, _, _, h => ⟨rfl, (List.cons.inj h).2⟩
  | [], a :: w', _, _, _, h', h => absurd (List.mem_cons.2 (.inl (List.cons.inj h).1)) h'
  | a :: w, [], _, _, h', _, h => absurd (List.mem_cons.2 (.inl (List.cons.inj h).1.symm)) h'
  | a :: w, b :: w', r, r', h1, h2, h => by
    obtain ⟨e, h⟩ := List.cons.inj h
    obtain ⟨e1, e2⟩ := cut_at (fun hc => h1 (List.mem_cons_of_mem _ hc)) (fun hc => h2 (List.mem_cons_of_mem _ hc)) h
    exact ⟨by rw [e, e1], e2⟩

theorem pieces_inj {c : Char} : ∀ {ls ls' : List (List Char)} {t t' : List Char}, (∀ w ∈ ls, c ∉ w) → (∀ w ∈ ls', c ∉ w) → c ∉ t → c ∉ t' →
    ls.flatMap (· ++ [c]) ++ t = ls'.flatMap (· ++ [c]) ++ t' → ls = ls' ∧ t = t'
  | [], [], _, _, _, _, _, _, h => ⟨rfl, by simpa using h⟩
  | [], w :: ls', t, t', _, _, ht, _, h => by
    refine absurd ?_ ht
    simp only [List.flatMap_nil, List.nil_append] at h
    rw [h]; simp
  | w :: ls, [], t, t', _, _, _, ht, h => by
    refine absurd ?_ ht
    simp only [List.flatMap_nil, List.nil_append] at h
    rw [← h]; simp
  | w :: ls, w' :: ls', t, t', h1, h2, ht, ht', h => by
    simp only [List.flatMap_cons, List.append_assoc, List.cons_append, List.nil_append] at h
    obtain ⟨e, h⟩ := cut_at (h1 w (by simp)) (h2 w' (by simp)) h
    obtain ⟨e1, e2⟩ := pieces_inj (fun v hv => h1 v (List.mem_cons_of_mem _ hv)) (fun v hv => h2 v (List.mem_cons_of_mem _ hv)) ht ht' h
    exact ⟨by rw [e, e1], e2⟩

/-- the texts of an instance, the class last, have no blank and no line break in them -/
def InWords (T : Txt F) (x : Inst F) : Prop :=
  (∀ a ∈ x.attrs, ' ' ∉ (a.toStr T.toStr).toList ∧ '\n' ∉ (a.toStr T.toStr).toList) ∧ ' ' ∉ x.label.toList ∧ '\n' ∉ x.label.toList

/-- one line of the file, without the line break -/
def instLine (T : Txt F) (x : Inst F) : List Char := (x.attrs.map (fun a => (a.toStr T.toStr).toList)).flatMap (· ++ [' ']) ++ x.label.toList

theorem fileText_line (T : Txt F) (x : Inst F) : x.fileText T = instLine T x ++ ['\n'] := by
  unfold Inst.fileText instLine line
  rw [List.flatMap_map, List.append_assoc]

theorem digits_noBreak (n : Nat) : '\n' ∉ (toString (n : Int)).toList := by
  intro h
  have := (intText_word (n : Int)).2 _ h
  simp [isBlank] at this

theorem types_noBreak (as : List (Attr F)) : '\n' ∉ as.flatMap Attr.typeText := by
  intro h
  obtain ⟨a, _, h⟩ := List.mem_flatMap.1 h
  unfold Attr.typeText at h
  split at h
  · revert h; decide
  · split at h
    · revert h; decide
    · split at h
      · revert h; decide
      · cases h

/-- **C103 (part).** What is written says which instances the list has: if the texts of the values and the class names are single words, two
lists with the same file have as many instances, and the same classes and the same texts of values in the same order. -/
theorem C103_written_partial (T : Txt F) {l l' : IList F} (hl : ∀ x ∈ l, InWords T x) (hl' : ∀ x ∈ l', InWords T x) {t : List Char}
    (h : IList.fileText T l = .ok t) (h' : IList.fileText T l' = .ok t) :
    l.map (fun x => (x.attrs.map (Attr.toStr T.toStr), x.label)) = l'.map (fun x => (x.attrs.map (Attr.toStr T.toStr), x.label)) := by
  have lines : ∀ {l : IList F}, IList.fileText T l = .ok t → (∀ x ∈ l, InWords T x) → ∃ a b c : List Char, '\n' ∉ a ∧ '\n' ∉ b ∧ '\n' ∉ c ∧
      t = (a :: b :: c :: l.map (instLine T)).flatMap (· ++ ['\n']) := by
    intro l h hl
    unfold IList.fileText at h
    obtain ⟨x0, _, h⟩ := bind_ok_iff.1 h
    cases h
    refine ⟨_, _, _, digits_noBreak x0.attrs.length, types_noBreak x0.attrs, digits_noBreak l.length, ?_⟩
    have : l.flatMap (Inst.fileText T) = (l.map (instLine T)).flatMap (· ++ ['\n']) := by
      rw [List.flatMap_map]
      exact List.flatMap_congr (fun x _ => fileText_line T x)
    rw [this]
    simp [intLine, line]
  have nb : ∀ {l : IList F}, (∀ x ∈ l, InWords T x) → ∀ w ∈ l.map (instLine T), '\n' ∉ w := by
    intro l hl w hw
    obtain ⟨x, hx, rfl⟩ := List.mem_map.1 hw
    obtain ⟨h1, h2, h3⟩ := hl x hx
    unfold instLine
    simp only [List.mem_append, List.mem_flatMap, List.mem_map, not_or]
    refine ⟨?_, h3⟩
    rintro ⟨w, ⟨a, ha, rfl⟩, hw⟩
    rcases hw with hw | hw
    · exact (h1 a ha).2 hw
    · simp at hw
  obtain ⟨a, b, c, n1, n2, n3, e⟩ := lines h hl
  obtain ⟨a', b', c', n1', n2', n3', e'⟩ := lines h' hl'
  have key := (pieces_inj (c := '\n') (ls := a :: b :: c :: l.map (instLine T)) (ls' := a' :: b' :: c' :: l'.map (instLine T)) (t := []) (t' := [])
    (by simp only [List.forall_mem_cons]; exact ⟨n1, n2, n3, nb hl⟩) (by simp only [List.forall_mem_cons]; exact ⟨n1', n2', n3', nb hl'⟩)
    (by simp) (by simp) (by rw [List.append_nil, List.append_nil, ← e, ← e'])).1
  simp only [List.cons.injEq] at key
  replace key := key.2.2.2
  clear e e' h h' lines nb
  induction l generalizing l' with
  | nil => cases l' with
    | nil => rfl
    | cons y l' => simp at key
  | cons x l ih => cases l' with
    | nil => simp at key
    | cons y l' =>
      simp only [List.map_cons, List.cons.injEq] at key ⊢
      refine ⟨?_, ih (fun z hz => hl z (List.mem_cons_of_mem _ hz)) (fun z hz => hl' z (List.mem_cons_of_mem _ hz)) key.2⟩
      obtain ⟨x1, x2, _⟩ := hl x (by simp)
      obtain ⟨y1, y2, _⟩ := hl' y (by simp)
      obtain ⟨e1, e2⟩ := pieces_inj (c := ' ') (by
        intro w hw
        obtain ⟨a, ha, rfl⟩ := List.mem_map.1 hw
        exact (x1 a ha).1) (by
        intro w hw
        obtain ⟨a, ha, rfl⟩ := List.mem_map.1 hw
        exact (y1 a ha).1) x2 y2 key.1
      have inj : Function.Injective String.toList := fun a b h => String.toList_injective h
      have e3 : (x.attrs.map (Attr.toStr T.toStr)).map String.toList = (y.attrs.map (Attr.toStr T.toStr)).map String.toList := by
        rw [List.map_map, List.map_map]; exact e1
      exact Prod.ext (List.map_injective_iff.2 inj e3) (inj e2)

/-! ## the hypotheses are met -/

/-- texts of numbers for the example -/
def exTxt : Txt XR := { shown := fun _ => "1", scan := fun _ => none, toStr := fun _ => "1.000000", stof := fun _ => .error (.ub ""), stoi := fun _ => .error (.ub "") }

example : (∀ x ∈ ([⟨"a", [.continuous (.fin 1), .discrete "u"], none⟩, ⟨"b", [.continuous (.fin 1), .discrete "v"], none⟩] : IList XR), InWords exTxt x) := by
  intro x hx
  simp only [List.mem_cons, List.not_mem_nil, or_false] at hx
  rcases hx with rfl | rfl <;> simp [InWords, Attr.toStr, exTxt]

example : IList.fileText exTxt ([⟨"a", [.continuous (.fin 1), .discrete "u"], none⟩, ⟨"b", [.continuous (.fin 1), .discrete "v"], none⟩] : IList XR) =
    .ok "2\nContinuous Discrete \n2\n1.000000 u a\n1.000000 v b\n".toList := by decide +kernel

end Verif
