import Verif.Spec.Stream
import Verif.Lemmas.Basic
import Verif.Lemmas.Distribution

/-! # Reading back what was written: integers, words, numbers, loops -/

set_option linter.unusedSectionVars false

namespace Verif
open Dbl

variable {F : Type} [Dbl F]

theorem rd_bind {α β : Type} (m : Rd α) (f : α → Rd β) (i : In) :
    (m >>= f) i = (m i >>= fun p => f p.1 p.2) := rfl

theorem rd_pure {α : Type} (a : α) (i : In) : (pure a : Rd α) i = .ok (a, i) := rfl

theorem use_none {α : Type} (i : In) :
    (use none : Rd α) i = .error (.ub "uninitialised variable") := rfl

theorem use_some {α : Type} (a : α) (i : In) : (use (some a) : Rd α) i = .ok (a, i) := rfl

theorem rdNum_failed {α : Type} (scan : List Char → Option (α × List Char)) (zero : α)
    (old : Option α) (i : In) (h : i.failed = true) : rdNum scan zero old i = .ok (old, i) := by
  simp [rdNum, h]

theorem rdInt_failed (old : Option Int) (i : In) (h : i.failed = true) :
    rdInt old i = .ok (old, i) := rdNum_failed _ _ old i h

theorem rdWord_failed (old : String) (i : In) (h : i.failed = true) :
    rdWord old i = .ok (old, i) := by
  simp [rdWord, h]

theorem Restores.pure {α : Type} (a : α) : Restores (Pure.pure a : Rd α) [] a :=
  fun pre rest hp => ⟨pre, hp, by simp [rd_pure]⟩

theorem Restores.bind {α β : Type} {m : Rd α} {f : α → Rd β} {t u : List Char} {a : α} {b : β}
    (hm : Restores m t a) (hf : Restores (f a) u b) : Restores (m >>= f) (t ++ u) b := by
  intro pre rest hp
  obtain ⟨p1, h1, e1⟩ := hm pre (u ++ rest) hp
  obtain ⟨p2, h2, e2⟩ := hf p1 rest h1
  refine ⟨p2, h2, ?_⟩
  rw [rd_bind, List.append_assoc, e1]
  exact e2

/-- a step that reads nothing -/
theorem Restores.bind_nil {α β : Type} {m : Rd α} {f : α → Rd β} {t : List Char} {a : α} {b : β}
    (hm : Restores m t a) (hf : Restores (f a) [] b) : Restores (m >>= f) t b := by
  have := hm.bind hf
  simpa using this

theorem Restores.nil_bind {α β : Type} {m : Rd α} {f : α → Rd β} {t : List Char} {a : α} {b : β}
    (hm : Restores m [] a) (hf : Restores (f a) t b) : Restores (m >>= f) t b := by
  have := hm.bind hf
  simpa using this

theorem Restores.use {α : Type} (a : α) : Restores (use (some a)) [] a := Restores.pure a

theorem Restores.loop {σ α : Type} {body : σ → Rd σ} {txt : α → List Char} {g : σ → α → σ}
    (l : List α) (P : σ → Prop) (s : σ) (hs : P s)
    (h : ∀ s, P s → ∀ a ∈ l, P (g s a) ∧ Restores (body s) (txt a) (g s a)) :
    Restores (rdLoop body l.length s) (l.flatMap txt) (l.foldl g s) := by
  induction l generalizing s with
  | nil => exact Restores.pure s
  | cons a l ih =>
    rw [List.flatMap_cons, List.length_cons, List.foldl_cons]
    have h1 := h s hs a (by simp)
    exact h1.2.bind (ih _ h1.1 (fun s hs b hb => h s hs b (by simp [hb])))

/-- the result when the text is the whole file -/
theorem Restores.file {α : Type} {m : Rd α} {t : List Char} {a : α} (h : Restores m t a) :
    ∃ i, m (In.ofText t) = .ok (a, i) := by
  obtain ⟨p, _, e⟩ := h [] [] (by simp [Blanks])
  exact ⟨_, by simpa [In.ofText] using e⟩

theorem dropWhile_blanks {pre : List Char} (h : Blanks pre) (s : List Char) :
    (pre ++ s).dropWhile isBlank = s.dropWhile isBlank := by
  induction pre with
  | nil => rfl
  | cons c pre ih =>
    rw [List.cons_append, List.dropWhile_cons, if_pos (h c (by simp))]
    exact ih (fun d hd => h d (by simp [hd]))

theorem Word.split {s : String} (h : Word s) :
    ∃ c cs, s.toList = c :: cs ∧ isBlank c = false := by
  cases hs : s.toList with
  | nil => exact absurd (String.toList_eq_nil_iff.mp hs) h.1
  | cons c cs => exact ⟨c, cs, rfl, h.2 c (by rw [hs]; simp)⟩

theorem takeWhile_word {w : List Char} (h : ∀ c ∈ w, isBlank c = false) (b : Char)
    (hb : isBlank b = true) (rest : List Char) :
    (w ++ b :: rest).takeWhile (fun c => !isBlank c) = w ∧
      (w ++ b :: rest).dropWhile (fun c => !isBlank c) = b :: rest := by
  induction w with
  | nil => simp [hb]
  | cons c w ih =>
    have hc := h c (by simp)
    have := ih (fun d hd => h d (by simp [hd]))
    simp [hc, this]

/-- reading a word in front of white space -/
theorem rdWord_ok (old : String) {s : String} (h : Word s) {pre : List Char} (hp : Blanks pre)
    (b : Char) (hb : isBlank b = true) (rest : List Char) :
    rdWord old ⟨pre ++ (s.toList ++ b :: rest), false⟩ = .ok (s, ⟨b :: rest, false⟩) := by
  obtain ⟨c, cs, e, hc⟩ := h.split
  have e1 : (pre ++ (s.toList ++ b :: rest)).dropWhile isBlank = c :: (cs ++ b :: rest) := by
    rw [dropWhile_blanks hp, e]
    simp [hc]
  have e2 : c :: (cs ++ b :: rest) = s.toList ++ b :: rest := by rw [e]; rfl
  have e3 := takeWhile_word h.2 b hb rest
  simp only [rdWord, e1]
  rw [e2, e3.1, e3.2]
  simp

theorem Restores.word (old : String) {s : String} (h : Word s) :
    Restores (rdWord old) (line s) s := by
  intro pre rest hp
  refine ⟨['\n'], by simp [Blanks, isBlank], ?_⟩
  have := rdWord_ok old h hp '\n' (by simp [isBlank]) rest
  simpa [line] using this

/-- reading a number in front of white space -/
theorem rdNum_ok {α : Type} {scan : List Char → Option (α × List Char)} {zero : α}
    (old : Option α) {s : String} (h : Word s) {x : α} {pre : List Char} (hp : Blanks pre)
    (rest : List Char) (hsc : scan (s.toList ++ rest) = some (x, rest)) :
    rdNum scan zero old ⟨pre ++ (s.toList ++ rest), false⟩ = .ok (some x, ⟨rest, false⟩) := by
  obtain ⟨c, cs, e, hc⟩ := h.split
  have e1 : (pre ++ (s.toList ++ rest)).dropWhile isBlank = c :: (cs ++ rest) := by
    rw [dropWhile_blanks hp, e]
    simp [hc]
  have e2 : c :: (cs ++ rest) = s.toList ++ rest := by rw [e]; rfl
  simp only [rdNum, e1]
  rw [e2, hsc]
  simp

theorem Restores.double {T : Txt F} (old : Option F) {x : F} (h : Survives T x) :
    Restores (rdDouble T old) (line (T.shown x)) (some x) := by
  intro pre rest hp
  refine ⟨['\n'], by simp [Blanks, isBlank], ?_⟩
  have := rdNum_ok (zero := (Dbl.zero : F)) old h.1 hp ('\n' :: rest)
    (h.2 _ (by intro c r e; cases e; simp [isBlank]))
  simpa [line, rdDouble] using this

/-! ## decimal numerals -/

theorem isDigit_not_blank {c : Char} (h : c.isDigit = true) : isBlank c = false := by
  by_contra hb
  rw [Bool.not_eq_false] at hb
  simp only [isBlank, Bool.or_eq_true, decide_eq_true_eq] at hb
  rcases hb with ((((rfl | rfl) | rfl) | rfl) | rfl) | rfl <;> simp [Char.isDigit] at h

theorem natText_digits (n : Nat) : ∀ c ∈ (toString n).toList, c.isDigit = true := by
  intro c hc
  have e : (toString n).toList = Nat.toDigits 10 n := Nat.toList_repr
  rw [e] at hc
  exact Nat.isDigit_of_mem_toDigits (by decide) (by decide) hc

theorem natText_ne (n : Nat) : (toString n).toList ≠ [] := by
  have e : (toString n).toList = Nat.toDigits 10 n := Nat.toList_repr
  rw [e]
  exact Nat.toDigits_ne_nil

theorem natText_word (n : Nat) : Word (toString n) := by
  refine ⟨fun h => natText_ne n (by rw [h]; rfl), fun c hc => ?_⟩
  exact isDigit_not_blank (natText_digits n c hc)

theorem scanNat_text (n : Nat) (rest : List Char)
    (hr : ∀ c r, rest = c :: r → c.isDigit = false) :
    scanNat ((toString n).toList ++ rest) = some (n, rest) := by
  have hd := natText_digits n
  have hn := natText_ne n
  have ht : ((toString n).toList ++ rest).takeWhile Char.isDigit = (toString n).toList := by
    rw [List.takeWhile_append_of_pos hd]
    cases rest with
    | nil => simp
    | cons c r => simp [hr c r rfl]
  have hw : ((toString n).toList ++ rest).dropWhile Char.isDigit = rest := by
    rw [List.dropWhile_append_of_pos hd]
    cases rest with
    | nil => simp
    | cons c r => simp [hr c r rfl]
  have e : (toString n).toList = Nat.toDigits 10 n := Nat.toList_repr
  have hv : Nat.ofDigitChars 10 (toString n).toList 0 = n := by
    rw [e]
    exact Nat.ofDigitChars_toDigits (by decide) (by decide)
  unfold scanNat
  rw [ht, hw]
  cases h : (toString n).toList with
  | nil => exact absurd h hn
  | cons c cs =>
    simp only
    rw [← h, hv]

theorem scanInt_digit {c : Char} {s : List Char} (h : c.isDigit = true) :
    scanInt (c :: s) = (scanNat (c :: s)).map (fun p => ((p.1 : Int), p.2)) := by
  unfold scanInt
  split
  · rename_i heq
    cases heq
    simp [Char.isDigit] at h
  · rename_i heq
    cases heq
    simp [Char.isDigit] at h
  · rfl

theorem intText_cases (n : Int) : ∃ k : Nat, (n = k ∧ toString n = toString k) ∨
    (n = -(k : Int) ∧ toString n = "-" ++ toString k) := by
  cases n with
  | ofNat k => exact ⟨k, .inl ⟨rfl, rfl⟩⟩
  | negSucc k => exact ⟨k + 1, .inr ⟨rfl, rfl⟩⟩

theorem intText_word (n : Int) : Word (toString n) := by
  obtain ⟨k, ⟨_, e⟩ | ⟨_, e⟩⟩ := intText_cases n
  · rw [e]
    exact natText_word k
  · rw [e]
    have hk := natText_word k
    refine ⟨fun h => ?_, fun c hc => ?_⟩
    · have := congrArg String.toList h
      simp at this
    · rw [String.toList_append, List.mem_append] at hc
      rcases hc with hc | hc
      · simp at hc
        subst hc
        decide
      · exact hk.2 c hc

theorem scanInt_text (n : Int) (rest : List Char)
    (hr : ∀ c r, rest = c :: r → c.isDigit = false) :
    scanInt ((toString n).toList ++ rest) = some (n, rest) := by
  obtain ⟨k, ⟨e0, e⟩ | ⟨e0, e⟩⟩ := intText_cases n
  · rw [e]
    cases h : (toString k).toList with
    | nil => exact absurd h (natText_ne k)
    | cons c cs =>
      have hc := natText_digits k c (by rw [h]; simp)
      rw [List.cons_append, scanInt_digit hc, ← List.cons_append, ← h, scanNat_text k rest hr, e0]
      rfl
  · rw [e, String.toList_append]
    have : ("-".toList ++ (toString k).toList) ++ rest = '-' :: ((toString k).toList ++ rest) := by
      simp
    rw [this]
    simp only [scanInt]
    rw [scanNat_text k rest hr, e0]
    rfl

theorem newline_not_digit (rest : List Char) :
    ∀ c r, '\n' :: rest = c :: r → c.isDigit = false := by
  intro c r e
  cases e
  decide

theorem rdInt_ok (old : Option Int) (n : Int) {pre : List Char} (hp : Blanks pre)
    (rest : List Char) :
    rdInt old ⟨pre ++ (line (toString n) ++ rest), false⟩ = .ok (some n, ⟨'\n' :: rest, false⟩) := by
  have := rdNum_ok (scan := scanInt) (zero := 0) old (intText_word n) hp ('\n' :: rest)
    (scanInt_text n ('\n' :: rest) (newline_not_digit rest))
  simpa [line, rdInt] using this

theorem Restores.int (old : Option Int) (n : Int) :
    Restores (rdInt old) (line (toString n)) (some n) := fun pre rest hp =>
  ⟨['\n'], by simp [Blanks, isBlank], rdInt_ok old n hp rest⟩

/-! ## a concrete Math library -/

/-- one entry: the item, then its count -/
def plainDDStep (d : DD) : Rd DD := do
  let k ← rdWord ""
  let c ← rdInt none
  let c ← use c
  pure ⟨d.m.insert k c.toNat, d.sum + c.toNat⟩

/-- loop body of the vector constructor -/
def plainVecStep (T : Txt F) (l : List F) : Rd (List F) := do
  let x ← rdDouble T none
  let x ← use x
  pure (l ++ [x])

/-- the size, then the entries one per line -/
def plainLib (T : Txt F) : MathLib F where
  ddText d := line (toString (d.m.length : Int)) ++
    d.m.flatMap (fun p => line p.1 ++ line (toString (p.2 : Int)))
  ddRead := do
    let size ← rdInt none
    let n ← use size
    rdLoop plainDDStep n.toNat DD.empty
  vecText v := line (toString (v.length : Int)) ++ v.flatMap (fun x => line (T.shown x))
  vecRead := do
    let size ← rdInt none
    let n ← use size
    rdLoop (plainVecStep T) n.toNat []

theorem foldl_snoc {α : Type} (l acc : List α) :
    l.foldl (fun acc a => acc ++ [a]) acc = acc ++ l := by
  induction l generalizing acc with
  | nil => simp
  | cons a l ih => rw [List.foldl_cons, ih]; simp

/-- appending an entry with a larger key -/
theorem insert_last {V : Type} (m : OMap V) (k : String) (v : V) (h : ∀ p ∈ m, p.1 < k) :
    m.insert k v = m ++ [(k, v)] := by
  induction m with
  | nil => rfl
  | cons p m ih =>
    have hp := h p (by simp)
    have h1 : ¬ k = p.1 := fun e => by rw [e] at hp; exact lt_irrefl _ hp
    have h2 : ¬ k < p.1 := not_lt.mpr hp.le
    obtain ⟨k', v'⟩ := p
    simp only [OMap.insert] at *
    rw [if_neg h1, if_neg h2, ih (fun q hq => h q (by simp [hq]))]
    rfl

theorem foldl_insert {V W : Type} (f : W → V) (l : List (String × W)) (m : OMap V)
    (hl : (l.map Prod.fst).Pairwise (· < ·)) (h : ∀ p ∈ m, ∀ q ∈ l, p.1 < q.1) :
    l.foldl (fun m p => OMap.insert m p.1 (f p.2)) m = m ++ l.map (fun p => (p.1, f p.2)) := by
  induction l generalizing m with
  | nil => simp
  | cons p l ih =>
    rw [List.map_cons, List.pairwise_cons] at hl
    rw [List.foldl_cons, insert_last m p.1 _ (fun q hq => h q hq p (by simp)), ih _ hl.2]
    · simp
    · intro q hq r hr
      rw [List.mem_append] at hq
      rcases hq with hq | hq
      · exact h q hq r (by simp [hr])
      · simp at hq
        subst hq
        exact hl.1 _ (List.mem_map_of_mem hr)

theorem plainLib_ok (T : Txt F) : LibOk T (plainLib T) where
  dd := by
    intro d hd hk
    have e : d = ⟨d.m.foldl (fun m p => OMap.insert m p.1 (id p.2)) [],
        d.m.foldl (fun s p => s + p.2) 0⟩ := by
      rw [foldl_insert id d.m [] hd.1 (by simp)]
      have : d.m.foldl (fun s p => s + p.2) 0 = (d.m.map Prod.snd).sum := by
        rw [List.sum_eq_foldl, List.foldl_map]
      rw [this, ← hd.2]
      simp
    have e2 : ∀ (l : List (String × Nat)) (d : DD),
        l.foldl (fun (d : DD) p => ⟨d.m.insert p.1 p.2, d.sum + p.2⟩) d =
          ⟨l.foldl (fun m p => OMap.insert m p.1 (id p.2)) d.m,
            l.foldl (fun s p => s + p.2) d.sum⟩ := by
      intro l
      induction l with
      | nil => intro d; rfl
      | cons p l ih => intro d; rw [List.foldl_cons, ih]; rfl
    have hloop : Restores (rdLoop plainDDStep d.m.length DD.empty)
        (d.m.flatMap (fun p => line p.1 ++ line (toString (p.2 : Int))))
        (d.m.foldl (fun (d : DD) p => ⟨d.m.insert p.1 p.2, d.sum + p.2⟩) DD.empty) := by
      refine Restores.loop d.m (fun _ => True) _ trivial (fun s _ p hp => ⟨trivial, ?_⟩)
      refine (Restores.word "" (hk p.1 (List.mem_map_of_mem hp))).bind ?_
      refine (Restores.int none (p.2 : Int)).bind_nil ?_
      exact (Restores.use _).bind_nil (Restores.pure _)
    rw [e2] at hloop
    have hr : d = ⟨d.m.foldl (fun m p => OMap.insert m p.1 (id p.2)) DD.empty.m,
        d.m.foldl (fun s p => s + p.2) DD.empty.sum⟩ := e
    rw [← hr] at hloop
    refine (Restores.int none _).bind ?_
    exact (Restores.use _).nil_bind hloop
  vec := by
    intro v hv
    have hloop : Restores (rdLoop (plainVecStep T) v.length [])
        (v.flatMap (fun x => line (T.shown x))) (v.foldl (fun l x => l ++ [x]) []) := by
      refine Restores.loop v (fun _ => True) _ trivial (fun s _ x hx => ⟨trivial, ?_⟩)
      refine (Restores.double none (hv x hx)).bind_nil ?_
      exact (Restores.use _).bind_nil (Restores.pure _)
    rw [foldl_snoc, List.nil_append] at hloop
    refine (Restores.int none _).bind ?_
    exact (Restores.use _).nil_bind hloop
  ddFailed := by
    intro i d j hi h
    simp only [plainLib] at h
    rw [rd_bind, rdInt_failed none i hi, res_bind_ok, rd_bind, use_none] at h
    cases h
  vecFailed := by
    intro i d j hi h
    simp only [plainLib] at h
    rw [rd_bind, rdInt_failed none i hi, res_bind_ok, rd_bind, use_none] at h
    cases h

end Verif
