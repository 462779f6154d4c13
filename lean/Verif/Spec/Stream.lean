import Verif.Model.Stream

/-! # What it means that a text can be read back -/

namespace Verif
open Dbl

variable {F : Type} [Dbl F]

/-- white space only -/
def Blanks (s : List Char) : Prop := ∀ c ∈ s, isBlank c = true

/-- a non-empty string without white space: `in >> s` reads it back -/
def Word (s : String) : Prop := s ≠ "" ∧ ∀ c ∈ s.toList, isBlank c = false

/-- the number survives printing: the printed text is a word, and reading that word (followed
by white space or the end of the file) gives the number back -/
def Survives (T : Txt F) (x : F) : Prop :=
  Word (T.shown x) ∧ ∀ rest, (∀ c r, rest = c :: r → isBlank c = true) →
    T.scan ((T.shown x).toList ++ rest) = some (x, rest)

/-- `m` reads back `a` from the text `t`, wherever the text stands in a file (possibly after
white space), and leaves exactly what follows it, up to white space -/
def Restores {α : Type} (m : Rd α) (t : List Char) (a : α) : Prop :=
  ∀ pre rest, Blanks pre → ∃ pre', Blanks pre' ∧
    m ⟨pre ++ (t ++ rest), false⟩ = .ok (a, ⟨pre' ++ rest, false⟩)

/-- a distribution as counting produces it: keys in increasing order, `sum` the total of the
counts -/
def DD.Proper (d : DD) : Prop :=
  (d.m.map Prod.fst).Pairwise (· < ·) ∧ d.sum = (d.m.map Prod.snd).sum

/-- contract of the Math library: distributions and vectors are read back, and a reader leaves
a failed stream alone -/
structure LibOk (T : Txt F) (L : MathLib F) : Prop where
  dd : ∀ d : DD, d.Proper → (∀ k ∈ d.getItems, Word k) → Restores L.ddRead (L.ddText d) d
  vec : ∀ v : List F, (∀ x ∈ v, Survives T x) → Restores L.vecRead (L.vecText v) v
  ddFailed : ∀ i d j, i.failed = true → L.ddRead i = .ok (d, j) → j = i
  vecFailed : ∀ i v j, i.failed = true → L.vecRead i = .ok (v, j) → j = i

end Verif
