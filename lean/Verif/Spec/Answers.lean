import Verif.Spec.DataSet
import Verif.Model.Matrix

/-! # Answering every instance of a type -/

namespace Verif

/-- Every instance `x` with `P x` is answered: a plain instance with a class of the training list `l`, an instance with
possible classes with one of them. -/
def AnswersAll {F : Type} (predict : Inst F → Res String) (P : Inst F → Prop) (l : IList F) : Prop :=
  ∀ x : Inst F, P x →
    (x.possible = none → ∃ c ∈ l.map Inst.label, predict x = .ok c) ∧
    (∀ ps, x.possible = some ps → ps ≠ [] → ∃ c ∈ ps, predict x = .ok c)

/-- The attributes of the instance have these types. -/
def OfType {F : Type} (ts : List AttrType) (x : Inst F) : Prop := typesOf x = ts

/-- A nominal or a numeric column. -/
def NominalOrNumeric (t : AttrType) : Prop := t = .discrete ∨ t = .continuous

/-- A size-preserving operation on square matrices, as the inverse is. -/
def KeepsSize {F : Type} (inverse : Mat F → Mat F) : Prop :=
  ∀ S : Mat F, S.rows = S.cols → (inverse S).rows = S.rows ∧ (inverse S).cols = S.cols

end Verif
