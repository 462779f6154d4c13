import Verif.Spec.Stream

/-! # What loading into a used object leaves -/

namespace Verif

/-- two runs of a reader: both fail with the same error, or both return, leave the same stream
and results related by `R` -/
def SameRun {α β : Type} (R : α → β → Prop) (a : Res (α × In)) (b : Res (β × In)) : Prop :=
  match a, b with
  | .ok p, .ok q => R p.1 q.1 ∧ p.2 = q.2
  | .error e, .error e' => e = e'
  | _, _ => False

/-- `m` has the entries of `old`, and those of `fresh` for the other keys -/
def KeepsOld {V : Type} (old m fresh : OMap V) : Prop :=
  ∀ c, OMap.find? m c = match OMap.find? old c with
    | some v => some v
    | none => OMap.find? fresh c

end Verif
