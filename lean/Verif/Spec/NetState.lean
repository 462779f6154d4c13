import Verif.Model.NetState

/-! # Specification: what was asked before -/

namespace Verif

variable {F : Type} [Dbl F]

/-- a question put to a network -/
inductive Question (F : Type) where
  | predict (x : Inst F)
  | probability (x : Inst F)

/-- the object after a history of questions, whatever the answers (or exceptions) were -/
def afterQuestions (labels : List String) (output : List F → Res (List F)) (s : NetMem F) : List (Question F) → NetMem F
  | [] => s
  | .predict x :: rest => afterQuestions labels output (s.predict labels output x).2 rest
  | .probability x :: rest => afterQuestions labels output (s.probability labels output x).2 rest

/-- the soft tree after a history of predictions that returned -/
inductive SoftAsked (t : SoftTree F) : SoftTree F → Prop
  | none : SoftAsked t t
  | more {t1 t2 : SoftTree F} {x : Inst F} {c : String} :
      SoftAsked t t1 → softPredictState t1 x = .ok (c, t2) → SoftAsked t t2

end Verif
