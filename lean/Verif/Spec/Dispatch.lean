import Verif.Model.Dispatch
import Verif.Spec.MostProbable
import Verif.Model.DblReal

/-! # Words used in the properties about what every classifier offers -/

namespace Verif

/-- a binary tree without any contents -/
inductive TreeShape where
  | end
  | fork (l r : TreeShape)
deriving DecidableEq

/-- the number of forks -/
def TreeShape.forks : TreeShape → Nat
  | .end => 0
  | .fork l r => l.forks + r.forks + 1

/-- a soft decision tree without its numbers -/
def SoftNode.shape {F : Type} : SoftNode F → TreeShape
  | .leaf _ => .end
  | .split _ l r => .fork l.shape r.shape

/-- asked about `x`, the classifier answers with a class, gives probabilities, and the class is a most probable one -/
def Reports (m : AnyModel ℝ) (r : Nat) (x : Inst ℝ) : Prop :=
  ∃ c p, m.predict r x = .ok c ∧ m.predictProbability x = .ok p ∧ MostProbable p c

end Verif
