import Verif.Model.Instance

/-! # Instances that differ in their class only -/

namespace Verif

/-- the same attributes and the same possible classes; only the class may differ -/
def SameQuestion {F : Type} (x y : Inst F) : Prop := x.attrs = y.attrs ∧ x.possible = y.possible

/-- `f` does not look at the class of the instance -/
def Blind {F α : Type} (f : Inst F → α) : Prop := ∀ x y, SameQuestion x y → f x = f y

end Verif
