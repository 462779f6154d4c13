import Verif.Spec.Svm
import Verif.Spec.Axes
import Verif.Spec.NeuralNetwork

/-! # Words of property C223 -/

namespace Verif

/-- `g` keeps the classes of the instances, all of which, before and after, consist of numbers only, and the kernel (with the parameters
`p` before and `p'` after) has a value for two instances after that is `t` times its value before -/
structure KernelKept (t : ℝ) (p p' : SvmParam ℝ) (g : Inst ℝ → Inst ℝ) (xs : List (Inst ℝ)) : Prop where
  classes : ∀ x ∈ xs, (g x).label = x.label
  numbers : ∀ x ∈ xs, x.attrs = (numbersOf x).map Attr.continuous ∧ (g x).attrs = (numbersOf (g x)).map Attr.continuous
  values : ∀ x ∈ xs, ∀ y ∈ xs,
    kernelFormula p' (numbersOf (g x)) (numbersOf (g y)) = t * kernelFormula p (numbersOf x) (numbersOf y)

end Verif
