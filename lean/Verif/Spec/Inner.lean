import Verif.Spec.Units
import Verif.Spec.NeuralNetwork
import Verif.Spec.Svm

/-! # Words of property C225 -/

namespace Verif

/-- `g` turns instances of `n` numbers into instances of `n'` numbers with the same classes, such that two of the instances `xs` have the
same inner product after as before -/
structure InnerKept (n n' : Nat) (g : Inst ℝ → Inst ℝ) (xs : List (Inst ℝ)) : Prop where
  classes : ∀ x, (g x).label = x.label ∧ (g x).possible = x.possible
  before : ∀ x ∈ xs, Numeric n x
  after : ∀ x ∈ xs, Numeric n' (g x)
  inner : ∀ x ∈ xs, ∀ y ∈ xs, denseDot (numbersOf (g x)) (numbersOf (g y)) = denseDot (numbersOf x) (numbersOf y)

/-- the weights `A` of `n` inputs (and the constant one) and the weights `A'` of `n'` inputs give every node the same weighted sum, for each
of the instances `xs` and what `g` makes of it -/
structure SumsKept (n n' : Nat) (g : Inst ℝ → Inst ℝ) (xs : List (Inst ℝ)) (A A' : Mat ℝ) : Prop where
  rows : A'.rows = A.rows
  before : A.cols = n + 1
  after : A'.cols = n' + 1
  sums : ∀ x ∈ xs, ∀ i < A.rows,
    score A' (withBias (fun j => (numbersOf (g x)).getD j 0)) i = score A (withBias (fun j => (numbersOf x).getD j 0)) i

end Verif
