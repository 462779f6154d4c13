import Verif.Spec.NeuralNetwork

/-! # The epochs of a training -/

namespace Verif

/-- epoch `j` takes the weights from `w j` to `w (j + 1)` by presenting the instances of `order j`, one after the other, with
the `j`-th learning rate -/
def Presented {W F : Type} [Dbl F] (present : F → W → Inst F → Res W) (eta decrease : F) (n : Nat) (order : Nat → IList F)
    (w : Nat → W) : Prop :=
  ∀ j < n, (order j).foldlM (present (rateAt eta decrease j)) (w j) = .ok (w (j + 1))

/-- what is true of the orders of the epochs: every epoch has every instance of `data` once, and after `P` epochs the orders
start again -/
def OnceAndAgain {F : Type} (data : IList F) (order : Nat → IList F) : Prop :=
  (∀ j, (order j).Perm data) ∧ ∃ P, 0 < P ∧ ∀ j, order (j + P) = order j

/-- some order of `data` is never used, however many epochs there are -/
def SomeOrderNever {F : Type} (data : IList F) (order : Nat → IList F) : Prop :=
  ∃ t : IList F, t.Perm data ∧ ∀ j, order j ≠ t

/-- the second part of the stratified division of the training list, from which a network learns -/
def LearningPart {F : Type} [Dbl F] (l : IList F) (ratio : F) (split : List Nat) (data : IList F) : Prop :=
  ∃ parts, Parts.byRatioStratified l ratio split = .ok parts ∧ parts[1]? = some data

/-- the first part of the stratified division of the training list, on which the epochs are compared -/
def ValidationPart {F : Type} [Dbl F] (l : IList F) (ratio : F) (split : List Nat) (data : IList F) : Prop :=
  ∃ parts, Parts.byRatioStratified l ratio split = .ok parts ∧ parts[0]? = some data

end Verif
