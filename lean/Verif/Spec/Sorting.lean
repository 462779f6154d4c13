import Verif.Model.Dbl

/-!
What the C++ standard asks of a comparison handed to `std::stable_sort`
([alg.sorting]: a strict weak ordering of the elements to be sorted). Calling `std::stable_sort`
without it is undefined behaviour.
-/

namespace Verif

/-- `lt` is a strict weak ordering of the elements of `l`: nothing comes before itself, `lt` is
transitive, and "neither comes before the other" is transitive. -/
structure MaySort {α : Type} (lt : α → α → Bool) (l : List α) : Prop where
  irrefl : ∀ a ∈ l, lt a a = false
  trans : ∀ a ∈ l, ∀ b ∈ l, ∀ c ∈ l, lt a b = true → lt b c = true → lt a c = true
  tie : ∀ a ∈ l, ∀ b ∈ l, ∀ c ∈ l, lt a b = false → lt b a = false → lt b c = false →
    lt c b = false → lt a c = false ∧ lt c a = false

/-- not a number: the value that is not even equal to itself -/
def NotANumber {F : Type} [Dbl F] (v : F) : Prop := Dbl.eq v v = false

end Verif
