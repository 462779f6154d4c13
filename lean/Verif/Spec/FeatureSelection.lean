import Verif.Model.Performance

/-! # Words used in the feature selection properties -/

namespace Verif

/-- a duplicate-free list of feature numbers below `n` -/
def IsFeatureList (n : Nat) (s : List Nat) : Prop := s.Nodup ∧ ∀ i ∈ s, i < n

/-- `t` is `s` extended by one missing feature below `n` -/
def ExtendsByOne (n : Nat) (s t : List Nat) : Prop := ∃ i < n, i ∉ s ∧ t = s ++ [i]

/-- `t` is `s` without the feature at one position -/
def LacksOne (s t : List Nat) : Prop := ∃ l i r, s = l ++ i :: r ∧ t = l ++ r

/-- an experiment summary has a mean accuracy, namely `a` -/
def HasAccuracy {F : Type} [Dbl F] (e : ExpPerf F) (a : F) : Prop :=
  ∃ p, e.meanClassificationPerformance = .ok (some p) ∧ p.getAccuracy = .ok a

end Verif
