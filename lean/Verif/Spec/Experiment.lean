import Verif.Model.Experiment
import Verif.Spec.Basic

/-! # Words used in the experiment properties -/

namespace Verif
open Exper

/-- Starting from the model `m`, training and testing on the listed pairs (training set, test
set), one after the other with the same model object, yields the listed results and leaves the
model `m'`. -/
inductive Session {M F : Type} (L : Learner M F) : M → List (IList F × IList F) → List (Perf F) → M → Prop
  | nil (m : M) : Session L m [] [] m
  | cons {m m1 m' : M} {tr te : IList F} {p : Perf F} {rest : List (IList F × IList F)} {ps : List (Perf F)} :
      L.train m tr = .ok m1 → L.test m1 te = .ok p → Session L m1 rest ps m' →
      Session L m ((tr, te) :: rest) (p :: ps) m'

/-- the random sources produce orders and draws of the right kind -/
structure Rng.Valid (rng : Rng) : Prop where
  fold : ∀ seed c n, IsPermutation (rng.foldOrder seed c n) n
  split : ∀ seed n, IsPermutation (rng.splitOrder seed n) n
  draws : ∀ seed n, (rng.draws seed n).length = n ∧ ∀ i ∈ rng.draws seed n, i < n

/-- `folds` is a `K`-fold cross validation of `data`: every training set is what the test set
leaves of the data, and every element of the data is tested exactly once. -/
structure IsCrossValidation {α : Type} (K : Nat) (data : List α) (folds : List (List α × List α)) : Prop where
  number : folds.length = K
  complementary : ∀ f ∈ folds, (f.1 ++ f.2).Perm data
  tested_once : (folds.map Prod.snd).flatten.Perm data

end Verif
