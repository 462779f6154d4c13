import Verif.Spec.Experiment

/-! # Specification: results of new classifiers -/

namespace Verif
open Exper

/-- every result is the one a classifier gets on the test set of the pair that starts as `new`
and is trained on the training set of the pair, and on nothing else -/
def FreshResults {M F : Type} (L : Learner M F) (new : M) (folds : List (IList F × IList F)) (rs : List (Perf F)) : Prop :=
  List.Forall₂ (fun f r => ∃ m, L.train new f.1 = .ok m ∧ L.test m f.2 = .ok r) folds rs

/-- training does not depend on what the object learned before -/
def Forgets {M F : Type} (L : Learner M F) : Prop := ∀ m m' l, L.train m l = L.train m' l

end Verif
