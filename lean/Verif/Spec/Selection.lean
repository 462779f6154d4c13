import Verif.Spec.FeatureSelection
import Verif.Model.Selection

/-! # Specification: what a subset of the features is worth -/

namespace Verif
open Exper

/-- running the experiment `exec` with the classifier object `m` on the data set restricted to the
features `s` gives mean accuracy `a` -/
def SubsetAccuracy {M F : Type} [Dbl F] (exec : M → IList F → Res (M × ExpPerf F)) (m : M) (ds : DataSet F)
    (s : List Nat) (a : F) : Prop :=
  ∃ d e m', ds.getSubSetOfFeatures s = .ok d ∧ exec m d.instances = .ok (m', e) ∧ HasAccuracy e a

/-- `t` is one step away from `s` in the direction of the search -/
def OneStep (op : FeatSel.Op) (n : Nat) (s t : List Nat) : Prop :=
  match op with
  | .fwd => ExtendsByOne n s t
  | .bwd => LacksOne s t
  | .flt => ExtendsByOne n s t ∨ LacksOne s t

end Verif
