import Verif.Model.Instance
import Verif.Spec.Basic
import Verif.Spec.Split

/-! # Specification: the same data with its columns in another order -/

namespace Verif

/-- the instance whose attributes are those of `x` in the order `σ`; a plain one is
`x.getSubSetOfFeatures σ` (`reorder_projection`) -/
def reorder {F : Type} (σ : List Nat) (x : Inst F) : Inst F :=
  { x with attrs := σ.filterMap (fun i => x.attrs[i]?) }

/-- at a node with the instances `data` splits on two different columns tie for the least entropy -/
def ColumnTie (ts : List AttrType) (data : IList ℝ) : Prop :=
  ∃ S T : Split, S.Candidate ts data ∧ T.Candidate ts data ∧ S.attr ≠ T.attr ∧
    S.entropy data = T.entropy data ∧ S.entropy data < shannon (data.map Inst.label) ∧
    ∀ U : Split, U.Candidate ts data → S.entropy data ≤ U.entropy data

end Verif
