import Verif.Spec.Filter
import Verif.Spec.NeuralNetwork

/-! # What two filters make of an instance -/

namespace Verif

/-- what normalising a data set with the instances `l` makes of an instance: a number `v` in column `i` becomes `(v - mean) / sd`,
where mean and sample standard deviation are those of column `i` of `l`; other attributes stay -/
noncomputable def normalisedLike (l : IList ℝ) (x : Inst ℝ) : Inst ℝ :=
  { x with attrs := x.attrs.mapIdx (fun i t => match t with
    | .continuous v => .continuous ((v - mean (numbersAt l i)) / sampleSD (numbersAt l i))
    | t => t) }

/-- every column of numbers has different numbers -/
def NumbersDiffer (ts : List AttrType) (l : IList ℝ) : Prop :=
  ∀ i, ts[i]? = some .continuous → 0 < sampleSD (numbersAt l i)

/-- an instance described by its coordinates along the directions `es` -/
noncomputable def alongAll (es : List (List ℝ)) (x : Inst ℝ) : Inst ℝ :=
  { x with attrs := es.map (fun e => .continuous (inner es.length (numbersOf x) e)) }

end Verif
