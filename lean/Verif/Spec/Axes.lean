import Verif.Spec.Units
import Verif.Spec.Tree
import Mathlib.Data.Matrix.Mul

/-! # The same data along other axes -/

namespace Verif

/-- the numbers of an instance as a vector -/
noncomputable def vectorOf (n : Nat) (x : Inst ℝ) : Fin n → ℝ := fun j => contValAt x j

/-- the same instance described by other coordinates: the vector `v` of its numbers becomes `A v + b` -/
noncomputable def inAxes {n : Nat} (A : Matrix (Fin n) (Fin n) ℝ) (b : Fin n → ℝ) (x : Inst ℝ) : Inst ℝ :=
  { x with attrs := List.ofFn (fun i => Attr.continuous (A.mulVec (vectorOf n x) i + b i)) }

end Verif
