import Verif.Model.Instance
import Verif.Model.DblReal

/-! # The same data in other units -/

namespace Verif

/-- a number in another unit: `v` becomes `a * v + b`; other attributes stay -/
noncomputable def Attr.inUnits (a b : ℝ) : Attr ℝ → Attr ℝ
  | .continuous v => .continuous (a * v + b)
  | t => t

/-- the same instance with the numbers of attribute `i` in the unit given by `a i` and `b i` -/
noncomputable def inUnits (a b : Nat → ℝ) (x : Inst ℝ) : Inst ℝ :=
  { x with attrs := x.attrs.mapIdx (fun i t => t.inUnits (a i) (b i)) }

/-- all attributes are numbers, and there are `n` of them -/
def Numeric (n : Nat) (x : Inst ℝ) : Prop := ∃ u : List ℝ, x.attrs = u.map Attr.continuous ∧ u.length = n

/-- the value of one attribute in other words: numbers in another unit, values renamed by `r`; the
index of an indexed attribute stays -/
noncomputable def Attr.recode (a b : ℝ) (r : String → String) : Attr ℝ → Attr ℝ
  | .continuous v => .continuous (a * v + b)
  | .discrete s => .discrete (r s)
  | .binary s => .binary (r s)
  | .indexed s k m => .indexed (r s) k m

/-- the same instance with the numbers of attribute `i` in the unit given by `a i` and `b i` and
its values renamed by `r i` -/
noncomputable def recode (a b : Nat → ℝ) (r : Nat → String → String) (x : Inst ℝ) : Inst ℝ :=
  { x with attrs := x.attrs.mapIdx (fun i t => t.recode (a i) (b i) (r i)) }

end Verif
