import Verif.Spec.Basic
import Verif.Model.DblReal

/-! # Moving an instance towards another one -/

namespace Verif

/-- `z` is `x` after the part `t` of the straight way to `y`: numbers move in proportion, all other attributes are
the same in `x`, `y` and `z` -/
structure Towards (t : ℝ) (x y z : Inst ℝ) : Prop where
  attrs : List.Forall₂ (fun (p : Attr ℝ × Attr ℝ) c => (∃ u v : ℝ, p = (.continuous u, .continuous v) ∧
    c = .continuous ((1 - t) * u + t * v)) ∨ (p.1 = p.2 ∧ c = p.1)) (x.attrs.zip y.attrs) z.attrs
  length : x.attrs.length = y.attrs.length
  possible : z.possible = x.possible

end Verif
