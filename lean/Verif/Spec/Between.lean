import Verif.Spec.Units

/-! # Points between two instances -/

namespace Verif

/-- `z` lies between the numeric instances `x` and `y`, at `t` of the way; the three have the same
possible classes -/
def Between (t : ℝ) (x y z : Inst ℝ) : Prop :=
  ∃ u v : List ℝ, u.length = v.length ∧ x.attrs = u.map Attr.continuous ∧
    y.attrs = v.map Attr.continuous ∧
    z.attrs = (List.zipWith (fun a b => (1 - t) * a + t * b) u v).map Attr.continuous ∧
    y.possible = x.possible ∧ z.possible = x.possible

end Verif
