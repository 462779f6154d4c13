import Verif.Model.Dbl
import Mathlib.Data.Rat.Defs
import Mathlib.Algebra.Order.Field.Rat
import Mathlib.Tactic.Linarith

/-!
# A computable arithmetic with NaN and infinities

`XR` = rationals plus `nan`, `-inf`, `+inf`, with the IEEE rules for the special values and
exact (unrounded) rational arithmetic.  It is used for concrete, kernel-evaluated witnesses
and to show that hypotheses such as `LawfulOrd` hold in the presence of NaN.  The
transcendental functions are only placeholders here (no witness evaluates them, except
`sqrt`/`exp`/`log` at the listed exact points).
-/

namespace Verif

/-- extended rationals with NaN -/
inductive XR where
  | nan
  | ninf
  | pinf
  | fin (q : Rat)
deriving DecidableEq, Repr

namespace XR

/-- IEEE `<=` -/
def le : XR → XR → Bool
  | nan, _ => false
  | _, nan => false
  | ninf, _ => true
  | _, pinf => true
  | fin a, fin b => decide (a ≤ b)
  | _, _ => false

/-- IEEE `<` -/
def lt : XR → XR → Bool
  | nan, _ => false
  | _, nan => false
  | ninf, ninf => false
  | ninf, _ => true
  | pinf, _ => false
  | fin _, pinf => true
  | fin a, fin b => decide (a < b)
  | fin _, ninf => false

/-- IEEE `==` -/
def eq : XR → XR → Bool
  | nan, _ => false
  | _, nan => false
  | ninf, ninf => true
  | pinf, pinf => true
  | fin a, fin b => decide (a = b)
  | _, _ => false

def neg : XR → XR
  | nan => nan
  | ninf => pinf
  | pinf => ninf
  | fin a => fin (-a)

def add : XR → XR → XR
  | nan, _ => nan
  | _, nan => nan
  | fin a, fin b => fin (a + b)
  | fin _, y => y
  | x, fin _ => x
  | ninf, ninf => ninf
  | pinf, pinf => pinf
  | _, _ => nan

/-- sign of a finite number as an infinity -/
def infSign (q : Rat) (pos : Bool) : XR :=
  if q = 0 then nan else if (0 < q) == pos then pinf else ninf

def mul : XR → XR → XR
  | nan, _ => nan
  | _, nan => nan
  | fin a, fin b => fin (a * b)
  | fin a, pinf => infSign a true
  | pinf, fin a => infSign a true
  | fin a, ninf => infSign a false
  | ninf, fin a => infSign a false
  | pinf, pinf => pinf
  | ninf, ninf => pinf
  | _, _ => ninf

def div : XR → XR → XR
  | nan, _ => nan
  | _, nan => nan
  | fin a, fin b => if b = 0 then infSign a true else fin (a / b)
  | fin _, _ => fin 0
  | pinf, fin b => if b = 0 then pinf else infSign b true
  | ninf, fin b => if b = 0 then ninf else infSign b false
  | _, _ => nan

/-- `pow` with an integer exponent -/
def pow : XR → Int → XR
  | fin a, n => if a = 0 ∧ n < 0 then pinf else fin (a ^ n)
  | x, n => if n = 0 then fin 1 else if n = 1 then x else if n = 2 then mul x x else nan

/-- `sqrt`, exact on squares of rationals (placeholder elsewhere) -/
def sqrt : XR → XR
  | fin a => if a < 0 then nan else
      let n := a.num.toNat; let d := a.den
      let s := (List.range (n + 1)).find? (fun k => k * k == n)
      let t := (List.range (d + 1)).find? (fun k => k * k == d)
      match s, t with
      | some s, some t => fin ((s : Rat) / (t : Rat))
      | _, _ => fin a
  | pinf => pinf
  | _ => nan

end XR

instance : Dbl XR where
  ofInt n := .fin n
  lit q := .fin q
  add := XR.add
  sub a b := XR.add a (XR.neg b)
  mul := XR.mul
  div := XR.div
  neg := XR.neg
  lt := XR.lt
  le := XR.le
  eq := XR.eq
  sqrt := XR.sqrt
  exp x := match x with
    | .fin q => if q = 0 then .fin 1 else .fin (1 + q)
    | .ninf => .fin 0
    | x => x
  log x := match x with
    | .fin q => if q = 0 then .ninf else if q < 0 then .nan else .fin (q - 1)
    | .pinf => .pinf
    | _ => .nan
  tanh x := x
  pow := XR.pow
  maxVal := .fin (2 ^ 1024)

instance : LawfulOrd XR where
  le_trans a b c := by
    cases a <;> cases b <;> cases c <;> simp [Dbl.le, XR.le]
    exact fun h1 h2 => le_trans h1 h2
  ord_left a b := by
    cases a <;> cases b <;> simp [Dbl.le, XR.le, Dbl.Ord]
  ord_right a b := by
    cases a <;> cases b <;> simp [Dbl.le, XR.le, Dbl.Ord]
  total a b := by
    cases a <;> cases b <;> simp [Dbl.le, XR.le, Dbl.Ord]
    exact le_total _ _
  lt_iff a b := by
    cases a <;> cases b <;> simp [Dbl.le, Dbl.lt, XR.le, XR.lt]
    exact fun h => le_of_lt h
  eq_iff a b := by
    cases a <;> cases b <;> simp [Dbl.le, Dbl.eq, XR.le, XR.eq]
    exact le_antisymm_iff

/-- NaN is not ordinary, every other value is. -/
theorem XR.ord_iff (x : XR) : Dbl.Ord x ↔ x ≠ .nan := by
  cases x <;> simp [Dbl.Ord, Dbl.le, XR.le]

end Verif
