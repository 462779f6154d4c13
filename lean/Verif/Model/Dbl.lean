/-!
# The numeric interface `double`

The C++ code computes with `double`.  The model is polymorphic over a type `F` with the
operations the code uses and *no law at all*; IEEE-754 doubles are one such type, the real
numbers (`Verif/Model/DblReal.lean`) another, the extended rationals with a NaN
(`Verif/Model/DblXR.lean`) a third.
-/

namespace Verif

/-- Operations on `double` used by /repo: `+ - * /`, unary minus, the three comparisons,
`sqrt`, `exp`, `log`, `tanh`, `pow` with an integer exponent, decimal literals (`lit`),
the conversion of `int` (`ofInt`), and `DBL_MAX` (`maxVal`). No laws are assumed. -/
class Dbl (F : Type) where
  /-- conversion `int -> double` -/
  ofInt : Int → F
  /-- a decimal literal in the source text -/
  lit : Rat → F
  add : F → F → F
  sub : F → F → F
  mul : F → F → F
  div : F → F → F
  neg : F → F
  lt : F → F → Bool
  le : F → F → Bool
  eq : F → F → Bool
  sqrt : F → F
  exp : F → F
  log : F → F
  tanh : F → F
  /-- `pow(x, n)` for an integral exponent -/
  pow : F → Int → F
  /-- `DBL_MAX` -/
  maxVal : F

namespace Dbl
scoped infixl:65 " +. " => Dbl.add
scoped infixl:65 " -. " => Dbl.sub
scoped infixl:70 " *. " => Dbl.mul
scoped infixl:70 " /. " => Dbl.div
scoped infix:50 " <. " => Dbl.lt
scoped infix:50 " <=. " => Dbl.le
scoped infix:50 " ==. " => Dbl.eq

variable {F : Type} [Dbl F]

/-- the literal `0.0` -/
def zero : F := Dbl.ofInt 0
/-- the literal `1.0` -/
def one : F := Dbl.ofInt 1

/-- conversion of a size or a counter to `double` -/
def ofNat (n : Nat) : F := Dbl.ofInt n

/-- A value is ordinary when it is not a NaN; in IEEE arithmetic `x <= x` fails exactly for
NaN. -/
def Ord (x : F) : Prop := (x <=. x) = true

end Dbl

open Dbl in
/-- The order laws that IEEE-754 comparisons satisfy (including NaN and signed zeros):
`<=` is transitive, only ordinary values are comparable, ordinary values are totally
ordered, and `<`, `==` are derived from `<=`. -/
class LawfulOrd (F : Type) [Dbl F] : Prop where
  le_trans : ∀ a b c : F, (a <=. b) = true → (b <=. c) = true → (a <=. c) = true
  ord_left : ∀ a b : F, (a <=. b) = true → Dbl.Ord a
  ord_right : ∀ a b : F, (a <=. b) = true → Dbl.Ord b
  total : ∀ a b : F, Dbl.Ord a → Dbl.Ord b → (a <=. b) = true ∨ (b <=. a) = true
  lt_iff : ∀ a b : F, (a <. b) = true ↔ (a <=. b) = true ∧ ¬ (b <=. a) = true
  eq_iff : ∀ a b : F, (a ==. b) = true ↔ (a <=. b) = true ∧ (b <=. a) = true

/-- Outcomes other than a value: a C++ exception that reaches the caller, or undefined
behaviour (out-of-range `operator[]`, invalid downcast, null dereference, read of an
uninitialised variable, missing `return`). -/
inductive Err where
  | throw (what : String)
  | ub (what : String)
deriving DecidableEq, Repr

/-- Result of a C++ call. -/
abbrev Res (α : Type) := Except Err α

/-- `vector::at`. An `int` index that is negative converts to a huge `size_t`, so it behaves
like any other out-of-range index. -/
def atR {α : Type} (l : List α) (i : Nat) : Res α :=
  match l[i]? with
  | some a => .ok a
  | none => .error (.throw "out_of_range")

/-- `vector::operator[]`: undefined behaviour when out of range. -/
def idxR {α : Type} (l : List α) (i : Nat) : Res α :=
  match l[i]? with
  | some a => .ok a
  | none => .error (.ub "operator[]")

end Verif
