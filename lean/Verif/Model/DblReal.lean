import Verif.Model.Dbl
import Mathlib.Data.Real.Basic
import Mathlib.Analysis.Real.Sqrt
import Mathlib.Analysis.SpecialFunctions.Log.Basic
import Mathlib.Analysis.SpecialFunctions.Trigonometric.Basic
import Mathlib.Tactic.Linarith
import Mathlib.Tactic.Ring

/-!
# Exact arithmetic: the instance `F = ℝ`

Theorems that say "exact arithmetic" are about this instance.  `DBL_MAX` is the real number
`2^1024`; statements about loops that start from `±DBL_MAX` carry the hypothesis that the
values are in range.
-/

namespace Verif
open Classical

noncomputable instance : Dbl ℝ where
  ofInt n := (n : ℝ)
  lit q := (q : ℝ)
  add := (· + ·)
  sub := (· - ·)
  mul := (· * ·)
  div := (· / ·)
  neg := (- ·)
  lt a b := decide (a < b)
  le a b := decide (a ≤ b)
  eq a b := decide (a = b)
  sqrt := Real.sqrt
  exp := Real.exp
  log := Real.log
  tanh := Real.tanh
  pow x n := x ^ n
  maxVal := 2 ^ 1024

open Dbl

@[simp] theorem add_real (a b : ℝ) : (a +. b) = a + b := rfl
@[simp] theorem sub_real (a b : ℝ) : (a -. b) = a - b := rfl
@[simp] theorem mul_real (a b : ℝ) : (a *. b) = a * b := rfl
@[simp] theorem div_real (a b : ℝ) : (a /. b) = a / b := rfl
@[simp] theorem neg_real (a : ℝ) : Dbl.neg a = -a := rfl
@[simp] theorem lt_real (a b : ℝ) : (a <. b) = decide (a < b) := rfl
@[simp] theorem le_real (a b : ℝ) : (a <=. b) = decide (a ≤ b) := rfl
@[simp] theorem eq_real (a b : ℝ) : (a ==. b) = decide (a = b) := rfl
@[simp] theorem ofInt_real (n : Int) : (Dbl.ofInt n : ℝ) = n := rfl
@[simp] theorem ofNat_real (n : Nat) : (Dbl.ofNat n : ℝ) = n := by
  simp [Dbl.ofNat]
@[simp] theorem lit_real (q : ℚ) : (Dbl.lit q : ℝ) = q := rfl
@[simp] theorem zero_real : (Dbl.zero : ℝ) = 0 := by simp [Dbl.zero]
@[simp] theorem one_real : (Dbl.one : ℝ) = 1 := by simp [Dbl.one]
@[simp] theorem sqrt_real (a : ℝ) : Dbl.sqrt a = Real.sqrt a := rfl
@[simp] theorem exp_real (a : ℝ) : Dbl.exp a = Real.exp a := rfl
@[simp] theorem log_real (a : ℝ) : Dbl.log a = Real.log a := rfl
@[simp] theorem tanh_real (a : ℝ) : Dbl.tanh a = Real.tanh a := rfl
@[simp] theorem pow_real (a : ℝ) (n : Int) : Dbl.pow a n = a ^ n := rfl
theorem maxVal_real : (Dbl.maxVal : ℝ) = 2 ^ 1024 := rfl
theorem maxVal_real_pos : (0 : ℝ) < Dbl.maxVal := by rw [maxVal_real]; positivity

@[simp] theorem foldl_add_real (l : List ℝ) (s : ℝ) :
    l.foldl (fun s x => s + x) s = s + l.sum := by
  induction l generalizing s with
  | nil => simp
  | cons a l ih => simp [ih]; ring

@[simp] theorem ord_real (a : ℝ) : Dbl.Ord a := by simp [Dbl.Ord]

instance : LawfulOrd ℝ where
  le_trans a b c := by simp; exact le_trans
  ord_left a b _ := by simp
  ord_right a b _ := by simp
  total a b _ _ := by simp; exact le_total a b
  lt_iff a b := by simp; exact fun h => le_of_lt h
  eq_iff a b := by simp only [eq_real, le_real, decide_eq_true_eq]; exact le_antisymm_iff

end Verif
