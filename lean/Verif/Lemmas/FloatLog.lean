import Verif.Model.DblD53
import Mathlib.Analysis.SpecialFunctions.Log.Deriv

/-! # Five correctly rounded logarithms -/

namespace Verif
namespace D53
open Finset

/-- `r` is a `double` nearest to the real number `y` -/
def Nearest (r : ℚ) (y : ℝ) : Prop :=
  Rep r ∧ ∀ r', Rep r' → |(r : ℝ) - y| ≤ |(r' : ℝ) - y|

/-- `log` returns a `double` nearest to the logarithm of `q` -/
def LogCorrectAt (L : CMath) (q : ℚ) : Prop :=
  ∃ r, (L.log (.fin q)).rnd = .fin r ∧ Nearest r (Real.log q)

/-! ## numbers with 53 bits keep their distance -/

theorem spacing_pos {m e : ℤ} (hm : 2 ^ 52 < m) {r : ℚ} (hr : Rep r) (hne : r ≠ m * (2 : ℚ) ^ e) :
    (2 : ℚ) ^ e ≤ |r - m * (2 : ℚ) ^ e| := by
  have hu := two_zpow_pos e
  have hm' : (2 : ℚ) ^ 52 + 1 ≤ m := by exact_mod_cast hm
  by_cases hre : (2 : ℚ) ^ 52 * (2 : ℚ) ^ e ≤ r
  · -- r is a multiple of 2 ^ e
    obtain ⟨k, f, hk, rfl⟩ := hr
    have hk0 : (k : ℚ) ≤ 2 ^ 53 := by
      have : k ≤ 2 ^ 53 := le_trans (le_abs_self k) hk
      exact_mod_cast this
    have hmul : ∃ j : ℤ, (k : ℚ) * (2 : ℚ) ^ f = j * (2 : ℚ) ^ e := by
      by_cases hf : e ≤ f
      · obtain ⟨d, hd⟩ := Int.eq_ofNat_of_zero_le (show 0 ≤ f - e by omega)
        refine ⟨k * 2 ^ d, ?_⟩
        rw [show f = (d : ℤ) + e by omega, two_zpow_add, zpow_natCast]
        push_cast; ring
      · have hle : (k : ℚ) * (2 : ℚ) ^ f ≤ (2 : ℚ) ^ 52 * (2 : ℚ) ^ e := by
          calc (k : ℚ) * (2 : ℚ) ^ f ≤ 2 ^ 53 * (2 : ℚ) ^ f :=
                mul_le_mul_of_nonneg_right hk0 (two_zpow_pos f).le
            _ = (2 : ℚ) ^ 52 * (2 : ℚ) ^ (f + 1) := by rw [two_zpow_add]; norm_num; ring
            _ ≤ _ := mul_le_mul_of_nonneg_left (two_zpow_le (by omega)) (by positivity)
        exact ⟨2 ^ 52, by rw [le_antisymm hle hre]; push_cast; rfl⟩
    obtain ⟨j, hj⟩ := hmul
    rw [hj] at hne ⊢
    have hjm : j ≠ m := by rintro rfl; exact hne rfl
    rw [← sub_mul, abs_mul, abs_of_pos hu]
    have h1 : (1 : ℚ) ≤ |(j : ℚ) - m| := by
      have : (1 : ℤ) ≤ |j - m| := Int.one_le_abs (sub_ne_zero.2 hjm)
      exact_mod_cast this
    nlinarith
  · push Not at hre
    have : (2 : ℚ) ^ e ≤ m * (2 : ℚ) ^ e - r := by nlinarith
    rw [abs_sub_comm]
    exact le_trans this (le_abs_self _)

theorem spacing {m e : ℤ} (hm : 2 ^ 52 < |m|) {r : ℚ} (hr : Rep r) (hne : r ≠ m * (2 : ℚ) ^ e) :
    (2 : ℚ) ^ e ≤ |r - m * (2 : ℚ) ^ e| := by
  rcases abs_cases m with ⟨h, _⟩ | ⟨h, _⟩
  · rw [h] at hm; exact spacing_pos hm hr hne
  · rw [h] at hm
    have := spacing_pos (m := -m) (e := e) hm hr.neg (by
      intro h'; apply hne
      have : r = -(-r) := by ring
      rw [this, h']; push_cast; ring)
    rw [show -r - ((-m : ℤ) : ℚ) * (2 : ℚ) ^ e = -(r - m * (2 : ℚ) ^ e) by push_cast; ring, abs_neg] at this
    exact this

/-- a number with 53 bits less than half a unit away is the only nearest one -/
theorem nearest_of {m e : ℤ} (hm : 2 ^ 52 < |m|) (hm' : |m| ≤ 2 ^ 53) {r0 : ℚ} (hr0 : r0 = m * (2 : ℚ) ^ e) {y : ℝ}
    (hy : |(r0 : ℝ) - y| < ((2 : ℚ) ^ e / 2 : ℚ)) : Nearest r0 y ∧ ∀ r, Nearest r y → r = r0 := by
  have hrep : Rep r0 := ⟨m, e, hm', hr0⟩
  have far : ∀ r, Rep r → r ≠ r0 → (((2 : ℚ) ^ e : ℚ) : ℝ) ≤ |(r : ℝ) - r0| := by
    intro r hr hne
    have := spacing hm hr (by rw [← hr0]; exact hne)
    rw [← hr0] at this
    exact_mod_cast this
  push_cast at hy far
  refine ⟨⟨hrep, ?_⟩, ?_⟩
  · intro r' hr'
    by_cases h : r' = r0
    · rw [h]
    · have h1 := far r' hr' h
      have h2 : |(r' : ℝ) - r0| ≤ |(r' : ℝ) - y| + |(r0 : ℝ) - y| := by
        have := abs_sub_le (r' : ℝ) y r0
        rwa [abs_sub_comm y (r0 : ℝ)] at this
      linarith
  · rintro r ⟨hr, hr'⟩
    by_contra h
    have h1 := far r hr h
    have h2 : |(r : ℝ) - r0| ≤ |(r : ℝ) - y| + |(r0 : ℝ) - y| := by
      have := abs_sub_le (r : ℝ) y r0
      rwa [abs_sub_comm y (r0 : ℝ)] at this
    have h3 := hr' r0 hrep
    linarith

/-! ## the series of the logarithm, on rationals -/

/-- `x + x²/2 + … + xⁿ/n` -/
def ser (x : ℚ) : Nat → ℚ
  | 0 => 0
  | n + 1 => ser x n + x ^ (n + 1) / (n + 1 : ℕ)

theorem ser_cast (x : ℚ) (n : Nat) : ((ser x n : ℚ) : ℝ) = ∑ i ∈ range n, (x : ℝ) ^ (i + 1) / (i + 1) := by
  induction n with
  | zero => simp [ser]
  | succ n ih => rw [sum_range_succ, ← ih, ser]; push_cast; ring

/-- `log (1 - x)` lies within `b` of `- ser x n` -/
theorem log_series {x : ℚ} (h : |x| < 1) (n : Nat) {b : ℚ} (hb : |x| ^ (n + 1) / (1 - |x|) ≤ b) :
    |((ser x n : ℚ) : ℝ) + Real.log ((1 - x : ℚ) : ℝ)| ≤ (b : ℝ) := by
  have h' : |(x : ℝ)| < 1 := by exact_mod_cast h
  have h1 := Real.abs_log_sub_add_sum_range_le h' n
  rw [← ser_cast] at h1
  have h2 : |(x : ℝ)| ^ (n + 1) / (1 - |(x : ℝ)|) ≤ (b : ℝ) := by exact_mod_cast hb
  push_cast
  exact le_trans h1 h2

/-- `log 2`, to 2⁻⁶⁶ -/
theorem log_two_bound : |((ser (1 / 2) 70 : ℚ) : ℝ) - Real.log 2| ≤ ((1 / 2 ^ 66 : ℚ) : ℝ) := by
  have h := log_series (x := 1 / 2) (by norm_num [abs_of_pos]) 70 (b := 1 / 2 ^ 66) (by decide +kernel)
  rw [show ((1 - 1 / 2 : ℚ) : ℝ) = 2⁻¹ by norm_num, Real.log_inv] at h
  simpa [sub_eq_add_neg] using h

/-- `log (2 ^ k (1 - x))`, through `ser x n` and `ser ½ 70` -/
theorem log_bound {q x : ℚ} {k : ℤ} (hq : q = (2 : ℚ) ^ k * (1 - x)) (h : |x| < 1) (n : Nat) {b r d : ℚ}
    (hb : |x| ^ (n + 1) / (1 - |x|) ≤ b)
    (hr : |r - (k * ser (1 / 2) 70 - ser x n)| + |(k : ℚ)| * (1 / 2 ^ 66) + b < d) :
    |(r : ℝ) - Real.log q| < (d : ℝ) := by
  have h1 := log_series h n hb
  have h2 := log_two_bound
  have hx : (0 : ℝ) < ((1 - x : ℚ) : ℝ) := by
    have := (abs_lt.1 h).2
    exact_mod_cast (by linarith : (0 : ℚ) < 1 - x)
  have hlog : Real.log q = k * Real.log 2 + Real.log ((1 - x : ℚ) : ℝ) := by
    rw [hq]
    push_cast
    rw [Real.log_mul (zpow_ne_zero _ (by norm_num)) (by push_cast at hx; exact hx.ne'), Real.log_zpow]
  have h3 : |(k : ℝ) * ((ser (1 / 2) 70 : ℚ) : ℝ) - k * Real.log 2| ≤ |(k : ℝ)| * ((1 / 2 ^ 66 : ℚ) : ℝ) := by
    rw [← mul_sub, abs_mul]
    exact mul_le_mul_of_nonneg_left h2 (abs_nonneg _)
  have h4 : |(r : ℝ) - ((k : ℝ) * ((ser (1 / 2) 70 : ℚ) : ℝ) - ((ser x n : ℚ) : ℝ))| +
      |(k : ℝ)| * ((1 / 2 ^ 66 : ℚ) : ℝ) + b < d := by exact_mod_cast hr
  have key : (r : ℝ) - Real.log q = ((r : ℝ) - ((k : ℝ) * ((ser (1 / 2) 70 : ℚ) : ℝ) - ((ser x n : ℚ) : ℝ))) +
      ((k : ℝ) * ((ser (1 / 2) 70 : ℚ) : ℝ) - k * Real.log 2) -
      (((ser x n : ℚ) : ℝ) + Real.log ((1 - x : ℚ) : ℝ)) := by rw [hlog]; ring
  rw [key]
  calc _ ≤ |((r : ℝ) - ((k : ℝ) * ((ser (1 / 2) 70 : ℚ) : ℝ) - ((ser x n : ℚ) : ℝ))) +
      ((k : ℝ) * ((ser (1 / 2) 70 : ℚ) : ℝ) - k * Real.log 2)| + |((ser x n : ℚ) : ℝ) + Real.log ((1 - x : ℚ) : ℝ)| := abs_sub _ _
    _ ≤ _ + _ + |((ser x n : ℚ) : ℝ) + Real.log ((1 - x : ℚ) : ℝ)| := by gcongr; exact abs_add_le _ _
    _ < d := by linarith

/-! ## the table -/

/-- the `double` nearest to 1/13 -/
def q13 : ℚ := 1385722962267845 / 18014398509481984
/-- the `double` nearest to 12/13 -/
def p13 : ℚ := 4157168886803535 / 4503599627370496
/-- the `double` nearest to `log 2` -/
def ln2 : ℚ := 6243314768165359 / 2 ^ 53
/-- the `double` nearest to `log q13` -/
def lnQ : ℚ := -5775752485243985 / 2 ^ 51
/-- the `double` nearest to `log p13` -/
def lnP : ℚ := -5767684935236223 / 2 ^ 56

theorem nearest_two : Nearest ln2 (Real.log ((2 : ℚ) : ℝ)) ∧ ∀ r, Nearest r (Real.log ((2 : ℚ) : ℝ)) → r = ln2 :=
  nearest_of (m := 6243314768165359) (e := -53) (by norm_num) (by norm_num) (by norm_num [ln2])
    (log_bound (x := 0) (k := 1) (by norm_num) (by norm_num) 1 (b := 0) (by norm_num) (by decide +kernel))

theorem nearest_half : Nearest (-ln2) (Real.log ((1 / 2 : ℚ) : ℝ)) ∧
    ∀ r, Nearest r (Real.log ((1 / 2 : ℚ) : ℝ)) → r = -ln2 :=
  nearest_of (m := -6243314768165359) (e := -53) (by norm_num) (by norm_num) (by norm_num [ln2])
    (log_bound (x := 0) (k := -1) (by norm_num) (by norm_num) 1 (b := 0) (by norm_num) (by decide +kernel))

theorem nearest_q13 : Nearest lnQ (Real.log (q13 : ℝ)) ∧ ∀ r, Nearest r (Real.log (q13 : ℝ)) → r = lnQ :=
  nearest_of (m := -5775752485243985) (e := -51) (by norm_num) (by norm_num) (by norm_num [lnQ])
    (log_bound (x := 1 - 16 * q13) (k := -4) (by norm_num [q13]) (by norm_num [q13, abs_lt]) 32 (b := 1 / 2 ^ 60)
      (by decide +kernel) (by decide +kernel))

theorem nearest_p13 : Nearest lnP (Real.log (p13 : ℝ)) ∧ ∀ r, Nearest r (Real.log (p13 : ℝ)) → r = lnP :=
  nearest_of (m := -5767684935236223) (e := -56) (by norm_num) (by norm_num) (by norm_num [lnP])
    (log_bound (x := 1 - p13) (k := 0) (by norm_num [p13]) (by norm_num [p13, abs_lt]) 20 (b := 1 / 2 ^ 66)
      (by decide +kernel) (by decide +kernel))

theorem nearest_one : Nearest 0 (Real.log ((1 : ℚ) : ℝ)) ∧ ∀ r, Nearest r (Real.log ((1 : ℚ) : ℝ)) → r = 0 := by
  simp only [Rat.cast_one, Real.log_one]
  refine ⟨⟨rep_zero, fun r' _ => by simp⟩, ?_⟩
  rintro r ⟨_, h⟩
  have := h 0 rep_zero
  simpa using this

/-- a library with these five logarithms -/
def tableLib : CMath where
  sqrt := XR.sqrt
  exp := id
  tanh := id
  pow := XR.pow
  log x := match x with
    | .fin q => if q = 2 then .fin ln2 else if q = 1 / 2 then .fin (-ln2) else if q = 1 then .fin 0
        else if q = q13 then .fin lnQ else if q = p13 then .fin lnP else .fin 0
    | x => x

theorem table_two : LogCorrectAt tableLib 2 := ⟨ln2, by decide +kernel, nearest_two.1⟩
theorem table_half : LogCorrectAt tableLib (1 / 2) := ⟨-ln2, by decide +kernel, nearest_half.1⟩
theorem table_one : LogCorrectAt tableLib 1 := ⟨0, by decide +kernel, nearest_one.1⟩
theorem table_q13 : LogCorrectAt tableLib q13 := ⟨lnQ, by decide +kernel, nearest_q13.1⟩
theorem table_p13 : LogCorrectAt tableLib p13 := ⟨lnP, by decide +kernel, nearest_p13.1⟩

end D53
end Verif
