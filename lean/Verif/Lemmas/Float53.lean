import Verif.Model.DblD53
import Mathlib.Tactic.Linarith
import Mathlib.Tactic.NormNum

/-! # Facts about 53-bit rounding and about `D53` -/

namespace Verif
open Dbl

namespace D53

theorem rnd_neg (q : ℚ) : rnd (-q) = - rnd q := by
  unfold rnd
  rcases lt_trichotomy q 0 with h | h | h
  · rw [if_neg (by linarith), if_pos (by linarith), if_neg (by linarith), if_neg (by linarith), neg_neg]
  · simp [h]
  · rw [if_neg (by linarith), if_neg (by linarith), if_neg (by linarith), if_pos h, neg_neg]

theorem halfEven_err (q : ℚ) : |(halfEven q : ℚ) - q| ≤ 1 / 2 := by
  have h0 := Int.floor_le q
  have h1 := Int.lt_floor_add_one q
  unfold halfEven
  simp only
  split_ifs with h2 h3 h4
  · rw [abs_of_nonpos (by linarith)]; linarith
  · push_cast; rw [abs_of_nonneg (by linarith)]; linarith
  · rw [abs_of_nonpos (by linarith)]; linarith
  · push_cast; rw [abs_of_nonneg (by linarith)]; linarith

theorem rndPos_err {q : ℚ} (hq : 0 < q) : |rndPos q - q| ≤ q / 2 ^ 53 := by
  obtain ⟨h1, h2⟩ := expo_spec hq
  unfold rndPos
  generalize expo q = e at *
  have hu : (0 : ℚ) < (2 : ℚ) ^ (e - 52) := two_zpow_pos _
  have h := mul_le_mul_of_nonneg_right (halfEven_err (q / (2 : ℚ) ^ (e - 52))) hu.le
  rw [← abs_of_pos hu, ← abs_mul, abs_of_pos hu, sub_mul, div_mul_cancel₀ _ hu.ne'] at h
  refine h.trans ?_
  have : (2 : ℚ) ^ e = 2 ^ 52 * (2 : ℚ) ^ (e - 52) := by
    rw [show e = 52 + (e - 52) by ring, two_zpow_add, show 52 + (e - 52) - 52 = e - 52 by ring]
    norm_num
  rw [this] at h1
  rw [le_div_iff₀ (by positivity)]
  nlinarith

theorem rndPos_err_ulp {q : ℚ} : |rndPos q - q| ≤ (2 : ℚ) ^ (expo q - 53) := by
  unfold rndPos
  generalize expo q = e at *
  have hu : (0 : ℚ) < (2 : ℚ) ^ (e - 52) := two_zpow_pos _
  have h := mul_le_mul_of_nonneg_right (halfEven_err (q / (2 : ℚ) ^ (e - 52))) hu.le
  rw [← abs_of_pos hu, ← abs_mul, abs_of_pos hu, sub_mul, div_mul_cancel₀ _ hu.ne'] at h
  refine h.trans ?_
  have : (2 : ℚ) ^ (e - 52) = 2 * (2 : ℚ) ^ (e - 53) := by
    rw [show e - 52 = 1 + (e - 53) by ring, two_zpow_add]; norm_num
  rw [this]; linarith

/-- the relative error of rounding is at most `2⁻⁵³` -/
theorem rnd_err (q : ℚ) : |rnd q - q| ≤ |q| / 2 ^ 53 := by
  rcases lt_trichotomy q 0 with h | h | h
  · have h' : 0 < -q := by linarith
    have := rndPos_err h'
    unfold rnd
    rw [if_neg h.ne, if_neg (by linarith), abs_of_neg h]
    rwa [show -rndPos (-q) - q = -(rndPos (-q) - -q) by ring, abs_neg]
  · simp [h, rnd_zero]
  · unfold rnd
    rw [if_neg h.ne', if_pos h, abs_of_pos h]
    exact rndPos_err h

theorem rnd_nonneg {q : ℚ} (h : 0 ≤ q) : 0 ≤ rnd q := le_rnd_of_le rep_zero h

theorem rnd_pos {q : ℚ} (h : 0 < q) : 0 < rnd q := by
  have := abs_le.1 (rnd_err q)
  rw [abs_of_pos h] at this
  have : q - q / 2 ^ 53 ≤ rnd q := by linarith [this.1]
  have : q / 2 ^ 53 < q := by rw [div_lt_iff₀ (by positivity)]; nlinarith
  linarith

theorem rnd_eq_zero {q : ℚ} : rnd q = 0 ↔ q = 0 := by
  constructor
  · intro h
    rcases lt_trichotomy q 0 with h1 | h1 | h1
    · have := rnd_pos (q := -q) (by linarith)
      rw [rnd_neg, h] at this; simp at this
    · exact h1
    · have := rnd_pos h1; rw [h] at this; exact absurd this (lt_irrefl _)
  · rintro rfl; exact rnd_zero

theorem rep_nat {n : ℕ} (h : n ≤ 2 ^ 53) : Rep (n : ℚ) := by
  have := rep_int (n := (n : ℤ)) (by rw [abs_of_nonneg (by omega)]; exact_mod_cast h)
  simpa using this

theorem rep_one : Rep 1 := by simpa using rep_nat (n := 1) (by norm_num)

theorem rnd_nat {n : ℕ} (h : n ≤ 2 ^ 53) : rnd (n : ℚ) = n := rnd_of_rep (rep_nat h)

theorem rnd_one : rnd 1 = 1 := rnd_of_rep rep_one

/-- the absolute error is at most `2⁻⁵⁴` between 0 and 1 -/
theorem rnd_err_unit {q : ℚ} (h0 : 0 ≤ q) (h1 : q ≤ 1) : |rnd q - q| ≤ 1 / 2 ^ 54 := by
  rcases h0.eq_or_lt with rfl | h0
  · simp [rnd_zero]
  rcases h1.eq_or_lt with rfl | h1
  · simp [rnd_one]
  unfold rnd
  rw [if_neg h0.ne', if_pos h0]
  refine rndPos_err_ulp.trans ?_
  obtain ⟨e1, _⟩ := expo_spec h0
  have : expo q < 0 := by
    by_contra hc
    push Not at hc
    have := two_zpow_le hc
    rw [zpow_zero] at this
    linarith
  calc (2 : ℚ) ^ (expo q - 53) ≤ (2 : ℚ) ^ (-54 : ℤ) := two_zpow_le (by omega)
    _ = 1 / 2 ^ 54 := by norm_num

/-- numbers in the unit interval that are more than `2⁻⁵³` apart stay apart -/
theorem rnd_lt_unit {p q : ℚ} (h0 : 0 ≤ p) (h1 : q ≤ 1) (h : 1 / 2 ^ 53 < q - p) : rnd p < rnd q := by
  have hp : (0 : ℚ) < 1 / 2 ^ 53 := by positivity
  have e1 := abs_le.1 (rnd_err_unit h0 (by linarith))
  have e2 := abs_le.1 (rnd_err_unit (q := q) (by linarith) h1)
  have : (1 : ℚ) / 2 ^ 53 = 1 / 2 ^ 54 + 1 / 2 ^ 54 := by norm_num
  linarith [e1.2, e2.1]

/-- a number within `2⁻⁵⁴` of 1 is rounded to 1 -/
theorem rnd_near_one {q : ℚ} (h : |q - 1| ≤ 1 / 2 ^ 54) : rnd q = 1 := by
  obtain ⟨h1, h2⟩ := abs_le.1 h
  have key : rnd (1 - 1 / 2 ^ 54) = 1 := by decide +kernel
  have key2 : rnd (1 + 1 / 2 ^ 54) = 1 := by decide +kernel
  apply le_antisymm
  · rw [← key2]; exact rnd_mono (by linarith)
  · rw [← key]; exact rnd_mono (by linarith)

variable {L : CMath}

theorem val_add (a b : D53 L) : (a +. b).val = XR.rnd (XR.add a.val b.val) := rfl
theorem val_sub (a b : D53 L) : (a -. b).val = XR.rnd (XR.add a.val (XR.neg b.val)) := rfl
theorem val_mul (a b : D53 L) : (a *. b).val = XR.rnd (XR.mul a.val b.val) := rfl
theorem val_div (a b : D53 L) : (a /. b).val = XR.rnd (XR.div a.val b.val) := rfl
theorem val_int (n : ℤ) : (Dbl.ofInt n : D53 L).val = XR.rnd (.fin n) := rfl
theorem val_nat (n : ℕ) : (Dbl.ofNat n : D53 L).val = XR.rnd (.fin ((n : ℤ) : ℚ)) := rfl
theorem val_zero : (Dbl.zero : D53 L).val = XR.rnd (.fin ((0 : ℤ) : ℚ)) := rfl
theorem lt_val (a b : D53 L) : (a <. b) = XR.lt a.val b.val := rfl
theorem le_val (a b : D53 L) : (a <=. b) = XR.le a.val b.val := rfl
theorem eq_val (a b : D53 L) : (a ==. b) = XR.eq a.val b.val := rfl

/-- a finite `double` -/
def Is (a : D53 L) (q : ℚ) : Prop := a.val = .fin q

theorem Is.add {a b : D53 L} {p q : ℚ} (ha : Is a p) (hb : Is b q) : Is (a +. b) (rnd (p + q)) := by
  unfold Is at *; rw [val_add, ha, hb]; rfl

theorem Is.sub {a b : D53 L} {p q : ℚ} (ha : Is a p) (hb : Is b q) : Is (a -. b) (rnd (p - q)) := by
  unfold Is at *; rw [val_sub, ha, hb]; simp [XR.add, XR.neg, XR.rnd, sub_eq_add_neg]

theorem Is.mul {a b : D53 L} {p q : ℚ} (ha : Is a p) (hb : Is b q) : Is (a *. b) (rnd (p * q)) := by
  unfold Is at *; rw [val_mul, ha, hb]; rfl

theorem Is.div {a b : D53 L} {p q : ℚ} (ha : Is a p) (hb : Is b q) (h0 : q ≠ 0) : Is (a /. b) (rnd (p / q)) := by
  unfold Is at *; rw [val_div, ha, hb]; simp [XR.div, h0, XR.rnd]

theorem Is.unique {a : D53 L} {p q : ℚ} (h1 : Is a p) (h2 : Is a q) : p = q := by
  unfold Is at *; rw [h1] at h2; simpa using h2

theorem Is.rep {a : D53 L} {p : ℚ} (h : Is a p) : Rep p := fin_rep h

theorem Is.ext {a b : D53 L} {p : ℚ} (h1 : Is a p) (h2 : Is b p) : a = b := ext' (by rw [h1, h2])

theorem is_nat {n : ℕ} (h : n ≤ 2 ^ 53) : Is (Dbl.ofNat n : D53 L) n := by
  unfold Is; rw [val_ofNat, rnd_nat h]

theorem is_zero : Is (Dbl.zero : D53 L) 0 := by
  unfold Is; rw [val_zero]; simp [XR.rnd, rnd_zero]

theorem is_one : Is (Dbl.one : D53 L) 1 := by
  show XR.rnd (.fin ((1 : ℤ) : ℚ)) = _
  simp [XR.rnd, rnd_one]

theorem is_int {n : ℤ} (h : |n| ≤ 2 ^ 53) : Is (Dbl.ofInt n : D53 L) n := by
  unfold Is; rw [val_int]; simp [XR.rnd, rnd_of_rep (rep_int h)]

theorem Is.lt {a b : D53 L} {p q : ℚ} (ha : Is a p) (hb : Is b q) : (a <. b) = decide (p < q) := by
  unfold Is at *; rw [lt_val, ha, hb]; rfl

theorem Is.le {a b : D53 L} {p q : ℚ} (ha : Is a p) (hb : Is b q) : (a <=. b) = decide (p ≤ q) := by
  unfold Is at *; rw [le_val, ha, hb]; rfl

theorem Is.eq {a b : D53 L} {p q : ℚ} (ha : Is a p) (hb : Is b q) : (a ==. b) = decide (p = q) := by
  unfold Is at *; rw [eq_val, ha, hb]; rfl

end D53
end Verif
