import Verif.Props.TrainFloat
import Verif.Model.Solver

/-! # The solver step in 53-bit arithmetic -/

set_option linter.unusedSectionVars false

namespace Verif
open Dbl
variable {L : CMath}

namespace D53

/-- a number -/
def Num (a : D53 L) : Prop := ∃ q, Is a q

/-- the number, 0 for NaN and infinities -/
def num (a : D53 L) : ℚ := match a.val with | .fin q => q | _ => 0

theorem Is.num {a : D53 L} {q : ℚ} (h : Is a q) : a.num = q := by
  unfold Is at h; simp only [D53.num, h]

theorem Num.is {a : D53 L} (h : a.Num) : Is a a.num := by
  obtain ⟨q, hq⟩ := h; rw [hq.num]; exact hq

theorem Is.toNum {a : D53 L} {q : ℚ} (h : Is a q) : a.Num := ⟨q, h⟩

theorem Num.add {a b : D53 L} (ha : a.Num) (hb : b.Num) : (a +. b).Num := ⟨_, ha.is.add hb.is⟩
theorem Num.sub {a b : D53 L} (ha : a.Num) (hb : b.Num) : (a -. b).Num := ⟨_, ha.is.sub hb.is⟩
theorem Num.mul {a b : D53 L} (ha : a.Num) (hb : b.Num) : (a *. b).Num := ⟨_, ha.is.mul hb.is⟩

theorem Is.neg {a : D53 L} {q : ℚ} (ha : Is a q) : Is (Dbl.neg a) (-q) := by
  have hr := ha.rep.neg
  unfold Is at *
  show XR.rnd (XR.neg a.val) = _
  rw [ha]
  simp only [XR.neg, XR.rnd, rnd_of_rep hr]

theorem Num.neg {a : D53 L} (ha : a.Num) : (Dbl.neg a).Num := ⟨_, ha.is.neg⟩

theorem num_zero : (Dbl.zero : D53 L).Num := ⟨0, is_zero⟩

/-- between 0 and `c` -/
def InBox (a : D53 L) (c : ℚ) : Prop := ∃ q, Is a q ∧ 0 ≤ q ∧ q ≤ c

theorem InBox.num {a : D53 L} {c : ℚ} (h : a.InBox c) : a.Num := ⟨_, h.choose_spec.1⟩

/-- not NaN -/
theorem cases_of_ne_nan {a : D53 L} (h : a.val ≠ .nan) : (∃ q, Is a q) ∨ a.val = .pinf ∨ a.val = .ninf := by
  unfold Is
  cases hv : a.val with
  | nan => exact absurd hv h
  | pinf => exact .inr (.inl rfl)
  | ninf => exact .inr (.inr rfl)
  | fin q => exact .inl ⟨q, rfl⟩

theorem rnd_neg_of_neg {q : ℚ} (h : q < 0) : rnd q < 0 := by
  have := rnd_pos (q := -q) (by linarith)
  rw [rnd_neg] at this; linarith

theorem nonneg_of_rnd {q : ℚ} (h : 0 ≤ rnd q) : 0 ≤ q := by
  by_contra hc; exact absurd (rnd_neg_of_neg (not_le.1 hc)) (not_lt.2 h)

theorem pos_of_rnd {q : ℚ} (h : 0 < rnd q) : 0 < q := by
  rcases lt_trichotomy q 0 with h1 | h1 | h1
  · exact absurd (rnd_neg_of_neg h1) (not_lt.2 h.le)
  · rw [h1, rnd_zero] at h; exact absurd h (lt_irrefl 0)
  · exact h1

/-- error of a result of absolute value at most `c` -/
theorem rnd_err_of_le {q c : ℚ} (h : |rnd q| ≤ c) : |rnd q - q| ≤ c / 2 ^ 52 := by
  have h1 := rnd_err q
  have h2 : |q| ≤ 2 * c := by
    have h3 : |q| ≤ |rnd q| + |rnd q - q| := by
      have := abs_sub_abs_le_abs_sub q (rnd q)
      rw [abs_sub_comm] at this; linarith
    have h4 : |q| / 2 ^ 53 ≤ |q| / 2 := by
      apply div_le_div_of_nonneg_left (abs_nonneg _) (by norm_num) (by norm_num)
    linarith
  calc |rnd q - q| ≤ |q| / 2 ^ 53 := h1
    _ ≤ 2 * c / 2 ^ 53 := by gcongr
    _ = c / 2 ^ 52 := by ring

theorem rnd_err_of_abs {q c : ℚ} (h : |q| ≤ c) : |rnd q - q| ≤ c / 2 ^ 53 :=
  (rnd_err q).trans (by gcongr)

/-! ## the four ways to clip -/

section clip
variable {C ai aj delta : D53 L} {c p q : ℚ}

/-- the pair is in the box and keeps `a_i - a_j` up to rounding -/
def KeepsDiff (c p q : ℚ) (r : D53 L × D53 L) : Prop :=
  ∃ x y, Is r.1 x ∧ Is r.2 y ∧ 0 ≤ x ∧ x ≤ c ∧ 0 ≤ y ∧ y ≤ c ∧ |(x - y) - (p - q)| ≤ c / 2 ^ 51

/-- the pair is in the box and keeps `a_i + a_j` up to rounding -/
def KeepsSum (c p q : ℚ) (r : D53 L × D53 L) : Prop :=
  ∃ x y, Is r.1 x ∧ Is r.2 y ∧ 0 ≤ x ∧ x ≤ c ∧ 0 ≤ y ∧ y ≤ c ∧ |(x + y) - (p + q)| ≤ c / 2 ^ 51

variable (hC : Is C c) (hai : Is ai p) (haj : Is aj q) (p0 : 0 ≤ p) (pc : p ≤ c) (q0 : 0 ≤ q) (qc : q ≤ c)
include hC hai haj p0 pc q0 qc

theorem keep1 : |rnd (p - q) - (p - q)| ≤ c / 2 ^ 53 :=
  rnd_err_of_abs (abs_le.2 ⟨by linarith, by linarith⟩)

theorem sum_hi : rnd (p + q) ≤ 2 * c := rnd_le_of_le hC.rep.two_mul (by linarith)

theorem keep2 : |rnd (p + q) - (p + q)| ≤ 2 * c / 2 ^ 53 :=
  rnd_err_of_abs (abs_le.2 ⟨by linarith, by linarith⟩)

/-- the unclipped pair -/
theorem keep_both {x y d : ℚ} (hx : x = rnd (p + d)) (hy : y = rnd (q + d)) (x0 : 0 ≤ x) (xc : x ≤ c) (y0 : 0 ≤ y)
    (yc : y ≤ c) : |(x - y) - (p - q)| ≤ c / 2 ^ 51 := by
  have e1 := rnd_err_of_le (q := p + d) (c := c) (by rw [← hx, abs_of_nonneg x0]; exact xc)
  have e2 := rnd_err_of_le (q := q + d) (c := c) (by rw [← hy, abs_of_nonneg y0]; exact yc)
  rw [← hx, abs_le] at e1
  rw [← hy, abs_le] at e2
  rw [abs_le]
  have : c / 2 ^ 51 = c / 2 ^ 52 + c / 2 ^ 52 := by ring
  constructor <;> linarith [e1.1, e1.2, e2.1, e2.2]

theorem keep_both_sum {x y d : ℚ} (hx : x = rnd (p - d)) (hy : y = rnd (q + d)) (x0 : 0 ≤ x) (xc : x ≤ c) (y0 : 0 ≤ y)
    (yc : y ≤ c) : |(x + y) - (p + q)| ≤ c / 2 ^ 51 := by
  have e1 := rnd_err_of_le (q := p - d) (c := c) (by rw [← hx, abs_of_nonneg x0]; exact xc)
  have e2 := rnd_err_of_le (q := q + d) (c := c) (by rw [← hy, abs_of_nonneg y0]; exact yc)
  rw [← hx, abs_le] at e1
  rw [← hy, abs_le] at e2
  rw [abs_le]
  have : c / 2 ^ 51 = c / 2 ^ 52 + c / 2 ^ 52 := by ring
  constructor <;> linarith [e1.1, e1.2, e2.1, e2.2]

theorem clipDiff_ok (hd : delta.val ≠ .nan) (hpos : (Dbl.zero <. (ai -. aj)) = true) :
    KeepsDiff c p q (clipDiff C (ai -. aj) (ai +. delta, aj +. delta)) := by
  have c0 : 0 ≤ c := p0.trans pc
  have hD := hai.sub haj
  rw [is_zero.lt hD, decide_eq_true_iff] at hpos
  have hpq := pos_of_rnd hpos
  set D := rnd (p - q) with hDdef
  have hDc : D ≤ c := rnd_le_of_le hC.rep (by linarith)
  have e1 := keep1 hC hai haj p0 pc q0 qc
  rw [← hDdef, abs_le] at e1
  have hsplit : c / 2 ^ 51 = 4 * (c / 2 ^ 53) := by ring
  have hnn : 0 ≤ c / 2 ^ 53 := by positivity
  -- the two clipped results
  have lowCase : KeepsDiff c p q ((ai -. aj), (Dbl.zero : D53 L)) :=
    ⟨D, 0, hD, is_zero, hpos.le, hDc, le_rfl, c0, by rw [abs_le]; constructor <;> linarith [e1.1, e1.2]⟩
  have highCase : KeepsDiff c p q (C, C -. (ai -. aj)) := by
    have e2 := rnd_err_of_abs (q := c - D) (c := c) (abs_le.2 ⟨by linarith, by linarith⟩)
    rw [abs_le] at e2
    exact ⟨c, rnd (c - D), hC, hC.sub hD, c0, le_rfl, rnd_nonneg (by linarith), rnd_le_of_le hC.rep (by linarith),
      by rw [abs_le]; constructor <;> linarith [e1.1, e1.2, e2.1, e2.2]⟩
  have hCD : (C <. (ai -. aj)) = false := by rw [hC.lt hD]; simp [hDc]
  unfold clipDiff
  rcases cases_of_ne_nan hd with ⟨d, hd⟩ | hd | hd
  · have hA := hai.add hd
    have hB := haj.add hd
    simp only [hB.lt is_zero, decide_eq_true_eq]
    by_cases hB0 : rnd (q + d) < 0
    · simp only [if_pos hB0, hCD]
      exact lowCase
    · simp only [if_neg hB0, hC.lt hA, decide_eq_true_eq]
      by_cases hAc : c < rnd (p + d)
      · rw [if_pos hAc]; exact highCase
      · rw [if_neg hAc]
        have hm : rnd (q + d) ≤ rnd (p + d) := rnd_mono (by linarith)
        push Not at hAc hB0
        exact ⟨_, _, hA, hB, hB0.trans hm, hAc, hB0, hm.trans hAc,
          keep_both hC hai haj p0 pc q0 qc rfl rfl (hB0.trans hm) hAc hB0 (hm.trans hAc)⟩
  · have hA : (ai +. delta).val = .pinf := by rw [val_add, hd, hai]; rfl
    have hB : (aj +. delta).val = .pinf := by rw [val_add, hd, haj]; rfl
    have h1 : ((aj +. delta) <. (Dbl.zero : D53 L)) = false := by rw [lt_val, hB, val_zero]; rfl
    have h2 : (C <. (ai +. delta)) = true := by rw [lt_val, hA, hC]; rfl
    simp only [h1, h2, Bool.false_eq_true, if_false, if_true]
    exact highCase
  · have hB : (aj +. delta).val = .ninf := by rw [val_add, hd, haj]; rfl
    have h1 : ((aj +. delta) <. (Dbl.zero : D53 L)) = true := by rw [lt_val, hB, val_zero]; rfl
    simp only [h1, if_true, hCD]
    exact lowCase

theorem clipDiffNeg_ok (hd : delta.val ≠ .nan) (hpos : (Dbl.zero <. (ai -. aj)) = false) :
    KeepsDiff c p q (clipDiffNeg C (ai -. aj) (ai +. delta, aj +. delta)) := by
  have c0 : 0 ≤ c := p0.trans pc
  have hD := hai.sub haj
  rw [is_zero.lt hD, decide_eq_false_iff_not] at hpos
  set D := rnd (p - q) with hDdef
  have hpq : p ≤ q := by
    by_contra h
    exact hpos (rnd_pos (by linarith))
  push Not at hpos
  have hDc : -c ≤ D := le_rnd_of_le hC.rep.neg (by linarith)
  have e1 := keep1 hC hai haj p0 pc q0 qc
  rw [← hDdef, abs_le] at e1
  have hsplit : c / 2 ^ 51 = 4 * (c / 2 ^ 53) := by ring
  have hnn : 0 ≤ c / 2 ^ 53 := by positivity
  have hnD := hD.neg
  have lowCase : KeepsDiff c p q ((Dbl.zero : D53 L), Dbl.neg (ai -. aj)) :=
    ⟨0, -D, is_zero, hnD, le_rfl, c0, by linarith, by linarith, by rw [abs_le]; constructor <;> linarith [e1.1, e1.2]⟩
  have highCase : KeepsDiff c p q (C +. (ai -. aj), C) := by
    have e2 := rnd_err_of_abs (q := c + D) (c := c) (abs_le.2 ⟨by linarith, by linarith⟩)
    rw [abs_le] at e2
    exact ⟨rnd (c + D), c, hC.add hD, hC, rnd_nonneg (by linarith), rnd_le_of_le hC.rep (by linarith), c0, le_rfl,
      by rw [abs_le]; constructor <;> linarith [e1.1, e1.2, e2.1, e2.2]⟩
  have hCD : (C <. Dbl.neg (ai -. aj)) = false := by rw [hC.lt hnD]; simp; linarith
  unfold clipDiffNeg
  rcases cases_of_ne_nan hd with ⟨d, hd⟩ | hd | hd
  · have hA := hai.add hd
    have hB := haj.add hd
    simp only [hA.lt is_zero, decide_eq_true_eq]
    by_cases hA0 : rnd (p + d) < 0
    · simp only [if_pos hA0, hCD]
      exact lowCase
    · simp only [if_neg hA0, hC.lt hB, decide_eq_true_eq]
      by_cases hBc : c < rnd (q + d)
      · rw [if_pos hBc]; exact highCase
      · rw [if_neg hBc]
        have hm : rnd (p + d) ≤ rnd (q + d) := rnd_mono (by linarith)
        push Not at hBc hA0
        exact ⟨_, _, hA, hB, hA0, hm.trans hBc, hA0.trans hm, hBc,
          keep_both hC hai haj p0 pc q0 qc rfl rfl hA0 (hm.trans hBc) (hA0.trans hm) hBc⟩
  · have hA : (ai +. delta).val = .pinf := by rw [val_add, hd, hai]; rfl
    have hB : (aj +. delta).val = .pinf := by rw [val_add, hd, haj]; rfl
    have h1 : ((ai +. delta) <. (Dbl.zero : D53 L)) = false := by rw [lt_val, hA, val_zero]; rfl
    have h2 : (C <. (aj +. delta)) = true := by rw [lt_val, hB, hC]; rfl
    simp only [h1, h2, Bool.false_eq_true, if_false, if_true]
    exact highCase
  · have hA : (ai +. delta).val = .ninf := by rw [val_add, hd, hai]; rfl
    have h1 : ((ai +. delta) <. (Dbl.zero : D53 L)) = true := by rw [lt_val, hA, val_zero]; rfl
    simp only [h1, if_true, hCD]
    exact lowCase

theorem val_sub_pinf (h : delta.val = .pinf) : (ai -. delta).val = .ninf := by rw [val_sub, h, hai]; rfl
theorem val_sub_ninf (h : delta.val = .ninf) : (ai -. delta).val = .pinf := by rw [val_sub, h, hai]; rfl

theorem clipSumHigh_ok (hd : delta.val ≠ .nan) (hbig : (C <. (ai +. aj)) = true) :
    KeepsSum c p q (clipSumHigh C (ai +. aj) (ai -. delta, aj +. delta)) := by
  have c0 : 0 ≤ c := p0.trans pc
  have hS := hai.add haj
  rw [hC.lt hS, decide_eq_true_iff] at hbig
  have hS2 := sum_hi hC hai haj p0 pc q0 qc
  have e1 := keep2 hC hai haj p0 pc q0 qc
  set S := rnd (p + q) with hSdef
  rw [abs_le] at e1
  have e2 := rnd_err_of_abs (q := S - c) (c := c) (abs_le.2 ⟨by linarith, by linarith⟩)
  rw [abs_le] at e2
  have hsplit : c / 2 ^ 51 = 4 * (c / 2 ^ 53) := by ring
  have hsplit2 : 2 * c / 2 ^ 53 = 2 * (c / 2 ^ 53) := by ring
  have hnn : 0 ≤ c / 2 ^ 53 := by positivity
  have r0 : 0 ≤ rnd (S - c) := rnd_nonneg (by linarith)
  have rc : rnd (S - c) ≤ c := rnd_le_of_le hC.rep (by linarith)
  have firstCase : KeepsSum c p q (C, (ai +. aj) -. C) :=
    ⟨c, _, hC, hS.sub hC, c0, le_rfl, r0, rc, by rw [abs_le]; constructor <;> linarith [e1.1, e1.2, e2.1, e2.2]⟩
  have secondCase : KeepsSum c p q ((ai +. aj) -. C, C) :=
    ⟨_, c, hS.sub hC, hC, r0, rc, c0, le_rfl, by rw [abs_le]; constructor <;> linarith [e1.1, e1.2, e2.1, e2.2]⟩
  have hCr : (C <. ((ai +. aj) -. C)) = false := by rw [hC.lt (hS.sub hC)]; simp [rc]
  unfold clipSumHigh
  rcases cases_of_ne_nan hd with ⟨d, hd⟩ | hd | hd
  · have hA := hai.sub hd
    have hB := haj.add hd
    simp only [hC.lt hA, decide_eq_true_eq]
    by_cases hAc : c < rnd (p - d)
    · simp only [if_pos hAc, hCr]
      exact firstCase
    · simp only [if_neg hAc, hC.lt hB, decide_eq_true_eq]
      by_cases hBc : c < rnd (q + d)
      · rw [if_pos hBc]; exact secondCase
      · rw [if_neg hBc]
        push Not at hAc hBc
        have hA0 : 0 ≤ rnd (p - d) := rnd_nonneg (by
          by_contra h
          have := rnd_mono (show p + q ≤ q + d by linarith)
          linarith)
        have hB0 : 0 ≤ rnd (q + d) := rnd_nonneg (by
          by_contra h
          have := rnd_mono (show p + q ≤ p - d by linarith)
          linarith)
        exact ⟨_, _, hA, hB, hA0, hAc, hB0, hBc, keep_both_sum hC hai haj p0 pc q0 qc rfl rfl hA0 hAc hB0 hBc⟩
  · have hA := val_sub_pinf hC hai haj p0 pc q0 qc hd
    have hB : (aj +. delta).val = .pinf := by rw [val_add, hd, haj]; rfl
    have h1 : (C <. (ai -. delta)) = false := by rw [lt_val, hA, hC]; rfl
    have h2 : (C <. (aj +. delta)) = true := by rw [lt_val, hB, hC]; rfl
    simp only [h1, h2, Bool.false_eq_true, if_false, if_true]
    exact secondCase
  · have hA := val_sub_ninf hC hai haj p0 pc q0 qc hd
    have h1 : (C <. (ai -. delta)) = true := by rw [lt_val, hA, hC]; rfl
    simp only [h1, if_true, hCr]
    exact firstCase

theorem clipSumLow_ok (hd : delta.val ≠ .nan) (hbig : (C <. (ai +. aj)) = false) :
    KeepsSum c p q (clipSumLow (ai +. aj) (ai -. delta, aj +. delta)) := by
  have c0 : 0 ≤ c := p0.trans pc
  have hS := hai.add haj
  rw [hC.lt hS, decide_eq_false_iff_not, not_lt] at hbig
  have e1 := keep2 hC hai haj p0 pc q0 qc
  set S := rnd (p + q) with hSdef
  have S0 : 0 ≤ S := rnd_nonneg (by linarith)
  rw [abs_le] at e1
  have hsplit : c / 2 ^ 51 = 4 * (c / 2 ^ 53) := by ring
  have hsplit2 : 2 * c / 2 ^ 53 = 2 * (c / 2 ^ 53) := by ring
  have hnn : 0 ≤ c / 2 ^ 53 := by positivity
  have firstCase : KeepsSum c p q ((ai +. aj), (Dbl.zero : D53 L)) :=
    ⟨S, 0, hS, is_zero, S0, hbig, le_rfl, c0, by rw [abs_le]; constructor <;> linarith [e1.1, e1.2]⟩
  have secondCase : KeepsSum c p q ((Dbl.zero : D53 L), ai +. aj) :=
    ⟨0, S, is_zero, hS, le_rfl, c0, S0, hbig, by rw [abs_le]; constructor <;> linarith [e1.1, e1.2]⟩
  have hS0 : ((ai +. aj) <. (Dbl.zero : D53 L)) = false := by rw [hS.lt is_zero]; simp [S0]
  unfold clipSumLow
  rcases cases_of_ne_nan hd with ⟨d, hd⟩ | hd | hd
  · have hA := hai.sub hd
    have hB := haj.add hd
    simp only [hB.lt is_zero, decide_eq_true_eq]
    by_cases hB0 : rnd (q + d) < 0
    · simp only [if_pos hB0, hS0]
      exact firstCase
    · simp only [if_neg hB0, hA.lt is_zero, decide_eq_true_eq]
      by_cases hA0 : rnd (p - d) < 0
      · rw [if_pos hA0]; exact secondCase
      · rw [if_neg hA0]
        push Not at hA0 hB0
        have h1 := nonneg_of_rnd hA0
        have h2 := nonneg_of_rnd hB0
        have hAc : rnd (p - d) ≤ c := le_trans (rnd_mono (by linarith)) hbig
        have hBc : rnd (q + d) ≤ c := le_trans (rnd_mono (by linarith)) hbig
        exact ⟨_, _, hA, hB, hA0, hAc, hB0, hBc, keep_both_sum hC hai haj p0 pc q0 qc rfl rfl hA0 hAc hB0 hBc⟩
  · have hA := val_sub_pinf hC hai haj p0 pc q0 qc hd
    have hB : (aj +. delta).val = .pinf := by rw [val_add, hd, haj]; rfl
    have h1 : ((aj +. delta) <. (Dbl.zero : D53 L)) = false := by rw [lt_val, hB, val_zero]; rfl
    have h2 : ((ai -. delta) <. (Dbl.zero : D53 L)) = true := by rw [lt_val, hA, val_zero]; rfl
    simp only [h1, h2, Bool.false_eq_true, if_false, if_true]
    exact secondCase
  · have hB : (aj +. delta).val = .ninf := by rw [val_add, hd, haj]; rfl
    have h1 : ((aj +. delta) <. (Dbl.zero : D53 L)) = true := by rw [lt_val, hB, val_zero]; rfl
    simp only [h1, if_true, hS0]
    exact firstCase

end clip

end D53
end Verif
