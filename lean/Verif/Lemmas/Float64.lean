import Verif.Model.DblB64

/-! # Facts about the arithmetic of `double` with its range -/

set_option exponentiation.threshold 2000

namespace Verif
namespace B64
open Dbl D53
variable {L : CMath}

theorem val_add (a b : B64 L) : (a +. b).val = XR.rnd64 (XR.add a.val b.val) := rfl
theorem val_sub (a b : B64 L) : (a -. b).val = XR.rnd64 (XR.add a.val (XR.neg b.val)) := rfl
theorem val_mul (a b : B64 L) : (a *. b).val = XR.rnd64 (XR.mul a.val b.val) := rfl
theorem val_div (a b : B64 L) : (a /. b).val = XR.rnd64 (XR.div a.val b.val) := rfl
theorem val_nat (n : ℕ) : (Dbl.ofNat n : B64 L).val = XR.rnd64 (.fin ((n : ℤ) : ℚ)) := rfl
theorem val_int (n : ℤ) : (Dbl.ofInt n : B64 L).val = XR.rnd64 (.fin n) := rfl
theorem val_zero : (Dbl.zero : B64 L).val = XR.rnd64 (.fin ((0 : ℤ) : ℚ)) := val_int 0
theorem lt_val (a b : B64 L) : (a <. b) = XR.lt a.val b.val := rfl
theorem le_val (a b : B64 L) : (a <=. b) = XR.le a.val b.val := rfl

/-- the value of a finite `double` -/
def Is (a : B64 L) (q : ℚ) : Prop := a.val = .fin q

theorem Is.unique {a : B64 L} {p q : ℚ} (h1 : Is a p) (h2 : Is a q) : p = q := by
  unfold Is at h1 h2; rw [h1] at h2; injection h2

theorem Is.ext {a b : B64 L} {p : ℚ} (h1 : Is a p) (h2 : Is b p) : a = b := ext' (by rw [h1, h2])

theorem Is.add {a b : B64 L} {p q r : ℚ} (ha : Is a p) (hb : Is b q) (hr : Rep r) (hr1 : r < (2 : ℚ) ^ 1024)
    (h : |p + q| ≤ r) : Is (a +. b) (rnd (p + q)) ∧ |rnd (p + q)| ≤ r := by
  obtain ⟨h1, h2⟩ := rnd64_fin hr hr1 h
  exact ⟨by unfold Is at *; rw [val_add, ha, hb]; exact h1, h2⟩

theorem Is.sub {a b : B64 L} {p q r : ℚ} (ha : Is a p) (hb : Is b q) (hr : Rep r) (hr1 : r < (2 : ℚ) ^ 1024)
    (h : |p - q| ≤ r) : Is (a -. b) (rnd (p - q)) ∧ |rnd (p - q)| ≤ r := by
  obtain ⟨h1, h2⟩ := rnd64_fin hr hr1 h
  refine ⟨?_, h2⟩
  unfold Is at *; rw [val_sub, ha, hb]; simp only [XR.neg, XR.add]; rw [← sub_eq_add_neg]; exact h1

theorem Is.div {a b : B64 L} {p q r : ℚ} (ha : Is a p) (hb : Is b q) (h0 : q ≠ 0) (hr : Rep r) (hr1 : r < (2 : ℚ) ^ 1024)
    (h : |p / q| ≤ r) : Is (a /. b) (rnd (p / q)) ∧ |rnd (p / q)| ≤ r := by
  obtain ⟨h1, h2⟩ := rnd64_fin hr hr1 h
  refine ⟨?_, h2⟩
  unfold Is at *; rw [val_div, ha, hb]; simp only [XR.div, if_neg h0]; exact h1

theorem rep_nat {n : ℕ} (h : n ≤ 2 ^ 53) : Rep (n : ℚ) := by
  have := rep_int (n := (n : ℤ)) (by rw [abs_of_nonneg (by omega)]; exact_mod_cast h)
  simpa using this

theorem nat_lt_range {n : ℕ} (h : n ≤ 2 ^ 53) : |(n : ℚ)| < (2 : ℚ) ^ 1024 := by
  rw [abs_of_nonneg (by positivity)]
  have h1 : (n : ℚ) ≤ (2 : ℚ) ^ 53 := by exact_mod_cast h
  have h2 : (2 : ℚ) ^ 53 < (2 : ℚ) ^ 1024 := pow_lt_pow_right₀ (by norm_num) (by norm_num)
  exact lt_of_le_of_lt h1 h2

theorem is_nat {n : ℕ} (h : n ≤ 2 ^ 53) : Is (Dbl.ofNat n : B64 L) n := by
  unfold Is
  rw [val_nat]
  have := of_rep (L := L) (rep_nat h) (nat_lt_range h)
  simpa [of] using this

theorem is_zero : Is (Dbl.zero : B64 L) 0 := by
  have := is_nat (L := L) (n := 0) (by norm_num)
  rw [Nat.cast_zero] at this
  exact this

theorem is_one : Is (Dbl.one : B64 L) 1 := by
  have := is_nat (L := L) (n := 1) (by norm_num)
  rw [Nat.cast_one] at this
  exact this

/-- a number times a power of two is a multiple of `2 ^ -1074` with a 53-bit significand -/
theorem rep_mul_pow {n : ℕ} {e : ℤ} (h : n ≤ 2 ^ 53) (he : -1074 ≤ e) : Rep ((n : ℚ) * (2 : ℚ) ^ e) :=
  ⟨n, e, by rw [abs_of_nonneg (by omega)]; exact_mod_cast h, he, by norm_num⟩

theorem rnd_nonneg {q : ℚ} (h : 0 ≤ q) : 0 ≤ rnd q := le_rnd_of_le rep_zero h

/-- below half of the smallest positive `double` everything is 0 -/
theorem rnd_underflow {q : ℚ} (h : |q| < (2 : ℚ) ^ (-1075 : ℤ)) : rnd q = 0 := by
  have h1 := rnd_nearest q rep_zero
  rw [zero_sub, abs_neg] at h1
  have h2 : |rnd q| < (2 : ℚ) ^ (-1074 : ℤ) := by
    have e : (2 : ℚ) ^ (-1074 : ℤ) = (2 : ℚ) ^ (-1075 : ℤ) + (2 : ℚ) ^ (-1075 : ℤ) := by
      rw [show (-1074 : ℤ) = 1 + (-1075) by norm_num, two_zpow_add]; norm_num
    have h3 : |rnd q| ≤ |rnd q - q| + |q| := by
      have := abs_add_le (rnd q - q) q; simpa using this
    rw [e]; linarith
  obtain ⟨m, e, _, he, hr⟩ := rnd_rep q
  rw [hr] at h2 ⊢
  obtain ⟨d, hd⟩ := Int.eq_ofNat_of_zero_le (show 0 ≤ e - (-1074) by omega)
  have hm : m = 0 := by
    by_contra hm
    have hm1 : (1 : ℚ) ≤ |(m : ℚ)| := by
      have : 1 ≤ |m| := Int.one_le_abs hm
      rw [← Int.cast_abs]; exact_mod_cast this
    rw [abs_mul, abs_of_pos (two_zpow_pos e)] at h2
    have h3 : (2 : ℚ) ^ (-1074 : ℤ) ≤ (2 : ℚ) ^ e := two_zpow_le he
    have h4 : (2 : ℚ) ^ e ≤ |(m : ℚ)| * (2 : ℚ) ^ e := le_mul_of_one_le_left (two_zpow_pos e).le hm1
    linarith
  rw [hm]; norm_num

/-- every number is an integer multiple of the smallest positive one -/
theorem Rep.multiple {r : ℚ} (h : Rep r) : ∃ n : ℤ, r = n * (2 : ℚ) ^ (-1074 : ℤ) := by
  obtain ⟨m, e, _, he, rfl⟩ := h
  obtain ⟨d, hd⟩ := Int.eq_ofNat_of_zero_le (show 0 ≤ e - (-1074) by omega)
  refine ⟨m * 2 ^ d, ?_⟩
  rw [show e = (d : ℤ) + (-1074) by omega, two_zpow_add, zpow_natCast]
  push_cast; ring

/-- different numbers have a difference that is not rounded to 0 -/
theorem rnd_sub_ne {a b : ℚ} (ha : Rep a) (hb : Rep b) (h : a ≠ b) : (2 : ℚ) ^ (-1074 : ℤ) ≤ |rnd (a - b)| := by
  have key : ∀ a b : ℚ, Rep a → Rep b → b < a → (2 : ℚ) ^ (-1074 : ℤ) ≤ rnd (a - b) := by
    intro a b ha hb h
    apply le_rnd_of_le (rep_pow le_rfl)
    obtain ⟨n, rfl⟩ := ha.multiple
    obtain ⟨k, rfl⟩ := hb.multiple
    have hp := two_zpow_pos (-1074)
    have hlt : k < n := by
      have := lt_of_mul_lt_mul_right h hp.le
      exact_mod_cast this
    have h1 : (1 : ℚ) ≤ (n : ℚ) - k := by exact_mod_cast (by omega : 1 ≤ n - k)
    nlinarith
  rcases lt_or_gt_of_ne h with h | h
  · rw [← abs_neg, ← rnd_neg, neg_sub]
    exact le_trans (key b a hb ha h) (le_abs_self _)
  · exact le_trans (key a b ha hb h) (le_abs_self _)

/-- half of a number is a number, or it is half of an odd multiple of the smallest positive one -/
theorem Rep.half {r : ℚ} (h : Rep r) : Rep (r / 2) ∨ ∃ m : ℤ, |m| ≤ 2 ^ 53 ∧ m % 2 = 1 ∧ r = m * (2 : ℚ) ^ (-1074 : ℤ) := by
  obtain ⟨m, e, hm, he, rfl⟩ := h
  by_cases h1 : -1074 ≤ e - 1
  · left
    refine ⟨m, e - 1, hm, h1, ?_⟩
    rw [show e - 1 = e + (-1) by ring, two_zpow_add]; norm_num; ring
  · have he' : e = -1074 := by omega
    subst he'
    rcases Int.emod_two_eq_zero_or_one m with h0 | h0
    · left
      obtain ⟨k, rfl⟩ := Int.dvd_of_emod_eq_zero h0
      refine ⟨k, -1074, ?_, le_rfl, by push_cast; ring⟩
      rw [abs_mul] at hm
      norm_num at hm ⊢
      have := abs_nonneg k
      linarith
    · exact .inr ⟨m, hm, h0, rfl⟩

/-- the split value computed between two finite numbers that are no neighbours lies between them,
if their sum does not overflow -/
theorem midpoint {a b : B64 L} {qa qb qp : ℚ} (ha : Is a qa) (hb : Is b qb) (rp : Rep qp)
    (h1 : qa < qp) (h2 : qp < qb) (hr : |qa + qb| ≤ (2 : ℚ) ^ 1023) :
    (a <=. ((a +. b) /. Dbl.ofInt 2)) = true ∧ (((a +. b) /. Dbl.ofInt 2) <. b) = true := by
  obtain ⟨ra, _⟩ := fin_rep ha
  obtain ⟨rb, _⟩ := fin_rep hb
  have r1023 : Rep ((2 : ℚ) ^ 1023) := by
    have := rep_pow (e := 1023) (by norm_num)
    rwa [show (1023 : ℤ) = ((1023 : ℕ) : ℤ) by norm_num, zpow_natCast] at this
  have h1023 : (2 : ℚ) ^ 1023 < (2 : ℚ) ^ 1024 := pow_lt_pow_right₀ (by norm_num) (by norm_num)
  obtain ⟨hsum, hs0⟩ := ha.add hb r1023 h1023 hr
  set s := rnd (qa + qb) with hs
  have hrs : Rep s := rnd_rep _
  have hs1 : 2 * qa ≤ s := le_rnd_of_le ra.two_mul (by linarith)
  have hs2 : s < 2 * qb := by
    by_contra hc
    push Not at hc
    have hn := rnd_nearest (qa + qb) rp.two_mul
    rw [← hs, abs_of_nonneg (by linarith)] at hn
    rcases abs_cases (2 * qp - (qa + qb)) with ⟨e, _⟩ | ⟨e, _⟩ <;> rw [e] at hn <;> linarith
  have i2 : Is (Dbl.ofInt 2 : B64 L) 2 := by
    have := is_nat (L := L) (n := 2) (by norm_num)
    rw [Nat.cast_ofNat] at this
    exact this
  obtain ⟨hdiv, _⟩ := hsum.div i2 (by norm_num) r1023 h1023 (by
    rw [abs_div, abs_of_pos (show (0 : ℚ) < 2 by norm_num)]
    exact le_trans (half_le_self (abs_nonneg s)) hs0)
  have hlo : qa ≤ rnd (s / 2) := le_rnd_of_le ra (by linarith)
  have hhi : rnd (s / 2) < qb := by
    rcases hrs.half with hh | ⟨m, hm, hodd, hsm⟩
    · rw [rnd_of_rep hh]; linarith
    · have hp := two_zpow_pos (-1074)
      set u := (2 : ℚ) ^ (-1074 : ℤ) with hu
      obtain ⟨na, hna⟩ := ra.multiple
      obtain ⟨nb, hnb⟩ := rb.multiple
      obtain ⟨np, hnp⟩ := rp.multiple
      rw [← hu] at hna hnb hnp
      -- the sum is exact
      have hex : s = qa + qb := by
        have hN : qa + qb = ((na + nb : ℤ) : ℚ) * u := by rw [hna, hnb]; push_cast; ring
        by_cases hsz : |na + nb| ≤ 2 ^ 53
        · rw [hs]; exact rnd_of_rep ⟨na + nb, -1074, hsz, le_rfl, hN⟩
        · exfalso
          push Not at hsz
          rcases lt_abs.1 hsz with hgt | hgt
          · have hge : ((2 ^ 53 : ℤ) : ℚ) * u ≤ s := le_rnd_of_le ⟨2 ^ 53, -1074, by norm_num, le_rfl, rfl⟩ (by
              rw [hN]; exact mul_le_mul_of_nonneg_right (by exact_mod_cast hgt.le) hp.le)
            rw [hsm] at hge
            have : (2 : ℤ) ^ 53 ≤ m := by exact_mod_cast le_of_mul_le_mul_right hge hp
            have := le_abs_self m
            omega
          · have hge : s ≤ ((-2 ^ 53 : ℤ) : ℚ) * u := rnd_le_of_le ⟨-2 ^ 53, -1074, by norm_num, le_rfl, rfl⟩ (by
              rw [hN]; exact mul_le_mul_of_nonneg_right (by exact_mod_cast (by omega : na + nb ≤ -2 ^ 53)) hp.le)
            rw [hsm] at hge
            have : m ≤ -(2 : ℤ) ^ 53 := by exact_mod_cast le_of_mul_le_mul_right hge hp
            have := neg_abs_le m
            omega
      have hap : na + 1 ≤ np := by
        rw [hna, hnp] at h1
        have := lt_of_mul_lt_mul_right h1 hp.le
        exact_mod_cast this
      have hpb : np + 1 ≤ nb := by
        rw [hnp, hnb] at h2
        have := lt_of_mul_lt_mul_right h2 hp.le
        exact_mod_cast this
      have hgap : 2 * u ≤ qb - qa := by
        rw [hna, hnb, ← sub_mul]
        exact mul_le_mul_of_nonneg_right (by exact_mod_cast (by omega : 2 ≤ nb - na)) hp.le
      -- the rounded half is at most half a unit away
      have hk : Rep (((m / 2 : ℤ) : ℚ) * u) := ⟨m / 2, -1074, by
        rcases abs_cases m with ⟨e, _⟩ | ⟨e, _⟩ <;> rw [e] at hm <;>
          rcases abs_cases (m / 2) with ⟨e', _⟩ | ⟨e', _⟩ <;> rw [e'] <;> omega, le_rfl, rfl⟩
      have hn := rnd_nearest (s / 2) hk
      have hm2 : (m : ℚ) = 2 * ((m / 2 : ℤ) : ℚ) + 1 := by exact_mod_cast (by omega : m = 2 * (m / 2) + 1)
      have hd : ((m / 2 : ℤ) : ℚ) * u - s / 2 = -(u / 2) := by rw [hsm, hm2]; ring
      rw [hd, abs_neg, abs_of_pos (half_pos hp)] at hn
      have h5 := (abs_le.1 hn).2
      generalize rnd (s / 2) = t at h5 ⊢
      clear hn hd hk hr hs0 h1023 r1023 hsum hdiv hlo ra rb rp hrs hna hnb hnp ha hb hsm
      clear_value s u
      subst hex
      linarith
  have hv : ((a +. b) /. Dbl.ofInt 2).val = .fin (rnd (s / 2)) := hdiv
  constructor
  · rw [le_val, hv, ha]; simp only [XR.le, decide_eq_true_eq]; exact hlo
  · rw [lt_val, hv, hb]; simp only [XR.lt, decide_eq_true_eq]; exact hhi

theorem zero_add (x : B64 L) : Dbl.zero +. x = x := by
  apply ext'
  rw [val_add, show (Dbl.zero : B64 L).val = .fin 0 from is_zero]
  have : XR.add (.fin 0) x.val = x.val := by cases x.val <;> simp [XR.add]
  rw [this, x.ok]

theorem one_mul (x : B64 L) : Dbl.one *. x = x := by
  apply ext'
  rw [val_mul, show (Dbl.one : B64 L).val = .fin 1 from is_one]
  have : XR.mul (.fin 1) x.val = x.val := by cases x.val <;> simp [XR.mul, XR.infSign]
  rw [this, x.ok]

theorem div_self {n : ℕ} (h : 0 < n) (hn : n ≤ 2 ^ 53) : (Dbl.ofNat n : B64 L) /. Dbl.ofNat n = Dbl.one := by
  have i := is_nat (L := L) hn
  have h0 : (n : ℚ) ≠ 0 := by exact_mod_cast h.ne'
  apply ext'
  rw [val_div, show (Dbl.ofNat n : B64 L).val = .fin n from i]
  simp only [XR.div, if_neg h0]
  rw [_root_.div_self h0]
  rfl

end B64
end Verif
