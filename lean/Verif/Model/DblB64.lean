import Verif.Model.DblD53

/-!
# Floating-point numbers with the range of `double`

`B64 L` is IEEE-754 binary64 including its range: results are rounded to the nearest multiple of
the unit in the last place, which is never below `2 ^ -1074` (gradual underflow), ties to even,
and rounded results of `2 ^ 1024` or more are infinite.  Simplifications: one zero (so `1 / 0` is
`+inf`), one NaN.  The functions of `<cmath>` are a parameter `L`, their results are rounded.
`D53` (DblD53.lean) is the same without the bounds on the exponent.

This is no model of lines of /repo; it is the arithmetic the polymorphic model of /repo is
instantiated with for statements about very large and very small numbers.
-/

namespace Verif
namespace B64
open D53

/-- exponent of the unit in the last place of a positive number -/
def unit (q : ℚ) : ℤ := max (expo q - 52) (-1074)

/-- a positive number, rounded -/
def rndPos (q : ℚ) : ℚ := halfEven (q / (2 : ℚ) ^ unit q) * (2 : ℚ) ^ unit q

/-- rounded, the exponent being bounded below only -/
def rnd (q : ℚ) : ℚ :=
  if q = 0 then 0 else if 0 < q then rndPos q else - rndPos (-q)

/-- the numbers with a 53-bit significand that are multiples of `2 ^ -1074` -/
def Rep (r : ℚ) : Prop := ∃ m e : ℤ, |m| ≤ 2 ^ 53 ∧ -1074 ≤ e ∧ r = m * (2 : ℚ) ^ e

/-- a rounded number that is too large is infinite -/
def clip (q : ℚ) : XR :=
  if (2 : ℚ) ^ 1024 ≤ q then .pinf else if q ≤ -(2 : ℚ) ^ 1024 then .ninf else .fin q

end B64

/-- an extended number, rounded to a `double` -/
def XR.rnd64 : XR → XR
  | .fin q => B64.clip (B64.rnd q)
  | x => x

namespace B64
open D53

theorem rndPos_nearest {q : ℚ} (hq : 0 < q) {r : ℚ} (hr : Rep r) : |rndPos q - q| ≤ |r - q| := by
  obtain ⟨h1, h2⟩ := expo_spec hq
  unfold rndPos unit
  generalize expo q = e at *
  set k := max (e - 52) (-1074) with hk
  set u := (2 : ℚ) ^ k with hu
  have hupos : 0 < u := two_zpow_pos _
  have key : ∀ j : ℤ, |(halfEven (q / u) : ℚ) * u - q| ≤ |(j : ℚ) * u - q| := by
    intro j
    have h := mul_le_mul_of_nonneg_right (halfEven_nearest (q / u) j) hupos.le
    rw [← abs_of_pos hupos, ← abs_mul, ← abs_mul, abs_of_pos hupos, sub_mul, sub_mul,
      div_mul_cancel₀ _ hupos.ne'] at h
    exact h
  obtain ⟨m, f, hm, hf0, rfl⟩ := hr
  by_cases hf : k ≤ f
  · obtain ⟨d, hd⟩ := Int.eq_ofNat_of_zero_le (show 0 ≤ f - k by omega)
    have : (m : ℚ) * (2 : ℚ) ^ f = ((m * 2 ^ d : ℤ) : ℚ) * u := by
      rw [show f = (d : ℤ) + k by omega, two_zpow_add, zpow_natCast]
      push_cast; ring
    rw [this]
    exact key _
  · have hke : k = e - 52 := by omega
    have h2e : (2 : ℚ) ^ e = ((2 ^ 52 : ℤ) : ℚ) * u := by
      rw [hu, hke, show e = 52 + (e - 52) by ring, two_zpow_add, show 52 + (e - 52) - 52 = e - 52 by ring]
      norm_num
    have hm0 : (m : ℚ) ≤ 2 ^ 53 := by
      have : m ≤ 2 ^ 53 := le_trans (le_abs_self m) hm
      exact_mod_cast this
    have hle : (m : ℚ) * (2 : ℚ) ^ f ≤ (2 : ℚ) ^ e := by
      calc (m : ℚ) * (2 : ℚ) ^ f ≤ 2 ^ 53 * (2 : ℚ) ^ f :=
            mul_le_mul_of_nonneg_right hm0 (two_zpow_pos f).le
        _ = (2 : ℚ) ^ ((53 : ℤ) + f) := by rw [two_zpow_add]; norm_num
        _ ≤ _ := two_zpow_le (by omega)
    calc |(halfEven (q / u) : ℚ) * u - q| ≤ |((2 ^ 52 : ℤ) : ℚ) * u - q| := key _
      _ = q - (2 : ℚ) ^ e := by rw [← h2e, abs_of_nonpos (by linarith)]; ring
      _ ≤ q - m * (2 : ℚ) ^ f := by linarith
      _ ≤ |m * (2 : ℚ) ^ f - q| := by rw [abs_sub_comm]; exact le_abs_self _

theorem rndPos_rep {q : ℚ} (hq : 0 < q) : Rep (rndPos q) := by
  obtain ⟨h1, h2⟩ := expo_spec hq
  unfold rndPos unit
  refine ⟨_, _, ?_, le_max_right _ _, rfl⟩
  generalize expo q = e at *
  set k := max (e - 52) (-1074) with hk
  set u := (2 : ℚ) ^ k with hu
  have hupos : 0 < u := two_zpow_pos _
  have hx0 : 0 < q / u := div_pos hq hupos
  have hx1 : q / u < 2 ^ 53 := by
    rw [div_lt_iff₀ hupos, hu]
    calc q < (2 : ℚ) ^ (e + 1) := h2
      _ ≤ (2 : ℚ) ^ ((53 : ℤ) + k) := two_zpow_le (by omega)
      _ = 2 ^ 53 * (2 : ℚ) ^ k := by rw [two_zpow_add]; norm_num
  have hf0 : (0 : ℤ) ≤ ⌊q / u⌋ := Int.floor_nonneg.2 hx0.le
  have hf1 : ⌊q / u⌋ < 2 ^ 53 := by
    have := Int.floor_lt.2 (show q / u < ((2 ^ 53 : ℤ) : ℚ) by push_cast; exact hx1)
    exact this
  unfold halfEven
  simp only
  split_ifs <;> rw [abs_of_nonneg (by omega)] <;> omega

theorem Rep.neg {r : ℚ} (h : Rep r) : Rep (-r) := by
  obtain ⟨m, e, hm, he, rfl⟩ := h
  exact ⟨-m, e, by rwa [abs_neg], he, by push_cast; ring⟩

theorem rep_zero : Rep 0 := ⟨0, 0, by norm_num, by norm_num, by norm_num⟩

/-- the rounded number is one of the numbers … -/
theorem rnd_rep (q : ℚ) : Rep (rnd q) := by
  unfold rnd
  split_ifs with h0 h1
  · exact rep_zero
  · exact rndPos_rep h1
  · exact (rndPos_rep (by
      rcases lt_trichotomy q 0 with h | h | h
      · linarith
      · exact absurd h h0
      · exact absurd h h1)).neg

/-- … and none of them is nearer -/
theorem rnd_nearest (q : ℚ) {r : ℚ} (hr : Rep r) : |rnd q - q| ≤ |r - q| := by
  unfold rnd
  split_ifs with h0 h1
  · rw [h0]; simp
  · exact rndPos_nearest h1 hr
  · have h2 : 0 < -q := by
      rcases lt_trichotomy q 0 with h | h | h
      · linarith
      · exact absurd h h0
      · exact absurd h h1
    have h := rndPos_nearest h2 hr.neg
    rw [show rndPos (-q) - -q = -(-rndPos (-q) - q) by ring, abs_neg,
      show -r - -q = -(r - q) by ring, abs_neg] at h
    exact h

theorem rnd_of_rep {r : ℚ} (hr : Rep r) : rnd r = r := by
  have h := rnd_nearest r hr
  rw [sub_self, abs_zero] at h
  exact sub_eq_zero.1 (abs_eq_zero.1 (le_antisymm h (abs_nonneg _)))

theorem rep_of_rnd {r : ℚ} (h : rnd r = r) : Rep r := h ▸ rnd_rep r

theorem rnd_rnd (q : ℚ) : rnd (rnd q) = rnd q := rnd_of_rep (rnd_rep q)

theorem rnd_zero : rnd 0 = 0 := by simp [rnd]

theorem rnd_neg (q : ℚ) : rnd (-q) = - rnd q := by
  unfold rnd
  rcases lt_trichotomy q 0 with h | h | h
  · rw [if_neg (by linarith), if_pos (by linarith), if_neg h.ne, if_neg (by linarith), neg_neg]
  · subst h; simp
  · rw [if_neg (by linarith), if_neg (by linarith), if_neg h.ne', if_pos h, neg_neg]

/-- rounding respects the order -/
theorem rnd_mono {a b : ℚ} (hab : a ≤ b) : rnd a ≤ rnd b := by
  rcases hab.eq_or_lt with rfl | hlt
  · exact le_rfl
  by_contra hc
  push Not at hc
  have h1 := rnd_nearest a (rnd_rep b)
  have h2 := rnd_nearest b (rnd_rep a)
  by_cases ha : rnd a ≤ a
  · rw [abs_of_nonpos (by linarith), abs_of_nonpos (by linarith)] at h2
    linarith
  · push Not at ha
    by_cases hb : b ≤ rnd b
    · rw [abs_of_nonneg (by linarith), abs_of_nonneg (by linarith)] at h1
      linarith
    · push Not at hb
      rw [abs_of_nonneg (by linarith)] at h1
      rw [abs_of_nonpos (by linarith)] at h2
      have h3 : rnd a - a ≤ |rnd b - a| := h1
      have h4 : -(rnd b - b) ≤ |rnd a - b| := h2
      rcases abs_cases (rnd b - a) with ⟨e1, _⟩ | ⟨e1, _⟩ <;>
        rcases abs_cases (rnd a - b) with ⟨e2, _⟩ | ⟨e2, _⟩ <;> rw [e1] at h3 <;> rw [e2] at h4 <;> linarith

theorem rnd_le_of_le {a r : ℚ} (hr : Rep r) (h : a ≤ r) : rnd a ≤ r := by
  have := rnd_mono h; rwa [rnd_of_rep hr] at this

theorem le_rnd_of_le {a r : ℚ} (hr : Rep r) (h : r ≤ a) : r ≤ rnd a := by
  have := rnd_mono h; rwa [rnd_of_rep hr] at this

theorem Rep.two_mul {r : ℚ} (h : Rep r) : Rep (2 * r) := by
  obtain ⟨m, e, hm, he, rfl⟩ := h
  exact ⟨m, e + 1, hm, by omega, by rw [two_zpow_add]; norm_num; ring⟩

theorem rep_int {n : ℤ} (h : |n| ≤ 2 ^ 53) : Rep n := ⟨n, 0, h, by norm_num, by norm_num⟩

theorem rep_pow {e : ℤ} (h : -1074 ≤ e) : Rep ((2 : ℚ) ^ e) := ⟨1, e, by norm_num, h, by norm_num⟩

theorem clip_fin {q : ℚ} (h : |q| < (2 : ℚ) ^ 1024) : clip q = .fin q := by
  obtain ⟨h1, h2⟩ := abs_lt.1 h
  unfold clip
  rw [if_neg (not_le.2 h2), if_neg (not_le.2 h1)]

theorem fin_of_clip {q r : ℚ} (h : clip q = .fin r) : q = r ∧ |q| < (2 : ℚ) ^ 1024 := by
  unfold clip at h
  split_ifs at h with h1 h2
  exact ⟨by injection h, abs_lt.2 ⟨not_le.1 h2, not_le.1 h1⟩⟩

end B64

theorem XR.rnd64_rnd64 (x : XR) : x.rnd64.rnd64 = x.rnd64 := by
  cases x with
  | fin q =>
    simp only [XR.rnd64]
    unfold B64.clip
    split_ifs with h1 h2
    · rfl
    · rfl
    · show B64.clip (B64.rnd (B64.rnd q)) = _
      rw [B64.rnd_rnd]
      unfold B64.clip
      rw [if_neg h1, if_neg h2]
  | _ => rfl

/-- a `double` -/
structure B64 (L : CMath) where
  val : XR
  ok : val.rnd64 = val
deriving DecidableEq

namespace B64
variable {L : CMath}

/-- round -/
def of (x : XR) : B64 L := ⟨x.rnd64, x.rnd64_rnd64⟩

theorem ext' {a b : B64 L} (h : a.val = b.val) : a = b := by
  cases a; cases b; cases h; rfl

theorem of_val (a : B64 L) : (of a.val : B64 L) = a := ext' a.ok

end B64

instance (L : CMath) : Dbl (B64 L) where
  ofInt n := B64.of (.fin n)
  lit q := B64.of (.fin q)
  add a b := B64.of (XR.add a.val b.val)
  sub a b := B64.of (XR.add a.val (XR.neg b.val))
  mul a b := B64.of (XR.mul a.val b.val)
  div a b := B64.of (XR.div a.val b.val)
  neg a := B64.of (XR.neg a.val)
  lt a b := XR.lt a.val b.val
  le a b := XR.le a.val b.val
  eq a b := XR.eq a.val b.val
  sqrt a := B64.of (L.sqrt a.val)
  exp a := B64.of (L.exp a.val)
  log a := B64.of (L.log a.val)
  tanh a := B64.of (L.tanh a.val)
  pow a n := B64.of (L.pow a.val n)
  maxVal := B64.of (.fin ((2 ^ 53 - 1) * 2 ^ 971))

instance (L : CMath) : LawfulOrd (B64 L) where
  le_trans a b c := LawfulOrd.le_trans (F := XR) a.val b.val c.val
  ord_left a b := LawfulOrd.ord_left (F := XR) a.val b.val
  ord_right a b := LawfulOrd.ord_right (F := XR) a.val b.val
  total a b := LawfulOrd.total (F := XR) a.val b.val
  lt_iff a b := LawfulOrd.lt_iff (F := XR) a.val b.val
  eq_iff a b := LawfulOrd.eq_iff (F := XR) a.val b.val

namespace B64
open Dbl
variable {L : CMath}

/-- a finite `double` has a 53-bit significand, is a multiple of `2 ^ -1074` and below `2 ^ 1024` -/
theorem fin_rep {a : B64 L} {q : ℚ} (h : a.val = .fin q) : Rep q ∧ |q| < (2 : ℚ) ^ 1024 := by
  have := a.ok
  rw [h] at this
  obtain ⟨h1, h2⟩ := fin_of_clip this
  exact ⟨rep_of_rnd h1, h1 ▸ h2⟩

/-- every such number is a `double` -/
theorem of_rep {q : ℚ} (h : Rep q) (hq : |q| < (2 : ℚ) ^ 1024) : (of (.fin q) : B64 L).val = .fin q := by
  show clip (rnd q) = _
  rw [rnd_of_rep h, clip_fin hq]

/-- a result whose magnitude is at most that of a number below `2 ^ 1024` is finite -/
theorem rnd64_fin {q b : ℚ} (hb : Rep b) (hb1 : b < (2 : ℚ) ^ 1024) (h : |q| ≤ b) :
    XR.rnd64 (.fin q) = .fin (rnd q) ∧ |rnd q| ≤ b := by
  obtain ⟨h1, h2⟩ := abs_le.1 h
  have h3 : |rnd q| ≤ b := abs_le.2 ⟨le_rnd_of_le hb.neg h1, rnd_le_of_le hb h2⟩
  exact ⟨clip_fin (lt_of_le_of_lt h3 hb1), h3⟩

end B64
end Verif
