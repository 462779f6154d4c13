import Verif.Model.DblXR
import Mathlib.Algebra.Order.Floor.Defs
import Mathlib.Algebra.Order.Floor.Ring
import Mathlib.Data.Rat.Floor
import Mathlib.Tactic.Ring
import Mathlib.Tactic.FieldSimp
import Mathlib.Tactic.Positivity
import Mathlib.Data.Nat.Log

/-!
# Floating-point numbers with 53-bit significands

`D53 L` is a computable model of `double`: every result of `+ - * /`, of a conversion and of a
literal is the exact result rounded to the nearest number with a significand of 53 bits, ties
to the even significand, as IEEE-754 binary64 prescribes (the default rounding mode; no
excess precision, no fused multiply-add).  Simplifications: the exponent is unbounded (no
overflow to infinity, no subnormal numbers), there is one zero, and one NaN.  The functions of
`<cmath>`, whose accuracy the standard leaves open, are a parameter `L`; their results are
rounded.  `DBL_MAX` is the actual one.

This is no model of lines of /repo; it is the arithmetic the polymorphic model of /repo is
instantiated with for statements about rounding.
-/

namespace Verif

/-- the functions of `<cmath>`, before rounding -/
structure CMath where
  sqrt : XR → XR
  exp : XR → XR
  log : XR → XR
  tanh : XR → XR
  pow : XR → Int → XR

namespace D53

/-- nearest integer, ties to even -/
def halfEven (q : ℚ) : ℤ :=
  let f := ⌊q⌋
  if q - f < 1 / 2 then f
  else if 1 / 2 < q - f then f + 1
  else if f % 2 = 0 then f else f + 1

/-- the binary exponent of a positive number: `2 ^ expo q ≤ q < 2 ^ (expo q + 1)` -/
def expo (q : ℚ) : ℤ :=
  let e := (Nat.log2 q.num.natAbs : ℤ) - Nat.log2 q.den
  if (2 : ℚ) ^ e ≤ q then e else e - 1

/-- a positive number, rounded -/
def rndPos (q : ℚ) : ℚ :=
  halfEven (q / (2 : ℚ) ^ (expo q - 52)) * (2 : ℚ) ^ (expo q - 52)

/-- round to 53 bits -/
def rnd (q : ℚ) : ℚ :=
  if q = 0 then 0 else if 0 < q then rndPos q else - rndPos (-q)

/-- the numbers with a 53-bit significand -/
def Rep (r : ℚ) : Prop := ∃ m e : ℤ, |m| ≤ 2 ^ 53 ∧ r = m * (2 : ℚ) ^ e

theorem halfEven_nearest (q : ℚ) (k : ℤ) : |(halfEven q : ℚ) - q| ≤ |(k : ℚ) - q| := by
  have h0 := Int.floor_le q
  have h1 := Int.lt_floor_add_one q
  have hk : (k : ℚ) ≤ ⌊q⌋ ∨ (⌊q⌋ : ℚ) + 1 ≤ k := by
    rcases le_or_gt k ⌊q⌋ with h | h
    · exact .inl (by exact_mod_cast h)
    · exact .inr (by exact_mod_cast h)
  unfold halfEven
  simp only
  split_ifs with h2 h3 h4
  · rw [abs_of_nonpos (by linarith)]
    rcases hk with hk | hk
    · rw [abs_of_nonpos (by linarith)]; linarith
    · rw [abs_of_nonneg (by linarith)]; linarith
  · push_cast
    rw [abs_of_nonneg (by linarith)]
    rcases hk with hk | hk
    · rw [abs_of_nonpos (by linarith)]; linarith
    · rw [abs_of_nonneg (by linarith)]; linarith
  · rw [abs_of_nonpos (by linarith)]
    rcases hk with hk | hk
    · rw [abs_of_nonpos (by linarith)]; linarith
    · rw [abs_of_nonneg (by linarith)]; linarith
  · push_cast
    rw [abs_of_nonneg (by linarith)]
    rcases hk with hk | hk
    · rw [abs_of_nonpos (by linarith)]; linarith
    · rw [abs_of_nonneg (by linarith)]; linarith

theorem two_zpow_pos (e : ℤ) : (0 : ℚ) < (2 : ℚ) ^ e := zpow_pos (by norm_num) e

theorem two_zpow_add (a b : ℤ) : (2 : ℚ) ^ (a + b) = (2 : ℚ) ^ a * (2 : ℚ) ^ b :=
  zpow_add₀ (by norm_num) a b

theorem two_zpow_le {a b : ℤ} (h : a ≤ b) : (2 : ℚ) ^ a ≤ (2 : ℚ) ^ b :=
  zpow_le_zpow_right₀ (by norm_num) h

theorem two_zpow_lt {a b : ℤ} (h : a < b) : (2 : ℚ) ^ a < (2 : ℚ) ^ b :=
  zpow_lt_zpow_right₀ (by norm_num) h

theorem expo_spec {q : ℚ} (hq : 0 < q) : (2 : ℚ) ^ expo q ≤ q ∧ q < (2 : ℚ) ^ (expo q + 1) := by
  have hnum : 0 < q.num := Rat.num_pos.2 hq
  set n := q.num.natAbs with hn
  have hn0 : n ≠ 0 := by omega
  have hnq : ((n : ℕ) : ℚ) = (q.num : ℚ) := by
    have : ((n : ℤ)) = q.num := by omega
    exact_mod_cast this
  have hd0 : q.den ≠ 0 := q.den_nz
  have hqd : q * q.den = n := by rw [hnq]; exact Rat.mul_den_eq_num q
  have hdpos : (0 : ℚ) < q.den := by exact_mod_cast q.den_pos
  have n1 : (2 : ℚ) ^ ((Nat.log2 n : ℕ) : ℤ) ≤ n := by
    rw [zpow_natCast]; exact_mod_cast Nat.log2_self_le hn0
  have n2 : (n : ℚ) < (2 : ℚ) ^ (((Nat.log2 n : ℕ) : ℤ) + 1) := by
    have := Nat.lt_log2_self (n := n)
    rw [show (((Nat.log2 n : ℕ) : ℤ) + 1) = ((Nat.log2 n + 1 : ℕ) : ℤ) by push_cast; ring, zpow_natCast]
    exact_mod_cast this
  have d1 : (2 : ℚ) ^ ((Nat.log2 q.den : ℕ) : ℤ) ≤ q.den := by
    rw [zpow_natCast]; exact_mod_cast Nat.log2_self_le hd0
  have d2 : (q.den : ℚ) < (2 : ℚ) ^ (((Nat.log2 q.den : ℕ) : ℤ) + 1) := by
    have := Nat.lt_log2_self (n := q.den)
    rw [show (((Nat.log2 q.den : ℕ) : ℤ) + 1) = ((Nat.log2 q.den + 1 : ℕ) : ℤ) by push_cast; ring, zpow_natCast]
    exact_mod_cast this
  unfold expo
  simp only
  rw [← hn]
  generalize (Nat.log2 n : ℤ) = a at *
  generalize (Nat.log2 q.den : ℤ) = b at *
  -- the bounds on q
  have hup : q < (2 : ℚ) ^ (a - b + 1) := by
    have h : q * (2 : ℚ) ^ b < (2 : ℚ) ^ (a - b + 1) * (2 : ℚ) ^ b := by
      rw [← two_zpow_add, show a - b + 1 + b = a + 1 by ring]
      calc q * (2 : ℚ) ^ b ≤ q * q.den := mul_le_mul_of_nonneg_left d1 hq.le
        _ = n := hqd
        _ < _ := n2
    exact lt_of_mul_lt_mul_right h (two_zpow_pos b).le
  have hlo : (2 : ℚ) ^ (a - b - 1) ≤ q := by
    have h : (2 : ℚ) ^ (a - b - 1) * (2 : ℚ) ^ (b + 1) ≤ q * (2 : ℚ) ^ (b + 1) := by
      rw [← two_zpow_add, show a - b - 1 + (b + 1) = a by ring]
      calc (2 : ℚ) ^ a ≤ n := n1
        _ = q * q.den := hqd.symm
        _ ≤ _ := mul_le_mul_of_nonneg_left d2.le hq.le
    exact le_of_mul_le_mul_right h (two_zpow_pos _)
  split_ifs with h
  · exact ⟨h, hup⟩
  · push Not at h
    exact ⟨hlo, by rw [show a - b - 1 + 1 = a - b by ring]; exact h⟩

theorem rndPos_nearest {q : ℚ} (hq : 0 < q) {r : ℚ} (hr : Rep r) : |rndPos q - q| ≤ |r - q| := by
  obtain ⟨h1, h2⟩ := expo_spec hq
  unfold rndPos
  generalize expo q = e at *
  set u := (2 : ℚ) ^ (e - 52) with hu
  have hupos : 0 < u := two_zpow_pos _
  have key : ∀ k : ℤ, |(halfEven (q / u) : ℚ) * u - q| ≤ |(k : ℚ) * u - q| := by
    intro k
    have h := mul_le_mul_of_nonneg_right (halfEven_nearest (q / u) k) hupos.le
    rw [← abs_of_pos hupos, ← abs_mul, ← abs_mul, abs_of_pos hupos, sub_mul, sub_mul,
      div_mul_cancel₀ _ hupos.ne'] at h
    exact h
  have h2e : (2 : ℚ) ^ e = ((2 ^ 52 : ℤ) : ℚ) * u := by
    rw [hu, show e = 52 + (e - 52) by ring, two_zpow_add, show 52 + (e - 52) - 52 = e - 52 by ring]
    norm_num
  by_cases hre : (2 : ℚ) ^ e ≤ r
  · -- r is a multiple of u
    obtain ⟨m, f, hm, rfl⟩ := hr
    have hm0 : (m : ℚ) ≤ 2 ^ 53 := by
      have : m ≤ 2 ^ 53 := le_trans (le_abs_self m) hm
      exact_mod_cast this
    by_cases hf : e - 52 ≤ f
    · obtain ⟨d, hd⟩ := Int.eq_ofNat_of_zero_le (show 0 ≤ f - (e - 52) by omega)
      have : (m : ℚ) * (2 : ℚ) ^ f = ((m * 2 ^ d : ℤ) : ℚ) * u := by
        rw [show f = (d : ℤ) + (e - 52) by omega, two_zpow_add, zpow_natCast]
        push_cast; ring
      rw [this]
      exact key _
    · -- then m * 2 ^ f = 2 ^ e
      have hle : (m : ℚ) * (2 : ℚ) ^ f ≤ (2 : ℚ) ^ e := by
        calc (m : ℚ) * (2 : ℚ) ^ f ≤ 2 ^ 53 * (2 : ℚ) ^ f :=
              mul_le_mul_of_nonneg_right hm0 (two_zpow_pos f).le
          _ = (2 : ℚ) ^ ((53 : ℤ) + f) := by rw [two_zpow_add]; norm_num
          _ ≤ _ := two_zpow_le (by omega)
      rw [le_antisymm hle hre, h2e]
      exact key _
  · push Not at hre
    calc |(halfEven (q / u) : ℚ) * u - q| ≤ |((2 ^ 52 : ℤ) : ℚ) * u - q| := key _
      _ = q - (2 : ℚ) ^ e := by rw [← h2e, abs_of_nonpos (by linarith)]; ring
      _ ≤ q - r := by linarith
      _ ≤ |r - q| := by rw [abs_sub_comm]; exact le_abs_self _

theorem rndPos_rep {q : ℚ} (hq : 0 < q) : Rep (rndPos q) := by
  obtain ⟨h1, h2⟩ := expo_spec hq
  unfold rndPos
  refine ⟨_, _, ?_, rfl⟩
  generalize expo q = e at *
  set u := (2 : ℚ) ^ (e - 52) with hu
  have hupos : 0 < u := two_zpow_pos _
  have hx0 : 0 < q / u := div_pos hq hupos
  have hx1 : q / u < 2 ^ 53 := by
    rw [div_lt_iff₀ hupos, hu]
    calc q < (2 : ℚ) ^ (e + 1) := h2
      _ = (2 : ℚ) ^ ((53 : ℤ) + (e - 52)) := by congr 1; ring
      _ = 2 ^ 53 * (2 : ℚ) ^ (e - 52) := by rw [two_zpow_add]; norm_num
  have hf0 : (0 : ℤ) ≤ ⌊q / u⌋ := Int.floor_nonneg.2 hx0.le
  have hf1 : ⌊q / u⌋ < 2 ^ 53 := by
    have := Int.floor_lt.2 (show q / u < ((2 ^ 53 : ℤ) : ℚ) by push_cast; exact hx1)
    exact this
  unfold halfEven
  simp only
  split_ifs <;> rw [abs_of_nonneg (by omega)] <;> omega

theorem Rep.neg {r : ℚ} (h : Rep r) : Rep (-r) := by
  obtain ⟨m, e, hm, rfl⟩ := h
  exact ⟨-m, e, by rwa [abs_neg], by push_cast; ring⟩

theorem rep_zero : Rep 0 := ⟨0, 0, by norm_num, by norm_num⟩

/-- the rounded number has a 53-bit significand … -/
theorem rnd_rep (q : ℚ) : Rep (rnd q) := by
  unfold rnd
  split_ifs with h0 h1
  · exact rep_zero
  · exact rndPos_rep h1
  · exact (rndPos_rep (by
      rcases lt_trichotomy q 0 with h | h | h
      · linarith
      · exact absurd h h0
      · exact absurd h h1)).neg

/-- … and no number with a 53-bit significand is nearer -/
theorem rnd_nearest (q : ℚ) {r : ℚ} (hr : Rep r) : |rnd q - q| ≤ |r - q| := by
  unfold rnd
  split_ifs with h0 h1
  · rw [h0]; simp
  · exact rndPos_nearest h1 hr
  · have h2 : 0 < -q := by
      rcases lt_trichotomy q 0 with h | h | h
      · linarith
      · exact absurd h h0
      · exact absurd h h1
    have h := rndPos_nearest h2 hr.neg
    rw [show rndPos (-q) - -q = -(-rndPos (-q) - q) by ring, abs_neg,
      show -r - -q = -(r - q) by ring, abs_neg] at h
    exact h

/-- numbers with a 53-bit significand are not changed -/
theorem rnd_of_rep {r : ℚ} (hr : Rep r) : rnd r = r := by
  have h := rnd_nearest r hr
  rw [sub_self, abs_zero] at h
  exact sub_eq_zero.1 (abs_eq_zero.1 (le_antisymm h (abs_nonneg _)))

theorem rep_of_rnd {r : ℚ} (h : rnd r = r) : Rep r := h ▸ rnd_rep r

theorem rnd_rnd (q : ℚ) : rnd (rnd q) = rnd q := rnd_of_rep (rnd_rep q)

theorem rnd_zero : rnd 0 = 0 := by simp [rnd]

/-- rounding respects the order -/
theorem rnd_mono {a b : ℚ} (hab : a ≤ b) : rnd a ≤ rnd b := by
  rcases hab.eq_or_lt with rfl | hlt
  · exact le_rfl
  by_contra hc
  push Not at hc
  have h1 := rnd_nearest a (rnd_rep b)
  have h2 := rnd_nearest b (rnd_rep a)
  -- rnd b < rnd a, a < b
  by_cases ha : rnd a ≤ a
  · -- rnd b < rnd a ≤ a : rnd a is nearer to b than rnd b
    rw [abs_of_nonpos (by linarith), abs_of_nonpos (by linarith)] at h2
    linarith
  · push Not at ha
    by_cases hb : b ≤ rnd b
    · rw [abs_of_nonneg (by linarith), abs_of_nonneg (by linarith)] at h1
      linarith
    · push Not at hb
      rw [abs_of_nonneg (by linarith)] at h1
      rw [abs_of_nonpos (by linarith)] at h2
      have h3 : rnd a - a ≤ |rnd b - a| := h1
      have h4 : -(rnd b - b) ≤ |rnd a - b| := h2
      rcases abs_cases (rnd b - a) with ⟨e1, _⟩ | ⟨e1, _⟩ <;>
        rcases abs_cases (rnd a - b) with ⟨e2, _⟩ | ⟨e2, _⟩ <;> rw [e1] at h3 <;> rw [e2] at h4 <;> linarith

/-- a number with a 53-bit significand that lies above the exact result lies above the rounded one -/
theorem rnd_le_of_le {a r : ℚ} (hr : Rep r) (h : a ≤ r) : rnd a ≤ r := by
  have := rnd_mono h; rwa [rnd_of_rep hr] at this

theorem le_rnd_of_le {a r : ℚ} (hr : Rep r) (h : r ≤ a) : r ≤ rnd a := by
  have := rnd_mono h; rwa [rnd_of_rep hr] at this

theorem Rep.two_mul {r : ℚ} (h : Rep r) : Rep (2 * r) := by
  obtain ⟨m, e, hm, rfl⟩ := h
  exact ⟨m, e + 1, hm, by rw [two_zpow_add]; norm_num; ring⟩

theorem Rep.half {r : ℚ} (h : Rep r) : Rep (r / 2) := by
  obtain ⟨m, e, hm, rfl⟩ := h
  refine ⟨m, e - 1, hm, ?_⟩
  rw [show e - 1 = e + (-1) by ring, two_zpow_add]; norm_num; ring

theorem rep_int {n : ℤ} (h : |n| ≤ 2 ^ 53) : Rep n := ⟨n, 0, h, by norm_num⟩

end D53

/-- an extended number, rounded -/
def XR.rnd : XR → XR
  | .fin q => .fin (D53.rnd q)
  | x => x

theorem XR.rnd_rnd (x : XR) : x.rnd.rnd = x.rnd := by
  cases x <;> simp [XR.rnd, D53.rnd_rnd]

/-- a `double`: NaN, an infinity, or a number with a 53-bit significand -/
structure D53 (L : CMath) where
  val : XR
  ok : val.rnd = val
deriving DecidableEq

namespace D53
variable {L : CMath}

/-- round -/
def of (x : XR) : D53 L := ⟨x.rnd, x.rnd_rnd⟩

theorem ext' {a b : D53 L} (h : a.val = b.val) : a = b := by
  cases a; cases b; cases h; rfl

theorem of_val (a : D53 L) : (of a.val : D53 L) = a := ext' a.ok

end D53

instance (L : CMath) : Dbl (D53 L) where
  ofInt n := D53.of (.fin n)
  lit q := D53.of (.fin q)
  add a b := D53.of (XR.add a.val b.val)
  sub a b := D53.of (XR.add a.val (XR.neg b.val))
  mul a b := D53.of (XR.mul a.val b.val)
  div a b := D53.of (XR.div a.val b.val)
  neg a := D53.of (XR.neg a.val)
  lt a b := XR.lt a.val b.val
  le a b := XR.le a.val b.val
  eq a b := XR.eq a.val b.val
  sqrt a := D53.of (L.sqrt a.val)
  exp a := D53.of (L.exp a.val)
  log a := D53.of (L.log a.val)
  tanh a := D53.of (L.tanh a.val)
  pow a n := D53.of (L.pow a.val n)
  maxVal := D53.of (.fin ((2 ^ 53 - 1) * 2 ^ 971))

instance (L : CMath) : LawfulOrd (D53 L) where
  le_trans a b c := LawfulOrd.le_trans (F := XR) a.val b.val c.val
  ord_left a b := LawfulOrd.ord_left (F := XR) a.val b.val
  ord_right a b := LawfulOrd.ord_right (F := XR) a.val b.val
  total a b := LawfulOrd.total (F := XR) a.val b.val
  lt_iff a b := LawfulOrd.lt_iff (F := XR) a.val b.val
  eq_iff a b := LawfulOrd.eq_iff (F := XR) a.val b.val

namespace D53
open Dbl
variable {L : CMath}

theorem fin_rep {a : D53 L} {q : ℚ} (h : a.val = .fin q) : Rep q := by
  have := a.ok
  rw [h] at this
  simp only [XR.rnd, XR.fin.injEq] at this
  exact rep_of_rnd this

theorem zero_add (x : D53 L) : Dbl.zero +. x = x := by
  show of (XR.add (XR.rnd (.fin ((0 : ℤ) : ℚ))) x.val) = x
  have : XR.add (XR.rnd (.fin ((0 : ℤ) : ℚ))) x.val = x.val := by
    simp only [XR.rnd, Int.cast_zero, rnd_zero]
    cases x.val <;> simp [XR.add]
  rw [this, of_val]

theorem rnd_nat_pos {n : ℕ} (h : 0 < n) : 0 < rnd (n : ℚ) := by
  have h1 : Rep (1 : ℚ) := by have := rep_int (n := 1) (by norm_num); simpa using this
  have := le_rnd_of_le (a := (n : ℚ)) h1 (by exact_mod_cast h)
  linarith

theorem val_ofNat (n : ℕ) : (Dbl.ofNat n : D53 L).val = .fin (rnd n) := by
  show XR.rnd (.fin (((n : ℤ)) : ℚ)) = _
  simp [XR.rnd]

/-- `n / n = 1` for a positive count -/
theorem div_self {n : ℕ} (h : 0 < n) : (Dbl.ofNat n : D53 L) /. Dbl.ofNat n = Dbl.one := by
  have hp := rnd_nat_pos h
  apply ext'
  show XR.rnd (XR.div (Dbl.ofNat n : D53 L).val (Dbl.ofNat n : D53 L).val) = XR.rnd (.fin ((1 : ℤ) : ℚ))
  rw [val_ofNat]
  simp only [XR.div, if_neg hp.ne']
  rw [_root_.div_self hp.ne']; norm_num

/-- `1.0 * x = x` -/
theorem one_mul (x : D53 L) : Dbl.one *. x = x := by
  have h1 : rnd 1 = 1 := rnd_of_rep (by have := rep_int (n := 1) (by norm_num); simpa using this)
  show of (XR.mul (XR.rnd (.fin ((1 : ℤ) : ℚ))) x.val) = x
  have : XR.mul (XR.rnd (.fin ((1 : ℤ) : ℚ))) x.val = x.val := by
    simp only [XR.rnd, Int.cast_one, h1]
    cases x.val <;> simp [XR.mul, XR.infSign]
  rw [this, of_val]

end D53
end Verif
