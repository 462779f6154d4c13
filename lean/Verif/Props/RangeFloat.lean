import Verif.Props.TreeFloat
import Verif.Props.DistFloat
import Verif.Lemmas.Float64

/-! # Property C209: numbers near the ends of the range of `double` -/

set_option linter.unusedSectionVars false
set_option exponentiation.threshold 2000

namespace Verif
open Dbl
variable {L : CMath}

/-- `log` returns a `double` nearest to the logarithm of `q` -/
def LogCorrect64 (L : CMath) (q : ℚ) : Prop :=
  ∃ r, (L.log (.fin q)).rnd64 = .fin r ∧ D53.Nearest r (Real.log q)

/-- `pow(x, 2)` is the square of `x`, correctly rounded -/
def SquareCorrect (L : CMath) : Prop := ∀ q : ℚ, L.pow (.fin q) 2 = .fin (q * q)

/-! ## trees -/

/-- the values of continuous attributes are at most `2 ^ 1022` in magnitude, and between two different
values of a column lies another `double` -/
structure SpreadInRange (data : IList (B64 L)) : Prop where
  fin : ∀ x ∈ data, ∀ (i : Nat) v, x.attrs[i]? = some (.continuous v) → ∃ q, v.val = .fin q ∧ |q| ≤ (2 : ℚ) ^ 1022
  gap : ∀ x ∈ data, ∀ y ∈ data, ∀ (i : Nat) v w, x.attrs[i]? = some (.continuous v) →
    y.attrs[i]? = some (.continuous w) → (v <. w) = true → ∃ p : B64 L, (v <. p) = true ∧ (p <. w) = true

theorem B64.noGainDiscrete (ls : List String) (h : ls ≠ []) (hn : ls.length ≤ 2 ^ 53) : NoGainDiscrete (B64 L) ls := by
  unfold NoGainDiscrete
  rw [B64.zero_add, B64.div_self (List.length_pos_of_ne_nil h) hn, B64.one_mul]
  intro hlt
  exact ((LawfulOrd.lt_iff _ _).1 hlt).2 ((LawfulOrd.lt_iff _ _).1 hlt).1

/-- **C209 (part), trees.** In the arithmetic of `double` with its range: growing a tree, a stump or a
random-forest tree returns when the values of the continuous attributes are at most `2 ^ 1022` in
magnitude and no two different values of a column are neighbouring numbers, and either there is no
indexed attribute or no division by an index that all instances have seems to lower the entropy. -/
theorem C209_tree_partial {param : Node.SubsetParam} (hp : ValidParam param) (st : Bool)
    {ts : List AttrType} {data : IList (B64 L)} (hne : data ≠ []) (hn : data.length ≤ 2 ^ 53)
    (hts : ∀ x ∈ data, typesOf x = ts) (hsp : SpreadInRange data)
    (hidx : AttrType.discreteIndexed ∈ ts → ∀ p : IList (B64 L), p ≠ [] → (∀ x ∈ p, x ∈ data) →
      p.length ≤ data.length → NoGainIndexed (B64 L) (p.map Inst.label))
    (c : Cond (B64 L)) {fuel : Nat} (hfuel : data.length ≤ fuel) :
    ∃ n, Node.grow param st fuel data c = .ok n := by
  refine C168_growth_partial hp st fuel data c hne hts ?_ ?_ ⟨?_, hidx⟩ hfuel
  · intro x hx i v hv
    obtain ⟨q, hq, _⟩ := hsp.fin x hx i v hv
    show XR.le v.val v.val = true
    rw [hq]; simp [XR.le]
  · intro x hx y hy i hlt
    obtain ⟨v, w, hv, hw⟩ := cont_of_lt ((hts x hx).trans (hts y hy).symm) hlt
    have hxv : contValAt x i = v := by unfold contValAt; rw [hv]
    have hyw : contValAt y i = w := by unfold contValAt; rw [hw]
    rw [hxv, hyw] at hlt ⊢
    obtain ⟨p, h1, h2⟩ := hsp.gap x hx y hy i v w hv hw hlt
    obtain ⟨qa, hqa, ba⟩ := hsp.fin x hx i v hv
    obtain ⟨qb, hqb, bb⟩ := hsp.fin y hy i w hw
    rw [B64.lt_val] at h1 h2
    rw [hqa] at h1
    rw [hqb] at h2
    obtain ⟨qp, hqp⟩ : ∃ qp, p.val = .fin qp := by
      cases hpv : p.val <;> rw [hpv] at h1 h2 <;> simp_all [XR.lt]
    rw [hqp] at h1 h2
    simp only [XR.lt, decide_eq_true_eq] at h1 h2
    refine B64.midpoint hqa hqb (B64.fin_rep hqp).1 h1 h2 ?_
    have e : (2 : ℚ) ^ 1023 = (2 : ℚ) ^ 1022 + (2 : ℚ) ^ 1022 := by rw [pow_succ]; ring
    rw [e]
    exact le_trans (abs_add_le _ _) (add_le_add ba bb)
  · intro _ p hpne _ hlen
    exact B64.noGainDiscrete _ (by simpa using hpne) (by simpa using le_trans hlen hn)

theorem log64_val {q r : ℚ} {y : ℝ} (hy : y = Real.log q) (h : LogCorrect64 L q)
    (hr : ∀ s, D53.Nearest s y → s = r) {x : B64 L} (hx : x.val = .fin q) : (Dbl.log x).val = .fin r := by
  obtain ⟨s, hs, hn⟩ := h
  show (L.log x.val).rnd64 = _
  rw [hx, hs, hr s (by rw [hy]; exact hn)]

theorem B64.overflow {q : ℚ} (h : (2 : ℚ) ^ 1024 ≤ q) : XR.rnd64 (.fin q) = .pinf := by
  have hr : B64.Rep ((2 : ℚ) ^ 1024) := by
    have := B64.rep_pow (e := 1024) (by norm_num)
    rwa [show (1024 : ℤ) = ((1024 : ℕ) : ℤ) by norm_num, zpow_natCast] at this
  have := B64.le_rnd_of_le hr h
  show B64.clip (B64.rnd q) = _
  unfold B64.clip
  rw [if_pos this]

open D53 in
/-- **C209 fails for trees**: whenever the sum of two different values overflows, training a tree on two
instances of different classes with these values never returns (with a `log` correctly rounded at 2,
1 and 1/2): the split value is infinite, so each node hands all its data to its first child. -/
theorem C209_tree_refuted (h2 : LogCorrect64 L 2) (h1 : LogCorrect64 L 1) (hh : LogCorrect64 L (1 / 2))
    (a b : B64 L) {p q : ℚ} (ha : a.val = .fin p) (hb : b.val = .fin q) (hpq : p < q) (hov : (2 : ℚ) ^ 1024 ≤ p + q) :
    ∀ (fuel : Nat) (c : Cond (B64 L)), ∃ e, Node.grow none false fuel
      [⟨"a", [.continuous a], none⟩, ⟨"b", [.continuous b], none⟩] c = .error e := by
  have e2 : (Dbl.log (Dbl.ofInt 2 : B64 L)).val = .fin ln2 :=
    log64_val rfl h2 nearest_two.2 (by rw [B64.val_int]; decide +kernel)
  have hs : (a +. b).val = .pinf := by
    rw [B64.val_add, ha, hb]; exact B64.overflow hov
  have hm : ((a +. b) /. Dbl.ofInt 2).val = .pinf := by
    rw [B64.val_div, hs, B64.val_int]; decide +kernel
  refine neighbours_loop (a := a) (b := b) ?_ ?_ ?_ ?_ ?_ rfl
  · rw [B64.lt_val, ha, hb]; simp only [XR.lt, decide_eq_false_iff_not]; exact not_lt.2 hpq.le
  · show XR.eq b.val a.val = false
    rw [ha, hb]; simp only [XR.eq, decide_eq_false_iff_not]; exact hpq.ne'
  · have ha : DD.ofList ["a"] = ⟨[("a", 1)], 1⟩ := by decide +kernel
    have hb : DD.ofList ["b"] = ⟨[("b", 1)], 1⟩ := by decide +kernel
    have hab : DD.ofList ["a", "b"] = ⟨[("a", 1), ("b", 1)], 2⟩ := by decide +kernel
    have e1 : (Dbl.log ((Dbl.ofNat 1 : B64 L) /. Dbl.ofNat 1)).val = .fin 0 :=
      log64_val rfl h1 nearest_one.2 (by rw [B64.val_div, B64.val_nat]; decide +kernel)
    have eh : (Dbl.log ((Dbl.ofNat 1 : B64 L) /. Dbl.ofNat 2)).val = .fin (-ln2) :=
      log64_val rfl hh nearest_half.2 (by rw [B64.val_div, B64.val_nat, B64.val_nat]; decide +kernel)
    rw [B64.lt_val]
    unfold labelEntropy
    rw [ha, hb, hab]
    simp only [DD.entropy, List.foldl_cons, List.foldl_nil, B64.val_add, B64.val_sub, B64.val_mul, B64.val_div,
      B64.val_nat, B64.val_zero, e2, e1, eh]
    decide +kernel
  · rw [B64.le_val, hm, ha]; rfl
  · rw [B64.le_val, hm, hb]; rfl

/-! ## means and deviations -/

/-- a sum whose terms are at most `2 ^ e` stays below the number of terms times that -/
theorem sum_in_range {α : Type} (f : α → B64 L) {e : ℤ} (he : -1074 ≤ e) : ∀ (l : List α) (s : B64 L) (q : ℚ) (j : ℕ),
    B64.Is s q → |q| ≤ j * (2 : ℚ) ^ e → j + l.length ≤ 2 ^ 53 → ((j + l.length : ℕ) : ℚ) * (2 : ℚ) ^ e < (2 : ℚ) ^ 1024 →
    (∀ x ∈ l, ∃ g, B64.Is (f x) g ∧ |g| ≤ (2 : ℚ) ^ e) →
    ∃ q', B64.Is (l.foldl (fun s x => s +. f x) s) q' ∧ |q'| ≤ ((j + l.length : ℕ) : ℚ) * (2 : ℚ) ^ e := by
  intro l
  induction l with
  | nil => intro s q j hs hq _ _ _; exact ⟨q, hs, by simpa using hq⟩
  | cons a l ih =>
    intro s q j hs hq hj hb hf
    obtain ⟨g, hg, g0⟩ := hf a (by simp)
    rw [List.length_cons] at hj hb ⊢
    rw [show j + (l.length + 1) = j + 1 + l.length by omega] at hj hb ⊢
    have hle : ((j + 1 : ℕ) : ℚ) * (2 : ℚ) ^ e < (2 : ℚ) ^ 1024 := by
      refine lt_of_le_of_lt ?_ hb
      exact mul_le_mul_of_nonneg_right (by exact_mod_cast (by omega : j + 1 ≤ j + 1 + l.length)) (D53.two_zpow_pos e).le
    obtain ⟨k1, k2⟩ := hs.add hg (B64.rep_mul_pow (n := j + 1) (by omega) he) hle (by
      refine le_trans (abs_add_le _ _) (le_trans (add_le_add hq g0) (le_of_eq ?_))
      push_cast; ring)
    rw [List.foldl_cons]
    exact ih _ _ (j + 1) k1 k2 hj hb (fun x hx => hf x (by simp [hx]))

theorem mean_in_range {α : Type} (f : α → B64 L) {e : ℤ} (he : -1074 ≤ e) (l : List α) (hne : l ≠ []) (hn : l.length ≤ 2 ^ 53)
    (hb : (l.length : ℚ) * (2 : ℚ) ^ e < (2 : ℚ) ^ 1024) (hf : ∀ x ∈ l, ∃ g, B64.Is (f x) g ∧ |g| ≤ (2 : ℚ) ^ e) :
    ∃ m, B64.Is ((l.foldl (fun s x => s +. f x) Dbl.zero) /. Dbl.ofNat l.length) m ∧ |m| ≤ (2 : ℚ) ^ e := by
  have hpos : (0 : ℚ) < l.length := by exact_mod_cast List.length_pos_of_ne_nil hne
  obtain ⟨q, k1, k2⟩ := sum_in_range f he l Dbl.zero 0 0 B64.is_zero (by simp) (by simpa using hn) (by simpa using hb) hf
  rw [Nat.zero_add] at k2
  have h2e : (2 : ℚ) ^ e < (2 : ℚ) ^ 1024 := by
    refine lt_of_le_of_lt ?_ hb
    exact le_mul_of_one_le_left (D53.two_zpow_pos e).le (by exact_mod_cast List.length_pos_of_ne_nil hne)
  obtain ⟨h1, h2⟩ := k1.div (B64.is_nat hn) hpos.ne' (B64.rep_pow he) h2e (by
    rw [abs_div, abs_of_pos hpos, div_le_iff₀ hpos, mul_comm]
    exact k2)
  exact ⟨_, h1, h2⟩

/-- **C209 (part), means.** If the values of a column are at most `2 ^ e` in magnitude and `n · 2 ^ e` is in the
range of `double`, the computed mean of the `n` values is a number of magnitude at most `2 ^ e`. -/
theorem C209_mean_partial (l : IList (B64 L)) (hne : l ≠ []) (hn : l.length ≤ 2 ^ 53) (i : Nat) {e : ℤ} (he : -1074 ≤ e)
    (hb : (l.length : ℚ) * (2 : ℚ) ^ e < (2 : ℚ) ^ 1024)
    (hv : ∀ x ∈ l, ∃ (d : B64 L) (q : ℚ), ContAt x i d ∧ d.val = .fin q ∧ |q| ≤ (2 : ℚ) ^ e) :
    ∃ (m : B64 L) (q : ℚ), l.attributeAverage i = .ok (some (.continuous m)) ∧ m.val = .fin q ∧ |q| ≤ (2 : ℚ) ^ e := by
  have hex : ∀ x : Inst (B64 L), ∃ d : B64 L, x ∈ l → ContAt x i d ∧ ∃ q, B64.Is d q ∧ |q| ≤ (2 : ℚ) ^ e := by
    intro x
    by_cases hx : x ∈ l
    · obtain ⟨d, q, h1, h2, h3⟩ := hv x hx; exact ⟨d, fun _ => ⟨h1, q, h2, h3⟩⟩
    · exact ⟨Dbl.zero, fun h => absurd h hx⟩
  choose f hf using hex
  obtain ⟨m, h1, h2⟩ := mean_in_range f he l hne hn hb (fun x hx => (hf x hx).2)
  exact ⟨_, m, column_mean hne (fun x hx => (hf x hx).1), h1, h2⟩

/-- **C209 fails for means**: the computed mean of two or more values of `2 ^ 1023` or more is infinite. -/
theorem C209_mean_refuted (l : IList (B64 L)) (h2 : 2 ≤ l.length) (hn : l.length ≤ 2 ^ 53) (i : Nat)
    (hv : ∀ x ∈ l, ∃ (d : B64 L) (q : ℚ), ContAt x i d ∧ d.val = .fin q ∧ (2 : ℚ) ^ 1023 ≤ q) :
    ∃ m : B64 L, l.attributeAverage i = .ok (some (.continuous m)) ∧ m.val = .pinf := by
  have hex : ∀ x : Inst (B64 L), ∃ d : B64 L, x ∈ l → ContAt x i d ∧ ∃ q, d.val = .fin q ∧ (2 : ℚ) ^ 1023 ≤ q := by
    intro x
    by_cases hx : x ∈ l
    · obtain ⟨d, q, h1, h2, h3⟩ := hv x hx; exact ⟨d, fun _ => ⟨h1, q, h2, h3⟩⟩
    · exact ⟨Dbl.zero, fun h => absurd h hx⟩
  choose f hf using hex
  have hne : l ≠ [] := by rintro rfl; simp at h2
  refine ⟨_, column_mean hne (fun x hx => (hf x hx).1), ?_⟩
  have stay : ∀ (r : List (Inst (B64 L))), (∀ x ∈ r, x ∈ l) → ∀ s : B64 L, s.val = .pinf →
      (r.foldl (fun s x => s +. f x) s).val = .pinf := by
    intro r
    induction r with
    | nil => intro _ s hs; exact hs
    | cons a r ih =>
      intro hr s hs
      rw [List.foldl_cons]
      apply ih (fun x hx => hr x (by simp [hx]))
      obtain ⟨q, hq, _⟩ := (hf a (hr a (by simp))).2
      rw [B64.val_add, hs, hq]; rfl
  match l, h2, hn, hf, stay with
  | x :: y :: r, _, hn, hf, stay =>
    obtain ⟨p, hp, hp1⟩ := (hf x (by simp)).2
    obtain ⟨q, hq, hq1⟩ := (hf y (by simp)).2
    have hsum : ((x :: y :: r).foldl (fun s x => s +. f x) Dbl.zero).val = .pinf := by
      rw [List.foldl_cons, List.foldl_cons, B64.zero_add]
      apply stay r (fun z hz => by simp [hz])
      rw [B64.val_add, hp, hq]
      apply B64.overflow
      have e : (2 : ℚ) ^ 1024 = (2 : ℚ) ^ 1023 + (2 : ℚ) ^ 1023 := by rw [pow_succ]; ring
      rw [e]
      exact add_le_add hp1 hq1
    rw [B64.val_div, hsum, show (Dbl.ofNat (x :: y :: r).length : B64 L).val = .fin ((x :: y :: r).length : ℕ) from B64.is_nat hn]
    have hpos : (0 : ℚ) < ((x :: y :: r).length : ℕ) := by
      exact_mod_cast (by simp : 0 < (x :: y :: r).length)
    simp only [XR.div, if_neg hpos.ne', XR.infSign]
    rw [if_pos (by simpa using hpos)]
    rfl

/-- the square of a number of at most `2 ^ -538` is computed as 0 -/
theorem square_underflow (hL : SquareCorrect L) {a : B64 L} {q : ℚ} (ha : B64.Is a q) (h : |q| ≤ (2 : ℚ) ^ (-538 : ℤ)) :
    Dbl.pow a 2 = (Dbl.zero : B64 L) := by
  apply B64.ext'
  show (L.pow a.val 2).rnd64 = _
  rw [show a.val = .fin q from ha, hL q, show (Dbl.zero : B64 L).val = .fin 0 from B64.is_zero]
  show B64.clip (B64.rnd (q * q)) = _
  rw [B64.rnd_underflow, B64.clip_fin (by rw [abs_zero]; positivity)]
  rw [abs_mul]
  calc |q| * |q| ≤ (2 : ℚ) ^ (-538 : ℤ) * (2 : ℚ) ^ (-538 : ℤ) := mul_le_mul h h (abs_nonneg _) (D53.two_zpow_pos _).le
    _ = (2 : ℚ) ^ (-1076 : ℤ) := by rw [← D53.two_zpow_add]; norm_num
    _ < _ := D53.two_zpow_lt (by norm_num)

theorem sum_of_zeros {α : Type} (f : α → B64 L) : ∀ (l : List α), (∀ x ∈ l, f x = Dbl.zero) →
    l.foldl (fun s x => s +. f x) Dbl.zero = Dbl.zero := by
  intro l
  induction l with
  | nil => intro _; rfl
  | cons a l ih =>
    intro h
    rw [List.foldl_cons, h a (by simp), B64.zero_add]
    exact ih (fun x hx => h x (by simp [hx]))

/-- **C209 fails for deviations**: if all values of a column are at most `2 ^ -539` in magnitude, its standard
deviation is computed as 0, however much the values differ. -/
theorem C209_deviation_refuted (hL : SquareCorrect L) (hroot : L.sqrt (.fin 0) = .fin 0)
    (l : IList (B64 L)) (h2 : 2 ≤ l.length) (hn : l.length ≤ 2 ^ 53) (i : Nat)
    (hv : ∀ x ∈ l, ∃ (d : B64 L) (q : ℚ), ContAt x i d ∧ d.val = .fin q ∧ |q| ≤ (2 : ℚ) ^ (-539 : ℤ)) :
    l.attributeStandardDeviation i = .ok (some (.continuous (Dbl.zero : B64 L))) := by
  have hex : ∀ x : Inst (B64 L), ∃ d : B64 L, x ∈ l → ContAt x i d ∧ ∃ q, B64.Is d q ∧ |q| ≤ (2 : ℚ) ^ (-539 : ℤ) := by
    intro x
    by_cases hx : x ∈ l
    · obtain ⟨d, q, h1, h2, h3⟩ := hv x hx; exact ⟨d, fun _ => ⟨h1, q, h2, h3⟩⟩
    · exact ⟨Dbl.zero, fun h => absurd h hx⟩
  choose f hf using hex
  have hne : l ≠ [] := by rintro rfl; simp at h2
  have hsmall : ∀ e : ℤ, e ≤ 1023 → (2 : ℚ) ^ e < (2 : ℚ) ^ 1024 := by
    intro e he
    have := D53.two_zpow_lt (a := e) (b := 1024) (by omega)
    rwa [show (1024 : ℤ) = ((1024 : ℕ) : ℤ) by norm_num, zpow_natCast] at this
  have hb : (l.length : ℚ) * (2 : ℚ) ^ (-539 : ℤ) < (2 : ℚ) ^ 1024 := by
    refine lt_of_le_of_lt ?_ (hsmall 53 (by norm_num))
    have h1 : (l.length : ℚ) ≤ (2 : ℚ) ^ (53 : ℤ) := by
      rw [show (53 : ℤ) = ((53 : ℕ) : ℤ) by norm_num, zpow_natCast]; exact_mod_cast hn
    have h3 : (2 : ℚ) ^ (-539 : ℤ) ≤ 1 := by
      have := D53.two_zpow_le (a := -539) (b := 0) (by norm_num); simpa using this
    have h4 := D53.two_zpow_pos (-539)
    calc (l.length : ℚ) * (2 : ℚ) ^ (-539 : ℤ) ≤ l.length * 1 := mul_le_mul_of_nonneg_left h3 (by positivity)
      _ = l.length := mul_one _
      _ ≤ _ := h1
  obtain ⟨m, m1, m2⟩ := mean_in_range f (e := -539) (by norm_num) l hne hn hb (fun x hx => (hf x hx).2)
  rw [column_sd hne (fun x hx => (hf x hx).1)]
  have hz : ∀ x ∈ l, Dbl.pow (f x -. ((l.foldl (fun s x => s +. f x) Dbl.zero) /. Dbl.ofNat l.length)) 2 = (Dbl.zero : B64 L) := by
    intro x hx
    obtain ⟨q, hq, hq1⟩ := (hf x hx).2
    obtain ⟨k1, k2⟩ := hq.sub m1 (B64.rep_pow (e := -538) (by norm_num)) (hsmall _ (by norm_num)) (by
      refine le_trans (abs_sub _ _) (le_trans (add_le_add hq1 m2) (le_of_eq ?_))
      rw [show (-538 : ℤ) = 1 + (-539) by norm_num, D53.two_zpow_add, zpow_one]; ring)
    exact square_underflow hL k1 k2
  rw [sum_of_zeros _ l hz]
  congr 3
  have hd : ((Dbl.zero : B64 L) /. Dbl.ofNat (l.length - 1)).val = .fin 0 := by
    have hpos : (0 : ℚ) < ((l.length - 1 : ℕ) : ℚ) := by exact_mod_cast (by omega : 0 < l.length - 1)
    rw [B64.val_div, show (Dbl.ofNat (l.length - 1) : B64 L).val = _ from B64.is_nat (by omega),
      show (Dbl.zero : B64 L).val = .fin 0 from B64.is_zero]
    simp only [XR.div, if_neg hpos.ne', zero_div]
    exact B64.is_zero (L := L)
  apply B64.ext'
  show (L.sqrt ((Dbl.zero : B64 L) /. Dbl.ofNat (l.length - 1)).val).rnd64 = _
  rw [hd, hroot]
  rfl

/-! ## distances -/

/-- **C209 fails for distances**: two instances with numbers that differ, by `2 ^ -538` or less, have distance 0
(a zero distance is meant for instances that agree). -/
theorem C209_distance_refuted (hL : SquareCorrect L) (vs ws : List (B64 L)) (c c' : String)
    (h : List.Forall₂ (fun v w : B64 L => ∃ p q : ℚ, v.val = .fin p ∧ w.val = .fin q ∧ |p - q| ≤ (2 : ℚ) ^ (-538 : ℤ)) vs ws) :
    euclidean ⟨c, vs.map .continuous, none⟩ ⟨c', ws.map .continuous, none⟩ = .ok (Dbl.zero : B64 L) := by
  rw [euclidean_foldl _ _ (by simp [h.length_eq])]
  congr 1
  show ((vs.map Attr.continuous).zip (ws.map Attr.continuous)).foldl _ (Dbl.zero : B64 L) = _
  induction h with
  | nil => rfl
  | cons hvw _ ih =>
    obtain ⟨p, q, hp, hq, hd⟩ := hvw
    simp only [List.map_cons, List.zip_cons_cons, List.foldl_cons]
    have hlt : (2 : ℚ) ^ (-538 : ℤ) < (2 : ℚ) ^ 1024 := by
      have := D53.two_zpow_lt (a := -538) (b := 1024) (by norm_num)
      rwa [show (1024 : ℤ) = ((1024 : ℕ) : ℤ) by norm_num, zpow_natCast] at this
    obtain ⟨k1, k2⟩ := B64.Is.sub hp hq (B64.rep_pow (e := -538) (by norm_num)) hlt hd
    rw [show euclidStep (Dbl.zero : B64 L) (.continuous _) (.continuous _) = Dbl.zero from by
      show Dbl.zero +. Dbl.pow _ 2 = _
      rw [square_underflow hL k1 k2, B64.zero_add]]
    exact ih

/-- **C209 fails for distances**: two instances with one number that differ by `2 ^ 512` or more (and at most
`2 ^ 1023`) have an infinite distance. -/
theorem C209_far_refuted (hL : SquareCorrect L) (v w : B64 L) (c c' : String) {p q : ℚ} (hp : v.val = .fin p)
    (hq : w.val = .fin q) (hd : (2 : ℚ) ^ (512 : ℤ) ≤ |p - q|) (hd' : |p - q| ≤ (2 : ℚ) ^ (1023 : ℤ)) :
    ∃ d : B64 L, euclidean ⟨c, [.continuous v], none⟩ ⟨c', [.continuous w], none⟩ = .ok d ∧ d.val = .pinf := by
  refine ⟨Dbl.zero +. Dbl.pow (v -. w) 2, rfl, ?_⟩
  rw [B64.zero_add]
  show (L.pow (v -. w).val 2).rnd64 = _
  have hlt : (2 : ℚ) ^ (1023 : ℤ) < (2 : ℚ) ^ 1024 := by
    have := D53.two_zpow_lt (a := 1023) (b := 1024) (by norm_num)
    rwa [show (1024 : ℤ) = ((1024 : ℕ) : ℤ) by norm_num, zpow_natCast] at this
  obtain ⟨k1, _⟩ := B64.Is.sub hp hq (B64.rep_pow (e := 1023) (by norm_num)) hlt hd'
  rw [show (v -. w).val = _ from k1, hL]
  apply B64.overflow
  have hge : (2 : ℚ) ^ (512 : ℤ) ≤ |B64.rnd (p - q)| := by
    rcases le_abs.1 hd with h | h
    · exact le_trans (B64.le_rnd_of_le (B64.rep_pow (by norm_num)) h) (le_abs_self _)
    · have := B64.le_rnd_of_le (B64.rep_pow (e := 512) (by norm_num)) h
      rw [B64.rnd_neg] at this
      exact le_trans this (neg_le_abs _)
  rw [← abs_mul_abs_self]
  calc (2 : ℚ) ^ 1024 = (2 : ℚ) ^ (512 : ℤ) * (2 : ℚ) ^ (512 : ℤ) := by
        rw [← D53.two_zpow_add, show (512 + 512 : ℤ) = ((1024 : ℕ) : ℤ) by norm_num, zpow_natCast]
    _ ≤ _ := mul_le_mul hge hge (D53.two_zpow_pos _).le (abs_nonneg _)

/-- what one attribute adds to the distance, between `2 ^ -1074` and `2 ^ 1000`, or 0 -/
theorem square_in_range (hL : SquareCorrect L) {v w : B64 L} {p q : ℚ} (hp : v.val = .fin p) (hq : w.val = .fin q)
    (hne : p ≠ q → (2 : ℚ) ^ (-537 : ℤ) ≤ |p - q|) (hd : |p - q| ≤ (2 : ℚ) ^ (500 : ℤ)) :
    ∃ g, B64.Is (Dbl.pow (v -. w) 2 : B64 L) g ∧ 0 ≤ g ∧ g ≤ (2 : ℚ) ^ (1000 : ℤ) ∧ (g = 0 ↔ p = q) := by
  have small : ∀ e : ℤ, e ≤ 1023 → (2 : ℚ) ^ e < (2 : ℚ) ^ 1024 := by
    intro e he
    have := D53.two_zpow_lt (a := e) (b := 1024) (by omega)
    rwa [show (1024 : ℤ) = ((1024 : ℕ) : ℤ) by norm_num, zpow_natCast] at this
  obtain ⟨k1, k2⟩ := B64.Is.sub hp hq (B64.rep_pow (e := 500) (by norm_num)) (small _ (by norm_num)) hd
  set z := B64.rnd (p - q) with hz
  have hzz : z * z = |z| * |z| := (abs_mul_abs_self z).symm
  obtain ⟨j1, j2⟩ := B64.rnd64_fin (q := z * z) (B64.rep_pow (e := 1000) (by norm_num)) (small _ (by norm_num)) (by
    rw [abs_mul]
    calc |z| * |z| ≤ (2 : ℚ) ^ (500 : ℤ) * (2 : ℚ) ^ (500 : ℤ) := mul_le_mul k2 k2 (abs_nonneg _) (D53.two_zpow_pos _).le
      _ = _ := by rw [← D53.two_zpow_add]; norm_num)
  refine ⟨B64.rnd (z * z), ?_, B64.rnd_nonneg (mul_self_nonneg z), le_trans (le_abs_self _) j2, ?_⟩
  · show (L.pow (v -. w).val 2).rnd64 = _
    rw [show (v -. w).val = _ from k1, hL]
    exact j1
  · constructor
    · intro h0
      by_contra hpq
      have h1 := hne hpq
      have hge : (2 : ℚ) ^ (-537 : ℤ) ≤ |z| := by
        rcases le_abs.1 h1 with h | h
        · exact le_trans (B64.le_rnd_of_le (B64.rep_pow (by norm_num)) h) (le_abs_self _)
        · have := B64.le_rnd_of_le (B64.rep_pow (e := -537) (by norm_num)) h
          rw [B64.rnd_neg] at this
          exact le_trans this (neg_le_abs _)
      have : (2 : ℚ) ^ (-1074 : ℤ) ≤ B64.rnd (z * z) := by
        apply B64.le_rnd_of_le (B64.rep_pow le_rfl)
        rw [hzz]
        calc (2 : ℚ) ^ (-1074 : ℤ) = (2 : ℚ) ^ (-537 : ℤ) * (2 : ℚ) ^ (-537 : ℤ) := by rw [← D53.two_zpow_add]; norm_num
          _ ≤ _ := mul_le_mul hge hge (D53.two_zpow_pos _).le (abs_nonneg _)
      rw [h0] at this
      exact absurd this (not_le.2 (D53.two_zpow_pos _))
    · intro h
      rw [hz, h, sub_self, B64.rnd_zero, mul_zero, B64.rnd_zero]

/-- the numbers of two instances differ by `2 ^ -537` at least, if they differ, and by `2 ^ 500` at most -/
def DifferInRange (a b : Attr (B64 L)) : Prop :=
  ∀ v w, a = .continuous v → b = .continuous w → ∃ p q : ℚ, v.val = .fin p ∧ w.val = .fin q ∧
    (p ≠ q → (2 : ℚ) ^ (-537 : ℤ) ≤ |p - q|) ∧ |p - q| ≤ (2 : ℚ) ^ (500 : ℤ)

theorem rnd_add_zero_iff {p g : ℚ} (rp : B64.Rep p) (rg : B64.Rep g) (h0 : 0 ≤ p) (h1 : 0 ≤ g) :
    B64.rnd (p + g) = 0 ↔ p = 0 ∧ g = 0 := by
  constructor
  · intro h
    have a1 : p ≤ 0 := h ▸ B64.le_rnd_of_le rp (by linarith)
    have a2 : g ≤ 0 := h ▸ B64.le_rnd_of_le rg (by linarith)
    exact ⟨le_antisymm a1 h0, le_antisymm a2 h1⟩
  · rintro ⟨rfl, rfl⟩; rw [add_zero, B64.rnd_zero]

theorem euclid64_loop (hL : SquareCorrect L) : ∀ (ps : List (Attr (B64 L) × Attr (B64 L))) (s : B64 L) (q : ℚ) (j : ℕ),
    B64.Is s q → 0 ≤ q → q ≤ j * (2 : ℚ) ^ (1000 : ℤ) → j + ps.length ≤ 2 ^ 20 →
    (∀ p ∈ ps, SameKind p.1 p.2 ∧ DifferInRange p.1 p.2) →
    ∃ q', B64.Is (ps.foldl (fun r p => euclidStep r p.1 p.2) s) q' ∧ 0 ≤ q' ∧
      (q' = 0 ↔ q = 0 ∧ ∀ p ∈ ps, (p.1.isContinuous = true ∨ p.1.isDiscrete = true) → p.1 = p.2) := by
  intro ps
  induction ps with
  | nil => intro s q j hs h0 _ _ _; exact ⟨q, hs, h0, by simp⟩
  | cons p ps ih =>
    intro s q j hs h0 hq hj hp
    obtain ⟨hk, hf⟩ := hp p (by simp)
    obtain ⟨a, b⟩ := p
    rw [List.length_cons] at hj
    have hone : (1 : ℚ) ≤ (2 : ℚ) ^ (1000 : ℤ) := by
      have := D53.two_zpow_le (a := 0) (b := 1000) (by norm_num); simpa using this
    have hrep : B64.Rep (((j + 1 : ℕ) : ℚ) * (2 : ℚ) ^ (1000 : ℤ)) := B64.rep_mul_pow (by omega) (by norm_num)
    have hlt : ((j + 1 : ℕ) : ℚ) * (2 : ℚ) ^ (1000 : ℤ) < (2 : ℚ) ^ 1024 := by
      calc ((j + 1 : ℕ) : ℚ) * (2 : ℚ) ^ (1000 : ℤ) ≤ (2 : ℚ) ^ (20 : ℤ) * (2 : ℚ) ^ (1000 : ℤ) := by
            apply mul_le_mul_of_nonneg_right _ (D53.two_zpow_pos _).le
            rw [show (20 : ℤ) = ((20 : ℕ) : ℤ) by norm_num, zpow_natCast]
            exact_mod_cast (by omega : j + 1 ≤ 2 ^ 20)
        _ = (2 : ℚ) ^ (1020 : ℤ) := by rw [← D53.two_zpow_add]; norm_num
        _ < (2 : ℚ) ^ (1024 : ℤ) := D53.two_zpow_lt (by norm_num)
        _ = (2 : ℚ) ^ 1024 := by rw [show (1024 : ℤ) = ((1024 : ℕ) : ℤ) by norm_num, zpow_natCast]
    -- adding one term
    have addTerm : ∀ (t : B64 L) (g : ℚ), B64.Is t g → 0 ≤ g → g ≤ (2 : ℚ) ^ (1000 : ℤ) →
        ∃ h, B64.Is (s +. t) h ∧ 0 ≤ h ∧ h ≤ ((j + 1 : ℕ) : ℚ) * (2 : ℚ) ^ (1000 : ℤ) ∧ (h = 0 ↔ q = 0 ∧ g = 0) := by
      intro t g ht g0 g1
      obtain ⟨k1, k2⟩ := hs.add ht hrep hlt (by
        rw [abs_of_nonneg (add_nonneg h0 g0)]
        refine le_trans (add_le_add hq g1) (le_of_eq ?_)
        push_cast; ring)
      exact ⟨_, k1, B64.rnd_nonneg (add_nonneg h0 g0), le_trans (le_abs_self _) k2,
        rnd_add_zero_iff (B64.fin_rep hs).1 (B64.fin_rep ht).1 h0 g0⟩
    have hqj : q ≤ ((j + 1 : ℕ) : ℚ) * (2 : ℚ) ^ (1000 : ℤ) := by
      refine le_trans hq (mul_le_mul_of_nonneg_right ?_ (D53.two_zpow_pos _).le)
      exact_mod_cast (by omega : j ≤ j + 1)
    have step : ∃ g, B64.Is (euclidStep s a b) g ∧ 0 ≤ g ∧ g ≤ ((j + 1 : ℕ) : ℚ) * (2 : ℚ) ^ (1000 : ℤ) ∧
        (g = 0 ↔ q = 0 ∧ ((a.isContinuous = true ∨ a.isDiscrete = true) → a = b)) := by
      cases a <;> cases b <;> simp only [SameKind] at hk
      case discrete.discrete v w =>
        have es : euclidStep s (.discrete v) (.discrete w) = if v ≠ w then s +. ofInt 1 else s := rfl
        rw [es]
        by_cases hvw : v = w
        · rw [if_neg (not_not.2 hvw)]
          exact ⟨q, hs, h0, hqj, by simp [hvw]⟩
        · rw [if_pos hvw]
          obtain ⟨h, k1, k2, k3, k4⟩ := addTerm (Dbl.ofInt 1) 1 B64.is_one (by norm_num) hone
          refine ⟨h, k1, k2, k3, ?_⟩
          rw [k4]
          constructor
          · rintro ⟨_, h⟩; exact absurd h (by norm_num)
          · rintro ⟨_, h⟩
            exact absurd (by simpa [Attr.isDiscrete] using h (by simp [Attr.isDiscrete])) hvw
      case continuous.continuous v w =>
        obtain ⟨qv, qw, ev, ew, d1, d2⟩ := hf v w rfl rfl
        obtain ⟨g, g1, g2, g3, g4⟩ := square_in_range hL ev ew d1 d2
        obtain ⟨h, k1, k2, k3, k4⟩ := addTerm _ g g1 g2 g3
        refine ⟨h, k1, k2, k3, ?_⟩
        rw [k4, g4]
        refine and_congr_right (fun _ => ⟨fun h _ => ?_, fun h => ?_⟩)
        · subst h
          have hvw : v = w := B64.Is.ext ev ew
          rw [hvw]
        · have hvw : v = w := by simpa using h (by simp [Attr.isContinuous])
          subst hvw
          exact B64.Is.unique ev ew
      all_goals exact ⟨q, hs, h0, hqj, by simp [Attr.isContinuous, Attr.isDiscrete]⟩
    obtain ⟨g, g1, g2, g3, g4⟩ := step
    obtain ⟨q', k1, k2, k3⟩ := ih _ _ (j + 1) g1 g2 g3 (by omega) (fun p' hp' => hp p' (by simp [hp']))
    refine ⟨q', k1, k2, ?_⟩
    rw [k3, g4]
    simp only [List.mem_cons, forall_eq_or_imp]
    tauto

/-- **C209 (part), distances.** The distance of two instances of the same type with at most `2 ^ 20` attributes,
whose numbers differ by `2 ^ -537` at least, if they differ, and by `2 ^ 500` at most, is a number, not
negative, and 0 exactly when all continuous and plain discrete attributes agree. -/
theorem C209_distance_partial (hL : SquareCorrect L) (x y : Inst (B64 L)) (h : List.Forall₂ SameKind x.attrs y.attrs)
    (hn : x.attrs.length ≤ 2 ^ 20) (hr : ∀ p ∈ x.attrs.zip y.attrs, DifferInRange p.1 p.2) :
    ∃ (d : B64 L) (q : ℚ), euclidean x y = .ok d ∧ d.val = .fin q ∧ 0 ≤ q ∧
      (q = 0 ↔ ∀ p ∈ x.attrs.zip y.attrs, (p.1.isContinuous = true ∨ p.1.isDiscrete = true) → p.1 = p.2) := by
  have hlen := h.length_eq
  have hz := List.forall₂_iff_zip.1 h
  obtain ⟨q, k1, k2, k3⟩ := euclid64_loop hL (x.attrs.zip y.attrs) (Dbl.ofInt 0) 0 0 (B64.is_zero (L := L)) le_rfl
    (by simp) (by rw [List.length_zip]; omega) (fun p hp => ⟨hz.2 hp, hr p hp⟩)
  refine ⟨_, q, euclidean_foldl x y (by omega), k1, k2, ?_⟩
  rw [k3]; simp

/-! ## deviations -/

/-- `sqrt` is right up to a factor -/
def RootAccurate (L : CMath) : Prop :=
  ∀ q : ℚ, 0 < q → ∃ r : ℚ, 0 < r ∧ L.sqrt (.fin q) = .fin r ∧ q / 2 ≤ r * r ∧ r * r ≤ 2 * q

theorem two_zpow_range {e : ℤ} (he : e ≤ 1023) : (2 : ℚ) ^ e < (2 : ℚ) ^ 1024 := by
  have := D53.two_zpow_lt (a := e) (b := 1024) (by omega)
  rwa [show (1024 : ℤ) = ((1024 : ℕ) : ℤ) by norm_num, zpow_natCast] at this

/-- a sum of non-negative numbers is not below any of them -/
theorem sum_covers {α : Type} (f : α → B64 L) {e : ℤ} (he : -1074 ≤ e) : ∀ (l : List α) (s : B64 L) (q : ℚ) (j : ℕ),
    B64.Is s q → 0 ≤ q → q ≤ j * (2 : ℚ) ^ e → j + l.length ≤ 2 ^ 53 →
    ((j + l.length : ℕ) : ℚ) * (2 : ℚ) ^ e < (2 : ℚ) ^ 1024 →
    (∀ x ∈ l, ∃ g, B64.Is (f x) g ∧ 0 ≤ g ∧ g ≤ (2 : ℚ) ^ e) →
    ∃ q', B64.Is (l.foldl (fun s x => s +. f x) s) q' ∧ q ≤ q' ∧ q' ≤ ((j + l.length : ℕ) : ℚ) * (2 : ℚ) ^ e ∧
      ∀ x ∈ l, ∀ g, B64.Is (f x) g → g ≤ q' := by
  intro l
  induction l with
  | nil => intro s q j hs _ hq _ _ _; exact ⟨q, hs, le_rfl, by simpa using hq, by simp⟩
  | cons a l ih =>
    intro s q j hs h0 hq hj hb hf
    obtain ⟨g, hg, g0, g1⟩ := hf a (by simp)
    rw [List.length_cons] at hj hb ⊢
    rw [show j + (l.length + 1) = j + 1 + l.length by omega] at hj hb ⊢
    have hle : ((j + 1 : ℕ) : ℚ) * (2 : ℚ) ^ e < (2 : ℚ) ^ 1024 := by
      refine lt_of_le_of_lt ?_ hb
      exact mul_le_mul_of_nonneg_right (by exact_mod_cast (by omega : j + 1 ≤ j + 1 + l.length)) (D53.two_zpow_pos e).le
    obtain ⟨k1, k2⟩ := hs.add hg (B64.rep_mul_pow (n := j + 1) (by omega) he) hle (by
      rw [abs_of_nonneg (add_nonneg h0 g0)]
      refine le_trans (add_le_add hq g1) (le_of_eq ?_)
      push_cast; ring)
    have a1 : q ≤ B64.rnd (q + g) := B64.le_rnd_of_le (B64.fin_rep hs).1 (by linarith)
    have a2 : g ≤ B64.rnd (q + g) := B64.le_rnd_of_le (B64.fin_rep hg).1 (by linarith)
    obtain ⟨q', c1, c2, c3, c4⟩ := ih _ _ (j + 1) k1 (le_trans h0 a1) (le_trans (le_abs_self _) k2) hj hb
      (fun x hx => hf x (by simp [hx]))
    refine ⟨q', c1, le_trans a1 c2, c3, ?_⟩
    intro x hx g' hg'
    rcases List.mem_cons.1 hx with rfl | hx
    · rw [hg'.unique hg]; exact le_trans a2 c2
    · exact c4 x hx g' hg'

/-- **C209 (part), deviations.** For a column of at most `2 ^ 20` numbers of magnitude at most `2 ^ 500` the standard
deviation is a number, and positive if two of the values differ by `2 ^ -500` or more. -/
theorem C209_deviation_partial (hL : SquareCorrect L) (hroot : RootAccurate L) (hroot0 : L.sqrt (.fin 0) = .fin 0)
    (l : IList (B64 L)) (h2 : 2 ≤ l.length) (hn : l.length ≤ 2 ^ 20) (i : Nat) (v : Inst (B64 L) → ℚ)
    (hv : ∀ x ∈ l, ∃ d : B64 L, ContAt x i d ∧ d.val = .fin (v x) ∧ |v x| ≤ (2 : ℚ) ^ (500 : ℤ)) :
    ∃ (s : B64 L) (r : ℚ), l.attributeStandardDeviation i = .ok (some (.continuous s)) ∧ s.val = .fin r ∧ 0 ≤ r ∧
      ((∃ x ∈ l, ∃ y ∈ l, (2 : ℚ) ^ (-500 : ℤ) ≤ |v x - v y|) → 0 < r) := by
  have hex : ∀ x : Inst (B64 L), ∃ d : B64 L, x ∈ l → ContAt x i d ∧ B64.Is d (v x) ∧ |v x| ≤ (2 : ℚ) ^ (500 : ℤ) := by
    intro x
    by_cases hx : x ∈ l
    · obtain ⟨d, hd⟩ := hv x hx; exact ⟨d, fun _ => hd⟩
    · exact ⟨Dbl.zero, fun h => absurd h hx⟩
  choose f hf using hex
  have hne : l ≠ [] := by rintro rfl; simp at h2
  have hlen : (l.length : ℚ) ≤ (2 : ℚ) ^ (20 : ℤ) := by
    rw [show (20 : ℤ) = ((20 : ℕ) : ℤ) by norm_num, zpow_natCast]; exact_mod_cast hn
  have bound : ∀ e : ℤ, (l.length : ℚ) * (2 : ℚ) ^ e ≤ (2 : ℚ) ^ (20 + e) := by
    intro e
    rw [D53.two_zpow_add]
    exact mul_le_mul_of_nonneg_right hlen (D53.two_zpow_pos e).le
  obtain ⟨m, m1, m2⟩ := mean_in_range f (e := 500) (by norm_num) l hne (by omega)
    (lt_of_le_of_lt (bound _) (two_zpow_range (by norm_num))) (fun x hx => ⟨v x, (hf x hx).2⟩)
  set M := (l.foldl (fun s x => s +. f x) Dbl.zero) /. Dbl.ofNat l.length with hM
  have term : ∀ x ∈ l, ∃ g, B64.Is (Dbl.pow (f x -. M) 2 : B64 L) g ∧ 0 ≤ g ∧ g ≤ (2 : ℚ) ^ (1002 : ℤ) ∧
      ((2 : ℚ) ^ (-501 : ℤ) ≤ |v x - m| → (2 : ℚ) ^ (-1002 : ℤ) ≤ g) := by
    intro x hx
    obtain ⟨k1, k2⟩ := (hf x hx).2.1.sub m1 (B64.rep_pow (e := 501) (by norm_num)) (two_zpow_range (by norm_num)) (by
      refine le_trans (abs_sub _ _) (le_trans (add_le_add (hf x hx).2.2 m2) (le_of_eq ?_))
      rw [show (501 : ℤ) = 1 + 500 by norm_num, D53.two_zpow_add, zpow_one]; ring)
    set z := B64.rnd (v x - m) with hz
    have hzz : z * z = |z| * |z| := (abs_mul_abs_self z).symm
    obtain ⟨j1, j2⟩ := B64.rnd64_fin (q := z * z) (B64.rep_pow (e := 1002) (by norm_num)) (two_zpow_range (by norm_num)) (by
      rw [abs_mul]
      calc |z| * |z| ≤ (2 : ℚ) ^ (501 : ℤ) * (2 : ℚ) ^ (501 : ℤ) := mul_le_mul k2 k2 (abs_nonneg _) (D53.two_zpow_pos _).le
        _ = _ := by rw [← D53.two_zpow_add]; norm_num)
    refine ⟨B64.rnd (z * z), ?_, B64.rnd_nonneg (mul_self_nonneg z), le_trans (le_abs_self _) j2, ?_⟩
    · show (L.pow (f x -. M).val 2).rnd64 = _
      rw [show (f x -. M).val = _ from k1, hL]
      exact j1
    · intro h1
      have hge : (2 : ℚ) ^ (-501 : ℤ) ≤ |z| := by
        rcases le_abs.1 h1 with h | h
        · exact le_trans (B64.le_rnd_of_le (B64.rep_pow (by norm_num)) h) (le_abs_self _)
        · have := B64.le_rnd_of_le (B64.rep_pow (e := -501) (by norm_num)) h
          rw [B64.rnd_neg] at this
          exact le_trans this (neg_le_abs _)
      apply B64.le_rnd_of_le (B64.rep_pow (by norm_num))
      rw [hzz]
      calc (2 : ℚ) ^ (-1002 : ℤ) = (2 : ℚ) ^ (-501 : ℤ) * (2 : ℚ) ^ (-501 : ℤ) := by rw [← D53.two_zpow_add]; norm_num
        _ ≤ _ := mul_le_mul hge hge (D53.two_zpow_pos _).le (abs_nonneg _)
  obtain ⟨S, s1, s2, s3, s4⟩ := sum_covers (fun x => Dbl.pow (f x -. M) 2) (e := 1002) (by norm_num) l Dbl.zero 0 0
    B64.is_zero le_rfl (by simp) (by omega)
    (by rw [Nat.zero_add]; exact lt_of_le_of_lt (bound _) (two_zpow_range (by norm_num)))
    (fun x hx => by obtain ⟨g, g1, g2, g3, _⟩ := term x hx; exact ⟨g, g1, g2, g3⟩)
  rw [Nat.zero_add] at s3
  have hpos : (0 : ℚ) < ((l.length - 1 : ℕ) : ℚ) := by exact_mod_cast (by omega : 0 < l.length - 1)
  have hone : (1 : ℚ) ≤ ((l.length - 1 : ℕ) : ℚ) := by exact_mod_cast (by omega : 1 ≤ l.length - 1)
  have hdiv_le : S / ((l.length - 1 : ℕ) : ℚ) ≤ (2 : ℚ) ^ (1022 : ℤ) :=
    le_trans (div_le_self s2 hone) (le_trans s3 (bound 1002))
  obtain ⟨v1, v2⟩ := s1.div (B64.is_nat (n := l.length - 1) (by omega)) hpos.ne' (B64.rep_pow (e := 1022) (by norm_num))
    (two_zpow_range (by norm_num)) (by rw [abs_of_nonneg (div_nonneg s2 hpos.le)]; exact hdiv_le)
  set V := B64.rnd (S / ((l.length - 1 : ℕ) : ℚ)) with hV
  have hV0 : 0 ≤ V := B64.rnd_nonneg (div_nonneg s2 hpos.le)
  -- the root
  have root : ∃ r, B64.Is (Dbl.sqrt ((l.foldl (fun s x => s +. Dbl.pow (f x -. M) 2) Dbl.zero) /.
      Dbl.ofNat (l.length - 1)) : B64 L) r ∧ 0 ≤ r ∧ ((2 : ℚ) ^ (-1022 : ℤ) ≤ V → 0 < r) := by
    rcases hV0.eq_or_lt with hz | hp
    · refine ⟨0, ?_, le_rfl, ?_⟩
      · show (L.sqrt (_ : B64 L).val).rnd64 = _
        rw [show (_ : B64 L).val = _ from v1, ← hz, hroot0]
        exact B64.is_zero (L := L)
      · intro h; rw [← hz] at h; exact absurd h (not_le.2 (D53.two_zpow_pos _))
    · obtain ⟨r, r0, r1, r2, r3⟩ := hroot V hp
      have hr : r ≤ (2 : ℚ) ^ (512 : ℤ) := by
        by_contra hc
        push Not at hc
        have h1 : (2 : ℚ) ^ (512 : ℤ) * (2 : ℚ) ^ (512 : ℤ) < r * r := mul_lt_mul'' hc hc (D53.two_zpow_pos _).le (D53.two_zpow_pos _).le
        rw [← D53.two_zpow_add] at h1
        have h3 : V ≤ (2 : ℚ) ^ (1022 : ℤ) := le_trans (le_abs_self _) v2
        have h4 : 2 * V ≤ (2 : ℚ) ^ (1023 : ℤ) := by
          rw [show (1023 : ℤ) = 1 + 1022 by norm_num, D53.two_zpow_add, zpow_one]
          exact mul_le_mul_of_nonneg_left h3 (by norm_num)
        have h5 := D53.two_zpow_lt (a := 1023) (b := 512 + 512) (by norm_num)
        exact absurd (lt_of_lt_of_le (lt_of_lt_of_le h1 r3) h4) (not_lt.2 h5.le)
      obtain ⟨j1, j2⟩ := B64.rnd64_fin (q := r) (B64.rep_pow (e := 512) (by norm_num)) (two_zpow_range (by norm_num))
        (by rw [abs_of_pos r0]; exact hr)
      refine ⟨B64.rnd r, ?_, B64.rnd_nonneg r0.le, ?_⟩
      · show (L.sqrt (_ : B64 L).val).rnd64 = _
        rw [show (_ : B64 L).val = _ from v1, r1]
        exact j1
      · intro hge
        have hrl : (2 : ℚ) ^ (-512 : ℤ) ≤ r := by
          by_contra hc
          push Not at hc
          have h1 : r * r < (2 : ℚ) ^ (-512 : ℤ) * (2 : ℚ) ^ (-512 : ℤ) := mul_lt_mul'' hc hc r0.le r0.le
          rw [← D53.two_zpow_add] at h1
          have h3 : (2 : ℚ) ^ (-1023 : ℤ) ≤ V / 2 := by
            have e : (2 : ℚ) ^ (-1022 : ℤ) = 2 * (2 : ℚ) ^ (-1023 : ℤ) := by
              rw [show (-1022 : ℤ) = 1 + (-1023) by norm_num, D53.two_zpow_add, zpow_one]
            rw [le_div_iff₀ (by norm_num), mul_comm, ← e]
            exact hge
          have h5 := D53.two_zpow_lt (a := -512 + -512) (b := -1023) (by norm_num)
          exact absurd (lt_of_le_of_lt (le_trans h3 r2) h1) (not_lt.2 h5.le)
        exact lt_of_lt_of_le (D53.two_zpow_pos _) (B64.le_rnd_of_le (B64.rep_pow (e := -512) (by norm_num)) hrl)
  obtain ⟨r, r1, r2, r3⟩ := root
  refine ⟨_, r, column_sd hne (fun x hx => (hf x hx).1), r1, r2, ?_⟩
  rintro ⟨x, hx, y, hy, hxy⟩
  apply r3
  -- one of the two values is away from the mean
  obtain ⟨w, hw, hwm⟩ : ∃ w ∈ l, (2 : ℚ) ^ (-501 : ℤ) ≤ |v w - m| := by
    by_contra hc
    push Not at hc
    have a1 := hc x hx
    have a2 := hc y hy
    have e : (2 : ℚ) ^ (-500 : ℤ) = (2 : ℚ) ^ (-501 : ℤ) + (2 : ℚ) ^ (-501 : ℤ) := by
      rw [show (-500 : ℤ) = 1 + (-501) by norm_num, D53.two_zpow_add, zpow_one]; ring
    have a3 : |v x - v y| ≤ |v x - m| + |v y - m| := by
      have := abs_sub (v x - m) (v y - m)
      rwa [sub_sub_sub_cancel_right] at this
    rw [e] at hxy
    exact absurd (lt_of_le_of_lt a3 (add_lt_add a1 a2)) (not_lt.2 hxy)
  obtain ⟨g, g1, _, _, g4⟩ := term w hw
  have hS : (2 : ℚ) ^ (-1002 : ℤ) ≤ S := le_trans (g4 hwm) (s4 w hw g g1)
  apply B64.le_rnd_of_le (B64.rep_pow (by norm_num))
  rw [le_div_iff₀ hpos]
  refine le_trans ?_ hS
  have hl1 : ((l.length - 1 : ℕ) : ℚ) ≤ (2 : ℚ) ^ (20 : ℤ) := le_trans (by exact_mod_cast (by omega : l.length - 1 ≤ l.length)) hlen
  calc (2 : ℚ) ^ (-1022 : ℤ) * ((l.length - 1 : ℕ) : ℚ) ≤ (2 : ℚ) ^ (-1022 : ℤ) * (2 : ℚ) ^ (20 : ℤ) :=
        mul_le_mul_of_nonneg_left hl1 (D53.two_zpow_pos _).le
    _ = _ := by rw [← D53.two_zpow_add]; norm_num

/-! ## the hypotheses are met -/

theorem table_square : SquareCorrect D53.tableLib := by
  intro q
  show XR.pow (.fin q) 2 = _
  simp only [XR.pow]
  rw [if_neg (by rintro ⟨_, h⟩; exact absurd h (by norm_num)), zpow_ofNat, sq]

/-- an exact square and a root between `q / 2` and `2 q`, up to squares -/
example : ∃ L : CMath, RootAccurate L ∧ SquareCorrect L ∧ L.sqrt (.fin 0) = .fin 0 := by
  classical
  have hex : ∀ q : ℚ, ∃ r : ℚ, 0 < q → 0 < r ∧ q / 2 ≤ r * r ∧ r * r ≤ 2 * q := by
    intro q
    by_cases hq : 0 < q
    · have hq' : (0 : ℝ) < q := by exact_mod_cast hq
      obtain ⟨r, h1, h2⟩ := exists_rat_btwn (show Real.sqrt ((q : ℝ) / 2) < Real.sqrt (2 * q) from
        Real.sqrt_lt_sqrt (by linarith) (by linarith))
      have r0 : (0 : ℝ) < r := lt_of_le_of_lt (Real.sqrt_nonneg _) h1
      refine ⟨r, fun _ => ⟨by exact_mod_cast r0, ?_, ?_⟩⟩
      · have := (Real.sqrt_lt' r0).1 h1
        have : (q : ℝ) / 2 ≤ r * r := by rw [← sq]; exact this.le
        exact_mod_cast this
      · have := (Real.lt_sqrt r0.le).1 h2
        have : (r : ℝ) * r ≤ 2 * q := by rw [← sq]; exact this.le
        exact_mod_cast this
    · exact ⟨0, fun h => absurd h hq⟩
  choose root hr using hex
  refine ⟨⟨fun x => match x with
    | .fin q => if 0 < q then .fin (root q) else .fin 0
    | x => x, id, id, id, fun x _ => XR.mul x x⟩, ?_, fun q => rfl, ?_⟩
  · intro q hq
    obtain ⟨h1, h2, h3⟩ := hr q hq
    exact ⟨root q, h1, if_pos hq, h2, h3⟩
  · show (if (0 : ℚ) < 0 then XR.fin (root 0) else XR.fin 0) = _
    rw [if_neg (lt_irrefl _)]

/-- `2 ^ 1023` and `1.5 * 2 ^ 1023` -/
def huge1 : B64 D53.tableLib := B64.of (.fin (2 ^ 1023))
def huge2 : B64 D53.tableLib := B64.of (.fin (3 * 2 ^ 1022))

-- a tree for two large values is never finished
example (fuel : Nat) (c : Cond (B64 D53.tableLib)) : ∃ e, Node.grow none false fuel
    [⟨"a", [.continuous huge1], none⟩, ⟨"b", [.continuous huge2], none⟩] c = .error e :=
  C209_tree_refuted ⟨D53.ln2, by decide +kernel, D53.nearest_two.1⟩ ⟨0, by decide +kernel, D53.nearest_one.1⟩
    ⟨-D53.ln2, by decide +kernel, D53.nearest_half.1⟩ huge1 huge2 (p := 2 ^ 1023) (q := 3 * 2 ^ 1022)
    (by decide +kernel) (by decide +kernel) (by decide +kernel) (by decide +kernel) fuel c

-- their mean is infinite
example : ∃ m : B64 D53.tableLib, IList.attributeAverage
    [⟨"a", [.continuous huge1], none⟩, ⟨"b", [.continuous huge2], none⟩] 0 = .ok (some (.continuous m)) ∧ m.val = .pinf :=
  C209_mean_refuted _ (by simp) (by simp) 0 (by
    intro x hx
    simp only [List.mem_cons, List.not_mem_nil, or_false] at hx
    rcases hx with rfl | rfl
    · exact ⟨huge1, 2 ^ 1023, rfl, by decide +kernel, le_rfl⟩
    · exact ⟨huge2, 3 * 2 ^ 1022, rfl, by decide +kernel, by decide +kernel⟩)

/-- `2 ^ -540` -/
def tiny : B64 D53.tableLib := B64.of (.fin (1 / 2 ^ 540))

-- the nearest neighbour of a training instance is another one, of another class
example : (Knn.train ⟨[], 0, euclidean⟩
      [⟨"a", [.continuous (Dbl.zero : B64 D53.tableLib)], none⟩, ⟨"b", [.continuous tiny], none⟩] 1 euclidean).predict
    ⟨"", [.continuous tiny], none⟩ = .ok "a" := by decide +kernel

-- and the deviation of 0 and `2 ^ -540` is 0
example : IList.attributeStandardDeviation
    [⟨"a", [.continuous (Dbl.zero : B64 D53.tableLib)], none⟩, ⟨"b", [.continuous tiny], none⟩] 0 =
    .ok (some (.continuous Dbl.zero)) :=
  C209_deviation_refuted table_square (by decide +kernel) _ (by simp) (by simp) 0 (by
    intro x hx
    simp only [List.mem_cons, List.not_mem_nil, or_false] at hx
    rcases hx with rfl | rfl
    · exact ⟨Dbl.zero, 0, rfl, B64.is_zero, by rw [abs_zero]; exact (D53.two_zpow_pos _).le⟩
    · exact ⟨tiny, 1 / 2 ^ 540, rfl, by decide +kernel, by decide +kernel⟩)

-- the distance of 0 and `2 ^ 600` is infinite
example : ∃ d : B64 D53.tableLib, euclidean ⟨"a", [.continuous (Dbl.zero : B64 D53.tableLib)], none⟩
    ⟨"b", [.continuous (B64.of (.fin (2 ^ 600)))], none⟩ = .ok d ∧ d.val = .pinf :=
  C209_far_refuted table_square _ _ _ _ (p := 0) (q := 2 ^ 600) B64.is_zero (by decide +kernel) (by decide +kernel)
    (by decide +kernel)

/-- two instances with a number and a word -/
def ordinaryPair : Inst (B64 D53.tableLib) × Inst (B64 D53.tableLib) :=
  (⟨"a", [.continuous (Dbl.ofInt 1), .discrete "x"], none⟩, ⟨"b", [.continuous (Dbl.ofInt 3), .discrete "y"], none⟩)

-- ordinary numbers are in range
example : ∃ (d : B64 D53.tableLib) (q : ℚ), euclidean ordinaryPair.1 ordinaryPair.2 = .ok d ∧ d.val = .fin q ∧ 0 ≤ q ∧
    (q = 0 ↔ ∀ p ∈ ordinaryPair.1.attrs.zip ordinaryPair.2.attrs, (p.1.isContinuous = true ∨ p.1.isDiscrete = true) → p.1 = p.2) :=
  C209_distance_partial table_square _ _ (by simp [ordinaryPair, SameKind]) (by simp [ordinaryPair]) (by
    intro p hp
    simp only [ordinaryPair, List.zip_cons_cons, List.zip_nil_right, List.mem_cons, List.not_mem_nil, or_false] at hp
    rcases hp with rfl | rfl
    · rintro v w hv hw
      injection hv with hv; injection hw with hw
      subst hv; subst hw
      exact ⟨1, 3, by decide +kernel, by decide +kernel, fun _ => by decide +kernel, by decide +kernel⟩
    · rintro v w hv; cases hv)

/-- two instances with the numbers 1 and 3 -/
def ordinaryData (L : CMath) : IList (B64 L) :=
  [⟨"a", [.continuous (Dbl.ofInt 1)], none⟩, ⟨"b", [.continuous (Dbl.ofInt 3)], none⟩]

theorem ordinary_values (L : CMath) : ∀ x ∈ ordinaryData L, ∃ d : B64 L, ∃ n : ℕ, x.attrs = [.continuous d] ∧
    (n = 1 ∨ n = 3) ∧ B64.Is d n := by
  intro x hx
  simp only [ordinaryData, List.mem_cons, List.not_mem_nil, or_false] at hx
  rcases hx with rfl | rfl
  · exact ⟨_, 1, rfl, .inl rfl, B64.is_nat (n := 1) (by norm_num)⟩
  · exact ⟨_, 3, rfl, .inr rfl, B64.is_nat (n := 3) (by norm_num)⟩

theorem one_at {x : Inst (B64 L)} {d v : B64 L} {i : Nat} (h : x.attrs = [.continuous d])
    (hv : x.attrs[i]? = some (.continuous v)) : v = d := by
  rw [h] at hv
  match i with
  | 0 => simpa using hv.symm
  | i + 1 => simp at hv

theorem ordinary_spread (L : CMath) : SpreadInRange (ordinaryData L) where
  fin x hx i v hv := by
    obtain ⟨d, n, h1, h2, h3⟩ := ordinary_values L x hx
    rw [one_at h1 hv]
    refine ⟨n, h3, ?_⟩
    rcases h2 with rfl | rfl <;> norm_num
  gap x hx y hy i v w hv hw hlt := by
    obtain ⟨d, n, h1, h2, h3⟩ := ordinary_values L x hx
    obtain ⟨d', n', h1', h2', h3'⟩ := ordinary_values L y hy
    rw [one_at h1 hv, one_at h1' hw] at hlt ⊢
    have h3 : d.val = .fin n := h3
    have h3' : d'.val = .fin n' := h3'
    have i2 : (Dbl.ofNat 2 : B64 L).val = .fin ((2 : ℕ) : ℚ) := B64.is_nat (n := 2) (by norm_num)
    refine ⟨Dbl.ofNat 2, ?_⟩
    rw [B64.lt_val, h3, h3'] at hlt
    rw [B64.lt_val, B64.lt_val, h3, h3', i2]
    simp only [XR.lt, decide_eq_true_eq, Nat.cast_lt] at hlt ⊢
    omega

-- a tree for ordinary numbers is finished
example (L : CMath) : ∃ n, Node.grow none false 2 (ordinaryData L) ⟨-1, '=', none⟩ = .ok n :=
  C209_tree_partial (ts := [.continuous]) (by intro _ _ h; cases h) false (by simp [ordinaryData]) (by simp [ordinaryData])
    (by intro x hx; obtain ⟨d, _, h, _⟩ := ordinary_values L x hx; simp [typesOf, h, typeOf])
    (ordinary_spread L) (by intro h; simp at h) _ (by simp [ordinaryData])

-- so are its means and deviations
example (L : CMath) : ∃ (m : B64 L) (q : ℚ), (ordinaryData L).attributeAverage 0 = .ok (some (.continuous m)) ∧
    m.val = .fin q ∧ |q| ≤ (2 : ℚ) ^ (2 : ℤ) :=
  C209_mean_partial _ (by simp [ordinaryData]) (by simp [ordinaryData]) 0 (by norm_num)
    (by
      have : ((ordinaryData L).length : ℚ) = 2 := by simp [ordinaryData]
      rw [this]; norm_num)
    (by
      intro x hx
      obtain ⟨d, n, h1, h2, h3⟩ := ordinary_values L x hx
      exact ⟨d, n, by simp [ContAt, h1], h3, by rcases h2 with rfl | rfl <;> norm_num⟩)

example (hL : SquareCorrect L) (hroot : RootAccurate L) (h0 : L.sqrt (.fin 0) = .fin 0) :
    ∃ (s : B64 L) (r : ℚ), (ordinaryData L).attributeStandardDeviation 0 = .ok (some (.continuous s)) ∧
      s.val = .fin r ∧ 0 < r := by
  have i1 : (Dbl.ofInt 1 : B64 L).val = .fin ((1 : ℕ) : ℚ) := B64.is_nat (n := 1) (by norm_num)
  have i3 : (Dbl.ofInt 3 : B64 L).val = .fin ((3 : ℕ) : ℚ) := B64.is_nat (n := 3) (by norm_num)
  obtain ⟨s, r, h1, h2, _, h3⟩ := C209_deviation_partial hL hroot h0 (ordinaryData L) (by simp [ordinaryData])
    (by simp [ordinaryData]) 0 (fun x => if x.label = "a" then 1 else 3) (by
      intro x hx
      simp only [ordinaryData, List.mem_cons, List.not_mem_nil, or_false] at hx
      rcases hx with rfl | rfl
      · exact ⟨_, rfl, by simpa using i1, by norm_num⟩
      · exact ⟨_, rfl, by simpa using i3, by rw [if_neg (show ¬ "b" = "a" by decide)]; norm_num⟩)
  refine ⟨s, r, h1, h2, h3 ⟨⟨"a", [.continuous (Dbl.ofInt 1)], none⟩, by simp [ordinaryData],
    ⟨"b", [.continuous (Dbl.ofInt 3)], none⟩, by simp [ordinaryData], ?_⟩⟩
  rw [if_pos rfl, if_neg (show ¬ "b" = "a" by decide)]
  norm_num

end Verif
