import Verif.Props.StatTest
import Verif.Props.Stats
import Verif.Lemmas.Float53

/-! # Property C171: vanishing spread in double precision -/

set_option linter.unusedSectionVars false

namespace Verif
open Dbl
variable {F : Type} [Dbl F] {L : CMath}

/-- the functions of `<cmath>` get zero and signs right: squares of numbers other than 0 are
positive, so are roots of positive numbers, and 0 is mapped to 0 (no underflow) -/
structure SignCorrect (L : CMath) : Prop where
  square : ∀ q : ℚ, q ≠ 0 → ∃ r : ℚ, 0 < r ∧ L.pow (.fin q) 2 = .fin r
  square_zero : L.pow (.fin 0) 2 = .fin 0
  sqrt : ∀ q : ℚ, 0 < q → ∃ r : ℚ, 0 < r ∧ L.sqrt (.fin q) = .fin r
  sqrt_zero : L.sqrt (.fin 0) = .fin 0

/-- there are such libraries -/
example : SignCorrect ⟨fun x => x, fun x => x, fun x => x, fun x => x, fun x _ => XR.mul x x⟩ :=
  ⟨fun q h => ⟨q * q, mul_self_pos.2 h, rfl⟩, by simp [XR.mul], fun q h => ⟨q, h, rfl⟩, rfl⟩

theorem SignCorrect.is_square (hL : SignCorrect L) {a : D53 L} {q : ℚ} (ha : D53.Is a q) :
    ∃ g, D53.Is (Dbl.pow a 2) g ∧ 0 ≤ g ∧ (g = 0 ↔ q = 0) := by
  unfold D53.Is at *
  have hv : (Dbl.pow a 2 : D53 L).val = (L.pow a.val 2).rnd := rfl
  rw [hv, ha]
  by_cases h : q = 0
  · subst h
    exact ⟨0, by rw [hL.square_zero]; simp [XR.rnd, D53.rnd_zero], le_rfl, by simp⟩
  · obtain ⟨r, h1, h2⟩ := hL.square q h
    have := D53.rnd_pos h1
    exact ⟨D53.rnd r, by rw [h2]; rfl, this.le, by simp [h, this.ne']⟩

theorem SignCorrect.is_sqrt (hL : SignCorrect L) {a : D53 L} {q : ℚ} (ha : D53.Is a q) (h0 : 0 ≤ q) :
    ∃ g, D53.Is (Dbl.sqrt a) g ∧ 0 ≤ g ∧ (g = 0 ↔ q = 0) := by
  unfold D53.Is at *
  have hv : (Dbl.sqrt a : D53 L).val = (L.sqrt a.val).rnd := rfl
  rw [hv, ha]
  rcases h0.eq_or_lt with rfl | h
  · exact ⟨0, by rw [hL.sqrt_zero]; simp [XR.rnd, D53.rnd_zero], le_rfl, by simp⟩
  · obtain ⟨r, h1, h2⟩ := hL.sqrt q h
    have := D53.rnd_pos h1
    exact ⟨D53.rnd r, by rw [h2]; rfl, this.le, by simp [h.ne', this.ne']⟩

/-! ## sums -/

theorem sum_finite {α : Type} (f : α → D53 L) : ∀ (l : List α) (s : D53 L) (q : ℚ), D53.Is s q →
    (∀ x ∈ l, ∃ g, D53.Is (f x) g) → ∃ q', D53.Is (l.foldl (fun s x => s +. f x) s) q' := by
  intro l
  induction l with
  | nil => intro s q hs _; exact ⟨q, hs⟩
  | cons a l ih =>
    intro s q hs hf
    obtain ⟨g, hg⟩ := hf a (by simp)
    exact ih _ _ (hs.add hg) (fun x hx => hf x (by simp [hx]))

theorem sum_nonneg_zero {α : Type} (f : α → D53 L) : ∀ (l : List α) (s : D53 L) (q : ℚ), D53.Is s q → 0 ≤ q →
    (∀ x ∈ l, ∃ g, D53.Is (f x) g ∧ 0 ≤ g) →
    ∃ q', D53.Is (l.foldl (fun s x => s +. f x) s) q' ∧ 0 ≤ q' ∧ (q' = 0 ↔ q = 0 ∧ ∀ x ∈ l, D53.Is (f x) 0) := by
  intro l
  induction l with
  | nil => intro s q hs h0 _; exact ⟨q, hs, h0, by simp⟩
  | cons a l ih =>
    intro s q hs h0 hf
    obtain ⟨g, hg, g0⟩ := hf a (by simp)
    obtain ⟨q', k1, k2, k3⟩ := ih _ _ (hs.add hg) (D53.rnd_nonneg (by linarith)) (fun x hx => hf x (by simp [hx]))
    refine ⟨q', k1, k2, ?_⟩
    rw [k3, D53.rnd_eq_zero]
    constructor
    · rintro ⟨e1, e2⟩
      have hgz : g = 0 := by linarith
      refine ⟨by linarith, ?_⟩
      intro x hx
      rcases List.mem_cons.1 hx with rfl | hx
      · exact hgz ▸ hg
      · exact e2 x hx
    · rintro ⟨e1, e2⟩
      have hgz : g = 0 := hg.unique (e2 a (by simp))
      exact ⟨by rw [e1, hgz]; norm_num, fun x hx => e2 x (by simp [hx])⟩

/-- sums of equal numbers whose multiples have 53-bit significands are exact -/
theorem sum_constant {α : Type} (f : α → D53 L) {c : ℚ} : ∀ (l : List α) (s : D53 L) (j : ℕ), D53.Is s (j * c) →
    (∀ x ∈ l, D53.Is (f x) c) → (∀ k ≤ j + l.length, D53.Rep (k * c)) →
    D53.Is (l.foldl (fun s x => s +. f x) s) ((j + l.length : ℕ) * c) := by
  intro l
  induction l with
  | nil => intro s j hs _ _; simpa using hs
  | cons a l ih =>
    intro s j hs hf hr
    rw [List.length_cons] at hr ⊢
    rw [List.foldl_cons, show j + (l.length + 1) = j + 1 + l.length by omega]
    refine ih _ (j + 1) ?_ (fun x hx => hf x (by simp [hx])) (fun k hk => hr k (by omega))
    have := hs.add (hf a (by simp))
    rw [show (j : ℚ) * c + c = ((j + 1 : ℕ) : ℚ) * c by push_cast; ring, D53.rnd_of_rep (hr _ (by omega))] at this
    exact this

/-- the common part of the computations of a standard deviation: it is 0 exactly if all numbers
equal the computed mean -/
theorem spread_zero (hL : SignCorrect L) {α : Type} (f : α → D53 L) (sq : D53 L → D53 L)
    (hsq : ∀ {a : D53 L} {q : ℚ}, D53.Is a q → ∃ g, D53.Is (sq a) g ∧ 0 ≤ g ∧ (g = 0 ↔ q = 0))
    (l : List α) (hf : ∀ x ∈ l, ∃ g, D53.Is (f x) g) {n m : D53 L} {qn qm : ℚ} (hn : D53.Is n qn) (hn0 : 0 < qn)
    (hm : D53.Is m qm) (hm0 : 0 < qm) :
    ∃ a r : ℚ, D53.Is ((l.foldl (fun s x => s +. f x) Dbl.zero) /. n) a ∧
      D53.Is (Dbl.sqrt ((l.foldl (fun s x => s +. sq (f x -. ((l.foldl (fun s x => s +. f x) Dbl.zero) /. n))) Dbl.zero) /. m)) r ∧
      0 ≤ r ∧ (r = 0 ↔ ∀ x ∈ l, D53.Is (f x) a) := by
  obtain ⟨t, ht⟩ := sum_finite f l _ _ (D53.is_zero (L := L)) hf
  have ha := ht.div hn hn0.ne'
  set a := D53.rnd (t / qn) with hadef
  obtain ⟨q', k1, k2, k3⟩ := sum_nonneg_zero
    (fun x => sq (f x -. ((l.foldl (fun s x => s +. f x) Dbl.zero) /. n))) l _ _ (D53.is_zero (L := L)) le_rfl (by
      intro x hx
      obtain ⟨g, hg⟩ := hf x hx
      obtain ⟨g', e1, e2, _⟩ := hsq (hg.sub ha)
      exact ⟨g', e1, e2⟩)
  have hv := k1.div hm hm0.ne'
  obtain ⟨r, r1, r2, r3⟩ := hL.is_sqrt hv (D53.rnd_nonneg (by positivity))
  refine ⟨a, r, ha, r1, r2, ?_⟩
  rw [r3, D53.rnd_eq_zero, div_eq_zero_iff, or_iff_left hm0.ne', k3]
  have hone : ∀ x ∈ l, D53.Is (sq (f x -. ((l.foldl (fun s x => s +. f x) Dbl.zero) /. n))) 0 ↔ D53.Is (f x) a := by
    intro x hx
    obtain ⟨g, hg⟩ := hf x hx
    obtain ⟨g', e1, e2, e3⟩ := hsq (hg.sub ha)
    have h1 : g' = 0 ↔ g = a := by rw [e3, D53.rnd_eq_zero, sub_eq_zero]
    constructor
    · intro h
      exact (h1.1 (e1.unique h)) ▸ hg
    · intro h
      exact (h1.2 (hg.unique h)) ▸ e1
  constructor
  · rintro ⟨_, h⟩ x hx
    exact (hone x hx).1 (h x hx)
  · intro h
    exact ⟨rfl, fun x hx => (hone x hx).2 (h x hx)⟩

/-! ## columns -/

/-- the computed standard deviation of a column, in any arithmetic -/
theorem column_sd {l : IList F} (hne : l ≠ []) {i : Nat} {f : Inst F → F} (hf : ∀ x ∈ l, ContAt x i (f x)) :
    l.attributeStandardDeviation i = .ok (some (.continuous (Dbl.sqrt ((l.foldl (fun s x =>
      s +. Dbl.pow (f x -. ((l.foldl (fun s x => s +. f x) Dbl.zero) /. Dbl.ofNat l.length)) 2) Dbl.zero) /.
        Dbl.ofNat (l.length - 1))))) := by
  obtain ⟨x, hx, h0⟩ := first_of_ne hne
  unfold IList.attributeStandardDeviation
  rw [h0]
  simp only [res_bind_ok]
  rw [getAttribute_cont (hf x hx)]
  simp only [res_bind_ok, Attr.isContinuous, if_true]
  unfold IList.contStdDev
  rw [foldlM_ok (g := fun s x => s +. f x) (by
    intro x hx s; rw [contAt_ok (hf x hx)]; rfl)]
  simp only [res_bind_ok]
  rw [foldlM_ok (g := fun s x => s +. Dbl.pow (f x -. ((l.foldl (fun s x => s +. f x) Dbl.zero) /. Dbl.ofNat l.length)) 2) (by
    intro x hx s; rw [contAt_ok (hf x hx)]; rfl)]
  rfl

/-- the computed average of a column, in any arithmetic -/
theorem column_mean {l : IList F} (hne : l ≠ []) {i : Nat} {f : Inst F → F} (hf : ∀ x ∈ l, ContAt x i (f x)) :
    l.attributeAverage i = .ok (some (.continuous ((l.foldl (fun s x => s +. f x) Dbl.zero) /. Dbl.ofNat l.length))) := by
  obtain ⟨x, hx, h0⟩ := first_of_ne hne
  unfold IList.attributeAverage
  rw [h0]
  simp only [res_bind_ok]
  rw [getAttribute_cont (hf x hx)]
  simp only [res_bind_ok, Attr.isDiscrete, Attr.isContinuous, Bool.false_eq_true, if_false, if_true]
  rw [foldlM_ok (g := fun s x => s +. f x) (by
    intro x hx s; rw [contAt_ok (hf x hx)]; rfl)]
  rfl

/-- **C171.** Standard deviation of a continuous column of finite numbers in double precision: a
number, not negative; when it is 0 all values are equal.  The converse holds when the multiples
`v, 2v, …, nv` of the common value have 53-bit significands (integers of moderate size, say).
Missing: for other values the standard deviation of a constant column may be positive, see
`C171_refuted`. -/
theorem C171_column_partial (hL : SignCorrect L) (l : IList (D53 L)) (h2 : 2 ≤ l.length) (hn : l.length ≤ 2 ^ 53)
    (i : Nat) (v : Inst (D53 L) → ℚ) (hv : ∀ x ∈ l, ∃ d : D53 L, ContAt x i d ∧ d.val = .fin (v x)) :
    ∃ (s : D53 L) (r : ℚ), l.attributeStandardDeviation i = .ok (some (.continuous s)) ∧ s.val = .fin r ∧ 0 ≤ r ∧
      (r = 0 → ∀ x ∈ l, ∀ y ∈ l, v x = v y) ∧
      (∀ c : ℚ, (∀ x ∈ l, v x = c) → (∀ k ≤ l.length, D53.Rep (k * c)) → r = 0) := by
  have hex : ∀ x : Inst (D53 L), ∃ d : D53 L, x ∈ l → ContAt x i d ∧ d.val = .fin (v x) := by
    intro x
    by_cases hx : x ∈ l
    · obtain ⟨d, hd⟩ := hv x hx; exact ⟨d, fun _ => hd⟩
    · exact ⟨Dbl.zero, fun h => absurd h hx⟩
  choose f hf using hex
  have hne : l ≠ [] := by rintro rfl; simp at h2
  have iN : D53.Is (Dbl.ofNat l.length : D53 L) l.length := D53.is_nat hn
  have iM : D53.Is (Dbl.ofNat (l.length - 1) : D53 L) (l.length - 1 : ℕ) := D53.is_nat (by omega)
  have q1 : (0 : ℚ) < l.length := by exact_mod_cast (by omega : 0 < l.length)
  have q2 : (0 : ℚ) < (l.length - 1 : ℕ) := by exact_mod_cast (by omega : 0 < l.length - 1)
  obtain ⟨a, r, k1, k2, k3, k4⟩ := spread_zero hL f (fun y => Dbl.pow y 2) (fun h => hL.is_square h) l
    (fun x hx => ⟨v x, (hf x hx).2⟩) iN q1 iM q2
  refine ⟨_, r, ?_, k2, k3, ?_, ?_⟩
  · exact column_sd hne (fun x hx => (hf x hx).1)
  · intro hr x hx y hy
    have hx' := (k4.1 hr x hx)
    have hy' := (k4.1 hr y hy)
    rw [D53.Is.unique (hf x hx).2 hx', D53.Is.unique (hf y hy).2 hy']
  · intro c hc hrep
    rw [k4]
    have hs := sum_constant f l (Dbl.zero : D53 L) 0 (by simpa using D53.is_zero (L := L)) (c := c) (fun x hx => by
      have := (hf x hx).2; rw [hc x hx] at this; exact this) (by simpa using hrep)
    rw [Nat.zero_add] at hs
    have := hs.div iN q1.ne'
    rw [mul_div_cancel_left₀ _ q1.ne', D53.rnd_of_rep (by simpa using hrep 1 (by omega))] at this
    rw [k1.unique this]
    intro x hx
    have := (hf x hx).2; rw [hc x hx] at this; exact this

/-! ## paired tests -/

namespace StatTest

/-- the differences of the error rates, as computed -/
def diffsOf (a b : ExpPerf F) : List F :=
  List.zipWith (fun p q => p.getErrorRate -. q.getErrorRate) a.results b.results

theorem differences_gen {a b : ExpPerf F} (h : a.numberOfExperiments = b.numberOfExperiments) :
    differences a b = .ok (diffsOf a b) := by
  unfold differences
  have hab : a.results.length = b.results.length := h
  have hl : (diffsOf a b).length = a.results.length := by simp [diffsOf, hab]
  rw [mapM_ok (g := fun i => (diffsOf a b).getD i Dbl.zero)]
  · congr 1
    apply List.ext_getElem
    · rw [hl]; simp [ExpPerf.numberOfExperiments]
    · intro i h1 h2
      simp [List.getD_eq_getElem?_getD, List.getElem?_eq_getElem h2]
  · intro i hi
    rw [List.mem_range] at hi
    have h1 : i < a.results.length := hi
    have h2 : i < b.results.length := hab ▸ h1
    rw [getErrorRate_eq a i _ (List.getElem?_eq_getElem h1), getErrorRate_eq b i _ (List.getElem?_eq_getElem h2)]
    simp only [res_bind_ok, res_pure]
    have h3 : i < (diffsOf a b).length := by omega
    rw [List.getD_eq_getElem?_getD, List.getElem?_eq_getElem h3]
    simp [diffsOf]

theorem is_mul_self {a : D53 L} {q : ℚ} (ha : D53.Is a q) :
    ∃ g, D53.Is (a *. a) g ∧ 0 ≤ g ∧ (g = 0 ↔ q = 0) :=
  ⟨_, ha.mul ha, D53.rnd_nonneg (mul_self_nonneg q), by rw [D53.rnd_eq_zero, mul_self_eq_zero]⟩

theorem diffs_finite {a b : ExpPerf (D53 L)}
    (ha : ∀ p ∈ a.results, ∃ q, p.getErrorRate.val = .fin q) (hb : ∀ p ∈ b.results, ∃ q, p.getErrorRate.val = .fin q) :
    ∀ x ∈ diffsOf a b, ∃ g, D53.Is x g := by
  intro x hx
  obtain ⟨i, hi, rfl⟩ := List.getElem_of_mem hx
  have h1 : i < a.results.length := by simp [diffsOf] at hi; omega
  have h2 : i < b.results.length := by simp [diffsOf] at hi; omega
  obtain ⟨q1, e1⟩ := ha _ (List.getElem_mem h1)
  obtain ⟨q2, e2⟩ := hb _ (List.getElem_mem h2)
  refine ⟨D53.rnd (q1 - q2), ?_⟩
  · simp only [diffsOf, List.getElem_zipWith]
    exact D53.Is.sub e1 e2

end StatTest

open StatTest

/-- **C171.** The paired t test in double precision, for at least two runs with finite error rates:
it refuses its input only if all differences of the error rates are equal, and otherwise
returns a statistic.  It does refuse equal differences whose multiples have 53-bit
significands.  Missing: other equal differences may pass, see `C171_refuted`. -/
theorem C171_paired_t_partial (hL : SignCorrect L) {a b : ExpPerf (D53 L)}
    (h : a.numberOfExperiments = b.numberOfExperiments) (h2 : 2 ≤ a.numberOfExperiments)
    (hn : a.numberOfExperiments ≤ 2 ^ 53)
    (ha : ∀ p ∈ a.results, ∃ q, p.getErrorRate.val = .fin q) (hb : ∀ p ∈ b.results, ∃ q, p.getErrorRate.val = .fin q) :
    (pairedt a b = .error (.throw "StatisticalTestNotApplicable") ∨ ∃ t, pairedt a b = .ok t) ∧
    (pairedt a b = .error (.throw "StatisticalTestNotApplicable") → ∃ d, ∀ x ∈ diffsOf a b, x = d) ∧
    (∀ c : ℚ, (∀ x ∈ diffsOf a b, x.val = .fin c) → (∀ k ≤ a.numberOfExperiments, D53.Rep (k * c)) →
      pairedt a b = .error (.throw "StatisticalTestNotApplicable")) := by
  have hfin := diffs_finite ha hb
  have hlen : (diffsOf a b).length = a.numberOfExperiments := by
    unfold ExpPerf.numberOfExperiments at *; simp [diffsOf, h]
  set n := a.numberOfExperiments with hndef
  have iN : D53.Is (Dbl.ofInt (n : ℤ) : D53 L) n := by
    have := D53.is_int (L := L) (n := (n : ℤ)) (by rw [abs_of_nonneg (by omega)]; exact_mod_cast hn)
    simpa using this
  have iM : D53.Is (Dbl.ofInt ((n : ℤ) - 1) : D53 L) ((n : ℚ) - 1) := by
    have := D53.is_int (L := L) (n := (n : ℤ) - 1) (by
      rw [abs_of_nonneg (by omega)]; have : (n : ℤ) ≤ 2 ^ 53 := by exact_mod_cast hn
      omega)
    simpa using this
  have q0 : (2 : ℚ) ≤ n := by exact_mod_cast h2
  obtain ⟨m, r, k1, k2, k3, k4⟩ := spread_zero hL (fun x : D53 L => x) (fun y => y *. y) (fun h => is_mul_self h)
    (diffsOf a b) hfin iN (by linarith) iM (by linarith)
  have hval : pairedt a b = if (decide (r = 0)) = true then .error (.throw "StatisticalTestNotApplicable") else
      .ok ((Dbl.sqrt (Dbl.ofInt n) *. ((diffsOf a b).foldl (fun s x => s +. x) Dbl.zero /. Dbl.ofInt n)) /.
        Dbl.sqrt (((diffsOf a b).foldl (fun s x => s +. ((x -. ((diffsOf a b).foldl (fun s x => s +. x) Dbl.zero /. Dbl.ofInt n)) *.
          (x -. ((diffsOf a b).foldl (fun s x => s +. x) Dbl.zero /. Dbl.ofInt n)))) Dbl.zero) /. Dbl.ofInt ((n : ℤ) - 1))) := by
    unfold pairedt
    rw [if_neg (by simpa using h), differences_gen h]
    simp only [res_bind_ok, ← hndef]
    have hz : D53.Is (Dbl.ofInt 0 : D53 L) 0 := D53.is_zero
    rw [k2.eq hz]
    rfl
  rw [hval]
  by_cases hr : r = 0
  · rw [if_pos (by simpa using hr)]
    refine ⟨.inl rfl, fun _ => ?_, fun _ _ _ => rfl⟩
    exact ⟨_, fun x hx => D53.Is.ext (p := m) (k4.1 hr x hx) k1⟩
  · rw [if_neg (by simpa using hr)]
    refine ⟨.inr ⟨_, rfl⟩, fun h => by simp at h, ?_⟩
    intro c hc hrep
    exfalso
    apply hr
    rw [k4]
    have hs := sum_constant (fun x : D53 L => x) (diffsOf a b) (Dbl.zero : D53 L) 0 (by simpa using D53.is_zero (L := L))
      hc (by rw [hlen]; simpa using hrep)
    rw [Nat.zero_add, hlen] at hs
    have := hs.div iN (by linarith)
    rw [mul_div_cancel_left₀ _ (by linarith), D53.rnd_of_rep (by simpa using hrep 1 (by omega))] at this
    rw [k1.unique this]
    exact hc

/-- the variance of a pair of folds: it vanishes exactly if the two differences are equal -/
theorem pairVariance_zero {x y : D53 L} {p q : ℚ} (hx : D53.Is x p) (hy : D53.Is y q) :
    ∃ g, D53.Is (((x -. ((x +. y) /. Dbl.ofInt 2)) *. (x -. ((x +. y) /. Dbl.ofInt 2))) +.
      ((y -. ((x +. y) /. Dbl.ofInt 2)) *. (y -. ((x +. y) /. Dbl.ofInt 2)))) g ∧ 0 ≤ g ∧ (g = 0 ↔ x = y) := by
  have i2 : D53.Is (Dbl.ofInt 2 : D53 L) 2 := by
    have := D53.is_int (L := L) (n := 2) (by norm_num); simpa using this
  have hm := (hx.add hy).div i2 (by norm_num)
  set m := D53.rnd (D53.rnd (p + q) / 2) with hmdef
  obtain ⟨g1, a1, a2, a3⟩ := is_mul_self (hx.sub hm)
  obtain ⟨g2, b1, b2, b3⟩ := is_mul_self (hy.sub hm)
  refine ⟨_, a1.add b1, D53.rnd_nonneg (by linarith), ?_⟩
  rw [D53.rnd_eq_zero]
  rw [D53.rnd_eq_zero, sub_eq_zero] at a3 b3
  constructor
  · intro h
    have e1 := a3.1 (by linarith)
    have e2 := b3.1 (by linarith)
    exact D53.Is.ext (p := p) hx (by rw [e1, ← e2]; exact hy)
  · intro h
    subst h
    have hpq : p = q := hx.unique hy
    subst hpq
    have : m = p := by
      rw [hmdef, show p + p = 2 * p by ring, D53.rnd_of_rep hx.rep.two_mul, mul_div_cancel_left₀ _ (by norm_num),
        D53.rnd_of_rep hx.rep]
    have e1 := a3.2 this.symm
    have e2 := b3.2 this.symm
    linarith

/-- **C171.** The 5x2 tests are not affected: for ten runs with finite error rates each of them
refuses its input exactly if in each of the five repetitions the two differences are equal. -/
theorem C171_five_by_two (hL : SignCorrect L) {a b : ExpPerf (D53 L)}
    (ha : a.numberOfExperiments = 10) (hb : b.numberOfExperiments = 10)
    (hfa : ∀ p ∈ a.results, ∃ q, p.getErrorRate.val = .fin q) (hfb : ∀ p ∈ b.results, ∃ q, p.getErrorRate.val = .fin q)
    (t : Res (D53 L)) (ht : t = combined5x2f a b ∨ t = combined5x2t a b ∨ t = paired5x2t a b) :
    (t = .error (.throw "StatisticalTestNotApplicable") ∨ ∃ s, t = .ok s) ∧
    (t = .error (.throw "StatisticalTestNotApplicable") ↔ ∀ i < 5, (diffsOf a b)[2 * i]? = (diffsOf a b)[2 * i + 1]?) := by
  have h : a.numberOfExperiments = b.numberOfExperiments := ha.trans hb.symm
  have hfin := diffs_finite hfa hfb
  have hlen : (diffsOf a b).length = 10 := by
    rw [← ha]; unfold ExpPerf.numberOfExperiments at *; simp [diffsOf, h]
  have hck : check5x2 a b = .ok () := by simp [check5x2, ha, hb]
  generalize hd : diffsOf a b = d at *
  have hpm : ∀ (i : Nat) (hi : i < 5), ∃ v, pairMean d i = .ok v ∧ v = (d[2 * i]'(by omega) +. d[2 * i + 1]'(by omega)) /. Dbl.ofInt 2 := by
    intro i hi
    refine ⟨_, ?_, rfl⟩
    unfold pairMean
    rw [idxR_ok_of_lt (by omega : 2 * i < d.length), idxR_ok_of_lt (by omega : 2 * i + 1 < d.length)]
    rfl
  have hpv : ∀ i : Nat, ∃ v : D53 L, i < 5 → (pairVariance d i = .ok v ∧ ∃ g, D53.Is v g ∧ 0 ≤ g ∧
      (g = 0 ↔ d[2 * i]? = d[2 * i + 1]?)) := by
    intro i
    by_cases hi : i < 5
    · obtain ⟨m, hm1, hm2⟩ := hpm i hi
      have l1 : 2 * i < d.length := by omega
      have l2 : 2 * i + 1 < d.length := by omega
      obtain ⟨p, hp⟩ := hfin _ (List.getElem_mem l1)
      obtain ⟨q, hq⟩ := hfin _ (List.getElem_mem l2)
      obtain ⟨g, g1, g2, g3⟩ := pairVariance_zero hp hq
      refine ⟨_, fun _ => ⟨?_, g, g1, g2, ?_⟩⟩
      · unfold pairVariance
        rw [idxR_ok_of_lt l1, idxR_ok_of_lt l2, hm1, hm2]
        rfl
      · rw [g3, List.getElem?_eq_getElem l1, List.getElem?_eq_getElem l2, Option.some.injEq]
    · exact ⟨Dbl.zero, fun h => absurd h hi⟩
  choose V hV using hpv
  have hsum : sumVariances d = .ok ((List.range 5).foldl (fun s i => s +. V i) Dbl.zero) := by
    unfold sumVariances
    rw [hlen]
    rw [foldlM_ok (g := fun s i => s +. V i) (by
      intro i hi s
      rw [(hV i (List.mem_range.1 hi)).1]; rfl)]
  obtain ⟨q', s1, s2, s3⟩ := sum_nonneg_zero V (List.range 5) _ _ (D53.is_zero (L := L)) le_rfl (by
    intro i hi
    obtain ⟨_, g, g1, g2, _⟩ := hV i (List.mem_range.1 hi)
    exact ⟨g, g1, g2⟩)
  have key : q' = 0 ↔ ∀ i < 5, d[2 * i]? = d[2 * i + 1]? := by
    rw [s3]
    constructor
    · rintro ⟨_, hh⟩ i hi
      obtain ⟨_, g, g1, _, g3⟩ := hV i hi
      exact g3.1 (g1.unique (hh i (List.mem_range.2 hi)))
    · intro hh
      refine ⟨rfl, fun i hi => ?_⟩
      obtain ⟨_, g, g1, _, g3⟩ := hV i (List.mem_range.1 hi)
      exact (g3.2 (hh i (List.mem_range.1 hi))) ▸ g1
  have iz : D53.Is (Dbl.ofInt 0 : D53 L) 0 := D53.is_zero
  have i2 : D53.Is (Dbl.ofInt 2 : D53 L) 2 := by
    have := D53.is_int (L := L) (n := 2) (by norm_num); simpa using this
  have i5 : D53.Is (Dbl.ofInt 5 : D53 L) 5 := by
    have := D53.is_int (L := L) (n := 5) (by norm_num); simpa using this
  obtain ⟨r, r1, r2, r3⟩ := hL.is_sqrt (s1.div i5 (by norm_num)) (D53.rnd_nonneg (by positivity))
  have r4 : r = 0 ↔ q' = 0 := by
    rw [r3, D53.rnd_eq_zero, div_eq_zero_iff, or_iff_left (by norm_num)]
  have hmm : ∃ mm, sumMeans d = .ok mm := by
    unfold sumMeans
    rw [hlen]
    have : ∀ i : Nat, ∃ v : D53 L, i < 5 → pairMean d i = .ok v := by
      intro i
      by_cases hi : i < 5
      · obtain ⟨m, hm1, _⟩ := hpm i hi; exact ⟨m, fun _ => hm1⟩
      · exact ⟨Dbl.zero, fun h => absurd h hi⟩
    choose W hW using this
    rw [foldlM_ok (g := fun s i => s +. W i) (by
      intro i hi s
      rw [hW i (List.mem_range.1 hi)]; rfl)]
    exact ⟨_, rfl⟩
  obtain ⟨mm, hmm⟩ := hmm
  have decider : ∀ (den : D53 L) (z : ℚ) (v : D53 L), D53.Is den z → (z = 0 ↔ q' = 0) →
      ((if (den ==. Dbl.ofInt 0) = true then .error (.throw "StatisticalTestNotApplicable") else .ok v : Res (D53 L)) = .error (.throw "StatisticalTestNotApplicable") ∨
        ∃ s, (if (den ==. Dbl.ofInt 0) = true then .error (.throw "StatisticalTestNotApplicable") else .ok v : Res (D53 L)) = .ok s) ∧
      ((if (den ==. Dbl.ofInt 0) = true then .error (.throw "StatisticalTestNotApplicable") else .ok v : Res (D53 L)) = .error (.throw "StatisticalTestNotApplicable") ↔
        ∀ i < 5, d[2 * i]? = d[2 * i + 1]?) := by
    intro den z v hden hz
    rw [hden.eq iz, ← key, ← hz]
    by_cases h0 : z = 0
    · simp [h0]
    · simp [h0]
  rcases ht with rfl | rfl | rfl
  · unfold combined5x2f
    rw [hck, differences_gen h, hd]
    simp only [res_bind_ok, hsum]
    refine decider _ _ _ (s1.mul i2) ?_
    rw [D53.rnd_eq_zero, mul_eq_zero, or_iff_left (by norm_num)]
  · unfold combined5x2t
    rw [hck, differences_gen h, hd]
    simp only [res_bind_ok, hsum, hmm]
    exact decider _ _ _ r1 r4
  · unfold paired5x2t
    rw [hck, differences_gen h, hd]
    simp only [res_bind_ok, hsum]
    rw [idxR_ok_of_lt (by omega : 0 < d.length)]
    simp only [res_bind_ok]
    exact decider _ _ _ r1 r4

/-- an integer value meets the condition on the multiples -/
example : ∀ k ≤ 3, D53.Rep ((k : ℕ) * (5 : ℚ)) := by
  intro k hk
  have := D53.rep_nat (n := k * 5) (by omega)
  push_cast at this; exact this

/-! ## what is lost -/

/-- the number 0.1, that is, the `double` nearest to it -/
def tenth (L : CMath) : D53 L := Dbl.lit (1 / 10)

theorem tenth_is : D53.Is (tenth L) (D53.rnd (1 / 10)) := rfl

/-- three instances with the value 0.1 -/
def tenths (L : CMath) : IList (D53 L) := List.replicate 3 ⟨"a", [.continuous (tenth L)], none⟩

/-- ten runs with the same error rate -/
def tenRuns (e : D53 L) : ExpPerf (D53 L) := ⟨List.replicate 10 (.plain e), false, true⟩

/-- **C171.** A column holding the number 0.1 three times has an average above 0.1 and a positive
standard deviation; and the paired t test accepts ten runs of error rate 0.1 against ten runs
of error rate 0, though all ten differences are the same. -/
theorem C171_refuted (hL : SignCorrect L) :
    (∃ m s : D53 L, (tenths L).attributeAverage 0 = .ok (some (.continuous m)) ∧ (tenth L <. m) = true ∧
      (tenths L).attributeStandardDeviation 0 = .ok (some (.continuous s)) ∧ (Dbl.zero <. s) = true) ∧
    (∀ x ∈ diffsOf (tenRuns (tenth L)) (tenRuns Dbl.zero), x = tenth L) ∧
    ∃ t : D53 L, pairedt (tenRuns (tenth L)) (tenRuns Dbl.zero) = .ok t := by
  have iz := D53.is_zero (L := L)
  have it := tenth_is (L := L)
  have hdiff : ∀ x ∈ diffsOf (tenRuns (tenth L)) (tenRuns Dbl.zero), x = tenth L := by
    intro x hx
    have h1 : diffsOf (tenRuns (tenth L)) (tenRuns Dbl.zero) = List.replicate 10 (tenth L -. Dbl.zero) := rfl
    rw [h1] at hx
    have h2 := List.eq_of_mem_replicate hx
    have h3 := it.sub iz
    rw [sub_zero, D53.rnd_rnd] at h3
    rw [h2]; exact h3.ext it
  refine ⟨?_, hdiff, ?_⟩
  · have hc : ∀ x ∈ tenths L, ContAt x 0 ((fun _ => tenth L) x) := by
      intro x hx
      rw [List.eq_of_mem_replicate hx]; rfl
    have hne : tenths L ≠ [] := by simp [tenths]
    have hlen : (tenths L).length = 3 := rfl
    have i3 : D53.Is (Dbl.ofNat (tenths L).length : D53 L) 3 := by
      rw [hlen]; have := D53.is_nat (L := L) (n := 3) (by norm_num); simpa using this
    have i2 : D53.Is (Dbl.ofNat ((tenths L).length - 1) : D53 L) 2 := by
      rw [hlen]; have := D53.is_nat (L := L) (n := 2) (by norm_num); simpa using this
    obtain ⟨a, r, k1, k2, k3, k4⟩ := spread_zero hL (fun _ : Inst (D53 L) => tenth L) (fun y => Dbl.pow y 2)
      (fun h => hL.is_square h) (tenths L) (fun x hx => ⟨_, it⟩) i3 (by norm_num) i2 (by norm_num)
    have hs : D53.Is ((tenths L).foldl (fun s x => s +. tenth L) Dbl.zero) _ := ((iz.add it).add it).add it
    have ha := k1.unique (hs.div i3 (by norm_num))
    refine ⟨_, _, column_mean hne hc, ?_, column_sd hne hc, ?_⟩
    · rw [it.lt k1, ha]
      decide +kernel
    · rw [iz.lt k2, decide_eq_true_iff]
      refine lt_of_le_of_ne k3 (fun h0 => ?_)
      have h5 := it.unique (k4.1 h0.symm _ (List.mem_replicate.2 ⟨by norm_num, rfl⟩))
      rw [ha] at h5
      exact absurd h5 (by decide +kernel)
  · have i10 : D53.Is (Dbl.ofInt (((tenRuns (tenth L)).numberOfExperiments : ℕ) : ℤ) : D53 L) 10 := by
      have := D53.is_int (L := L) (n := 10) (by norm_num); rw [show ((10 : ℤ) : ℚ) = 10 by norm_num] at this; exact this
    have i9 : D53.Is (Dbl.ofInt ((((tenRuns (tenth L)).numberOfExperiments : ℕ) : ℤ) - 1) : D53 L) 9 := by
      have := D53.is_int (L := L) (n := 9) (by norm_num); rw [show ((9 : ℤ) : ℚ) = 9 by norm_num] at this; exact this
    have hd : diffsOf (tenRuns (tenth L)) (tenRuns Dbl.zero) = List.replicate 10 (tenth L) :=
      List.eq_replicate_iff.2 ⟨rfl, hdiff⟩
    obtain ⟨a, r, k1, k2, k3, k4⟩ := spread_zero hL (fun x : D53 L => x) (fun y => y *. y)
      (fun h => is_mul_self h) (List.replicate 10 (tenth L)) (fun x hx => ⟨_, (List.eq_of_mem_replicate hx) ▸ it⟩)
      i10 (by norm_num) i9 (by norm_num)
    have hs : D53.Is ((List.replicate 10 (tenth L)).foldl (fun s x => s +. x) Dbl.zero) _ :=
      (((((((((iz.add it).add it).add it).add it).add it).add it).add it).add it).add it).add it
    have ha := k1.unique (hs.div i10 (by norm_num))
    have hr : r ≠ 0 := by
      intro h0
      have h5 := it.unique (k4.1 h0 _ (List.mem_replicate.2 ⟨by norm_num, rfl⟩))
      rw [ha] at h5
      exact absurd h5 (by decide +kernel)
    unfold pairedt
    rw [if_neg (by simp [tenRuns, ExpPerf.numberOfExperiments]), differences_gen (a := tenRuns (tenth L)) (b := tenRuns Dbl.zero) rfl, hd]
    simp only [res_bind_ok]
    have hz : D53.Is (Dbl.ofInt 0 : D53 L) 0 := iz
    rw [k2.eq hz, if_neg (by simpa using hr)]
    exact ⟨_, rfl⟩

end Verif
