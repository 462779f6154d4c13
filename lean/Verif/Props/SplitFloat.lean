import Verif.Props.Partition
import Verif.Lemmas.Float53

/-! # Property C169: the sizes of a random split in double precision -/

set_option linter.unusedSectionVars false

namespace Verif
open Dbl
variable {F : Type} [Dbl F] {L : CMath}

/-- how many of the numbers `0, 1, 2, …` lie below `t` -/
theorem nat_lt_ceil {i : ℕ} {t : ℚ} : (i : ℚ) < t ↔ i < ⌈t⌉₊ := Nat.lt_ceil.symm

/-- the non-stratified loop when the comparison is with a number `t` -/
theorem byRatio_double (l : IList (D53 L)) {r : D53 L} {q : ℚ} (hr : D53.Is r q) (hn : l.length ≤ 2 ^ 53)
    {σ : List Nat} (hσ : IsPermutation σ l.length) :
    Parts.byRatio l r σ = .ok ([(l.shuffle σ).take ⌈D53.rnd (l.length * q)⌉₊,
      (l.shuffle σ).drop ⌈D53.rnd (l.length * q)⌉₊], l.shuffle σ) := by
  have hp := C15_shuffle_perm l σ hσ
  set l' := l.shuffle σ with hl'
  unfold Parts.byRatio
  have := ratio_loop ⌈D53.rnd (l.length * q)⌉₊ l' 0 [] []
  simp only [List.nil_append, Nat.sub_zero] at this
  simp only [← hl']
  have hlen := hp.length_eq
  have hcong : ∀ (xs : List (Inst (D53 L) × ℕ)), (∀ p ∈ xs, p.2 < l'.length) → ∀ ps : Parts (D53 L),
      xs.foldlM (fun (ps : Parts (D53 L)) (p : Inst (D53 L) × ℕ) =>
      if (Dbl.ofNat p.2 : D53 L) <. Dbl.ofNat l'.length *. r then Parts.addTo ps 0 p.1
      else Parts.addTo ps 1 p.1) ps =
      xs.foldlM (fun (ps : Parts (D53 L)) (p : Inst (D53 L) × ℕ) =>
      if p.2 < ⌈D53.rnd (l.length * q)⌉₊ then Parts.addTo ps 0 p.1 else Parts.addTo ps 1 p.1) ps := by
    intro xs
    induction xs with
    | nil => intro _ ps; rfl
    | cons x xs ih =>
      intro hx ps
      rw [List.foldlM_cons, List.foldlM_cons]
      have hx1 := hx x (by simp)
      have h1 : D53.Is (Dbl.ofNat x.2 : D53 L) x.2 := D53.is_nat (by omega)
      have h2 : D53.Is (Dbl.ofNat l'.length *. r) (D53.rnd (l.length * q)) := by
        rw [hlen]; exact (D53.is_nat hn).mul hr
      rw [h1.lt h2]
      simp only [decide_eq_true_eq, nat_lt_ceil]
      congr 1
      funext s'
      exact ih (fun p hp' => hx p (by simp [hp'])) s'
  rw [hcong _ (by
    intro p hp'
    obtain ⟨i, hi, rfl⟩ := List.getElem_of_mem hp'
    simp at hi ⊢; exact hi), this]
  rfl

/-- **C169.** Random split in double precision: the parts together are the shuffled list, the
first part comes first, and for a ratio `r` between 0 and 1 it has `⌊r·n⌋` or `⌈r·n⌉`
instances; here `r` is the value of the `double` that is passed.  (Up to `2^53` instances.) -/
theorem C169_random_split (l : IList (D53 L)) {r : D53 L} {q : ℚ} (hr : r.val = .fin q) (h0 : 0 ≤ q) (h1 : q ≤ 1)
    (hn : l.length ≤ 2 ^ 53) {σ : List Nat} (hσ : IsPermutation σ l.length) :
    ∃ p0 p1 l', Parts.byRatio l r σ = .ok ([p0, p1], l') ∧ l'.Perm l ∧ p0 ++ p1 = l' ∧
      (p0.length = ⌊q * l.length⌋₊ ∨ p0.length = ⌈q * l.length⌉₊) ∧ p0.length + p1.length = l.length := by
  have hp := C15_shuffle_perm l σ hσ
  refine ⟨_, _, _, byRatio_double l hr hn hσ, hp, List.take_append_drop _ _, ?_, ?_⟩
  · have hx0 : (0 : ℚ) ≤ q * l.length := by positivity
    have hx1 : q * l.length ≤ l.length := by
      have : (0 : ℚ) ≤ l.length := by positivity
      nlinarith
    have hc : ⌈q * l.length⌉₊ ≤ l.length := Nat.ceil_le.2 hx1
    have hf := Nat.floor_le hx0
    have hfc := Nat.floor_le_ceil (q * l.length)
    have e1 : ⌊q * l.length⌋₊ ≤ ⌈D53.rnd (l.length * q)⌉₊ := by
      have := D53.le_rnd_of_le (D53.rep_nat (n := ⌊q * l.length⌋₊) (by omega)) (a := l.length * q)
        (by rw [mul_comm (l.length : ℚ)]; exact hf)
      exact_mod_cast this.trans (Nat.le_ceil _)
    have e2 : ⌈D53.rnd (l.length * q)⌉₊ ≤ ⌈q * l.length⌉₊ := by
      refine Nat.ceil_le.2 (D53.rnd_le_of_le (D53.rep_nat (n := ⌈q * l.length⌉₊) (by omega)) ?_)
      rw [mul_comm]; exact Nat.le_ceil _
    have hfc1 := Nat.ceil_le_floor_add_one (q * l.length)
    rw [List.length_take, hp.length_eq]
    omega
  · rw [← List.length_append, List.take_append_drop, hp.length_eq]

/-- the hypotheses of `C169_random_split` for one third of a list of two -/
example (L : CMath) : ∃ q, (Dbl.lit (1 / 3) : D53 L).val = .fin q ∧ 0 ≤ q ∧ q ≤ 1 ∧
    ([⟨"a", [], none⟩, ⟨"b", [], none⟩] : IList (D53 L)).length ≤ 2 ^ 53 ∧ IsPermutation [1, 0] 2 :=
  ⟨D53.rnd (1 / 3), rfl, by decide +kernel, by decide +kernel, by simp, by unfold IsPermutation; decide⟩

/-- the probability of a class that occurs -/
theorem classProb_eq (l : IList F) {c : String} (hc : c ∈ l.map Inst.label) :
    (l.classDistribution.getProbability c : F) =
      Dbl.ofNat ((l.map Inst.label).count c) /. Dbl.ofNat l.length := by
  have hpos : 0 < (l.map Inst.label).count c := List.count_pos_iff.2 hc
  have hcd := C10_class_distribution l
  unfold DD.getProbability
  have h5 := hcd.count c
  unfold DD.getCount Counter.count at h5
  cases hf : OMap.find? l.classDistribution.m c with
  | none => rw [hf] at h5; simp at h5; omega
  | some k =>
    rw [hf] at h5
    have h6 : l.classDistribution.sum = l.length := by simpa [DD.getSum] using hcd.sum
    simp only [Option.getD_some] at h5
    simp [h5, h6]

/-- the number compared with the count of a class -/
def quotaQ (n nc : ℕ) (q : ℚ) : ℚ := D53.rnd (D53.rnd (n * q) * D53.rnd (nc / n))

/-- the stratified loop in double precision -/
theorem byRatioStratified_double (l : IList (D53 L)) {r : D53 L} {q : ℚ} (hr : D53.Is r q) (hn : l.length ≤ 2 ^ 53)
    {σ : List Nat} (hσ : IsPermutation σ l.length) :
    ∃ p0 p1, Parts.byRatioStratified l r σ = .ok [p0, p1] ∧ (p0 ++ p1).Perm l ∧
      ∀ c, p0.filter (fun x => x.label == c) =
          ((l.shuffle σ).filter (fun x => x.label == c)).take ⌈quotaQ l.length ((l.map Inst.label).count c) q⌉₊ ∧
        p1.filter (fun x => x.label == c) =
          ((l.shuffle σ).filter (fun x => x.label == c)).drop ⌈quotaQ l.length ((l.map Inst.label).count c) q⌉₊ := by
  have hp := C15_shuffle_perm l σ hσ
  set quo : String → ℕ := fun c => ⌈quotaQ l.length ((l.map Inst.label).count c) q⌉₊ with hquo
  obtain ⟨p0, p1, h1, h2, h3, h4⟩ := strat_loop quo (l.shuffle σ)
  refine ⟨p0, p1, ?_, h2.trans hp, fun c => ⟨h3 c, h4 c⟩⟩
  unfold Parts.byRatioStratified
  have hlen : σ.length = l.length := by simpa using hσ.length_eq
  have hidx := index_loop l σ (fun i hi => by
      have := hσ.mem_iff.1 hi; simpa using this)
    (fun (st : Counter × Parts (D53 L)) x => do
      let ps ←
        if Dbl.ofNat (Counter.count st.1 x.label) <.
            (Dbl.ofNat l.length *. r *. (l.classDistribution.getProbability x.label : D53 L))
        then Parts.addTo st.2 0 x
        else Parts.addTo st.2 1 x
      pure (Counter.put st.1 x.label, ps)) l.length ([], [[], []]) (by omega)
  rw [← hlen, List.take_length, hlen] at hidx
  simp only at hidx ⊢
  rw [hidx]
  have hcong : ∀ (xs pre : IList (D53 L)), pre ++ xs = l.shuffle σ → ∀ ps,
      xs.foldlM (fun (st : Counter × Parts (D53 L)) x => do
        let ps ←
          if Dbl.ofNat (Counter.count st.1 x.label) <.
              (Dbl.ofNat l.length *. r *. (l.classDistribution.getProbability x.label : D53 L))
          then Parts.addTo st.2 0 x
          else Parts.addTo st.2 1 x
        (pure (Counter.put st.1 x.label, ps) : Res (Counter × Parts (D53 L)))) (Counter.ofList (pre.map Inst.label), ps) =
      xs.foldlM (fun (st : Counter × Parts (D53 L)) x => do
        let ps ← if Counter.count st.1 x.label < quo x.label
          then Parts.addTo st.2 0 x else Parts.addTo st.2 1 x
        (pure (Counter.put st.1 x.label, ps) : Res (Counter × Parts (D53 L)))) (Counter.ofList (pre.map Inst.label), ps) := by
    intro xs
    induction xs with
    | nil => intro _ _ ps; rfl
    | cons x xs ih =>
      intro pre hm ps
      rw [List.foldlM_cons, List.foldlM_cons]
      have hxl : x ∈ l := hp.mem_iff.1 (by rw [← hm]; simp)
      have hlpos : 0 < l.length := List.length_pos_of_mem hxl
      have hcl : (l.map Inst.label).count x.label ≤ l.length := by
        have := List.count_le_length (a := x.label) (l := l.map Inst.label); simpa using this
      have hpre : (pre.map Inst.label).count x.label ≤ l.length := by
        have h5 := List.count_le_length (a := x.label) (l := pre.map Inst.label)
        have h6 : pre.length + (x :: xs).length = l.length := by
          rw [← List.length_append, hm, hp.length_eq]
        simp only [List.length_map] at h5; omega
      have hcond : ((Dbl.ofNat (Counter.count (Counter.ofList (pre.map Inst.label)) x.label) : D53 L) <.
            (Dbl.ofNat l.length *. r *. (l.classDistribution.getProbability x.label : D53 L))) =
          decide (Counter.count (Counter.ofList (pre.map Inst.label)) x.label < quo x.label) := by
        rw [classProb_eq l (List.mem_map_of_mem hxl), Counter.count_ofList]
        have k1 : D53.Is (Dbl.ofNat ((pre.map Inst.label).count x.label) : D53 L) _ := D53.is_nat (by omega)
        have k2 : D53.Is (Dbl.ofNat l.length : D53 L) _ := D53.is_nat hn
        have k3 : D53.Is (Dbl.ofNat ((l.map Inst.label).count x.label) : D53 L) _ := D53.is_nat (by omega)
        rw [k1.lt ((k2.mul hr).mul (k3.div k2 (by positivity)))]
        rw [decide_eq_decide, nat_lt_ceil]
        rfl
      simp only [hcond, decide_eq_true_eq]
      have hput : Counter.put (Counter.ofList (pre.map Inst.label)) x.label =
          Counter.ofList ((pre ++ [x]).map Inst.label) := by
        simp [Counter.ofList, List.foldl_append]
      rw [hput]
      have ih' := ih (pre ++ [x]) (by simpa using hm)
      split_ifs with hq
      · cases Parts.addTo ps 0 x with
        | error e => rfl
        | ok ps' => exact ih' ps'
      · cases Parts.addTo ps 1 x with
        | error e => rfl
        | ok ps' => exact ih' ps'
  have hsh : l.shuffle σ = σ.filterMap (fun i => l[i]?) := rfl
  rw [← hsh]
  have := hcong (l.shuffle σ) [] rfl [[], []]
  simp only [List.map_nil] at this
  erw [this, h1]
  rfl

/-- the compared number differs from `r·n_c` by at most `2⁻⁵¹` of it -/
theorem quotaQ_err {n nc : ℕ} {q : ℚ} (hn : 0 < n) (h0 : 0 ≤ q) :
    |quotaQ n nc q - q * nc| ≤ q * nc / 2 ^ 51 := by
  have hnq : (0 : ℚ) < n := by exact_mod_cast hn
  have e1 := abs_le.1 (D53.rnd_err (n * q))
  have e2 := abs_le.1 (D53.rnd_err (nc / n))
  have e3 := abs_le.1 (D53.rnd_err (D53.rnd (n * q) * D53.rnd (nc / n)))
  have a0 : (0 : ℚ) ≤ n * q := by positivity
  have b0 : (0 : ℚ) ≤ nc / n := by positivity
  have a1 := D53.rnd_nonneg a0
  have b1 := D53.rnd_nonneg b0
  rw [abs_of_nonneg a0] at e1
  rw [abs_of_nonneg b0] at e2
  rw [abs_of_nonneg (mul_nonneg a1 b1)] at e3
  have hx : q * nc = (n * q) * (nc / n) := by field_simp
  unfold quotaQ
  rw [hx]
  generalize (n : ℚ) * q = a at *
  generalize (nc : ℚ) / n = b at *
  generalize D53.rnd a = A at *
  generalize D53.rnd b = B at *
  generalize D53.rnd (A * B) = C at *
  obtain ⟨u, hu, hu'⟩ : ∃ u : ℚ, u = 1 / 2 ^ 53 ∧ u ≤ 1 / 100 := ⟨_, rfl, by norm_num⟩
  have hu0 : 0 < u := by rw [hu]; positivity
  have f : ∀ x : ℚ, x / 2 ^ 53 = x * u := by intro x; rw [hu]; ring
  have g : ∀ x : ℚ, x / 2 ^ 51 = x * (4 * u) := by intro x; rw [hu]; ring
  rw [f] at e1 e2 e3
  rw [g]
  have hA1 : a * (1 - u) ≤ A := by linarith [e1.1]
  have hA2 : A ≤ a * (1 + u) := by linarith [e1.2]
  have hB1 : b * (1 - u) ≤ B := by linarith [e2.1]
  have hB2 : B ≤ b * (1 + u) := by linarith [e2.2]
  have hAB1 : a * (1 - u) * (b * (1 - u)) ≤ A * B :=
    mul_le_mul hA1 hB1 (mul_nonneg b0 (by linarith)) a1
  have hAB2 : A * B ≤ a * (1 + u) * (b * (1 + u)) :=
    mul_le_mul hA2 hB2 b1 (mul_nonneg a0 (by linarith))
  have hC1 : A * B * (1 - u) ≤ C := by linarith [e3.1]
  have hC2 : C ≤ A * B * (1 + u) := by linarith [e3.2]
  have hab : 0 ≤ a * b := mul_nonneg a0 b0
  have k1 : a * (1 - u) * (b * (1 - u)) * (1 - u) ≤ A * B * (1 - u) :=
    mul_le_mul_of_nonneg_right hAB1 (by linarith)
  have k2 : A * B * (1 + u) ≤ a * (1 + u) * (b * (1 + u)) * (1 + u) :=
    mul_le_mul_of_nonneg_right hAB2 (by linarith)
  have u2 : 0 ≤ u ^ 2 := by positivity
  have u3 : 0 ≤ u ^ 3 := by positivity
  have u4 : u ^ 2 ≤ u / 100 := by nlinarith
  have u5 : u ^ 3 ≤ u / 100 := by nlinarith
  have j1 : a * b * (1 - 4 * u) ≤ a * (1 - u) * (b * (1 - u)) * (1 - u) := by
    have : a * (1 - u) * (b * (1 - u)) * (1 - u) = a * b * ((1 - u) ^ 3) := by ring
    rw [this]
    refine mul_le_mul_of_nonneg_left ?_ hab
    linarith [show (1 - u) ^ 3 = 1 - 3 * u + 3 * u ^ 2 - u ^ 3 by ring]
  have j2 : a * (1 + u) * (b * (1 + u)) * (1 + u) ≤ a * b * (1 + 4 * u) := by
    have : a * (1 + u) * (b * (1 + u)) * (1 + u) = a * b * ((1 + u) ^ 3) := by ring
    rw [this]
    refine mul_le_mul_of_nonneg_left ?_ hab
    linarith [show (1 + u) ^ 3 = 1 + 3 * u + 3 * u ^ 2 + u ^ 3 by ring]
  rw [abs_le]
  constructor <;> linarith

/-- **C169.** Stratified split in double precision: the two parts together are a rearrangement
of the list, and for every class the first part takes the first of its instances in random
order; their number is `⌈r·n_c⌉` whenever `r·n_c` is not within `n_c·2⁻⁵¹` of an integer, and
otherwise it is at least `⌊r·n_c⌋` and at most `⌈r·n_c⌉ + 1` (at most all, of course). Missing
from the full statement: it is not always `⌈r·n_c⌉`, see `C169_refuted`. -/
theorem C169_stratified_partial (l : IList (D53 L)) {r : D53 L} {q : ℚ} (hr : r.val = .fin q) (h0 : 0 ≤ q) (h1 : q ≤ 1)
    (hn : l.length ≤ 2 ^ 50) {σ : List Nat} (hσ : IsPermutation σ l.length) :
    ∃ p0 p1, Parts.byRatioStratified l r σ = .ok [p0, p1] ∧ (p0 ++ p1).Perm l ∧
      ∀ c, ∃ k, p0.filter (fun x => x.label == c) = ((l.shuffle σ).filter (fun x => x.label == c)).take k ∧
        p1.filter (fun x => x.label == c) = ((l.shuffle σ).filter (fun x => x.label == c)).drop k ∧
        ⌊q * (l.map Inst.label).count c⌋₊ ≤ k ∧ k ≤ ⌈q * (l.map Inst.label).count c⌉₊ + 1 ∧
        ((∀ z : ℤ, (l.map Inst.label).count c / 2 ^ 51 < |q * (l.map Inst.label).count c - z|) →
          k = ⌈q * (l.map Inst.label).count c⌉₊) := by
  obtain ⟨p0, p1, e1, e2, e3⟩ := byRatioStratified_double l hr (hn.trans (by norm_num)) hσ
  refine ⟨p0, p1, e1, e2, fun c => ⟨_, (e3 c).1, (e3 c).2, ?_⟩⟩
  set nc := (l.map Inst.label).count c with hnc
  have hncl : nc ≤ l.length := by
    have := List.count_le_length (a := c) (l := l.map Inst.label); simpa using this
  rcases Nat.eq_zero_or_pos l.length with hl | hl
  · have h0' : nc = 0 := by omega
    have hz : quotaQ l.length nc q = 0 := by
      unfold quotaQ; rw [h0', hl]; simp [D53.rnd_zero]
    rw [hz, h0']
    simp
  have herr := quotaQ_err (n := l.length) (nc := nc) hl h0
  have hx0 : (0 : ℚ) ≤ q * nc := by positivity
  have hncq : (nc : ℚ) ≤ 2 ^ 50 := by exact_mod_cast hncl.trans hn
  have hx1 : q * nc ≤ nc := by
    have : (0 : ℚ) ≤ nc := by positivity
    nlinarith
  generalize quotaQ l.length nc q = t at *
  generalize hx : q * (nc : ℚ) = x at *
  have hsm : x / 2 ^ 51 ≤ nc / 2 ^ 51 := div_le_div_of_nonneg_right hx1 (by positivity)
  have hhalf : x / 2 ^ 51 ≤ 1 / 2 := by
    rw [div_le_iff₀ (by positivity)]; nlinarith
  obtain ⟨g1, g2⟩ := abs_le.1 herr
  have hf := Nat.floor_le hx0
  have hc := Nat.le_ceil x
  refine ⟨?_, ?_, ?_⟩
  · rcases Nat.eq_zero_or_pos ⌊x⌋₊ with h | h
    · omega
    have : ((⌊x⌋₊ - 1 : ℕ) : ℚ) < t := by
      push_cast [h]; linarith
    rw [nat_lt_ceil] at this
    omega
  · refine Nat.ceil_le.2 ?_
    push_cast; linarith
  · intro hz
    apply le_antisymm
    · refine Nat.ceil_le.2 ?_
      have h3 := hz ⌈x⌉₊
      push_cast at h3
      rw [abs_of_nonpos (by linarith)] at h3
      linarith
    · rcases Nat.eq_zero_or_pos ⌈x⌉₊ with h | h
      · omega
      have h3 := hz ((⌈x⌉₊ - 1 : ℕ) : ℤ)
      have h4 : ((⌈x⌉₊ - 1 : ℕ) : ℚ) < x := nat_lt_ceil.2 (by omega)
      have h3' : (nc : ℚ) / 2 ^ 51 < |x - ((⌈x⌉₊ - 1 : ℕ) : ℚ)| := by exact_mod_cast h3
      rw [abs_of_nonneg (by linarith)] at h3'
      have : ((⌈x⌉₊ - 1 : ℕ) : ℚ) < t := by linarith
      rw [nat_lt_ceil] at this
      omega

/-- the hypotheses of `C169_stratified_partial`, and a class of three of which half is not near an
integer -/
example (L : CMath) : (Dbl.lit (1 / 2) : D53 L).val = .fin (1 / 2) ∧
    ∀ z : ℤ, ((3 : ℕ) : ℚ) / 2 ^ 51 < |1 / 2 * ((3 : ℕ) : ℚ) - z| := by
  refine ⟨by show XR.rnd (.fin (1 / 2)) = .fin (1 / 2); decide +kernel, fun z => ?_⟩
  rcases le_or_gt z 1 with h | h
  · have : (z : ℚ) ≤ 1 := by exact_mod_cast h
    rw [abs_of_nonneg (by push_cast; linarith)]; push_cast; linarith
  · have : (2 : ℚ) ≤ z := by exact_mod_cast h
    rw [abs_of_nonpos (by push_cast; linarith)]; push_cast; linarith

/-! ## what is lost -/

/-- 14 instances of a class, 11 of another -/
def halves (L : CMath) : IList (D53 L) :=
  List.replicate 14 ⟨"a", [], none⟩ ++ List.replicate 11 ⟨"b", [], none⟩

/-- **C169.** The exact sizes of C24 and C25 are not met in double precision: a stratified split
in half of 14 instances of one class and 11 of another puts 8, not 7, of the 14 into the first
part, whatever the random order; and 7 % of 100 instances, the ratio given by the `double`
nearest to 0.07, are 8. -/
theorem C169_refuted :
    (∀ σ, IsPermutation σ 25 → ∃ p0 p1, Parts.byRatioStratified (halves L) (Dbl.lit (1 / 2) : D53 L) σ = .ok [p0, p1] ∧
      ((halves L).map Inst.label).count "a" = 14 ∧ (p0.map Inst.label).count "a" = 8) ∧
    (∀ (l : IList (D53 L)) σ, l.length = 100 → IsPermutation σ 100 →
      ∃ p0 p1 l', Parts.byRatio l (Dbl.lit (7 / 100) : D53 L) σ = .ok ([p0, p1], l') ∧ p0.length = 8) := by
  constructor
  · intro σ hσ
    have hlen : (halves L).length = 25 := by simp [halves]
    have hcnt : ((halves L).map Inst.label).count "a" = 14 := by
      simp [halves]
    have hr : D53.Is (Dbl.lit (1 / 2) : D53 L) (1 / 2) := by
      show XR.rnd (.fin (1 / 2)) = .fin (1 / 2)
      decide +kernel
    obtain ⟨p0, p1, e1, e2, e3⟩ := byRatioStratified_double (halves L) hr (by rw [hlen]; norm_num)
      (σ := σ) (by rw [hlen]; exact hσ)
    refine ⟨p0, p1, e1, hcnt, ?_⟩
    have h := (e3 "a").1
    rw [hlen, hcnt] at h
    have hq : ⌈quotaQ 25 14 (1 / 2)⌉₊ = 8 := by decide +kernel
    rw [hq] at h
    have hc : ∀ xs : IList (D53 L), (xs.map Inst.label).count "a" = (xs.filter (fun x => x.label == "a")).length := by
      intro xs
      rw [List.count, List.countP_map, List.countP_eq_length_filter]; rfl
    rw [hc, h, List.length_take, ← hc]
    rw [((C15_shuffle_perm (halves L) σ (by rw [hlen]; exact hσ)).map Inst.label).count_eq, hcnt]
    rfl
  · intro l σ hl hσ
    have hr : D53.Is (Dbl.lit (7 / 100) : D53 L) (D53.rnd (7 / 100)) := rfl
    refine ⟨_, _, _, byRatio_double l hr (by rw [hl]; norm_num) (by rw [hl]; exact hσ), ?_⟩
    rw [List.length_take, (C15_shuffle_perm l σ (by rw [hl]; exact hσ)).length_eq, hl]
    have : ⌈D53.rnd ((100 : ℕ) * D53.rnd (7 / 100))⌉₊ = 8 := by decide +kernel
    rw [this]
    rfl

end Verif
