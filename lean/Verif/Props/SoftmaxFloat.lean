import Verif.Props.SpreadFloat
import Verif.Model.NeuralNetwork

/-! # Property C175: the class probabilities of a network in double precision -/

set_option linter.unusedSectionVars false

namespace Verif
open Dbl
variable {L : CMath}

/-- what is needed of `exp`: it is positive and finite from -745 to 709, infinite from 710 on, 0 up to
-746 (in binary64 the changes are at 709.78 and at -745.13), increasing, and NaN at NaN -/
structure ExpCorrect (L : CMath) : Prop where
  finite : ∀ q : ℚ, q ≤ 709 → ∃ r : ℚ, 0 ≤ r ∧ L.exp (.fin q) = .fin r
  positive : ∀ q : ℚ, -745 ≤ q → L.exp (.fin q) ≠ .fin 0
  increasing : ∀ p q r s : ℚ, p ≤ q → L.exp (.fin p) = .fin r → L.exp (.fin q) = .fin s → r ≤ s
  overflow : ∀ q : ℚ, 710 ≤ q → L.exp (.fin q) = .pinf
  between : ∀ q : ℚ, 709 < q → L.exp (.fin q) = .pinf ∨ ∃ r : ℚ, 0 ≤ r ∧ L.exp (.fin q) = .fin r
  underflow : ∀ q : ℚ, q ≤ -746 → L.exp (.fin q) = .fin 0
  nan : L.exp .nan = .nan

/-- such a library (with a coarse, computable `exp`) -/
def coarseExp : XR → XR
  | .fin q => if 710 ≤ q then .pinf else if q ≤ -746 then .fin 0 else if 0 ≤ q then .fin (1 + q) else .fin (1 / (1 - q))
  | .pinf => .pinf
  | .ninf => .fin 0
  | .nan => .nan

def coarseMath : CMath := ⟨id, coarseExp, id, id, fun x _ => x⟩

theorem coarseMath_exp : ExpCorrect coarseMath where
  finite q h := by
    show ∃ r, _ ∧ coarseExp (.fin q) = _
    simp only [coarseExp]
    rw [if_neg (by linarith)]
    split_ifs with h1 h2
    · exact ⟨0, le_rfl, rfl⟩
    · exact ⟨_, by linarith, rfl⟩
    · exact ⟨_, div_nonneg zero_le_one (by linarith), rfl⟩
  positive q h := by
    show coarseExp (.fin q) ≠ _
    simp only [coarseExp]
    rw [if_neg (show ¬ q ≤ -746 by linarith)]
    split_ifs with h1 h2
    · simp
    · intro e; injection e with e; linarith
    · intro e; injection e with e
      have : 0 < 1 / (1 - q) := div_pos one_pos (by linarith)
      linarith
  increasing p q r s h hr hs := by
    have hr : coarseExp (.fin p) = _ := hr
    have hs : coarseExp (.fin q) = _ := hs
    simp only [coarseExp] at hr hs
    have key : ∀ t : ℚ, t < 0 → 0 < 1 / (1 - t) ∧ 1 / (1 - t) ≤ 1 := fun t ht =>
      ⟨div_pos one_pos (by linarith), by rw [div_le_one (by linarith)]; linarith⟩
    split_ifs at hr hs <;> (injection hr with hr) <;> (injection hs with hs) <;> subst hr <;> subst hs
    all_goals first
      | exact le_rfl
      | linarith
      | exact absurd h (by linarith)
      | (have := key q (by linarith); linarith)
      | (have := key p (by linarith); linarith)
      | exact one_div_le_one_div_of_le (by linarith) (by linarith)
  overflow q h := by
    show coarseExp (.fin q) = _
    simp only [coarseExp]; rw [if_pos h]
  between q h := by
    show coarseExp (.fin q) = _ ∨ ∃ r, _ ∧ coarseExp (.fin q) = _
    simp only [coarseExp]
    split_ifs with h1 h2 h3
    · exact .inl rfl
    · exfalso; linarith
    · exact .inr ⟨_, by linarith, rfl⟩
    · exfalso; linarith
  underflow q h := by
    show coarseExp (.fin q) = _
    simp only [coarseExp]; rw [if_neg (by linarith), if_pos h]
  nan := rfl

namespace ExpCorrect
variable (hL : ExpCorrect L)
include hL

theorem is_exp {a : D53 L} {q : ℚ} (ha : D53.Is a q) (h : q ≤ 709) :
    ∃ g, D53.Is (Dbl.exp a) g ∧ 0 ≤ g ∧ (-745 ≤ q → 0 < g) := by
  obtain ⟨r, h0, h1⟩ := hL.finite q h
  unfold D53.Is at *
  have hv : (Dbl.exp a : D53 L).val = (L.exp a.val).rnd := rfl
  rw [hv, ha, h1]
  refine ⟨D53.rnd r, rfl, D53.rnd_nonneg h0, fun hq => D53.rnd_pos (lt_of_le_of_ne h0 fun e => ?_)⟩
  exact hL.positive q hq (by rw [h1, ← e])

theorem exp_mono {a b : D53 L} {p q r s : ℚ} (ha : D53.Is a p) (hb : D53.Is b q) (h : p ≤ q) (hq : q ≤ 709)
    (hr : D53.Is (Dbl.exp a) r) (hs : D53.Is (Dbl.exp b) s) : r ≤ s := by
  obtain ⟨r', _, h1⟩ := hL.finite p (h.trans hq)
  obtain ⟨s', _, h2⟩ := hL.finite q hq
  unfold D53.Is at *
  have hv : (Dbl.exp a : D53 L).val = (L.exp a.val).rnd := rfl
  have hw : (Dbl.exp b : D53 L).val = (L.exp b.val).rnd := rfl
  rw [hv, ha, h1] at hr
  rw [hw, hb, h2] at hs
  injection hr with hr
  injection hs with hs
  rw [← hr, ← hs]
  exact D53.rnd_mono (hL.increasing p q r' s' h h1 h2)

end ExpCorrect

/-! ## sums of non-negative numbers -/

/-- the unit roundoff -/
def roundoff : ℚ := 1 / 2 ^ 53

theorem D53.rnd_bounds {q : ℚ} (h : 0 ≤ q) : q * (1 - roundoff) ≤ D53.rnd q ∧ D53.rnd q ≤ q * (1 + roundoff) := by
  have := D53.rnd_err q
  rw [abs_of_nonneg h, abs_le] at this
  unfold roundoff
  constructor <;> linarith [this.1, this.2]

/-- a sum of non-negative numbers is not less than any of them, and relatively exact up to a factor
per addition -/
theorem sum_nonneg_bounds {α : Type} (f : α → D53 L) (g : α → ℚ) : ∀ (l : List α) (s : D53 L) (q : ℚ), D53.Is s q → 0 ≤ q →
    (∀ x ∈ l, D53.Is (f x) (g x) ∧ 0 ≤ g x) →
    ∃ q', D53.Is (l.foldl (fun s x => s +. f x) s) q' ∧ q ≤ q' ∧ (∀ x ∈ l, g x ≤ q') ∧
      (q + (l.map g).sum) * (1 - roundoff) ^ l.length ≤ q' ∧ q' ≤ (q + (l.map g).sum) * (1 + roundoff) ^ l.length := by
  intro l
  have u0 : 0 ≤ 1 - roundoff := by unfold roundoff; norm_num
  have u1 : 1 - roundoff ≤ 1 := by unfold roundoff; norm_num
  have v1 : 1 ≤ 1 + roundoff := by unfold roundoff; norm_num
  induction l with
  | nil => intro s q hs h0 _; exact ⟨q, hs, le_rfl, by simp, by simp, by simp⟩
  | cons a l ih =>
    intro s q hs h0 hf
    obtain ⟨hg, g0⟩ := hf a (by simp)
    have hadd := hs.add hg
    have hqa : 0 ≤ q + g a := by linarith
    obtain ⟨q', k1, k2, k3, k4, k5⟩ := ih _ _ hadd (D53.rnd_nonneg hqa) (fun x hx => hf x (by simp [hx]))
    have hq : q ≤ D53.rnd (q + g a) := D53.le_rnd_of_le hs.rep (by linarith)
    have hga : g a ≤ D53.rnd (q + g a) := D53.le_rnd_of_le hg.rep (by linarith)
    obtain ⟨b1, b2⟩ := D53.rnd_bounds hqa
    have hsum : 0 ≤ (l.map g).sum := List.sum_nonneg (by
      intro y hy; obtain ⟨x, hx, rfl⟩ := List.mem_map.1 hy; exact (hf x (by simp [hx])).2)
    refine ⟨q', k1, by linarith, ?_, le_trans ?_ k4, le_trans k5 ?_⟩
    · intro x hx
      rcases List.mem_cons.1 hx with rfl | hx
      · linarith
      · exact k3 x hx
    · rw [List.map_cons, List.sum_cons, List.length_cons, pow_succ']
      rw [← mul_assoc]
      apply mul_le_mul_of_nonneg_right _ (pow_nonneg u0 _)
      have : (l.map g).sum * (1 - roundoff) ≤ (l.map g).sum := mul_le_of_le_one_right hsum u1
      nlinarith
    · rw [List.map_cons, List.sum_cons, List.length_cons, pow_succ']
      rw [← mul_assoc]
      apply mul_le_mul_of_nonneg_right _ (pow_nonneg (by linarith) _)
      have : (l.map g).sum ≤ (l.map g).sum * (1 + roundoff) := le_mul_of_one_le_right hsum v1
      nlinarith

/-! ## the softmax function -/

/-- **C175.** If all activations are numbers up to 709 and one of them is at least -745, then the class
probabilities are numbers between 0 and 1, in the order of the activations; the largest is positive,
and their exact sum is 1 up to a relative error of about one unit roundoff per class. -/
theorem C175_softmax_partial (hL : ExpCorrect L) (o : List (D53 L)) (q : D53 L → ℚ) (hq : ∀ a ∈ o, D53.Is a (q a))
    (hmax : ∀ a ∈ o, q a ≤ 709) (hmin : ∃ a ∈ o, -745 ≤ q a) :
    ∃ p : D53 L → ℚ,
      (∀ (i : Nat) a, o[i]? = some a → ∃ y, (normalizeOutput o)[i]? = some y ∧ D53.Is y (p a)) ∧
      (normalizeOutput o).length = o.length ∧
      (∀ a ∈ o, 0 ≤ p a ∧ p a ≤ 1) ∧
      (∀ a ∈ o, ∀ b ∈ o, q a ≤ q b → p a ≤ p b) ∧
      (∀ a ∈ o, -745 ≤ q a → (∀ b ∈ o, q b ≤ q a) → 0 < p a) ∧
      (1 - roundoff) / (1 + roundoff) ^ o.length ≤ (o.map p).sum ∧
      (o.map p).sum ≤ (1 + roundoff) / (1 - roundoff) ^ o.length := by
  classical
  have hex : ∀ a : D53 L, a ∈ o → ∃ g, D53.Is (Dbl.exp a) g ∧ 0 ≤ g ∧ (-745 ≤ q a → 0 < g) :=
    fun a ha => hL.is_exp (hq a ha) (hmax a ha)
  obtain ⟨g, hg⟩ : ∃ g : D53 L → ℚ, ∀ a ∈ o, D53.Is (Dbl.exp a) (g a) ∧ 0 ≤ g a ∧ (-745 ≤ q a → 0 < g a) :=
    ⟨fun a => if ha : a ∈ o then (hex a ha).choose else 0, fun a ha => by
      simp only [dif_pos ha]; exact (hex a ha).choose_spec⟩
  obtain ⟨S, hS, _, hge, hlo, hhi⟩ := sum_nonneg_bounds (fun a => Dbl.exp a) g o _ _ (D53.is_zero (L := L)) le_rfl
    (fun a ha => ⟨(hg a ha).1, (hg a ha).2.1⟩)
  obtain ⟨m, hm, hm1⟩ := hmin
  have hSpos : 0 < S := lt_of_lt_of_le ((hg m hm).2.2 hm1) (hge m hm)
  have hy : ∀ a ∈ o, D53.Is (Dbl.exp a /. o.foldl (fun (s : D53 L) a => s +. Dbl.exp a) Dbl.zero) (D53.rnd (g a / S)) :=
    fun a ha => (hg a ha).1.div hS hSpos.ne'
  have u0 : 0 < 1 - roundoff := by unfold roundoff; norm_num
  have v0 : 0 < 1 + roundoff := by unfold roundoff; norm_num
  refine ⟨fun a => D53.rnd (g a / S), ?_, ?_, ?_, ?_, ?_, ?_, ?_⟩
  · intro i a hi
    exact ⟨_, by unfold normalizeOutput; rw [List.getElem?_map, hi]; rfl, hy a (List.mem_of_getElem? hi)⟩
  · simp [normalizeOutput]
  · intro a ha
    exact ⟨D53.rnd_nonneg (div_nonneg (hg a ha).2.1 hSpos.le), D53.rnd_le_of_le D53.rep_one
      ((div_le_one hSpos).2 (hge a ha))⟩
  · intro a ha b hb hab
    exact D53.rnd_mono (div_le_div_of_nonneg_right
      (hL.exp_mono (hq a ha) (hq b hb) hab (hmax b hb) (hg a ha).1 (hg b hb).1) hSpos.le)
  · intro a ha h1 _
    exact D53.rnd_pos (div_pos ((hg a ha).2.2 h1) hSpos)
  all_goals
    rw [zero_add] at hlo hhi
    have hsumpos : 0 < (o.map g).sum := by
      by_contra hc
      have := hhi
      have : S ≤ 0 := le_trans hhi (mul_nonpos_of_nonpos_of_nonneg (not_lt.1 hc) (pow_pos v0 _).le)
      linarith
    have hdiv : (o.map (fun a => g a / S)).sum = (o.map g).sum / S := by
      rw [div_eq_mul_inv, ← List.sum_map_mul_right]; rfl
  · calc (1 - roundoff) / (1 + roundoff) ^ o.length ≤ (o.map g).sum / S * (1 - roundoff) := by
          rw [div_mul_eq_mul_div, div_le_div_iff₀ (pow_pos v0 _) hSpos]
          nlinarith
      _ = (o.map (fun a => g a / S * (1 - roundoff))).sum := by rw [List.sum_map_mul_right, hdiv]
      _ ≤ _ := List.sum_le_sum (fun a ha => (D53.rnd_bounds (div_nonneg (hg a ha).2.1 hSpos.le)).1)
  · calc (o.map (fun a => D53.rnd (g a / S))).sum ≤ (o.map (fun a => g a / S * (1 + roundoff))).sum :=
          List.sum_le_sum (fun a ha => (D53.rnd_bounds (div_nonneg (hg a ha).2.1 hSpos.le)).2)
      _ = (o.map g).sum / S * (1 + roundoff) := by rw [List.sum_map_mul_right, hdiv]
      _ ≤ _ := by
          rw [div_mul_eq_mul_div, div_le_div_iff₀ hSpos (pow_pos u0 _)]
          nlinarith

/-! ## overflow and underflow of `exp` -/

theorem D53.exp_val (a : D53 L) : (Dbl.exp a : D53 L).val = (L.exp a.val).rnd := rfl

/-- sums with an infinite term and no NaN or negative infinity are infinite -/
theorem sum_inf {α : Type} (f : α → D53 L) : ∀ (l : List α) (s : D53 L), (s.val = .pinf ∨ ∃ q, s.val = .fin q) →
    (∀ x ∈ l, (f x).val = .pinf ∨ ∃ q, (f x).val = .fin q) → (s.val = .pinf ∨ ∃ x ∈ l, (f x).val = .pinf) →
    (l.foldl (fun s x => s +. f x) s).val = .pinf := by
  intro l
  induction l with
  | nil => intro s _ _ h; simpa using h
  | cons a l ih =>
    intro s hs hf h
    have ha := hf a (by simp)
    rw [List.foldl_cons]
    refine ih _ ?_ (fun x hx => hf x (by simp [hx])) ?_
    · rw [D53.val_add]
      rcases hs with e | ⟨q, e⟩ <;> rcases ha with e' | ⟨q', e'⟩ <;> rw [e, e'] <;> simp [XR.add, XR.rnd]
    · rw [D53.val_add]
      rcases h with e | ⟨x, hx, e⟩
      · left
        rcases ha with e' | ⟨q', e'⟩ <;> rw [e, e'] <;> simp [XR.add, XR.rnd]
      · rcases List.mem_cons.1 hx with rfl | hx
        · left
          rcases hs with e' | ⟨q', e'⟩ <;> rw [e, e'] <;> simp [XR.add, XR.rnd]
        · exact .inr ⟨x, hx, e⟩

/-- **C175.** If one activation is 710 or more, then its class probability is NaN, however small the
others are. -/
theorem C175_overflow_refuted (hL : ExpCorrect L) (o : List (D53 L)) (q : D53 L → ℚ) (hq : ∀ a ∈ o, D53.Is a (q a))
    (i : Nat) (a : D53 L) (hi : o[i]? = some a) (h : 710 ≤ q a) :
    ∃ y, (normalizeOutput o)[i]? = some y ∧ y.val = .nan := by
  have hf : ∀ b ∈ o, (Dbl.exp b : D53 L).val = .pinf ∨ ∃ r, (Dbl.exp b : D53 L).val = .fin r := by
    intro b hb
    rw [D53.exp_val, hq b hb]
    rcases le_or_gt (q b) 709 with h | h
    · obtain ⟨r, _, e⟩ := hL.finite _ h
      exact .inr ⟨_, by rw [e]; rfl⟩
    · rcases hL.between _ h with e | ⟨r, _, e⟩
      · exact .inl (by rw [e]; rfl)
      · exact .inr ⟨_, by rw [e]; rfl⟩
  have ha : (Dbl.exp a : D53 L).val = .pinf := by
    rw [D53.exp_val, hq a (List.mem_of_getElem? hi), hL.overflow _ h]; rfl
  have hS := sum_inf (fun b : D53 L => Dbl.exp b) o Dbl.zero (.inr ⟨0, D53.is_zero (L := L)⟩) hf
    (.inr ⟨a, List.mem_of_getElem? hi, ha⟩)
  refine ⟨_, by unfold normalizeOutput; rw [List.getElem?_map, hi]; rfl, ?_⟩
  rw [D53.val_div, ha, hS]; rfl

/-- **C175.** If all activations are -746 or less, then all class probabilities are NaN. -/
theorem C175_underflow_refuted (hL : ExpCorrect L) (o : List (D53 L)) (q : D53 L → ℚ) (hq : ∀ a ∈ o, D53.Is a (q a))
    (h : ∀ a ∈ o, q a ≤ -746) : ∀ y ∈ normalizeOutput o, y.val = .nan := by
  have he : ∀ a ∈ o, D53.Is (Dbl.exp a : D53 L) 0 := by
    intro a ha
    unfold D53.Is
    rw [D53.exp_val, hq a ha, hL.underflow _ (h a ha)]
    simp [XR.rnd, D53.rnd_zero]
  obtain ⟨S, hS, _, hz⟩ := sum_nonneg_zero (fun b : D53 L => Dbl.exp b) o Dbl.zero 0 (D53.is_zero (L := L)) le_rfl
    (fun a ha => ⟨0, he a ha, le_rfl⟩)
  have hS0 : S = 0 := hz.2 ⟨rfl, he⟩
  subst hS0
  intro y hy
  obtain ⟨a, ha, rfl⟩ := List.mem_map.1 hy
  rw [D53.val_div, he a ha, hS]
  simp [XR.div, XR.infSign, XR.rnd]

/-- activations within the range: 3 and -1000 -/
example : (normalizeOutput [(Dbl.ofInt 3 : D53 coarseMath), Dbl.ofInt (-1000)]).map D53.val = [.fin 1, .fin 0] := by
  decide +kernel
example : let o : List (D53 coarseMath) := [Dbl.ofInt 3, Dbl.ofInt (-1000)]
    let q : D53 coarseMath → ℚ := fun a => match a.val with | .fin r => r | _ => 0
    (∀ a ∈ o, a.val = .fin (q a)) ∧ (∀ a ∈ o, q a ≤ 709) ∧ ∃ a ∈ o, -745 ≤ q a := by decide +kernel
/-- activations out of the range -/
example : (normalizeOutput [(Dbl.ofInt 1000 : D53 coarseMath), Dbl.ofInt 3]).map D53.val = [.nan, .fin 0] := by
  decide +kernel

end Verif
