import Verif.Spec.NeuralNetwork
import Verif.Model.DblXR
import Verif.Props.Discriminant
import Mathlib.Algebra.BigOperators.Field

/-! # Properties C74–C78: outputs of networks and the epochs kept -/

set_option linter.unusedSectionVars false

namespace Verif
open Dbl

/-! ## C74 -/

theorem expSum_real (o : List ℝ) : ∀ s : ℝ,
    o.foldl (fun (s : ℝ) a => s +. Dbl.exp a) s = s + (o.map Real.exp).sum := by
  induction o with
  | nil => intro s; simp
  | cons a o ih => intro s; rw [List.foldl_cons, ih]; simp; ring

theorem normalizeOutput_real (o : List ℝ) :
    normalizeOutput o = o.map (fun a => Real.exp a / (o.map Real.exp).sum) := by
  unfold normalizeOutput
  rw [expSum_real]
  simp only [exp_real, div_real, zero_real, zero_add]

theorem expSum_pos (o : List ℝ) (h : o ≠ []) : 0 < (o.map Real.exp).sum := by
  cases o with
  | nil => exact absurd rfl h
  | cons a o =>
    rw [List.map_cons, List.sum_cons]
    have : 0 ≤ (o.map Real.exp).sum := List.sum_nonneg (by
      intro x hx
      obtain ⟨y, _, rfl⟩ := List.mem_map.1 hx
      exact (Real.exp_pos y).le)
    have := Real.exp_pos a
    linarith

/-- **C74.** The normalised output has one positive component per input, the components add up
to 1, are ordered as the inputs, and do not change when a constant is added to all inputs. -/
theorem C74_softmax (o : List ℝ) (h : o ≠ []) :
    (normalizeOutput o).length = o.length ∧
    (∀ p ∈ normalizeOutput o, 0 < p) ∧
    (normalizeOutput o).sum = 1 ∧
    (∀ (i j : Nat) a b p q, o[i]? = some a → o[j]? = some b → (normalizeOutput o)[i]? = some p →
      (normalizeOutput o)[j]? = some q → (p < q ↔ a < b)) ∧
    (∀ c : ℝ, normalizeOutput (o.map (fun a => a + c)) = normalizeOutput o) := by
  have hpos := expSum_pos o h
  rw [normalizeOutput_real]
  refine ⟨by simp, ?_, ?_, ?_, ?_⟩
  · intro p hp
    obtain ⟨a, _, rfl⟩ := List.mem_map.1 hp
    exact div_pos (Real.exp_pos a) hpos
  · have : ∀ l : List ℝ, ∀ S : ℝ, (l.map (fun a => Real.exp a / S)).sum = (l.map Real.exp).sum / S := by
      intro l S
      induction l with
      | nil => simp
      | cons a l ih => simp [ih]; ring
    rw [this, div_self hpos.ne']
  · intro i j a b p q hi hj hp hq
    rw [List.getElem?_map, hi, Option.map_some, Option.some.injEq] at hp
    rw [List.getElem?_map, hj, Option.map_some, Option.some.injEq] at hq
    rw [← hp, ← hq, div_lt_div_iff_of_pos_right hpos, Real.exp_lt_exp]
  · intro c
    rw [normalizeOutput_real, List.map_map, List.map_map]
    have hs : ((o.map (Real.exp ∘ fun a => a + c))).sum = Real.exp c * (o.map Real.exp).sum := by
      clear hpos h
      induction o with
      | nil => simp
      | cons a o ih => simp only [List.map_cons, List.sum_cons, ih, Function.comp_apply, Real.exp_add]; ring
    refine List.map_congr_left (fun a _ => ?_)
    simp only [Function.comp_apply, hs, Real.exp_add]
    have := Real.exp_pos c
    field_simp

example : normalizeOutput ([0, Real.log 3] : List ℝ) = [1 / 4, 3 / 4] := by
  rw [normalizeOutput_real]
  simp only [List.map_cons, List.map_nil, List.sum_cons, List.sum_nil, Real.exp_zero,
    Real.exp_log (by norm_num : (0 : ℝ) < 3)]
  norm_num

/-! ## C75 -/

theorem rMinusY_ok (labels : List String) (x : Inst ℝ) (input : List ℝ) (W : Mat ℝ)
    (hx : x.label ∈ labels) (hr : W.rows = labels.length) (hc : W.cols = input.length) :
    ∃ o, W.mulRight input = some o ∧ o.length = labels.length ∧
      calculateRMinusY labels x input W = .ok (List.zipWith (fun a b => a - b)
        ((List.replicate labels.length (0 : ℝ)).set (labels.idxOf x.label) 1)
        (o.map (fun a => Real.exp a / (o.map Real.exp).sum))) := by
  refine ⟨(List.range W.rows).map (fun (i : Nat) => dotV (W.row i) input), ?_, by simp [hr], ?_⟩
  · unfold Mat.mulRight; rw [if_pos hc]
  · unfold calculateRMinusY unitVec Mat.mulRightR
    rw [if_pos (List.idxOf_lt_length_iff.2 hx)]
    simp only [res_bind_ok]
    unfold Mat.mulRight
    rw [if_pos hc]
    simp only [res_bind_ok]
    unfold diffR subChecked
    rw [normalizeOutput_real, if_pos (by simp [hr])]
    simp only [sub_real, zero_real, one_real]

/-- components of the error vector -/
theorem rMinusY_get (labels : List String) (x : Inst ℝ) (input : List ℝ) (W : Mat ℝ) (e : List ℝ)
    (hr : W.rows = labels.length) (h : calculateRMinusY labels x input W = .ok e) :
    x.label ∈ labels ∧ W.cols = input.length ∧ e.length = labels.length ∧
    ∃ o : List ℝ, W.mulRight input = some o ∧ o.length = labels.length ∧
      ∀ i (hi' : i < o.length), e[i]? = some ((if i = labels.idxOf x.label then 1 else 0) -
        Real.exp o[i] / (o.map Real.exp).sum) := by
  have hx : x.label ∈ labels := by
    by_contra hn
    unfold calculateRMinusY unitVec at h
    rw [if_neg (by rw [List.idxOf_lt_length_iff]; exact hn)] at h
    cases h
  have hc : W.cols = input.length := by
    by_contra hn
    unfold calculateRMinusY unitVec Mat.mulRightR Mat.mulRight at h
    rw [if_pos (List.idxOf_lt_length_iff.2 hx), if_neg hn] at h
    cases h
  obtain ⟨o, h1, h2, h3⟩ := rMinusY_ok labels x input W hx hr hc
  rw [h3] at h
  cases h
  refine ⟨hx, hc, by simp [h2], o, h1, h2, ?_⟩
  intro i hi'
  have hi : i < labels.length := by omega
  rw [List.getElem?_zipWith, List.getElem?_set]
  simp only [List.length_replicate, List.getElem?_replicate, List.getElem?_map,
    List.getElem?_eq_getElem hi', Option.map_some]
  by_cases he : i = labels.idxOf x.label
  · subst he
    simp [hi]
  · simp only [if_neg (fun h => he h.symm : ¬ labels.idxOf x.label = i), if_neg he, if_pos hi]

theorem sum_indicator (n c : Nat) : (∑ i ∈ Finset.range n, (if i = c then (1 : ℝ) else 0)) = if c < n then 1 else 0 := by
  rw [Finset.sum_ite_eq' (Finset.range n) c (fun _ => (1 : ℝ))]
  simp

theorem list_sum_getD (l : List ℝ) : l.sum = ∑ i ∈ Finset.range l.length, l.getD i 0 := by
  induction l with
  | nil => simp
  | cons a l ih => rw [List.sum_cons, List.length_cons, Finset.sum_range_succ', ih]; simp [add_comm]

/-- **C75.** The error vector has components that add up to 0; only the component of the actual
class may be positive; every component is strictly between -1 and 1. -/
theorem C75_output_error (labels : List String) (x : Inst ℝ) (input : List ℝ) (W : Mat ℝ)
    (e : List ℝ) (hr : W.rows = labels.length) (h : calculateRMinusY labels x input W = .ok e) :
    e.length = labels.length ∧ e.sum = 0 ∧
    (∀ (i : Nat) a, e[i]? = some a → 0 < a → labels[i]? = some x.label) ∧
    (∀ a ∈ e, -1 < a ∧ a < 1) := by
  obtain ⟨hx, hc, hlen, o, ho, hol, hget⟩ := rMinusY_get labels x input W e hr h
  have hidx := List.idxOf_lt_length_iff.2 hx
  have hne : o ≠ [] := by intro h0; subst h0; simp at hol; omega
  have hpos := expSum_pos o hne
  have hexp : ∀ i (hi : i < o.length), 0 < Real.exp o[i] / (o.map Real.exp).sum :=
    fun i hi => div_pos (Real.exp_pos _) hpos
  have hsum1 : (∑ i ∈ Finset.range o.length, Real.exp (o.getD i 0)) = (o.map Real.exp).sum := by
    rw [list_sum_getD, List.length_map]
    refine Finset.sum_congr rfl (fun i hi => ?_)
    rw [List.getD_eq_getElem?_getD, List.getD_eq_getElem?_getD, List.getElem?_map,
      List.getElem?_eq_getElem (Finset.mem_range.1 hi)]
    simp
  have hget' : ∀ i < labels.length, e[i]? = some ((if i = labels.idxOf x.label then 1 else 0) -
      Real.exp (o.getD i 0) / (o.map Real.exp).sum) := by
    intro i hi
    rw [hget i (by omega), List.getD_eq_getElem?_getD, List.getElem?_eq_getElem (by omega : i < o.length)]
    simp
  -- a single exponential is at most the sum, and strictly less when there is another one
  have hle : ∀ i < o.length, ∀ j < o.length, i ≠ j → Real.exp (o.getD i 0) + Real.exp (o.getD j 0) ≤ (o.map Real.exp).sum := by
    intro i hi j hj hij
    rw [← hsum1, ← Finset.sum_pair (f := fun k => Real.exp (o.getD k 0)) hij]
    refine Finset.sum_le_sum_of_subset_of_nonneg ?_ (fun k _ _ => (Real.exp_pos _).le)
    intro k hk
    simp only [Finset.mem_insert, Finset.mem_singleton] at hk
    rcases hk with rfl | rfl <;> simpa
  have hle1 : ∀ i < o.length, Real.exp (o.getD i 0) ≤ (o.map Real.exp).sum := by
    intro i hi
    rw [← hsum1]
    exact Finset.single_le_sum (f := fun k => Real.exp (o.getD k 0)) (fun k _ => (Real.exp_pos _).le) (Finset.mem_range.2 hi)
  refine ⟨hlen, ?_, ?_, ?_⟩
  · rw [list_sum_getD, hlen]
    have : ∀ i ∈ Finset.range labels.length, e.getD i 0 = (if i = labels.idxOf x.label then 1 else 0) -
        Real.exp (o.getD i 0) / (o.map Real.exp).sum := by
      intro i hi
      rw [List.getD_eq_getElem?_getD, hget' i (Finset.mem_range.1 hi)]
      rfl
    rw [Finset.sum_congr rfl this, Finset.sum_sub_distrib, sum_indicator, if_pos hidx, ← Finset.sum_div,
      ← hol, hsum1, div_self hpos.ne', sub_self]
  · intro i a hi ha
    have hil : i < labels.length := by
      have := (List.getElem?_eq_some_iff.1 hi).1
      omega
    rw [hget' i hil] at hi
    by_cases hc' : i = labels.idxOf x.label
    · rw [hc', List.getElem?_eq_getElem hidx]
      simp
    · rw [if_neg hc', Option.some.injEq] at hi
      have := div_pos (Real.exp_pos (o.getD i 0)) hpos
      linarith
  · intro a ha
    obtain ⟨i, hi, rfl⟩ := List.getElem_of_mem ha
    have hil : i < labels.length := by omega
    have h1 := hget' i hil
    rw [List.getElem?_eq_getElem hi, Option.some.injEq] at h1
    rw [h1]
    have hp := div_pos (Real.exp_pos (o.getD i 0)) hpos
    by_cases hc' : i = labels.idxOf x.label
    · rw [if_pos hc']
      have : Real.exp (o.getD i 0) / (o.map Real.exp).sum ≤ 1 := by
        rw [div_le_one hpos]
        exact hle1 i (by omega)
      constructor <;> linarith
    · rw [if_neg hc']
      have : Real.exp (o.getD i 0) / (o.map Real.exp).sum < 1 := by
        rw [div_lt_one hpos]
        have := hle i (by omega) (labels.idxOf x.label) (by omega) hc'
        have := Real.exp_pos (o.getD (labels.idxOf x.label) 0)
        linarith
      constructor <;> linarith

/-- With fitting weights and a known label the error vector exists. -/
theorem C75_defined (labels : List String) (x : Inst ℝ) (input : List ℝ) (W : Mat ℝ)
    (hx : x.label ∈ labels) (hr : W.rows = labels.length) (hc : W.cols = input.length) :
    ∃ e, calculateRMinusY labels x input W = .ok e := by
  obtain ⟨_, _, _, h⟩ := rMinusY_ok labels x input W hx hr hc
  exact ⟨_, h⟩

example : ∃ e, calculateRMinusY ["a", "b"] (⟨"b", [.continuous 3], none⟩ : Inst ℝ) [1, 3]
    ⟨2, 2, fun i j => i + j⟩ = .ok e :=
  C75_defined _ _ _ _ (by decide) rfl rfl

/-! ## C76 -/

section order
variable {F : Type} [Dbl F] [LawfulOrd F]

/-- the scan over the labels -/
theorem compositeScan (possible : List String) (y : List F) (labels : List String)
    (hy : ∀ (i : Nat) a, labels[i]? = some a → a ∈ possible → ∃ v, y[i]? = some v ∧ Dbl.Ord v) :
    ∀ n ≤ labels.length, ∀ b0 : String × F, Dbl.Ord b0.2 →
      ∃ b, (labels.zipIdx.take n).foldlM (compositeStep possible y) b0 = .ok b ∧ Dbl.Ord b.2 ∧
        ((b = b0 ∧ ∀ (i : Nat) a v, i < n → labels[i]? = some a → a ∈ possible → y[i]? = some v → (b0.2 <. v) = false) ∨
         ∃ k < n, labels[k]? = some b.1 ∧ b.1 ∈ possible ∧ y[k]? = some b.2 ∧ (b0.2 <. b.2) = true ∧
           (∀ (i : Nat) a v, i < n → labels[i]? = some a → a ∈ possible → y[i]? = some v → (v <=. b.2) = true) ∧
           ∀ (i : Nat) a v, i < k → labels[i]? = some a → a ∈ possible → y[i]? = some v → (v <. b.2) = true) := by
  intro n
  induction n with
  | zero =>
    intro _ b0 hb0
    exact ⟨b0, by simp, hb0, Or.inl ⟨rfl, by intro i a v hi; omega⟩⟩
  | succ n ih =>
    intro hn b0 hb0
    obtain ⟨b, hb, hob, hcase⟩ := ih (by omega) b0 hb0
    have hlt : n < labels.length := by omega
    rw [List.take_add_one, List.foldlM_append, hb, List.getElem?_zipIdx, List.getElem?_eq_getElem hlt]
    simp only [Option.map_some, Option.toList_some, List.foldlM_cons, List.foldlM_nil, res_bind_ok]
    have hlab : labels[n]? = some labels[n] := List.getElem?_eq_getElem hlt
    unfold compositeStep
    simp only [Nat.zero_add]
    by_cases hm : labels[n] ∈ possible
    · rw [if_pos hm]
      obtain ⟨v, hv, hov⟩ := hy n labels[n] hlab hm
      have hid : idxR y n = .ok v := by unfold idxR; rw [hv]
      rw [hid]
      simp only [res_bind_ok, res_pure]
      by_cases hlt' : (b.2 <. v) = true
      · rw [if_pos hlt']
        refine ⟨_, rfl, hov, Or.inr ⟨n, by omega, hlab, hm, hv, ?_, ?_, ?_⟩⟩
        · rcases hcase with ⟨rfl, _⟩ | ⟨k, _, _, _, _, h0, _, _⟩
          · exact hlt'
          · rw [LawfulOrd.lt_iff] at h0 hlt' ⊢
            exact ⟨LawfulOrd.le_trans _ _ _ h0.1 hlt'.1, fun hc => hlt'.2 (LawfulOrd.le_trans _ _ _ hc h0.1)⟩
        · intro i a u hi hla ha hu
          rcases Nat.lt_succ_iff_lt_or_eq.1 hi with hi | rfl
          · have hub : (u <=. b.2) = true := by
              rcases hcase with ⟨rfl, h1⟩ | ⟨k, _, _, _, _, _, h1, _⟩
              · have := h1 i a u hi hla ha hu
                obtain ⟨u', hu', hou⟩ := hy i a hla ha
                rw [hu] at hu'; cases hu'
                rcases LawfulOrd.total _ _ hou hob with h | h
                · exact h
                · by_contra hc
                  have h9 : (b.2 <. u) = true := (LawfulOrd.lt_iff _ _).2 ⟨h, hc⟩
                  rw [h9] at this
                  simp at this
              · exact h1 i a u hi hla ha hu
            exact LawfulOrd.le_trans _ _ _ hub ((LawfulOrd.lt_iff _ _).1 hlt').1
          · rw [hu] at hv; cases hv; exact hov
        · intro i a u hi hla ha hu
          have hub : (u <=. b.2) = true := by
            rcases hcase with ⟨rfl, h1⟩ | ⟨k, _, _, _, _, _, h1, _⟩
            · have := h1 i a u hi hla ha hu
              obtain ⟨u', hu', hou⟩ := hy i a hla ha
              rw [hu] at hu'; cases hu'
              rcases LawfulOrd.total _ _ hou hob with h | h
              · exact h
              · by_contra hc
                have h9 : (b.2 <. u) = true := (LawfulOrd.lt_iff _ _).2 ⟨h, hc⟩
                rw [h9] at this
                simp at this
            · exact h1 i a u hi hla ha hu
          rw [LawfulOrd.lt_iff] at hlt' ⊢
          exact ⟨LawfulOrd.le_trans _ _ _ hub hlt'.1, fun hc => hlt'.2 (LawfulOrd.le_trans _ _ _ hc hub)⟩
      · rw [if_neg hlt']
        have hvb : (v <=. b.2) = true := by
          rcases LawfulOrd.total _ _ hov hob with h | h
          · exact h
          · by_contra hc
            exact hlt' ((LawfulOrd.lt_iff _ _).2 ⟨h, hc⟩)
        refine ⟨_, rfl, hob, ?_⟩
        rcases hcase with ⟨rfl, h1⟩ | ⟨k, hk, h1, h2, h3, h4, h5, h6⟩
        · left
          refine ⟨rfl, ?_⟩
          intro i a u hi hla ha hu
          rcases Nat.lt_succ_iff_lt_or_eq.1 hi with hi | rfl
          · exact h1 i a u hi hla ha hu
          · rw [hu] at hv; cases hv; exact Bool.eq_false_iff.2 hlt'
        · right
          refine ⟨k, by omega, h1, h2, h3, h4, ?_, h6⟩
          intro i a u hi hla ha hu
          rcases Nat.lt_succ_iff_lt_or_eq.1 hi with hi | rfl
          · exact h5 i a u hi hla ha hu
          · rw [hu] at hv; cases hv; exact hvb
    · rw [if_neg hm]
      refine ⟨b, rfl, hob, ?_⟩
      rcases hcase with ⟨rfl, h1⟩ | ⟨k, hk, h1, h2, h3, h4, h5, h6⟩
      · left
        refine ⟨rfl, ?_⟩
        intro i a u hi hla ha hu
        rcases Nat.lt_succ_iff_lt_or_eq.1 hi with hi | rfl
        · exact h1 i a u hi hla ha hu
        · rw [hlab] at hla; cases hla; exact absurd ha hm
      · right
        refine ⟨k, by omega, h1, h2, h3, h4, ?_, h6⟩
        intro i a u hi hla ha hu
        rcases Nat.lt_succ_iff_lt_or_eq.1 hi with hi | rfl
        · exact h5 i a u hi hla ha hu
        · rw [hlab] at hla; cases hla; exact absurd ha hm

/-- **C76.** For a composite instance with the possible labels `p :: ps`, and outputs that are
ordinary numbers above `-DBL_MAX`, the predicted label is a possible one. If some possible label is
known to the network it is the first of the known possible labels with the largest output;
otherwise it is the first possible label. -/
theorem C76_composite (labels : List String) (y : List F) (p : String) (ps : List String)
    (hlen : y.length = labels.length) (hmax : Dbl.Ord (Dbl.neg (Dbl.maxVal : F)))
    (hy : ∀ v ∈ y, (Dbl.neg (Dbl.maxVal : F) <. v) = true) :
    ∃ c, predictWithComposite labels y (p :: ps) = .ok c ∧ c ∈ p :: ps ∧
      (((∀ a ∈ labels, a ∉ p :: ps) ∧ c = p) ∨
       ∃ k v, labels[k]? = some c ∧ y[k]? = some v ∧
        (∀ (i : Nat) a u, labels[i]? = some a → a ∈ p :: ps → y[i]? = some u → (u <=. v) = true) ∧
        ∀ (i : Nat) a u, i < k → labels[i]? = some a → a ∈ p :: ps → y[i]? = some u → (u <. v) = true) := by
  have hy' : ∀ (i : Nat) a, labels[i]? = some a → a ∈ p :: ps → ∃ v, y[i]? = some v ∧ Dbl.Ord v := by
    intro i a hi _
    have hlt : i < y.length := by have := (List.getElem?_eq_some_iff.1 hi).1; omega
    refine ⟨y[i], List.getElem?_eq_getElem hlt, ?_⟩
    exact LawfulOrd.ord_right _ _ ((LawfulOrd.lt_iff _ _).1 (hy y[i] (List.getElem_mem hlt))).1
  obtain ⟨b, hb, _, hcase⟩ := compositeScan (p :: ps) y labels hy' labels.length le_rfl (p, Dbl.neg (Dbl.maxVal : F)) hmax
  have htake : labels.zipIdx.take labels.length = labels.zipIdx := by
    rw [List.take_of_length_le]; simp
  rw [htake] at hb
  refine ⟨b.1, ?_, ?_⟩
  · unfold predictWithComposite atR
    simp only [List.getElem?_cons_zero, res_bind_ok, hb, res_pure]
  · rcases hcase with ⟨rfl, h1⟩ | ⟨k, hk, h1, h2, h3, h4, h5, h6⟩
    · refine ⟨by simp, Or.inl ⟨?_, rfl⟩⟩
      intro a ha hap
      obtain ⟨i, hi, rfl⟩ := List.getElem_of_mem ha
      have hlt : i < y.length := by omega
      have := h1 i labels[i] y[i] hi (List.getElem?_eq_getElem hi) hap (List.getElem?_eq_getElem hlt)
      rw [hy y[i] (List.getElem_mem hlt)] at this
      simp at this
    · refine ⟨h2, Or.inr ⟨k, b.2, h1, h3, ?_, h6⟩⟩
      intro i a u hi ha hu
      exact h5 i a u (List.getElem?_eq_some_iff.1 hi).1 hi ha hu

example : predictWithComposite ["a", "b", "c"] [XR.fin 5, .fin 1, .fin 2] ["c", "z", "b"] = .ok "c" := by decide +kernel
example : predictWithComposite ["a", "b", "c"] [XR.fin 5, .fin 3, .fin 2] ["c", "z", "b"] = .ok "b" := by decide +kernel
example : predictWithComposite ["a", "b", "c"] [XR.fin 5, .fin 3, .fin 2] ["y", "z"] = .ok "y" := by decide +kernel

/-- the scan of `maxIndex` -/
theorem maxIndexScan (l : List F) : ∀ (s : Nat) (b : Nat × F), Dbl.Ord b.2 → (∀ v ∈ l, Dbl.Ord v) →
    let r := (l.zipIdx s).foldl (fun (b : Nat × F) p => if b.2 <. p.1 then (p.2, p.1) else b) b
    (r = b ∧ ∀ v ∈ l, (v <=. b.2) = true) ∨
    ∃ k, l[k]? = some r.2 ∧ r.1 = s + k ∧ (b.2 <. r.2) = true ∧ (∀ v ∈ l, (v <=. r.2) = true) ∧
      ∀ (i : Nat) v, i < k → l[i]? = some v → (v <. r.2) = true := by
  induction l with
  | nil => intro s b _ _; left; simp
  | cons a l ih =>
    intro s b hb hl
    simp only [List.zipIdx_cons, List.foldl_cons]
    have hoa := hl a (by simp)
    have hol : ∀ v ∈ l, Dbl.Ord v := fun v hv => hl v (by simp [hv])
    by_cases h : (b.2 <. a) = true
    · rw [if_pos h]
      rcases ih (s + 1) (s, a) hoa hol with ⟨h1, h2⟩ | ⟨k, h1, h2, h3, h4, h5⟩
      · right
        rw [h1]
        refine ⟨0, by simp, by simp, h, ?_, by intro i v hi; omega⟩
        intro v hv
        rcases List.mem_cons.1 hv with rfl | hv
        · exact hoa
        · exact h2 v hv
      · right
        refine ⟨k + 1, by simpa using h1, by omega, ?_, ?_, ?_⟩
        · rw [LawfulOrd.lt_iff] at h h3 ⊢
          exact ⟨LawfulOrd.le_trans _ _ _ h.1 h3.1, fun hc => h3.2 (LawfulOrd.le_trans _ _ _ hc h.1)⟩
        · intro v hv
          rcases List.mem_cons.1 hv with rfl | hv
          · exact ((LawfulOrd.lt_iff _ _).1 h3).1
          · exact h4 v hv
        · intro i v hi hv
          cases i with
          | zero => simp at hv; subst hv; exact h3
          | succ i => exact h5 i v (by omega) (by simpa using hv)
    · rw [if_neg h]
      have hab : (a <=. b.2) = true := by
        rcases LawfulOrd.total _ _ hoa hb with h' | h'
        · exact h'
        · by_contra hc
          exact h ((LawfulOrd.lt_iff _ _).2 ⟨h', hc⟩)
      rcases ih (s + 1) b hb hol with ⟨h1, h2⟩ | ⟨k, h1, h2, h3, h4, h5⟩
      · left
        refine ⟨h1, ?_⟩
        intro v hv
        rcases List.mem_cons.1 hv with rfl | hv
        · exact hab
        · exact h2 v hv
      · right
        refine ⟨k + 1, by simpa using h1, by omega, h3, ?_, ?_⟩
        · intro v hv
          rcases List.mem_cons.1 hv with rfl | hv
          · exact LawfulOrd.le_trans _ _ _ hab ((LawfulOrd.lt_iff _ _).1 h3).1
          · exact h4 v hv
        · intro i v hi hv
          cases i with
          | zero =>
            simp at hv; subst hv
            rw [LawfulOrd.lt_iff] at h3 ⊢
            exact ⟨LawfulOrd.le_trans _ _ _ hab h3.1, fun hc => h3.2 (LawfulOrd.le_trans _ _ _ hc hab)⟩
          | succ i => exact h5 i v (by omega) (by simpa using hv)

theorem maxIndex_spec (y : List F) (hne : y ≠ []) (ho : ∀ v ∈ y, Dbl.Ord v) :
    ∃ k v, maxIndex y = .ok k ∧ y[k]? = some v ∧ (∀ u ∈ y, (u <=. v) = true) ∧
      ∀ (i : Nat) u, i < k → y[i]? = some u → (u <. v) = true := by
  cases y with
  | nil => exact absurd rfl hne
  | cons a l =>
    simp only [maxIndex]
    rcases maxIndexScan l 1 (0, a) (ho a (by simp)) (fun v hv => ho v (by simp [hv])) with ⟨h1, h2⟩ | ⟨k, h1, h2, h3, h4, h5⟩
    · refine ⟨0, a, by rw [h1], by simp, ?_, by intro i u hi; omega⟩
      intro u hu
      rcases List.mem_cons.1 hu with rfl | hu
      · exact ho u (by simp)
      · exact h2 u hu
    · refine ⟨k + 1, _, by rw [h2, Nat.add_comm], by simpa using h1, ?_, ?_⟩
      · intro u hu
        rcases List.mem_cons.1 hu with rfl | hu
        · exact ((LawfulOrd.lt_iff _ _).1 h3).1
        · exact h4 u hu
      · intro i u hi hu
        cases i with
        | zero => simp at hu; subst hu; exact h3
        | succ i => exact h5 i u (by omega) (by simpa using hu)

/-- **C76**, plain instances: the predicted label is the first one with the largest output. -/
theorem C76_plain (labels : List String) (output : List F → Res (List F)) (x : Inst F) (v y : List F)
    (hx : x.isComposite = false) (hv : inputVector x = .ok v) (hy : output v = .ok y)
    (hlen : y.length = labels.length) (hne : labels ≠ []) (ho : ∀ a ∈ y, Dbl.Ord a) :
    ∃ k c u, netPredict labels output x = .ok c ∧ labels[k]? = some c ∧ y[k]? = some u ∧
      (∀ a ∈ y, (a <=. u) = true) ∧ ∀ (i : Nat) a, i < k → y[i]? = some a → (a <. u) = true := by
  have hyne : y ≠ [] := by
    intro h
    subst h
    exact hne (List.eq_nil_of_length_eq_zero (by simpa using hlen.symm))
  obtain ⟨k, u, h1, h2, h3, h4⟩ := maxIndex_spec y hyne ho
  have hk : k < labels.length := by have := (List.getElem?_eq_some_iff.1 h2).1; omega
  refine ⟨k, labels[k], u, ?_, List.getElem?_eq_getElem hk, h2, h3, h4⟩
  unfold netPredict
  rw [hv]
  simp only [res_bind_ok, hy, hx, h1]
  unfold atR
  rw [List.getElem?_eq_getElem hk]
  rfl

/-- **C76**, the whole prediction for a composite instance. -/
theorem C76_predict (labels : List String) (output : List F → Res (List F)) (x : Inst F) (v y : List F)
    (hx : x.isComposite = true) (hv : inputVector x = .ok v) (hy : output v = .ok y) :
    netPredict labels output x = predictWithComposite labels y x.possibleLabels := by
  unfold netPredict
  rw [hv]
  simp only [res_bind_ok, hy, hx, if_true]

/-! ## C77, C78 -/

/-- what the comparison of results must satisfy -/
structure Comparison (lt le : F → F → Bool) : Prop where
  irrefl : ∀ a, lt a a = false
  mixed : ∀ a b c, lt a b = true → le b c = true → lt a c = true
  weak : ∀ a b, lt a b = true → le a b = true

theorem comparison_up : Comparison (fun a b : F => a <. b) (fun a b => a <=. b) where
  irrefl a := by
    rw [Bool.eq_false_iff]
    intro h
    have := (LawfulOrd.lt_iff _ _).1 h
    exact this.2 this.1
  mixed a b c h1 h2 := by
    rw [LawfulOrd.lt_iff] at h1 ⊢
    exact ⟨LawfulOrd.le_trans _ _ _ h1.1 h2, fun hc => h1.2 (LawfulOrd.le_trans _ _ _ h2 hc)⟩
  weak a b h := ((LawfulOrd.lt_iff _ _).1 h).1

theorem comparison_down : Comparison (fun a b : F => b <. a) (fun a b => b <=. a) where
  irrefl a := comparison_up.irrefl a
  mixed a b c h1 h2 := by
    rw [LawfulOrd.lt_iff] at h1 ⊢
    exact ⟨LawfulOrd.le_trans _ _ _ h2 h1.1, fun hc => h1.2 (LawfulOrd.le_trans _ _ _ hc h2)⟩
  weak a b h := ((LawfulOrd.lt_iff _ _).1 h).1

/-- the best of the results so far, with its value -/
def BestSoFar {W : Type} (lt le : F → F → Bool) (start : F) (acc : Nat → F) (n : Nat) (w : Nat → W)
    (best : W) (bestPerf : F) : Prop :=
  (best = w 0 ∧ bestPerf = start ∧ ∀ j < n, lt start (acc j) = false) ∨
  ∃ e < n, best = w (e + 1) ∧ bestPerf = acc e ∧ lt start (acc e) = true ∧
    (∀ j < n, lt (acc e) (acc j) = false) ∧ ∀ j < e, le (acc e) (acc j) = false

theorem BestSoFar.step {W : Type} {lt le : F → F → Bool} (C : Comparison lt le) {start : F} {acc : Nat → F}
    {n : Nat} {w : Nat → W} {best : W} {bp : F} (h : BestSoFar lt le start acc n w best bp) :
    BestSoFar lt le start acc (n + 1) w (if lt bp (acc n) then w (n + 1) else best)
      (if lt bp (acc n) then acc n else bp) := by
  have key : ∀ j < n, lt bp (acc j) = false := by
    rcases h with ⟨_, rfl, h3⟩ | ⟨e, _, _, rfl, _, h5, _⟩
    · exact h3
    · exact h5
  have hstart : ∀ a, lt bp a = true → lt start a = true := by
    intro a ha
    rcases h with ⟨_, rfl, _⟩ | ⟨e, _, _, rfl, h4, _, _⟩
    · exact ha
    · exact C.mixed _ _ _ h4 (C.weak _ _ ha)
  by_cases hb : lt bp (acc n) = true
  · rw [if_pos hb, if_pos hb]
    refine Or.inr ⟨n, by omega, rfl, rfl, hstart _ hb, ?_, ?_⟩
    · intro j hj
      rcases Nat.lt_succ_iff_lt_or_eq.1 hj with hj | rfl
      · rw [Bool.eq_false_iff]
        intro hc
        have := C.mixed _ _ _ hb (C.weak _ _ hc)
        rw [key j hj] at this
        cases this
      · exact C.irrefl _
    · intro j hj
      rw [Bool.eq_false_iff]
      intro hc
      have := C.mixed _ _ _ hb hc
      rw [key j hj] at this
      cases this
  · rw [if_neg hb, if_neg hb]
    have hb' : lt bp (acc n) = false := Bool.eq_false_iff.2 hb
    rcases h with ⟨h1, rfl, h3⟩ | ⟨e, he, h1, rfl, h4, h5, h6⟩
    · refine Or.inl ⟨h1, rfl, fun j hj => ?_⟩
      rcases Nat.lt_succ_iff_lt_or_eq.1 hj with hj | rfl
      · exact h3 j hj
      · exact hb'
    · refine Or.inr ⟨e, by omega, h1, rfl, h4, fun j hj => ?_, h6⟩
      rcases Nat.lt_succ_iff_lt_or_eq.1 hj with hj | rfl
      · exact h5 j hj
      · exact hb'

theorem BestSoFar.congr {W : Type} {lt le : F → F → Bool} {start : F} {acc acc' : Nat → F}
    {n : Nat} {w w' : Nat → W} {best : W} {bp : F} (h : BestSoFar lt le start acc n w best bp)
    (ha : ∀ j < n, acc' j = acc j) (hw : ∀ j ≤ n, w' j = w j) : BestSoFar lt le start acc' n w' best bp := by
  rcases h with ⟨h1, h2, h3⟩ | ⟨e, he, h1, h2, h4, h5, h6⟩
  · exact Or.inl ⟨by rw [hw 0 (by omega)]; exact h1, h2, fun j hj => by rw [ha j hj]; exact h3 j hj⟩
  · refine Or.inr ⟨e, he, by rw [hw _ (by omega)]; exact h1, by rw [ha e he]; exact h2, by rw [ha e he]; exact h4, ?_, ?_⟩
    · intro j hj; rw [ha e he, ha j hj]; exact h5 j hj
    · intro j hj; rw [ha e he, ha j (by omega)]; exact h6 j hj

/-- the state of the loop after `n` epochs -/
theorem epochLoop_inv {W : Type} (step : F → W → Inst F → Res W) (perf : W → Res F) (better : F → F → Bool)
    (lt le : F → F → Bool) (C : Comparison lt le) (hbetter : ∀ p b, better p b = lt b p)
    (decrease : F) (σ : List Nat) (w0 : W) (start eta : F) (data : IList F) : ∀ (n : Nat) (s : Epochs W F),
    epochLoop step perf better decrease σ n ⟨w0, w0, start, eta, data⟩ = .ok s →
    ∃ (w : Nat → W) (acc : Nat → F), w 0 = w0 ∧ w n = s.cur ∧ s.eta = rateAt eta decrease n ∧
      s.data = orderAt data σ n ∧ IsTraining step data σ eta decrease n w ∧
      (∀ j < n, perf (w (j + 1)) = .ok (acc j)) ∧ BestSoFar lt le start acc n w s.best s.bestPerf := by
  intro n
  induction n with
  | zero =>
    intro s h
    unfold epochLoop at h
    simp only [List.range_zero, List.foldlM_nil] at h
    cases h
    exact ⟨fun _ => w0, fun _ => start, rfl, rfl, rfl, rfl, fun j hj => by omega, fun j hj => by omega,
      Or.inl ⟨rfl, rfl, fun j hj => by omega⟩⟩
  | succ n ih =>
    intro s h
    unfold epochLoop at h
    rw [List.range_succ, List.foldlM_append] at h
    obtain ⟨s1, h1, h2⟩ := bind_ok_iff.1 h
    obtain ⟨w, acc, hw0, hwn, heta, hdata, htr, hperf, hbest⟩ := ih s1 h1
    simp only [List.foldlM_cons, List.foldlM_nil] at h2
    obtain ⟨s2, h3, h4⟩ := bind_ok_iff.1 h2
    cases h4
    unfold epochStep at h3
    obtain ⟨wn, h5, h6⟩ := bind_ok_iff.1 h3
    obtain ⟨p, h7, h8⟩ := bind_ok_iff.1 h6
    cases h8
    refine ⟨fun j => if j = n + 1 then wn else w j, fun j => if j = n then p else acc j, by simp [hw0], by simp,
      by simp [rateAt, heta], by simp [orderAt, hdata], ?_, ?_, ?_⟩
    · intro j hj
      rcases Nat.lt_succ_iff_lt_or_eq.1 hj with hj | rfl
      · have := htr j hj
        simp only [if_neg (by omega : ¬ j = n + 1), if_neg (by omega : ¬ j + 1 = n + 1)]
        exact this
      · simp only [if_neg (by omega : ¬ j = j + 1), if_true]
        rw [hwn, ← heta]
        have : orderAt data σ (j + 1) = IList.shuffle s1.data σ := by rw [orderAt, hdata]
        rw [this]
        exact h5
    · intro j hj
      rcases Nat.lt_succ_iff_lt_or_eq.1 hj with hj | rfl
      · simp only [if_neg (by omega : ¬ j + 1 = n + 1), if_neg (by omega : ¬ j = n)]
        exact hperf j hj
      · simp only [if_true]
        exact h7
    · have hcongr := hbest.congr (acc' := fun j => if j = n then p else acc j)
        (w' := fun j => if j = n + 1 then wn else w j)
        (fun j hj => if_neg (by omega)) (fun j hj => if_neg (by omega))
      have := hcongr.step C
      simp only [if_true, hbetter] at this ⊢
      exact this

theorem BestSoFar.kept {W : Type} {lt le : F → F → Bool} {start : F} {acc : Nat → F}
    {n : Nat} {w : Nat → W} {best : W} {bp : F} (h : BestSoFar lt le start acc n w best bp) :
    KeptBest lt le start acc n w best := by
  rcases h with ⟨h1, _, h3⟩ | ⟨e, he, h1, _, h4, h5, h6⟩
  · exact Or.inl ⟨h1, h3⟩
  · exact Or.inr ⟨e, he, h1, h4, h5, h6⟩

end order

section trainings
variable {F : Type} [Dbl F]

theorem netCountLoop {F : Type} [Dbl F] (predict : Inst F → Res String) : ∀ (t : IList F) (n c : Nat),
    t.foldlM (fun (n : Nat) x => do
      let p ← predict x
      pure (if x.label = p then n + 1 else n)) n = .ok c →
    ∃ p : Inst F → String, (∀ x ∈ t, predict x = .ok (p x)) ∧ c = n + t.countP (fun x => x.label == p x) := by
  intro t n c h
  have hp : ∀ x ∈ t, ∃ s, predict x = .ok s := by
    revert n c
    induction t with
    | nil => intro n c h x hx; cases hx
    | cons a t ih =>
      intro n c h x hx
      rw [List.foldlM_cons] at h
      obtain ⟨m, h1, h2⟩ := bind_ok_iff.1 h
      obtain ⟨s, h3, _⟩ := bind_ok_iff.1 h1
      rcases List.mem_cons.1 hx with rfl | hx
      · exact ⟨s, h3⟩
      · exact ih m c h2 x hx
  classical
  refine ⟨fun x => match predict x with | .ok s => s | .error _ => "", ?_, ?_⟩
  · intro x hx
    obtain ⟨s, hs⟩ := hp x hx
    simp only [hs]
  · clear hp
    revert n c
    induction t with
    | nil => intro n c h; cases h; simp
    | cons a t ih =>
      intro n c h
      rw [List.foldlM_cons] at h
      obtain ⟨m, h1, h2⟩ := bind_ok_iff.1 h
      obtain ⟨s, h3, h4⟩ := bind_ok_iff.1 h1
      have := ih m c h2
      rw [List.countP_cons, this]
      cases h4
      simp only [h3, beq_iff_eq]
      split <;> omega

theorem validationAccuracy_spec {W : Type} (labels : List String) (output : W → List F → Res (List F))
    (t : IList F) (w : W) (a : F) (h : validationAccuracy labels output t w = .ok a) :
    AccuracyIs labels output t w a := by
  unfold validationAccuracy testClassifier at h
  obtain ⟨p, h1, h2⟩ := bind_ok_iff.1 h
  obtain ⟨c, h3, h4⟩ := bind_ok_iff.1 h1
  obtain ⟨q, h5, h6⟩ := netCountLoop _ t 0 c h3
  refine ⟨q, h5, ?_⟩
  cases h4
  simp only [Perf.ofAccuracy, Perf.getAccuracy] at h2
  cases h2
  rw [h6, Nat.zero_add]

theorem AccuracyIs.validation {W : Type} {labels : List String} {output : W → List F → Res (List F)}
    {t : IList F} {w : W} {a : F} (h : AccuracyIs labels output t w a) :
    validationAccuracy labels output t w = .ok a := by
  obtain ⟨p, h1, h2⟩ := h
  unfold validationAccuracy testClassifier
  have h3 : t.foldlM (fun (n : Nat) x => do
      let p ← netPredict labels (output w) x
      (pure (if x.label = p then n + 1 else n) : Res Nat)) 0 =
      .ok (t.foldl (fun n x => if x.label = p x then n + 1 else n) 0) :=
    foldlM_ok (fun x hx n => by rw [h1 x hx]; rfl) 0
  obtain ⟨q, h5, h6⟩ := netCountLoop _ t 0 _ h3
  rw [h3]
  simp only [res_bind_ok, res_pure, Perf.ofAccuracy, Perf.getAccuracy]
  rw [h6, Nat.zero_add, h2]
  have : t.countP (fun x => x.label == q x) = t.countP (fun x => x.label == p x) := by
    refine List.countP_congr (fun x hx => ?_)
    have h7 := h1 x hx
    rw [h5 x hx] at h7
    simp only [Except.ok.injEq] at h7
    rw [h7]
  rw [this]

variable [LawfulOrd F]

/-- **C77**, linear perceptron. The training set is split in a part `held` and a part `grown`; the
weights `w 0, w 1, …` before and after the epochs start from the random ones and each epoch
presents every instance of `grown`; the weights kept are those after the earliest epoch whose
accuracy on `held` is maximal, or the initial ones if no accuracy is positive. -/
theorem C77_perceptron (param : NetParam F) (old net : Net (Mat F)) (trainSet : IList F)
    (h : percTrain param old trainSet = .ok net) :
    ∃ parts held grown w acc, Parts.byRatioStratified trainSet param.ratio param.splitOrder = .ok parts ∧
      parts[0]? = some held ∧ parts[1]? = some grown ∧ net.labels = trainSet.getDistinctClassLabels ∧
      w 0 = param.random net.labels.length (net.d + 1) ∧
      IsTraining (percStep net.labels) grown param.shuffleOrder param.learningRate param.etaDecrease param.epochs w ∧
      (∀ j < param.epochs, AccuracyIs net.labels percOutput held (w (j + 1)) (acc j)) ∧
      KeptBest (fun a b => a <. b) (fun a b => a <=. b) Dbl.zero acc param.epochs w net.weights := by
  unfold percTrain at h
  obtain ⟨ini, h1, h⟩ := bind_ok_iff.1 h
  obtain ⟨parts, h2, h⟩ := bind_ok_iff.1 h
  obtain ⟨data, h3, h⟩ := bind_ok_iff.1 h
  obtain ⟨val, h4, h⟩ := bind_ok_iff.1 h
  obtain ⟨s, h5, h⟩ := bind_ok_iff.1 h
  cases h
  obtain ⟨w, acc, hw0, _, _, _, htr, hperf, hbest⟩ := epochLoop_inv _ _ _ _ _ comparison_up
    (fun p b => rfl) _ _ _ _ _ _ _ _ h5
  have hlab : ini.1 = trainSet.getDistinctClassLabels := by
    unfold netInitialize at h1
    obtain ⟨x0, _, h1⟩ := bind_ok_iff.1 h1
    split at h1
    · cases h1
    · cases h1; rfl
  exact ⟨parts, val, data, w, acc, h2, atR_eq_ok.1 h4, atR_eq_ok.1 h3, hlab, hw0, htr,
    fun j hj => validationAccuracy_spec _ _ _ _ _ (hperf j hj), hbest.kept⟩

/-- **C77**, multi-layer perceptron. -/
theorem C77_multilayer (param : NetParam F) (H : Nat) (act : Activation) (old net : Net (Two F)) (trainSet : IList F)
    (h : mlpTrain param H act old trainSet = .ok net) :
    ∃ parts held grown w acc, Parts.byRatioStratified trainSet param.ratio param.splitOrder = .ok parts ∧
      parts[0]? = some held ∧ parts[1]? = some grown ∧ net.labels = trainSet.getDistinctClassLabels ∧
      w 0 = ⟨param.random H (net.d + 1), param.random net.labels.length (H + 1)⟩ ∧
      IsTraining (mlpStep net.labels act) grown param.shuffleOrder param.learningRate param.etaDecrease param.epochs w ∧
      (∀ j < param.epochs, AccuracyIs net.labels (mlpOutput act) held (w (j + 1)) (acc j)) ∧
      KeptBest (fun a b => a <. b) (fun a b => a <=. b) Dbl.zero acc param.epochs w net.weights := by
  unfold mlpTrain at h
  obtain ⟨ini, h1, h⟩ := bind_ok_iff.1 h
  obtain ⟨parts, h2, h⟩ := bind_ok_iff.1 h
  obtain ⟨data, h3, h⟩ := bind_ok_iff.1 h
  obtain ⟨val, h4, h⟩ := bind_ok_iff.1 h
  obtain ⟨s, h5, h⟩ := bind_ok_iff.1 h
  cases h
  obtain ⟨w, acc, hw0, _, _, _, htr, hperf, hbest⟩ := epochLoop_inv _ _ _ _ _ comparison_up
    (fun p b => rfl) _ _ _ _ _ _ _ _ h5
  have hlab : ini.1 = trainSet.getDistinctClassLabels := by
    unfold netInitialize at h1
    obtain ⟨x0, _, h1⟩ := bind_ok_iff.1 h1
    split at h1
    · cases h1
    · cases h1; rfl
  exact ⟨parts, val, data, w, acc, h2, atR_eq_ok.1 h4, atR_eq_ok.1 h3, hlab, hw0, htr,
    fun j hj => validationAccuracy_spec _ _ _ _ _ (hperf j hj), hbest.kept⟩

/-- **C77**, deep network (for a retrained object the initial weights contain the old ones, see
C55). -/
theorem C77_deep (param : NetParam F) (hidden : List Nat) (act : Activation) (old net : Net (List (Mat F)))
    (trainSet : IList F) (h : deepTrain param hidden act old trainSet = .ok net) :
    ∃ parts held grown w acc, Parts.byRatioStratified trainSet param.ratio param.splitOrder = .ok parts ∧
      parts[0]? = some held ∧ parts[1]? = some grown ∧ net.labels = trainSet.getDistinctClassLabels ∧
      deepAllocate param.random net.labels net.d hidden old.weights = .ok (w 0) ∧
      IsTraining (deepStep net.labels act hidden.length) grown param.shuffleOrder param.learningRate param.etaDecrease
        param.epochs w ∧
      (∀ j < param.epochs, AccuracyIs net.labels (deepOutput act) held (w (j + 1)) (acc j)) ∧
      KeptBest (fun a b => a <. b) (fun a b => a <=. b) Dbl.zero acc param.epochs w net.weights := by
  unfold deepTrain at h
  obtain ⟨ini, h1, h⟩ := bind_ok_iff.1 h
  obtain ⟨parts, h2, h⟩ := bind_ok_iff.1 h
  obtain ⟨data, h3, h⟩ := bind_ok_iff.1 h
  obtain ⟨val, h4, h⟩ := bind_ok_iff.1 h
  obtain ⟨ws, h6, h⟩ := bind_ok_iff.1 h
  obtain ⟨s, h5, h⟩ := bind_ok_iff.1 h
  cases h
  obtain ⟨w, acc, hw0, _, _, _, htr, hperf, hbest⟩ := epochLoop_inv _ _ _ _ _ comparison_up
    (fun p b => rfl) _ _ _ _ _ _ _ _ h5
  have hlab : ini.1 = trainSet.getDistinctClassLabels := by
    unfold netInitialize at h1
    obtain ⟨x0, _, h1⟩ := bind_ok_iff.1 h1
    split at h1
    · cases h1
    · cases h1; rfl
  exact ⟨parts, val, data, w, acc, h2, atR_eq_ok.1 h4, atR_eq_ok.1 h3, hlab, by rw [hw0]; exact h6, htr,
    fun j hj => validationAccuracy_spec _ _ _ _ _ (hperf j hj), hbest.kept⟩

/-- **C78.** The autoencoder keeps the weights after the earliest epoch with the least validation
error (the initial weights if no error is below `DBL_MAX`). -/
theorem C78_autoencoder (param : NetParam F) (H : Nat) (old net : Net (Two F)) (trainSet : IList F)
    (h : autoTrain param H old trainSet = .ok net) :
    ∃ parts held grown x0 w err, Parts.byRatioStratified trainSet (Dbl.lit (1/5)) param.splitOrder = .ok parts ∧
      parts[0]? = some held ∧ parts[1]? = some grown ∧ grown[0]? = some x0 ∧
      w 0 = ⟨param.random H (net.d + 1), param.random x0.continuousAttributeSize.toNat (H + 1)⟩ ∧
      IsTraining autoStep grown param.shuffleOrder param.learningRate (Dbl.lit (19/20)) param.epochs w ∧
      (∀ j < param.epochs, autoError held (w (j + 1)) = .ok (err j)) ∧
      KeptBest (fun a b => b <. a) (fun a b => b <=. a) Dbl.maxVal err param.epochs w net.weights := by
  unfold autoTrain at h
  obtain ⟨ini, h1, h⟩ := bind_ok_iff.1 h
  obtain ⟨parts, h2, h⟩ := bind_ok_iff.1 h
  obtain ⟨data, h3, h⟩ := bind_ok_iff.1 h
  obtain ⟨val, h4, h⟩ := bind_ok_iff.1 h
  obtain ⟨x0, h6, h⟩ := bind_ok_iff.1 h
  obtain ⟨s, h5, h⟩ := bind_ok_iff.1 h
  cases h
  obtain ⟨w, acc, hw0, _, _, _, htr, hperf, hbest⟩ := epochLoop_inv _ _ _ _ _ comparison_down
    (fun p b => rfl) _ _ _ _ _ _ _ _ h5
  exact ⟨parts, val, data, x0, w, acc, h2, atR_eq_ok.1 h4, atR_eq_ok.1 h3, atR_eq_ok.1 h6, hw0, htr, hperf, hbest.kept⟩

end trainings
end Verif
