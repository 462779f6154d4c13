import Verif.Props.TreeFit

/-! # Dividing further never raises the remaining entropy -/

namespace Verif

/-- the entropy as a sum over any set of labels that contains the ones that occur -/
theorem shannon_over (l : List String) {T : Finset String} (hT : l.toFinset ⊆ T) :
    shannon l = ∑ s ∈ T, Real.negMulLog ((l.count s : ℝ) / l.length) / Real.log 2 := by
  have h : shannon l = ∑ s ∈ l.toFinset, Real.negMulLog ((l.count s : ℝ) / l.length) / Real.log 2 := by
    unfold shannon
    refine Finset.sum_congr rfl (fun s _ => ?_)
    unfold Real.negMulLog Real.logb
    ring
  rw [h]
  refine Finset.sum_subset hT (fun s _ hs => ?_)
  rw [List.count_eq_zero_of_not_mem (by simpa using hs)]
  simp

theorem sum_filter_length {α κ : Type} [DecidableEq κ] (data : List α) (key : α → κ) (q : α → Bool) :
    ∑ a ∈ (data.map key).toFinset, ((data.filter (fun x => key x = a)).countP q) = data.countP q := by
  have h : ∀ (A : Finset κ) (l : List α), (∀ x ∈ l, key x ∈ A) →
      ∑ a ∈ A, ((l.filter (fun x => key x = a)).countP q) = l.countP q := by
    intro A l
    induction l with
    | nil => intro _; simp
    | cons x l ih =>
      intro hl
      have hx : key x ∈ A := hl x (by simp)
      have e : ∀ a, ((x :: l).filter (fun x => key x = a)).countP q =
          (l.filter (fun x => key x = a)).countP q + if a = key x then (if q x then 1 else 0) else 0 := by
        intro a
        by_cases h : key x = a
        · rw [List.filter_cons_of_pos (by simpa using h), List.countP_cons, if_pos h.symm]
        · rw [List.filter_cons_of_neg (by simpa using h), if_neg (fun e => h e.symm), add_zero]
      simp only [e]
      rw [Finset.sum_add_distrib, ih (fun y hy => hl y (by simp [hy])), Finset.sum_ite_eq' A (key x), if_pos hx, List.countP_cons]
  exact h _ _ (fun x hx => by simpa using ⟨x, hx, rfl⟩)

/-- no question raises the entropy -/
theorem condEntropy_le {κ : Type} [DecidableEq κ] (data : IList ℝ) (key : Inst ℝ → κ) :
    condEntropy data key ≤ shannon (data.map Inst.label) := by
  rcases eq_or_ne data [] with rfl | hne
  · simp [condEntropy, shannon]
  have hN : (0 : ℝ) < data.length := by
    have := List.length_pos_iff.2 hne; exact_mod_cast this
  set T := (data.map Inst.label).toFinset with hT
  set A := (data.map key).toFinset with hA
  have hpos : ∀ a ∈ A, (0 : ℝ) < (data.filter (fun x => key x = a)).length := by
    intro a ha
    simp only [hA, List.mem_toFinset, List.mem_map] at ha
    obtain ⟨x, hx, rfl⟩ := ha
    have : x ∈ data.filter (fun y => key y = key x) := by simp [hx]
    exact_mod_cast List.length_pos_of_mem this
  have hparts : ∀ a, ((data.filter (fun x => key x = a)).map Inst.label).toFinset ⊆ T := by
    intro a s hs
    simp only [List.mem_toFinset, List.mem_map] at hs
    obtain ⟨x, hx, rfl⟩ := hs
    simp only [hT, List.mem_toFinset, List.mem_map]
    exact ⟨x, (List.mem_filter.1 hx).1, rfl⟩
  have hw : ∑ a ∈ A, ((data.filter (fun x => key x = a)).length : ℝ) / data.length = 1 := by
    rw [← Finset.sum_div, div_eq_one_iff_eq hN.ne']
    have := sum_filter_length data key (fun _ => true)
    simp only [List.countP_true] at this
    exact_mod_cast this
  have hc : ∀ s, ∑ a ∈ A, ((data.filter (fun x => key x = a)).length : ℝ) / data.length *
      ((((data.filter (fun x => key x = a)).map Inst.label).count s : ℝ) / ((data.filter (fun x => key x = a)).map Inst.label).length) =
      ((data.map Inst.label).count s : ℝ) / (data.map Inst.label).length := by
    intro s
    have := sum_filter_length data key (fun x => x.label == s)
    have e : ∀ l : IList ℝ, (l.map Inst.label).count s = l.countP (fun x => x.label == s) := by
      intro l; rw [List.count, List.countP_map]; rfl
    simp only [e, List.length_map]
    rw [← this, Nat.cast_sum, Finset.sum_div]
    refine Finset.sum_congr rfl (fun a ha => ?_)
    have := (hpos a ha).ne'
    field_simp
  unfold condEntropy
  rw [shannon_over _ (subset_refl T)]
  have h1 : ∀ a ∈ A, ((data.filter (fun x => key x = a)).length : ℝ) / data.length *
      shannon ((data.filter (fun x => key x = a)).map Inst.label) =
      ∑ s ∈ T, ((data.filter (fun x => key x = a)).length : ℝ) / data.length *
        (Real.negMulLog ((((data.filter (fun x => key x = a)).map Inst.label).count s : ℝ) /
          ((data.filter (fun x => key x = a)).map Inst.label).length) / Real.log 2) := by
    intro a _
    rw [shannon_over _ (hparts a), Finset.mul_sum]
  rw [Finset.sum_congr rfl h1, Finset.sum_comm]
  refine Finset.sum_le_sum (fun s _ => ?_)
  have hj := Real.concaveOn_negMulLog.le_map_sum (t := A)
    (w := fun a => ((data.filter (fun x => key x = a)).length : ℝ) / data.length)
    (p := fun a => (((data.filter (fun x => key x = a)).map Inst.label).count s : ℝ) /
      ((data.filter (fun x => key x = a)).map Inst.label).length)
    (fun a _ => by positivity) hw (fun a _ => by simp only [Set.mem_Ici]; positivity)
  simp only [smul_eq_mul] at hj
  rw [hc s] at hj
  have hl2 : (0 : ℝ) < Real.log 2 := Real.log_pos (by norm_num)
  have : ∑ a ∈ A, ((data.filter (fun x => key x = a)).length : ℝ) / data.length *
        (Real.negMulLog ((((data.filter (fun x => key x = a)).map Inst.label).count s : ℝ) /
          ((data.filter (fun x => key x = a)).map Inst.label).length) / Real.log 2) =
      (∑ a ∈ A, ((data.filter (fun x => key x = a)).length : ℝ) / data.length *
        Real.negMulLog ((((data.filter (fun x => key x = a)).map Inst.label).count s : ℝ) /
          ((data.filter (fun x => key x = a)).map Inst.label).length)) / Real.log 2 := by
    rw [Finset.sum_div]
    exact Finset.sum_congr rfl (fun a _ => by ring)
  rw [this]
  exact div_le_div_of_nonneg_right hj hl2.le

/-- merging answers of a question never lowers the remaining entropy -/
theorem condEntropy_merge {κ μ : Type} [DecidableEq κ] [DecidableEq μ] (data : IList ℝ) (key : Inst ℝ → κ) (f : κ → μ) :
    condEntropy data key ≤ condEntropy data (fun x => f (key x)) := by
  have hfib : condEntropy data key = ∑ b ∈ (data.map (fun x => f (key x))).toFinset,
      ((data.filter (fun x => f (key x) = b)).length : ℝ) / data.length *
        condEntropy (data.filter (fun x => f (key x) = b)) key := by
    have h0 : condEntropy data key = ∑ b ∈ (data.map (fun x => f (key x))).toFinset,
        ∑ a ∈ (data.map key).toFinset with f a = b, ((data.filter (fun x => key x = a)).length : ℝ) / data.length *
          shannon ((data.filter (fun x => key x = a)).map Inst.label) := by
      unfold condEntropy
      rw [Finset.sum_fiberwise_of_maps_to]
      intro a ha
      simp only [List.mem_toFinset, List.mem_map] at ha ⊢
      obtain ⟨x, hx, rfl⟩ := ha
      exact ⟨x, hx, rfl⟩
    rw [h0]
    refine Finset.sum_congr rfl (fun b hb => ?_)
    have hset : ((data.map key).toFinset.filter (fun a => f a = b)) = ((data.filter (fun x => f (key x) = b)).map key).toFinset := by
      ext a
      simp only [Finset.mem_filter, List.mem_toFinset, List.mem_map, List.mem_filter, decide_eq_true_eq]
      constructor
      · rintro ⟨⟨x, hx, rfl⟩, h⟩; exact ⟨x, ⟨hx, h⟩, rfl⟩
      · rintro ⟨x, ⟨hx, h⟩, rfl⟩; exact ⟨⟨x, hx, rfl⟩, h⟩
    unfold condEntropy
    rw [hset, Finset.mul_sum]
    refine Finset.sum_congr rfl (fun a ha => ?_)
    have hfa : f a = b := by
      simp only [List.mem_toFinset, List.mem_map, List.mem_filter, decide_eq_true_eq] at ha
      obtain ⟨x, ⟨_, h⟩, rfl⟩ := ha
      exact h
    have hff : (data.filter (fun x => f (key x) = b)).filter (fun x => key x = a) = data.filter (fun x => key x = a) := by
      rw [List.filter_filter]
      refine List.filter_congr (fun x _ => ?_)
      by_cases h : key x = a
      · simp [h, hfa]
      · simp [h]
    rw [hff]
    have hpos : ((data.filter (fun x => f (key x) = b)).length : ℝ) ≠ 0 := by
      simp only [List.mem_toFinset, List.mem_map] at hb
      obtain ⟨x, hx, rfl⟩ := hb
      have : x ∈ data.filter (fun y => f (key y) = f (key x)) := by simp [hx]
      have := List.length_pos_of_mem this
      exact_mod_cast this.ne'
    field_simp
  rw [hfib]
  unfold condEntropy
  refine Finset.sum_le_sum (fun b _ => ?_)
  exact mul_le_mul_of_nonneg_left (condEntropy_le _ _) (by positivity)

end Verif
