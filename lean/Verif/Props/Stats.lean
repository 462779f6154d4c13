import Verif.Props.InstanceList
import Verif.Props.Instance
import Verif.Spec.Stats
import Verif.Model.DblReal

/-! # Properties C16–C19: averages, deviations, covariance (exact arithmetic) -/

set_option linter.unusedSectionVars false

namespace Verif
open Dbl

/-! ## helper facts -/

theorem sumLoop_ok {l : IList ℝ} {i : Nat} {v : Inst ℝ → ℝ} (h : ∀ x ∈ l, ContAt x i (v x)) :
    l.foldlM (fun s x => do
      let w ← x.contAt i
      (pure (s +. w) : Res ℝ)) (Dbl.zero : ℝ) = .ok (l.map v).sum := by
  rw [foldlM_ok (g := fun s x => s +. v x)]
  · congr 1
    have := foldl_add_real (l.map v) 0
    rw [List.foldl_map] at this
    simpa using this
  · intro x hx s
    rw [contAt_ok (h x hx)]; rfl

theorem first_of_ne {F : Type} {l : IList F} (hne : l ≠ []) :
    ∃ x ∈ l, atR l 0 = .ok x := by
  cases l with
  | nil => exact absurd rfl hne
  | cons x l => exact ⟨x, by simp, rfl⟩

theorem getAttribute_cont {F : Type} [Dbl F] {x : Inst F} {i : Nat} {v : F} (h : ContAt x i v) :
    x.getAttribute i = .ok (.continuous v) := by
  unfold ContAt at h; simp [Inst.getAttribute, atR, h]

/-! ## C16 -/

/-- **C16.** The average of a continuous column is its arithmetic mean. -/
theorem C16_mean (l : IList ℝ) (hne : l ≠ []) (i : Nat) (v : Inst ℝ → ℝ)
    (h : ∀ x ∈ l, ContAt x i (v x)) :
    l.attributeAverage i = .ok (some (.continuous (mean (l.map v)))) := by
  obtain ⟨x, hx, h0⟩ := first_of_ne hne
  unfold IList.attributeAverage
  rw [h0]
  simp only [res_bind_ok]
  rw [getAttribute_cont (h x hx)]
  simp only [res_bind_ok, Attr.isDiscrete, Attr.isContinuous, Bool.false_eq_true, if_false, if_true]
  rw [sumLoop_ok h]
  simp [mean]

/-- **C16.** The average makes the deviations sum to zero and lies within the range of the
column. -/
theorem C16_mean_facts (l : IList ℝ) (hne : l ≠ []) (i : Nat) (v : Inst ℝ → ℝ)
    (h : ∀ x ∈ l, ContAt x i (v x)) (m : ℝ)
    (hm : l.attributeAverage i = .ok (some (.continuous m))) :
    (l.map (fun x => v x - m)).sum = 0 ∧
    (∀ a, (∀ x ∈ l, a ≤ v x) → a ≤ m) ∧ (∀ b, (∀ x ∈ l, v x ≤ b) → m ≤ b) := by
  rw [C16_mean l hne i v h] at hm
  simp only [Except.ok.injEq, Option.some.injEq, Attr.continuous.injEq] at hm
  have hne' : l.map v ≠ [] := by simpa using hne
  subst hm
  refine ⟨?_, ?_, ?_⟩
  · have := deviations_sum_zero hne'
    simpa [List.map_map, Function.comp_def] using this
  · intro a ha
    apply le_mean hne'
    intro w hw; obtain ⟨x, hx, rfl⟩ := List.mem_map.1 hw; exact ha x hx
  · intro b hb
    apply mean_le hne'
    intro w hw; obtain ⟨x, hx, rfl⟩ := List.mem_map.1 hw; exact hb x hx

/-- **C16.** The average of a plain discrete column is its most frequent value, smallest on
ties (any arithmetic). -/
theorem C16_mode {F : Type} [Dbl F] (l : IList F) (hne : l ≠ []) (i : Nat) (v : Inst F → String)
    (h : ∀ x ∈ l, x.attrs[i]? = some (.discrete (v x))) :
    ∃ r, l.attributeAverage i = .ok (some (.discrete r)) ∧ IsMajority (l.map v) r := by
  obtain ⟨x, hx, h0⟩ := first_of_ne hne
  refine ⟨getMaximum (l.map v), ?_, C44_majority _ (by simpa using hne)⟩
  unfold IList.attributeAverage
  rw [h0]
  simp only [res_bind_ok]
  have hg : x.getAttribute i = .ok (.discrete (v x)) := by
    simp [Inst.getAttribute, atR, h x hx]
  rw [hg]
  simp only [res_bind_ok, Attr.isDiscrete, if_true]
  rw [foldlM_ok (g := fun r x => r ++ [v x])]
  · simp only [res_bind_ok, res_pure]
    congr
    have : ∀ (l : IList F) (r : List String), l.foldl (fun r x => r ++ [v x]) r = r ++ l.map v := by
      intro l
      induction l with
      | nil => simp
      | cons a l ih => intro r; simp [ih]
    simpa using this l []
  · intro y hy s
    rw [discAt_ok (Or.inl (h y hy))]; rfl

/-- **C16.** Binary and indexed columns have no average (null pointer). -/
theorem C16_null {F : Type} [Dbl F] (x : Inst F) (l : IList F) (i : Nat) (a : Attr F)
    (h : x.attrs[i]? = some a) (ha : a.isBinary = true ∨ a.isDiscreteIndexed = true) :
    IList.attributeAverage (x :: l) i = .ok none := by
  unfold IList.attributeAverage
  have hg : x.getAttribute i = .ok a := by simp [Inst.getAttribute, atR, h]
  simp only [atR_cons_zero, res_bind_ok, hg]
  cases a <;> simp_all [Attr.isBinary, Attr.isDiscreteIndexed, Attr.isDiscrete, Attr.isContinuous]

theorem rangeLoop {α : Type} (f : Nat → Res α) : ∀ (n : Nat) (r : List α),
    (List.range n).foldlM (fun r i => do
      let a ← f i
      (pure (r ++ [a]) : Res (List α))) [] = .ok r →
    r.length = n ∧ ∀ i (h : i < r.length), f i = .ok r[i] := by
  intro n
  induction n with
  | zero => intro r h; cases h; simp
  | succ n ih =>
    intro r h
    rw [List.range_succ, List.foldlM_append] at h
    cases h1 : (List.range n).foldlM (fun r i => do
      let a ← f i
      (pure (r ++ [a]) : Res (List α))) [] with
    | error e => rw [h1] at h; cases h
    | ok r1 =>
      rw [h1] at h
      obtain ⟨hl, hf⟩ := ih r1 h1
      simp only [res_bind_ok, List.foldlM_cons, List.foldlM_nil] at h
      cases h2 : f n with
      | error e => rw [h2] at h; cases h
      | ok a =>
        rw [h2] at h
        cases h
        refine ⟨by simp [hl], ?_⟩
        intro i hi
        by_cases hin : i < r1.length
        · rw [List.getElem_append_left hin]; exact hf i hin
        · have : i = n := by simp at hi; omega
          subst this
          rw [List.getElem_append_right (by omega)]
          simp [hl, h2]

/-- **C16.** `average()` carries the label of the first instance and, position by position,
the attribute averages. -/
theorem C16_average {F : Type} [Dbl F] (x : Inst F) (l : IList F) (lbl : String)
    (as : List (Option (Attr F))) (h : IList.average (x :: l) = .ok (lbl, as)) :
    lbl = x.label ∧ as.length = x.attributeSize ∧
    ∀ i (hi : i < as.length), IList.attributeAverage (x :: l) i = .ok as[i] := by
  unfold IList.average at h
  simp only [atR_cons_zero, res_bind_ok] at h
  cases h1 : (List.range x.attributeSize).foldlM (fun r i => do
      let a ← IList.attributeAverage (x :: l) i
      (pure (r ++ [a]) : Res (List (Option (Attr F))))) [] with
  | error e => rw [h1] at h; cases h
  | ok r =>
    rw [h1] at h
    cases h
    obtain ⟨h2, h3⟩ := rangeLoop _ _ _ h1
    exact ⟨rfl, h2, h3⟩

/-- sample column -/
noncomputable def exCol : IList ℝ :=
  [⟨"a", [.continuous 1, .discrete "u"], none⟩, ⟨"b", [.continuous 4, .discrete "w"], none⟩,
   ⟨"a", [.continuous 4, .discrete "u"], none⟩]

example : exCol.attributeAverage 0 = .ok (some (.continuous 3)) := by
  rw [C16_mean exCol (by simp [exCol]) 0 (fun x => (x.contAt 0).toOption.getD 0)]
  · have : mean (exCol.map (fun x => (x.contAt 0).toOption.getD 0)) = 3 := by
      simp [exCol, mean, Inst.contAt, Inst.getAttribute, atR, Attr.contVal, Except.toOption]
      norm_num
    rw [this]
  · intro x hx
    simp only [exCol, List.mem_cons, List.not_mem_nil, or_false] at hx
    rcases hx with rfl | rfl | rfl <;> rfl

/-! ## C17 -/

/-- **C17.** The standard deviation of a continuous column is the textbook sample standard
deviation. -/
theorem C17_sample_sd (l : IList ℝ) (hn : 2 ≤ l.length) (i : Nat) (v : Inst ℝ → ℝ)
    (h : ∀ x ∈ l, ContAt x i (v x)) :
    l.attributeStandardDeviation i = .ok (some (.continuous (sampleSD (l.map v)))) := by
  have hne : l ≠ [] := by rintro rfl; simp at hn
  obtain ⟨x, hx, h0⟩ := first_of_ne hne
  unfold IList.attributeStandardDeviation
  rw [h0]
  simp only [res_bind_ok]
  rw [getAttribute_cont (h x hx)]
  simp only [res_bind_ok, Attr.isContinuous, if_true]
  unfold IList.contStdDev
  rw [sumLoop_ok h]
  simp only [res_bind_ok]
  rw [foldlM_ok (g := fun s x => s + (v x - mean (l.map v)) ^ 2)]
  · simp only [res_bind_ok, res_pure]
    congr
    have h1 := foldl_add_real (l.map (fun x => (v x - mean (l.map v)) ^ 2)) 0
    rw [List.foldl_map] at h1
    simp only [zero_real]
    rw [h1]
    all_goals simp only [List.map_map, zero_add, List.length_map]
    · simp [Function.comp_def]
    · simp only [ofNat_real]
      rw [Nat.cast_sub (by omega), Nat.cast_one]
  · intro y hy s
    rw [contAt_ok (h y hy)]
    simp [mean, zpow_ofNat]

/-- **C17.** It is non-negative, zero exactly for a constant column, and unchanged when a
constant is added to the column. -/
theorem C17_facts (l l' : IList ℝ) (hn : 2 ≤ l.length) (i i' : Nat) (v v' : Inst ℝ → ℝ)
    (h : ∀ x ∈ l, ContAt x i (v x)) (h' : ∀ x ∈ l', ContAt x i' (v' x)) (c s : ℝ)
    (hshift : l'.map v' = (l.map v).map (fun a => a + c))
    (hs : l.attributeStandardDeviation i = .ok (some (.continuous s))) :
    0 ≤ s ∧ (s = 0 ↔ ∀ x ∈ l, ∀ y ∈ l, v x = v y) ∧
    l'.attributeStandardDeviation i' = .ok (some (.continuous s)) := by
  rw [C17_sample_sd l hn i v h] at hs
  simp only [Except.ok.injEq, Option.some.injEq, Attr.continuous.injEq] at hs
  subst hs
  have hlen : l'.length = l.length := by
    have := congrArg List.length hshift
    simpa using this
  refine ⟨Real.sqrt_nonneg _, ?_, ?_⟩
  · rw [sampleSD_eq_zero_iff (by simpa using hn)]
    simp only [List.mem_map, forall_exists_index, and_imp, forall_apply_eq_imp_iff₂]
  · rw [C17_sample_sd l' (by omega) i' v' h', hshift]
    simp only [sampleSD, sampleVar_add_const]

example : exCol.attributeStandardDeviation 0 = .ok (some (.continuous (Real.sqrt 3))) := by
  rw [C17_sample_sd exCol (by simp [exCol]) 0 (fun x => (x.contAt 0).toOption.getD 0)]
  · have : sampleVar (exCol.map (fun x => (x.contAt 0).toOption.getD 0)) = 3 := by
      simp [exCol, sampleVar, mean, Inst.contAt, Inst.getAttribute, atR, Attr.contVal,
        Except.toOption]
      norm_num
    rw [sampleSD, this]
  · intro x hx
    simp only [exCol, List.mem_cons, List.not_mem_nil, or_false] at hx
    rcases hx with rfl | rfl | rfl <;> rfl

/-! ## C18 -/

/-- finite double sum used to state positive semidefiniteness -/
noncomputable def quadForm (d : Nat) (M : Nat → Nat → ℝ) (w : Nat → ℝ) : ℝ :=
  ((List.range d).map (fun i => ((List.range d).map (fun j => w i * M i j * w j)).sum)).sum

theorem covariance_loop (avg : List ℝ) (d : Nat) (n : Int) (c : Inst ℝ → List ℝ) (hn : n = d)
    (havg : avg.length = d) :
    ∀ (l : IList ℝ), (∀ x ∈ l, x.continuousAttributes = .ok (c x) ∧ (c x).length = d ∧
      x.continuousAttributeSize = d) → ∀ m : Nat → Nat → ℝ,
    ∃ m', l.foldlM (fun (m : Nat → Nat → ℝ) x => do
        let c ← x.continuousAttributes
        let k := x.continuousAttributeSize.toNat
        if k ≤ n.toNat ∧ k ≤ avg.length then
          (pure (fun i j =>
            if i < k ∧ j < k then
              m i j +. ((c.getD i Dbl.zero -. avg.getD i Dbl.zero) *.
                (c.getD j Dbl.zero -. avg.getD j Dbl.zero))
            else m i j) : Res (Nat → Nat → ℝ))
        else .error (.ub "matrix/vector access")) m = .ok m' ∧
      ∀ i j, i < d → j < d → m' i j = m i j +
        (l.map (fun x => ((c x).getD i 0 - avg.getD i 0) * ((c x).getD j 0 - avg.getD j 0))).sum := by
  intro l
  induction l with
  | nil => intro _ m; exact ⟨m, rfl, by simp⟩
  | cons x l ih =>
    intro h m
    obtain ⟨h1, h2, h3⟩ := h x (by simp)
    obtain ⟨m', e, hm'⟩ := ih (fun y hy => h y (by simp [hy]))
      (fun i j => if i < d ∧ j < d then
          m i j +. (((c x).getD i Dbl.zero -. avg.getD i Dbl.zero) *.
            ((c x).getD j Dbl.zero -. avg.getD j Dbl.zero)) else m i j)
    refine ⟨m', ?_, ?_⟩
    · rw [List.foldlM_cons, h1]
      simp only [res_bind_ok]
      rw [if_pos (by rw [h3, hn, havg]; simp)]
      rw [h3]
      simp only [res_pure, res_bind_ok, Int.toNat_natCast] at e ⊢
      exact e
    · intro i j hi hj
      rw [hm' i j hi hj]
      simp only [hi, hj, and_self, if_true, add_real, mul_real, sub_real, zero_real, List.map_cons,
        List.sum_cons]
      ring

/-- **C18.** Entry `(i, j)` of the covariance matrix is the textbook formula. -/
theorem C18_covariance (l : IList ℝ) (hn : 2 ≤ l.length) (avg : List ℝ) (d : Nat)
    (c : Inst ℝ → List ℝ) (havg : avg.length = d)
    (h : ∀ x ∈ l, x.continuousAttributes = .ok (c x) ∧ (c x).length = d ∧
      x.continuousAttributeSize = d) :
    ∃ M, l.covariance avg = .ok (d, M) ∧ ∀ i j, i < d → j < d →
      M i j = (l.map (fun x => ((c x).getD i 0 - avg.getD i 0) *
        ((c x).getD j 0 - avg.getD j 0))).sum / ((l.length : ℝ) - 1) := by
  have hne : l ≠ [] := by rintro rfl; simp at hn
  obtain ⟨x, hx, h0⟩ := first_of_ne hne
  obtain ⟨h1, h2, h3⟩ := h x hx
  obtain ⟨m', e, hm'⟩ := covariance_loop avg d x.continuousAttributeSize c h3 havg l h
    (fun _ _ => Dbl.zero)
  refine ⟨fun i j => m' i j / ((l.length : ℝ) - 1), ?_, ?_⟩
  · unfold IList.covariance
    rw [h0]
    simp only [res_bind_ok] at e ⊢
    rw [e]
    simp only [res_bind_ok, res_pure, h3, Int.toNat_natCast, div_real, ofNat_real]
    rw [Nat.cast_sub (by omega)]
    simp
  · intro i j hi hj
    simp only [hm' i j hi hj, zero_real, zero_add]

/-- **C18.** The covariance matrix is symmetric and positive semidefinite, whatever vector is
passed as average. -/
theorem C18_symmetric_psd (l : IList ℝ) (hn : 2 ≤ l.length) (avg : List ℝ) (d : Nat)
    (c : Inst ℝ → List ℝ) (havg : avg.length = d)
    (h : ∀ x ∈ l, x.continuousAttributes = .ok (c x) ∧ (c x).length = d ∧
      x.continuousAttributeSize = d)
    (M : Nat → Nat → ℝ) (hM : l.covariance avg = .ok (d, M)) :
    (∀ i j, i < d → j < d → M i j = M j i) ∧ ∀ w, 0 ≤ quadForm d M w := by
  obtain ⟨M', e, hM'⟩ := C18_covariance l hn avg d c havg h
  rw [hM] at e
  cases e
  constructor
  · intro i j hi hj
    rw [hM' i j hi hj, hM' j i hj hi]
    congr 2
    apply List.map_congr_left
    intro x _
    ring
  · intro w
    have h2 : (2 : ℝ) ≤ l.length := by exact_mod_cast hn
    have key : quadForm d M w =
        (l.map (fun x => (((List.range d).map
          (fun i => w i * ((c x).getD i 0 - avg.getD i 0))).sum) ^ 2)).sum / ((l.length : ℝ) - 1) := by
      unfold quadForm
      have e1 : (List.range d).map (fun i => ((List.range d).map (fun j => w i * M i j * w j)).sum) =
          (List.range d).map (fun i => ((List.range d).map (fun j =>
            (l.map (fun x => (w i * ((c x).getD i 0 - avg.getD i 0)) *
              (w j * ((c x).getD j 0 - avg.getD j 0)))).sum / ((l.length : ℝ) - 1))).sum) := by
        apply List.map_congr_left
        intro i hi
        congr 1
        apply List.map_congr_left
        intro j hj
        rw [hM' i j (List.mem_range.1 hi) (List.mem_range.1 hj)]
        have : ∀ (l : IList ℝ), w i * ((l.map (fun x => ((c x).getD i 0 - avg.getD i 0) *
            ((c x).getD j 0 - avg.getD j 0))).sum) * w j =
            (l.map (fun x => (w i * ((c x).getD i 0 - avg.getD i 0)) *
              (w j * ((c x).getD j 0 - avg.getD j 0)))).sum := by
          intro l
          induction l with
          | nil => simp
          | cons y l ih => simp only [List.map_cons, List.sum_cons]; rw [← ih]; ring
        rw [← this l]; ring
      rw [e1]
      -- pull the division and the sum over instances out
      have swap1 : ∀ (is js : List Nat) (l : IList ℝ) (g : Nat → Inst ℝ → ℝ) (D : ℝ),
          (is.map (fun i => (js.map (fun j => (l.map (fun x => g i x * g j x)).sum / D)).sum)).sum =
          (l.map (fun x => (is.map (fun i => g i x)).sum * (js.map (fun j => g j x)).sum)).sum / D := by
        intro is js l g D
        induction is with
        | nil => simp
        | cons i is ih =>
          simp only [List.map_cons, List.sum_cons]
          rw [ih]
          have : (js.map (fun j => (l.map (fun x => g i x * g j x)).sum / D)).sum =
              (l.map (fun x => g i x * (js.map (fun j => g j x)).sum)).sum / D := by
            clear ih
            induction js with
            | nil => simp
            | cons j js ih2 =>
              simp only [List.map_cons, List.sum_cons]
              rw [ih2, ← add_div]
              congr 1
              clear ih2
              induction l with
              | nil => simp
              | cons y l ih3 => simp only [List.map_cons, List.sum_cons]; rw [add_add_add_comm, ih3]; ring
          rw [this, ← add_div]
          congr 1
          clear this ih
          induction l with
          | nil => simp
          | cons y l ih3 => simp only [List.map_cons, List.sum_cons]; rw [add_add_add_comm, ih3]; ring
      rw [swap1 _ _ l (fun i x => w i * ((c x).getD i 0 - avg.getD i 0))]
      congr 2
      apply List.map_congr_left
      intro x _
      ring
    rw [key]
    apply div_nonneg (sum_sq_nonneg l _)
    linarith

/-- **C18.** With the column means as average, the diagonal holds the sample variances. -/
theorem C18_diagonal (l : IList ℝ) (hn : 2 ≤ l.length) (avg : List ℝ) (d : Nat)
    (c : Inst ℝ → List ℝ) (havg : avg.length = d)
    (h : ∀ x ∈ l, x.continuousAttributes = .ok (c x) ∧ (c x).length = d ∧
      x.continuousAttributeSize = d)
    (M : Nat → Nat → ℝ) (hM : l.covariance avg = .ok (d, M)) (i : Nat) (hi : i < d)
    (hmean : avg.getD i 0 = mean (l.map (fun x => (c x).getD i 0))) :
    M i i = sampleVar (l.map (fun x => (c x).getD i 0)) := by
  obtain ⟨M', e, hM'⟩ := C18_covariance l hn avg d c havg h
  rw [hM] at e
  cases e
  rw [hM' i i hi hi, sampleVar, List.map_map, List.length_map, hmean]
  congr 2
  apply List.map_congr_left
  intro x _
  simp only [Function.comp_apply]
  ring

example : ∃ M, (IList.covariance ([⟨"a", [.continuous 1, .continuous 0], none⟩,
    ⟨"b", [.continuous 3, .continuous 2], none⟩] : IList ℝ) [2, 1]) = .ok (2, M) ∧ M 0 1 = 2 := by
  obtain ⟨M, e, hM⟩ := C18_covariance ([⟨"a", [.continuous 1, .continuous 0], none⟩,
    ⟨"b", [.continuous 3, .continuous 2], none⟩] : IList ℝ) (by simp) [2, 1] 2
    (fun x => (x.continuousAttributes).toOption.getD []) rfl (by
      intro x hx
      simp only [List.mem_cons, List.not_mem_nil, or_false] at hx
      rcases hx with rfl | rfl <;> refine ⟨rfl, rfl, rfl⟩)
  refine ⟨M, e, ?_⟩
  rw [hM 0 1 (by omega) (by omega)]
  simp [Inst.continuousAttributes, Attr.continuousAttributes, Except.toOption]
  norm_num

/-! ## C19 -/

theorem freq_loop (i m : Nat) (v : Inst ℝ → Int) : ∀ (l : IList ℝ),
    (∀ x ∈ l, IndexAt x i (v x) ∧ 0 ≤ v x ∧ v x < m) → ∀ (vals : List ℝ), vals.length = m →
    ∃ vals', l.foldlM (fun (values : List ℝ) x => do
        let w ← x.indexAt i
        IList.incrAt values w) vals = .ok vals' ∧ vals'.length = m ∧
      ∀ j (h : j < vals'.length) (h0 : j < vals.length),
        vals'[j] = vals[j] + ((l.map v).count (j : Int) : ℝ) := by
  intro l
  induction l with
  | nil => intro _ vals hv; exact ⟨vals, rfl, hv, by simp⟩
  | cons x l ih =>
    intro h vals hv
    obtain ⟨h1, h2, h3⟩ := h x (by simp)
    have hlt : (v x).toNat < vals.length := by omega
    obtain ⟨vals', e, hl, hj⟩ := ih (fun y hy => h y (by simp [hy]))
      (vals.modify (v x).toNat (fun a => a +. Dbl.one)) (by simp [hv])
    refine ⟨vals', ?_, hl, ?_⟩
    · rw [List.foldlM_cons, indexAt_ok h1]
      simp only [res_bind_ok, IList.incrAt]
      rw [if_pos ⟨h2, hlt⟩]
      exact e
    · intro j hj1 hj0
      rw [hj j hj1 (by simpa using hj0), List.getElem_modify, List.map_cons, List.count_cons]
      by_cases hjx : (v x).toNat = j
      · have : v x = (j : Int) := by omega
        simp [this]; ring
      · have : ¬ v x = (j : Int) := by omega
        simp [hjx, this]

/-- **C19.** Average of an indexed column: entry `j` is the relative frequency of index `j`. -/
theorem C19_relative_frequencies (l : IList ℝ) (hne : l ≠ []) (i m : Nat) (v : Inst ℝ → Int)
    (h : ∀ x ∈ l, (∃ s, x.attrs[i]? = some (.indexed s (v x) m)) ∧ 0 ≤ v x ∧ v x < m) :
    ∃ r, l.continuousAttributeAverageAt i = .ok r ∧ r.length = m ∧
      ∀ j (hj : j < r.length), r[j] = ((l.map v).count (j : Int) : ℝ) / l.length := by
  obtain ⟨x, hx, h0⟩ := first_of_ne hne
  obtain ⟨⟨s, hs⟩, _, _⟩ := h x hx
  obtain ⟨vals', e, hl, hj⟩ := freq_loop i m v l (fun y hy => by
    obtain ⟨⟨s, hs⟩, h2, h3⟩ := h y hy
    exact ⟨⟨s, m, hs⟩, h2, h3⟩) (List.replicate m 0) (by simp)
  refine ⟨vals'.map (fun a => a / l.length), ?_, by simp [hl], ?_⟩
  · unfold IList.continuousAttributeAverageAt
    rw [h0]
    have hg : x.getAttribute i = .ok (.indexed s (v x) m) := by
      simp [Inst.getAttribute, atR, hs]
    simp only [res_bind_ok, hg, Attr.isDiscreteIndexed, if_true, Attr.getMaxIndex,
      IList.indexedFrequencies]
    rw [if_neg (by omega)]
    simp only [Int.toNat_natCast, zero_real] at e ⊢
    rw [e]
    simp
  · intro j hj'
    have hjm : j < vals'.length := by simpa using hj'
    rw [List.getElem_map, hj j hjm (by simpa [hl] using hjm)]
    simp

theorem sum_counts_range (vs : List Int) (m : Nat) (h : ∀ a ∈ vs, 0 ≤ a ∧ a < m) :
    (((List.range m).map (fun j : Nat => vs.count (j : Int))).sum) = vs.length := by
  induction vs with
  | nil => simp
  | cons a vs ih =>
    have := ih (fun b hb => h b (by simp [hb]))
    have ha := h a (by simp)
    rw [List.length_cons, ← this]
    have : ∀ n : Nat, ((List.range n).map (fun j : Nat => (a :: vs).count (j : Int))).sum =
        ((List.range n).map (fun j : Nat => vs.count (j : Int))).sum + if a < n then 1 else 0 := by
      intro n
      induction n with
      | zero => simp; omega
      | succ n ihn =>
        rw [List.range_succ, List.map_append, List.map_append, List.sum_append, List.sum_append, ihn]
        simp only [List.map_cons, List.map_nil, List.sum_cons, List.sum_nil, List.count_cons]
        by_cases h1 : a = (n : Int)
        · subst h1; simp; omega
        · by_cases h2 : a < (n : Int)
          · have h3 : a < ((n + 1 : Nat) : Int) := by omega
            rw [if_pos h2, if_pos h3]; simp [h1]; omega
          · have h3 : ¬ a < ((n + 1 : Nat) : Int) := by omega
            rw [if_neg h2, if_neg h3]; simp [h1]
    rw [this m, if_pos ha.2]

/-- **C19.** The entries lie in `[0, 1]` and sum to 1. -/
theorem C19_probability_vector (l : IList ℝ) (hne : l ≠ []) (i m : Nat) (v : Inst ℝ → Int)
    (h : ∀ x ∈ l, (∃ s, x.attrs[i]? = some (.indexed s (v x) m)) ∧ 0 ≤ v x ∧ v x < m)
    (r : List ℝ) (hr : l.continuousAttributeAverageAt i = .ok r) :
    (∀ a ∈ r, 0 ≤ a ∧ a ≤ 1) ∧ r.sum = 1 := by
  obtain ⟨r', e, hl, hj⟩ := C19_relative_frequencies l hne i m v h
  rw [hr] at e
  cases e
  have hpos : (0 : ℝ) < l.length := by
    have : 0 < l.length := List.length_pos_iff.2 hne
    exact_mod_cast this
  constructor
  · intro a ha
    obtain ⟨j, hj', rfl⟩ := List.getElem_of_mem ha
    rw [hj j hj']
    constructor
    · positivity
    · rw [div_le_one hpos]
      have : (l.map v).count (j : Int) ≤ (l.map v).length := List.count_le_length
      rw [List.length_map] at this
      exact_mod_cast this
  · have hr' : r = (List.range m).map (fun j : Nat => ((l.map v).count (j : Int) : ℝ) / l.length) := by
      apply List.ext_getElem
      · simp [hl]
      · intro j h1 h2
        rw [hj j h1]; simp
    have hsum := sum_counts_range (l.map v) m (by
      intro a ha; obtain ⟨x, hx, rfl⟩ := List.mem_map.1 ha; exact (h x hx).2)
    rw [hr']
    have : ∀ (js : List Nat) (D : ℝ), (js.map (fun j : Nat => ((l.map v).count (j : Int) : ℝ) / D)).sum =
        ((js.map (fun j : Nat => (l.map v).count (j : Int))).sum : ℝ) / D := by
      intro js D
      induction js with
      | nil => simp
      | cons j js ih => simp only [List.map_cons, List.sum_cons]; rw [ih]; push_cast; ring
    rw [this, hsum, List.length_map]
    field_simp

/-- **C19.** An index of `-1` (unknown value) makes the call undefined. -/
theorem C19_unknown_index_ub : ∃ l : IList XR, l ≠ [] ∧
    l.continuousAttributeAverageAt 0 = .error (.ub "operator[]") :=
  ⟨[⟨"a", [.indexed "?" (-1) 2], none⟩], by simp, by decide +kernel⟩

example : (IList.continuousAttributeAverageAt ([⟨"a", [.indexed "x" 0 2], none⟩,
    ⟨"a", [.indexed "y" 1 2], none⟩, ⟨"b", [.indexed "x" 0 2], none⟩] : IList XR) 0) =
    .ok [.fin (2 / 3), .fin (1 / 3)] := by decide +kernel

end Verif
