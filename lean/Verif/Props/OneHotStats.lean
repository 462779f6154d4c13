import Verif.Props.Stats
import Verif.Props.DataSet

/-! # Properties C112, C113: statistics of one-hot coded columns, editing a definition -/

namespace Verif
open Dbl

/-- the column of 0s and 1s telling which instances have index `j` -/
def hotColumn (l : IList ℝ) (v : Inst ℝ → Int) (j : Nat) : List ℝ :=
  l.map (fun x => if v x = (j : Int) then 1 else 0)

theorem hotColumn_sum (l : IList ℝ) (v : Inst ℝ → Int) (j : Nat) :
    (hotColumn l v j).sum = ((l.map v).count (j : Int) : ℝ) := by
  unfold hotColumn
  induction l with
  | nil => simp
  | cons x l ih =>
    rw [List.map_cons, List.map_cons, List.sum_cons, ih, List.count_cons]
    by_cases h : v x = (j : Int)
    · simp [h]; ring
    · simp [h]

/-- **C112.** The average vector of an indexed column holds the means of its 0/1 columns. -/
theorem C112_mean (l : IList ℝ) (hne : l ≠ []) (i m : Nat) (v : Inst ℝ → Int)
    (h : ∀ x ∈ l, (∃ s, x.attrs[i]? = some (.indexed s (v x) m)) ∧ 0 ≤ v x ∧ v x < m) :
    l.continuousAttributeAverageAt i = .ok ((List.range m).map (fun j => mean (hotColumn l v j))) := by
  obtain ⟨r, e, hl, hj⟩ := C19_relative_frequencies l hne i m v h
  rw [e]
  congr 1
  apply List.ext_getElem
  · simp [hl]
  · intro j h1 h2
    rw [hj j h1, List.getElem_map, List.getElem_range, mean, hotColumn_sum]
    simp [hotColumn]

theorem sd_loop (i : Nat) (v : Inst ℝ → Int) (p : Nat → ℝ) (m : Nat) : ∀ (l : IList ℝ) (w : Nat → ℝ),
    (∀ x ∈ l, IndexAt x i (v x)) →
    l.foldlM (fun (values : List ℝ) x => do
      let v ← x.indexAt i
      (pure ((values.zip ((List.range m).map p)).zipIdx.map (fun (t : (ℝ × ℝ) × Nat) =>
        if (t.2 : Int) = v then t.1.1 +. Dbl.pow (Dbl.one -. t.1.2) 2
        else t.1.1 +. Dbl.pow t.1.2 2)) : Res (List ℝ))) ((List.range m).map w) =
    .ok ((List.range m).map (fun j => w j + ((hotColumn l v j).map (fun a => (a - p j) ^ 2)).sum)) := by
  intro l
  induction l with
  | nil => intro w _; simp [hotColumn]
  | cons x l ih =>
    intro w h
    rw [List.foldlM_cons, indexAt_ok (h x (by simp))]
    simp only [res_bind_ok, res_pure]
    have e : (((List.range m).map w).zip ((List.range m).map p)).zipIdx.map (fun (t : (ℝ × ℝ) × Nat) =>
        if (t.2 : Int) = v x then t.1.1 +. Dbl.pow (Dbl.one -. t.1.2) 2
        else t.1.1 +. Dbl.pow t.1.2 2) =
        (List.range m).map (fun j => w j + ((if v x = (j : Int) then (1 : ℝ) else 0) - p j) ^ 2) := by
      apply List.ext_getElem
      · simp
      · intro j h1 h2
        simp only [List.getElem_map, List.getElem_zipIdx, List.getElem_zip, List.getElem_range, Nat.zero_add]
        by_cases hv : (j : Int) = v x
        · rw [if_pos hv, if_pos hv.symm]
          simp [zpow_ofNat]
        · rw [if_neg hv, if_neg (fun e => hv e.symm)]
          simp [zpow_ofNat]
    simp only [res_pure] at ih ⊢
    rw [e, ih _ (fun y hy => h y (by simp [hy]))]
    congr 1
    apply List.map_congr_left
    intro j _
    simp only [hotColumn, List.map_cons, List.sum_cons]
    ring

/-- **C112.** The deviation vector of an indexed column holds the sample standard deviations of its
0/1 columns. -/
theorem C112_sample_sd (l : IList ℝ) (hn : 2 ≤ l.length) (i m : Nat) (v : Inst ℝ → Int)
    (h : ∀ x ∈ l, (∃ s, x.attrs[i]? = some (.indexed s (v x) m)) ∧ 0 ≤ v x ∧ v x < m) :
    l.continuousAttributeStandardDeviationAt i = .ok ((List.range m).map (fun j => sampleSD (hotColumn l v j))) := by
  have hne : l ≠ [] := by rintro rfl; simp at hn
  obtain ⟨x, hx, h0⟩ := first_of_ne hne
  obtain ⟨⟨s, hs⟩, _, _⟩ := h x hx
  have hg : x.getAttribute i = .ok (.indexed s (v x) m) := by simp [Inst.getAttribute, atR, hs]
  have hfreq : IList.indexedFrequencies l i m = .ok ((List.range m).map (fun j => mean (hotColumn l v j))) := by
    have := C112_mean l hne i m v h
    unfold IList.continuousAttributeAverageAt at this
    rw [h0] at this
    simpa only [res_bind_ok, hg, Attr.isDiscreteIndexed, if_true, Attr.getMaxIndex] using this
  unfold IList.continuousAttributeStandardDeviationAt
  rw [h0]
  simp only [res_bind_ok, hg, Attr.isDiscreteIndexed, if_true, Attr.getMaxIndex, hfreq, Int.toNat_natCast]
  have hrep : List.replicate m (Dbl.zero : ℝ) = (List.range m).map (fun _ => (0 : ℝ)) := by
    apply List.ext_getElem <;> simp
  have hloop := sd_loop i v (fun j => mean (hotColumn l v j)) m l (fun _ => 0)
    (fun y hy => by obtain ⟨⟨s, hs⟩, _⟩ := h y hy; exact ⟨s, m, hs⟩)
  simp only [res_pure] at hloop ⊢
  rw [hrep, hloop]
  simp only [res_bind_ok, List.map_map]
  congr 1
  apply List.map_congr_left
  intro j _
  simp only [Function.comp_apply, zero_add, sqrt_real, div_real, ofNat_real, sampleSD, sampleVar]
  congr 2
  simp only [hotColumn, List.length_map]
  rw [Nat.cast_sub (by omega), Nat.cast_one]

/-- **C112.** For a continuous column both vectors have one entry, the mean and the sample standard
deviation. -/
theorem C112_continuous (l : IList ℝ) (hn : 2 ≤ l.length) (i : Nat) (v : Inst ℝ → ℝ)
    (h : ∀ x ∈ l, ContAt x i (v x)) :
    l.continuousAttributeAverageAt i = .ok [mean (l.map v)] ∧
    l.continuousAttributeStandardDeviationAt i = .ok [sampleSD (l.map v)] := by
  have hne : l ≠ [] := by rintro rfl; simp at hn
  obtain ⟨x, hx, h0⟩ := first_of_ne hne
  constructor
  · unfold IList.continuousAttributeAverageAt
    rw [h0]
    simp only [res_bind_ok]
    rw [getAttribute_cont (h x hx)]
    simp only [res_bind_ok, Attr.isDiscreteIndexed, Attr.isContinuous, Bool.false_eq_true, if_false, if_true]
    rw [sumLoop_ok h]
    simp [mean]
  · have hsd := C17_sample_sd l hn i v h
    unfold IList.attributeStandardDeviation at hsd
    unfold IList.continuousAttributeStandardDeviationAt
    rw [h0] at hsd ⊢
    simp only [res_bind_ok] at hsd ⊢
    rw [getAttribute_cont (h x hx)] at hsd ⊢
    simp only [res_bind_ok, Attr.isDiscreteIndexed, Attr.isContinuous, Bool.false_eq_true, if_false, if_true] at hsd ⊢
    cases hc : IList.contStdDev l i with
    | error e => rw [hc] at hsd; cases hsd
    | ok s =>
      rw [hc] at hsd
      simp only [res_bind_ok, res_pure] at hsd ⊢
      cases hsd
      rfl

theorem concat_loop (f : Nat → Res (List ℝ)) (g : Nat → List ℝ) (n : Nat) (h : ∀ i < n, f i = .ok (g i)) :
    ∀ k ≤ n, ∀ r, (List.range k).foldlM (fun r i => do
      let added ← f i
      (pure (r ++ added) : Res (List ℝ))) r = .ok (r ++ (List.range k).flatMap g) := by
  intro k
  induction k with
  | zero => intro _ r; simp
  | succ k ih =>
    intro hk r
    rw [List.range_succ, List.foldlM_append, ih (by omega)]
    simp only [res_bind_ok, List.foldlM_cons, List.foldlM_nil, h k (by omega), res_pure]
    simp

/-- **C112.** The vectors of all attributes are those of the single attributes, one after the other. -/
theorem C112_all (x : Inst ℝ) (l : IList ℝ) (avg sd : Nat → List ℝ)
    (ha : ∀ i < x.attrs.length, IList.continuousAttributeAverageAt (x :: l) i = .ok (avg i))
    (hs : ∀ i < x.attrs.length, IList.continuousAttributeStandardDeviationAt (x :: l) i = .ok (sd i)) :
    IList.continuousAttributeAverage (x :: l) = .ok ((List.range x.attrs.length).flatMap avg) ∧
    IList.continuousAttributeStandardDeviation (x :: l) = .ok ((List.range x.attrs.length).flatMap sd) := by
  have h0 : atR (x :: l) 0 = .ok x := rfl
  constructor
  · unfold IList.continuousAttributeAverage
    rw [h0]
    have := concat_loop _ avg x.attrs.length ha x.attrs.length (le_refl _) []
    simpa [Inst.attributeSize] using this
  · unfold IList.continuousAttributeStandardDeviation
    rw [h0]
    have := concat_loop _ sd x.attrs.length hs x.attrs.length (le_refl _) []
    simpa [Inst.attributeSize] using this

/-- two instances `x`, two `y`: means 1/2, deviations √(1/3) -/
example (l : IList ℝ) (hl : l = [⟨"a", [.indexed "x" 0 2], none⟩, ⟨"a", [.indexed "y" 1 2], none⟩,
    ⟨"b", [.indexed "x" 0 2], none⟩, ⟨"b", [.indexed "y" 1 2], none⟩]) :
    ∃ v : Inst ℝ → Int, ∀ x ∈ l, (∃ s, x.attrs[0]? = some (.indexed s (v x) 2)) ∧ 0 ≤ v x ∧ v x < 2 := by
  refine ⟨fun x => match x.attrs with | [.indexed _ k _] => k | _ => 0, ?_⟩
  subst hl
  intro x hx
  simp only [List.mem_cons, List.not_mem_nil, or_false] at hx
  rcases hx with rfl | rfl | rfl | rfl <;> simp

/-! ## C113 -/

/-- **C113.** Adding an attribute type puts it last; removing position `i` removes exactly that
type and keeps the others in order; removing past the end is undefined. Value lists are not
touched. -/
theorem C113_edit (d : DataDef) (t : AttrType) :
    (d.addAttribute t).types = d.types ++ [t] ∧ (d.addAttribute t).values = d.values ∧
    (∀ (i : Nat) (u : AttrType) (l r : List AttrType), d.types = l ++ u :: r → l.length = i →
      d.removeAttribute i = .ok ⟨l ++ r, d.values⟩) ∧
    (∀ i, d.types.length ≤ i → ∃ e, d.removeAttribute i = .error (.ub e)) ∧
    d.removeAllAttributes = ⟨[], d.values⟩ := by
  refine ⟨rfl, rfl, ?_, ?_, rfl⟩
  · rintro i u l r hd rfl
    unfold DataDef.removeAttribute
    rw [if_pos (by rw [hd]; simp), hd]
    simp [List.eraseIdx_append_of_length_le]
  · intro i hi
    exact ⟨_, if_neg (by omega)⟩

example : (⟨[.discrete, .continuous, .binary], []⟩ : DataDef).removeAttribute 1 = .ok ⟨[.discrete, .binary], []⟩ := by
  decide

end Verif
