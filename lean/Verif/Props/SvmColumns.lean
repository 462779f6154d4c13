import Verif.Props.SvmAlike
import Verif.Props.Columns

/-! # Property C166 for support vector machines: the order of the columns -/

set_option linter.unusedSectionVars false

namespace Verif
open Dbl

section
variable {σ : List Nat} {n : Nat}

theorem sum_columns (hσ : IsPermutation σ n) (h : Nat → ℝ) :
    ∑ i ∈ Finset.range n, h (σ.getD i 0) = ∑ i ∈ Finset.range n, h i := by
  rw [Finset.sum_range, Finset.sum_range]
  exact Equiv.sum_comp (permEquiv hσ) (fun i : Fin n => h i)

theorem reorder_numeric (hσ : IsPermutation σ n) {x : Inst ℝ} (hx : Numeric n x) :
    (reorder σ x).attrs = (σ.map (fun i => (numbersOf x).getD i 0)).map Attr.continuous := by
  have ha : x.attrs = (numbersOf x).map Attr.continuous := numeric_attrs hx
  have hl : (numbersOf x).length = n := by rw [numbersOf_values hx]; exact (numeric_values hx).2
  have hxl : x.attrs.length = n := by rw [ha, List.length_map, hl]
  apply List.ext_getElem?
  intro i
  by_cases hi : i < n
  · rw [reorder_attrs hσ x hxl hi, ha, List.map_map, List.getElem?_map, List.getElem?_map]
    have h1 : i < σ.length := by rw [perm_length hσ]; exact hi
    have h2 := perm_getD_lt hσ hi
    rw [List.getD_eq_getElem?_getD, List.getElem?_eq_getElem h1] at h2 ⊢
    simp only [Option.getD_some] at h2 ⊢
    rw [List.getElem?_eq_getElem (by rw [hl]; exact h2)]
    simp [List.getElem?_eq_getElem (show σ[i] < (numbersOf x).length by rw [hl]; exact h2)]
  · rw [List.getElem?_eq_none_iff.2 (by rw [reorder_length hσ x hxl]; omega),
      List.getElem?_eq_none_iff.2 (by rw [List.length_map, List.length_map, perm_length hσ]; omega)]

theorem numbersOf_reorder (hσ : IsPermutation σ n) {x : Inst ℝ} (hx : Numeric n x) :
    numbersOf (reorder σ x) = σ.map (fun i => (numbersOf x).getD i 0) := by
  have h1 := numeric_attrs (numeric_reorder hσ hx)
  rw [reorder_numeric hσ hx] at h1
  have hinj : Function.Injective (Attr.continuous : ℝ → Attr ℝ) := fun a b h => by cases h; rfl
  exact (List.map_injective_iff.2 hinj h1).symm

theorem reorder_getD (hσ : IsPermutation σ n) {x : Inst ℝ} (hx : Numeric n x) {i : Nat} (hi : i < n) :
    (numbersOf (reorder σ x)).getD i 0 = (numbersOf x).getD (σ.getD i 0) 0 := by
  rw [numbersOf_reorder hσ hx]
  have h1 : i < σ.length := by rw [perm_length hσ]; exact hi
  simp [List.getD_eq_getElem?_getD, List.getElem?_eq_getElem h1]

theorem dense_reorder (hσ : IsPermutation σ n) {x y : Inst ℝ} (hx : Numeric n x) (hy : Numeric n y) :
    denseDot (numbersOf (reorder σ x)) (numbersOf (reorder σ y)) = denseDot (numbersOf x) (numbersOf y) ∧
    denseSqDist (numbersOf (reorder σ x)) (numbersOf (reorder σ y)) = denseSqDist (numbersOf x) (numbersOf y) := by
  have len : ∀ {z : Inst ℝ}, Numeric n z → (numbersOf z).length = n := fun hz => by
    rw [numbersOf_values hz]; exact (numeric_values hz).2
  unfold denseDot denseSqDist
  rw [len hx, len hy, len (numeric_reorder hσ hx), len (numeric_reorder hσ hy), max_self,
    ← sum_columns hσ (fun i => (numbersOf x).getD i 0 * (numbersOf y).getD i 0),
    ← sum_columns hσ (fun i => ((numbersOf x).getD i 0 - (numbersOf y).getD i 0) ^ 2)]
  constructor
  · refine Finset.sum_congr rfl (fun i hi => ?_)
    rw [reorder_getD hσ hx (Finset.mem_range.1 hi), reorder_getD hσ hy (Finset.mem_range.1 hi)]
  · refine Finset.sum_congr rfl (fun i hi => ?_)
    rw [reorder_getD hσ hx (Finset.mem_range.1 hi), reorder_getD hσ hy (Finset.mem_range.1 hi)]

/-- **C166** (part) Support vector machines, whatever the kernel and however many rounds the solver takes: reordering the columns
of the training data and of the instance asked about leaves the prediction (or the error) the same. -/
theorem C166_svm_partial (hσ : IsPermutation σ n) (data : IList ℝ) (hl : ∀ y ∈ data, Numeric n y) (x : Inst ℝ)
    (hx : Numeric n x) (p : SvmParam ℝ) (rounds : Nat) (old : Svm ℝ)
    (hold : old.supportVectors = [] ∧ old.coefs = []) :
    (Svm.train (Svm.boundedSolver rounds p) old (data.map (reorder σ)) p >>= fun m => m.1.predict (reorder σ x)) =
      (Svm.train (Svm.boundedSolver rounds p) old data p >>= fun m => m.1.predict x) := by
  have num : ∀ z ∈ x :: data, Numeric n z := by
    intro z hz
    rcases List.mem_cons.1 hz with rfl | hz
    · exact hx
    · exact hl z hz
  refine C223_kernel one_pos rounds (reorder σ) data x old hold (by simp) rfl ⟨fun _ _ => rfl, fun z hz => ?_, fun u hu v hv => ?_⟩
  · exact ⟨numeric_attrs (num z hz), numeric_attrs (numeric_reorder hσ (num z hz))⟩
  · obtain ⟨h1, h2⟩ := dense_reorder hσ (num u hu) (num v hv)
    unfold kernelFormula
    rw [h1, h2, one_mul]

end

/-- three columns in another order -/
example : IsPermutation [2, 0, 1] 3 ∧ Numeric 3 ⟨"a", [.continuous 1, .continuous 5, .continuous 7], none⟩ :=
  ⟨by unfold IsPermutation; decide, ⟨[1, 5, 7], rfl, rfl⟩⟩

end Verif
