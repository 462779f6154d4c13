import Verif.Props.TreeColumns
import Verif.Props.ForestSubset

/-! # Property C166: bagged trees and the order of the columns -/

namespace Verif
open Dbl

section
variable {ts : List AttrType} {σ : List Nat}

theorem grow_forest (a : Nat → Node ℝ) (g : Nat → Res (Node ℝ)) (h : ∀ i, g i = .ok (a i)) : ∀ (is : List Nat) (r : List (Node ℝ)),
    is.foldlM (fun forest i => do
      let t ← g i
      (pure (forest ++ [t]) : Res (List (Node ℝ)))) r = .ok (r ++ is.map a) := by
  intro is
  induction is with
  | nil => intro r; simp [res_pure]
  | cons i is ih =>
    intro r
    rw [List.foldlM_cons, h i, res_bind_ok, res_pure, res_bind_ok, ih]
    simp

theorem votes_one_by_one {x x' : Inst ℝ} (a a' : Nat → Node ℝ) (is : List Nat)
    (h : ∀ i ∈ is, treePredict (a' i) x' = treePredict (a i) x) :
    ensembleVotes (is.map a') x' = ensembleVotes (is.map a) x := by
  unfold ensembleVotes
  generalize DD.empty = d
  induction is generalizing d with
  | nil => rfl
  | cons i is ih =>
    rw [List.map_cons, List.map_cons, List.foldlM_cons, List.foldlM_cons, h i (by simp)]
    congr 1
    funext d'
    exact ih (fun j hj => h j (by simp [hj])) d'

/-- **C166 (part).** Bagged trees, the same positions having been drawn, in exact arithmetic: training on the columns in another order succeeds
too, and an instance gets the same label and the same class probabilities, if in no tree, at no node on its way, two different columns tie for the
least remaining entropy of the part of the tree's sample that comes to this node. -/
theorem C166_bagging_partial (hσ : IsPermutation σ ts.length) {data : IList ℝ}
    (hts : ∀ x ∈ data, typesOf x = ts) (hbd : IndexBounded data) {draws : Nat → List Nat}
    (hd : ∀ i, draws i ≠ [] ∧ ∀ k ∈ draws i, k < data.length) (B : Int) :
    ∃ f f', ensembleTrain none draws [] data B = .ok f ∧ ensembleTrain none draws [] (data.map (reorder σ)) B = .ok f' ∧
      f.length = B.toNat ∧
      ∀ x : Inst ℝ, typesOf x = ts →
        (∀ (i : Nat) t, f[i]? = some t → ∀ path m, Follows t x path m → ¬ ColumnTie ts (passing t (data.bootstrap (draws i)) path)) →
        ensemblePredict f' (reorder σ x) = ensemblePredict f x ∧
        ensembleProbability f' (reorder σ x) = ensembleProbability f x := by
  have one : ∀ i, ∃ n n', treeTrain (data.bootstrap (draws i)) none = .ok n ∧
      treeTrain (IList.bootstrap (data.map (reorder σ)) (draws i)) none = .ok n' ∧
      ∀ x : Inst ℝ, typesOf x = ts → (∀ path m, Follows n x path m → ¬ ColumnTie ts (passing n (data.bootstrap (draws i)) path)) →
        treePredict n' (reorder σ x) = treePredict n x ∧ n'.predictProbability (reorder σ x) = n.predictProbability x := by
    intro i
    obtain ⟨hlen, hmem⟩ := C65_sample (hd i).2
    rw [bootstrap_map]
    refine C166_tree_partial hσ ?_ (fun x hx => hts x (hmem x hx)) (fun x hx y hy => hbd x (hmem x hx) y (hmem y hy))
    intro h0; rw [h0] at hlen
    exact (hd i).1 (List.length_eq_zero_iff.1 hlen.symm)
  choose a a' h1 h2 h3 using one
  refine ⟨(List.range B.toNat).map a, (List.range B.toNat).map a', grow_forest a _ h1 _ [], grow_forest a' _ h2 _ [], by simp, fun x hx htie => ?_⟩
  have hv := votes_one_by_one (x := x) (x' := reorder σ x) a a' (List.range B.toNat) (fun i hi => (h3 i x hx (htie i (a i) (by
    rw [List.getElem?_map, List.getElem?_range (List.mem_range.1 hi)]; rfl))).1)
  unfold ensemblePredict ensembleProbability
  rw [hv]
  exact ⟨rfl, rfl⟩

/-- the hypotheses are met: no two columns tie -/
example : ∃ f f', ensembleTrain none (fun i => if i = 0 then [0, 2] else [2, 1, 1]) [] oneColumn 2 = .ok f ∧
    ensembleTrain none (fun i => if i = 0 then [0, 2] else [2, 1, 1]) [] (oneColumn.map (reorder [1, 0])) 2 = .ok f' ∧ f.length = 2 ∧
    ∀ x : Inst ℝ, typesOf x = [.continuous, .discrete] →
      ensemblePredict f' (reorder [1, 0] x) = ensemblePredict f x ∧
      ensembleProbability f' (reorder [1, 0] x) = ensembleProbability f x := by
  obtain ⟨f, f', h1, h2, h3, h⟩ := C166_bagging_partial (ts := [.continuous, .discrete]) (σ := [1, 0]) (data := oneColumn)
    (by unfold IsPermutation; decide)
    (by
      intro x hx
      simp only [oneColumn, List.mem_cons, List.not_mem_nil, or_false] at hx
      rcases hx with rfl | rfl | rfl <;> rfl)
    (by
      intro x hx y hy i v k m v' k' m' e
      simp only [oneColumn, List.mem_cons, List.not_mem_nil, or_false] at hx
      rcases hx with rfl | rfl | rfl <;>
      · match i, e with
        | 0, e => simp at e
        | 1, e => simp at e
        | i + 2, e => simp at e)
    (draws := fun i => if i = 0 then [0, 2] else [2, 1, 1])
    (by intro i; by_cases hi : i = 0 <;> simp [hi, oneColumn]) 2
  refine ⟨f, f', h1, h2, h3, fun x hx => h x hx (fun i t _ path m _ => oneColumn_noTie _ (fun y hy => ?_))⟩
  unfold passing at hy
  exact bootstrap_mem (List.mem_of_mem_filter hy)

end
end Verif
