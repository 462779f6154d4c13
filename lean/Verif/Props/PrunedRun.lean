import Verif.Props.CrossValidation
import Verif.Props.TreeProb

/-! # Property C136: cross-validating a pruned tree on data with one instance of each class -/

namespace Verif
open Dbl Exper

theorem slicesOut_sublist (l : IList ℝ) (K k : Nat) : (slicesOut l K k).Sublist l := by
  unfold slicesOut
  have h := (List.filter_sublist (l := l.zipIdx)
    (p := fun p => decide (p.2 < k * l.length / K) || decide ((k + 1) * l.length / K ≤ p.2))).map Prod.fst
  rwa [List.zipIdx_map_fst] at h

/-- **C136 (refuted)**, for an experiment: k-fold cross validation of a tree that is pruned throws if each class has one
instance, whatever the number of folds, the seed, the ratio in `(0, 1]` and the order of the instances held out. -/
theorem C136_experiment_refuted {data : IList ℝ} (hone : (data.map Inst.label).Nodup) {r : ℝ} (h0 : 0 < r) (h1 : r ≤ 1)
    {order : Nat → List Nat} (ho : ∀ n, IsPermutation (order n) n) (rng : Rng) {K : Nat} (hK : 0 < K) (seed : Int)
    (hr : IsPermutation (rng.foldOrder seed 0 data.length) data.length) (m : Option (Node ℝ)) :
    kFoldRun (treeLearner (fun n => some (r, order n))) rng K seed m data = .error (.throw "out_of_range") := by
  obtain ⟨K, rfl⟩ := Nat.exists_eq_add_of_lt hK
  have hnd : ((slicesOut (data.shuffle (rng.foldOrder seed 0 data.length)) (0 + K + 1) 0).map Inst.label).Nodup :=
    List.Nodup.sublist ((slicesOut_sublist _ _ _).map Inst.label) ((((shuffle_perm' data hr).map Inst.label).nodup_iff).2 hone)
  have ht := C136_refuted hnd h0 h1 (ho _)
  simp only [kFoldRun, runFolds, List.range_succ_eq_map, List.foldlM_cons, trainAndTest, CrossVal.kfold, treeLearner, ht]
  rfl

/-- two folds of two instances -/
example : kFoldRun (treeLearner (fun n => some (1 / 5, List.range n))) ⟨fun _ _ n => List.range n, fun _ n => List.range n,
      fun _ n => List.range n⟩ 2 1 none
      ([⟨"a", [.continuous 1], none⟩, ⟨"b", [.continuous 2], none⟩] : IList ℝ) = .error (.throw "out_of_range") := by
  refine C136_experiment_refuted (by decide) (by norm_num) (by norm_num) (fun n => List.Perm.refl _) _ (by omega) 1 ?_ none
  exact List.Perm.refl _

end Verif
