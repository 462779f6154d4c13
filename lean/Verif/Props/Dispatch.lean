import Verif.Spec.Dispatch
import Verif.Props.MostProbable
import Verif.Props.SoftTrain
import Verif.Props.NetState

/-! # Properties C198 and C199: functions that classifiers inherit -/

namespace Verif
open Dbl

section
variable {F : Type} [Dbl F]

set_option linter.unusedSectionVars false

/-- **C198** (refuted for nearest mean, naive Bayes, LDA, QDA and support vector machines) whatever they have learned and
whatever they are asked, the map of class probabilities is empty. -/
theorem C198_no_probabilities_refuted (x : Inst F) (k : KMeans F) (n : NaiveBayes F) (l : Lda F) (q : Qda F) (s : Svm F) :
    ∀ m ∈ [AnyModel.kMeans k, .naiveBayes n, .lda l, .qda q, .svm s], m.predictProbability x = .ok [] := by
  intro m hm
  simp only [List.mem_cons, List.not_mem_nil, or_false] at hm
  rcases hm with rfl | rfl | rfl | rfl | rfl <;> rfl

/-- **C198** (refuted for soft decision trees) a soft decision tree without a split has an empty map of class probabilities; asking one with
a split dereferences a null pointer. -/
theorem C198_soft_tree_refuted (t : SoftTree F) (x : Inst F) :
    (t.root.shape.forks = 0 → (AnyModel.soft t).predictProbability x = .ok []) ∧
    (0 < t.root.shape.forks → (AnyModel.soft t).predictProbability x = .error (.ub "null pointer")) := by
  obtain ⟨labels, root⟩ := t
  cases root with
  | leaf d => exact ⟨fun _ => rfl, fun h => absurd h (by simp [SoftNode.shape, TreeShape.forks])⟩
  | split d l r =>
    refine ⟨fun h => by simp [SoftNode.shape, TreeShape.forks] at h, fun _ => ?_⟩
    cases l <;> rfl

/-! ## stored soft trees -/

/-- the lines a soft decision tree of a given shape is stored as -/
def TreeShape.lines : TreeShape → List Char
  | .end => "-1\n0\n\n".toList
  | .fork l r => "-1\n2\n".toList ++ (l.lines ++ r.lines)

omit [Dbl F] in
theorem base_text (T : Txt F) : ∀ n : SoftNode F, n.base.text T = .ok n.shape.lines
  | .leaf d => by
    simp only [SoftNode.base, Node.text, Node.textAll, Cond.text, Cond.root, SoftNode.shape, TreeShape.lines]
    simp only [if_true, res_bind_ok, res_pure]
    have h : intLine (-1) ++ (intLine 0 ++ line "") = "-1\n0\n\n".toList := by decide +kernel
    rw [← h]
    rfl
  | .split d l r => by
    have h : intLine (-1) ++ intLine 2 = "-1\n2\n".toList := by decide +kernel
    simp only [SoftNode.base, Node.text, Node.textAll, base_text T l, base_text T r, Cond.text, Cond.root, SoftNode.shape, TreeShape.lines]
    simp only [if_true, res_bind_ok, res_pure, List.append_nil]
    rw [← h, List.append_assoc]
    rfl

/-- **C199** (refuted) what is written for a soft decision tree depends on its shape only: the classes, the weights of the
splits and the outputs of the leaves are not written. -/
theorem C199_written_refuted (T : Txt F) (t t' : SoftTree F) (h : t.root.shape = t'.root.shape) :
    ∃ s, softText T t = .ok s ∧ softText T t' = .ok s := by
  refine ⟨_, base_text T _, ?_⟩
  unfold softText
  rw [base_text, h]

/-- **C199** (refuted) when a file has been read into a soft decision tree, the behaviour of the next prediction is undefined,
whatever the file. -/
theorem C199_read_refuted (T : Txt F) (L : MathLib F) (file rest : In) (r : SoftRoot F) (h : softLoad T L file = .ok (r, rest))
    (labels : List String) (x : Inst F) : ∃ e, r.predict labels x = .error (.ub e) := by
  unfold softLoad at h
  change (treeRead T L file >>= fun p => _) = _ at h
  cases ht : treeRead T L file with
  | error e => rw [ht] at h; cases h
  | ok p =>
    rw [ht] at h
    cases h
    exact ⟨_, rfl⟩

/-- **C199** (refuted) and the file written for a tree without a split cannot even be read. -/
theorem C199_unsplit_refuted (T : Txt F) (L : MathLib F) (t : SoftTree F) (h : t.root.shape.forks = 0) :
    ∃ s, softText T t = .ok s ∧ ∃ e, softLoad T L (In.ofText s) = .error (.ub e) := by
  refine ⟨_, base_text T _, ?_⟩
  have hs : t.root.shape = .end := by
    cases hr : t.root.shape with
    | «end» => rfl
    | fork l r => rw [hr] at h; simp [TreeShape.forks] at h
  rw [hs]
  exact ⟨_, rfl⟩

end

/-! ## classifiers that do report probabilities -/

/-- **C198** (part) dummy and random classifiers -/
theorem C198_simple_partial (train : IList ℝ) (hne : train ≠ []) (x : Inst ℝ) (hx : x.isComposite = false) (r : Nat) :
    Reports (.dummy train.classDistribution) r x ∧ Reports (.random (randomTrain train)) r x := by
  refine ⟨⟨_, _, rfl, rfl, C164_dummy_partial train hne x hx⟩, ?_⟩
  have hl : randomTrain train ≠ [] := by
    obtain ⟨y, hy⟩ := List.exists_mem_of_ne_nil _ hne
    exact List.ne_nil_of_mem (((C10_class_distribution train).mem_items y.label).2 (List.mem_map_of_mem hy))
  obtain ⟨c, h1, h2, _⟩ := C48_random (randomTrain train) r x (fun _ => hl) (fun h => by rw [hx] at h; cases h)
  have hc := h2 hx
  obtain ⟨h3, _⟩ := C47_random (randomTrain train) (C47_random_trained train) hl
  have hs : OMap.Sorted (randomProbability (randomTrain train) : OMap ℝ) :=
    (random_fold ((Dbl.ofInt 1 : ℝ) /. Dbl.ofNat (randomTrain train).length) (randomTrain train) [] OMap.sorted_nil
      (C47_random_trained train) (by simp [OMap.keys])).1
  refine ⟨c, _, h1, rfl, _, OMap.mem_of_find? ((h3 c).trans (if_pos hc)), ?_⟩
  intro b p hb
  have := OMap.find?_of_mem hs hb
  rw [h3 b] at this
  split at this
  · cases this; exact le_refl _
  · cases this

/-- **C198** (part) k nearest neighbours, decision trees and stumps, bagging and random forests -/
theorem C198_counting_partial (r : Nat) (x : Inst ℝ) :
    (∀ (m : Knn ℝ) (ns : IList ℝ), m.nearestNeighbors x = .ok ns → ns ≠ [] → Reports (.knn m) r x) ∧
    (∀ (ts : List AttrType) (data : IList ℝ) (n : Node ℝ), data ≠ [] → (∀ y ∈ data, typesOf y = ts) → typesOf x = ts →
      x.isComposite = false → treeTrain data none = .ok n ∨ stumpTrain data = .ok n → Reports (.tree n) r x) ∧
    (∀ (forest : List (Node ℝ)) (p : Node ℝ → String), forest ≠ [] → (∀ t ∈ forest, treePredict t x = .ok (p t)) →
      Reports (.ensemble forest) r x) := by
  refine ⟨fun m ns h hne => C164_knn_partial m x ns h hne, ?_, fun forest p hne h => C164_ensembles hne h⟩
  intro ts data n hne hts hx hp h
  exact C164_trees_partial hne hts (h.elim (fun h => .inl ⟨h, rfl⟩) (fun h => .inr (.inl ⟨h, rfl⟩))) x hx hp

/-- **C198** (part) networks whose output is a vector with one real number for each class -/
theorem C198_network_partial (r : Nat) (labels : List String) (hnd : labels.Nodup) (hne : labels ≠ [])
    (output : List ℝ → Res (List ℝ)) (x : Inst ℝ) (v y : List ℝ) (hx : x.isComposite = false) (hv : inputVector x = .ok v)
    (hy : output v = .ok y) (hlen : y.length = labels.length) : Reports (.network labels output) r x := by
  obtain ⟨p, c, u, h1, h2, h3, h4⟩ := C135_most_probable_partial hnd hne hx hv hy hlen (fun a _ => ord_real a)
  refine ⟨c, p, h2, h1, u, OMap.mem_of_find? h3, ?_⟩
  have hs : OMap.Sorted p := by
    unfold netProbability at h1
    rw [hv, res_bind_ok, hy, res_bind_ok] at h1
    refine foldlM_keeps (P := OMap.Sorted) ?_ _ _ _ h1 OMap.sorted_nil
    intro m q m' hm h
    unfold probabilityStep at h
    simp only [bind_ok_iff] at h
    obtain ⟨a, _, h⟩ := h
    cases h
    exact OMap.sorted_insert hm _ _
  intro b q hb
  simpa using h4 b q (OMap.find?_of_mem hs hb)

/-! ## examples -/

section
open XR

/-- two instances of each of two classes -/
def exTwo : IList XR :=
  [⟨"a", [.continuous (.fin 0)], none⟩, ⟨"a", [.continuous (.fin 2)], none⟩, ⟨"b", [.continuous (.fin 8)], none⟩,
   ⟨"b", [.continuous (.fin 10)], none⟩]

/-- a nearest mean classifier answers, but has no probabilities -/
example : ∃ m : KMeans XR, (⟨DD.empty, [], euclidean⟩ : KMeans XR).train exTwo euclidean = .ok m ∧
    (AnyModel.kMeans m).predict 0 ⟨"?", [.continuous (.fin 7)], none⟩ = .ok "b" ∧
    (AnyModel.kMeans m).predictProbability ⟨"?", [.continuous (.fin 7)], none⟩ = .ok [] := by
  refine ⟨_, rfl, by decide +kernel, rfl⟩

/-- soft trees with and without a split -/
example : exSoft.root.shape.forks = 1 ∧ (SoftNode.leaf (F := XR) ⟨[], [], [], .fin 0⟩).shape.forks = 0 := ⟨rfl, rfl⟩

/-- two soft trees of the same shape with different answers -/
example : ∃ t : SoftTree XR, t.root.shape = exSoft.root.shape ∧
    (softPredict exSoft ⟨"?", [.continuous (.fin 4)], none⟩).isOk = true ∧
    (softPredict t ⟨"?", [.continuous (.fin 4)], none⟩).isOk = true ∧
    softPredict exSoft ⟨"?", [.continuous (.fin 4)], none⟩ ≠ softPredict t ⟨"?", [.continuous (.fin 4)], none⟩ := by
  refine ⟨⟨["a", "b"], .split ⟨[], [.fin 0, .fin 0], [.fin 0, .fin 0], .fin 0⟩
    (.leaf ⟨[.fin 3, .fin 0], [], [], .fin 0⟩) (.leaf ⟨[.fin 0, .fin 1], [], [], .fin 0⟩)⟩, rfl, ?_, ?_, ?_⟩ <;> decide +kernel

end

end Verif
