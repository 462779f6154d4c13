import Verif.Spec.Blind
import Verif.Model.Learners
import Verif.Model.SoftTree
import Verif.Model.NetState
import Verif.Props.ExpPerf

/-! # Property C167: the class of an instance has no influence on its prediction -/

namespace Verif
open Dbl

variable {F : Type} [Dbl F]

omit [Dbl F] in
theorem blind_iff {α : Type} (f : Inst F → α) :
    Blind f ↔ ∀ c c' as p, f ⟨c, as, p⟩ = f ⟨c', as, p⟩ := by
  constructor
  · intro h c c' as p; exact h _ _ ⟨rfl, rfl⟩
  · rintro h ⟨c, as, p⟩ ⟨c', as', p'⟩ ⟨h1, h2⟩
    simp only at h1 h2
    subst h1 h2
    exact h c c' as p

omit [Dbl F] in
/-- **C167.** The dummy and the random classifier (for every number drawn). -/
theorem C167_simple (d : DD) (labels : List String) (r : Nat) :
    Blind (fun x : Inst F => dummyPredict d x) ∧ Blind (fun x : Inst F => randomPredict labels r x) := by
  constructor <;> (rw [blind_iff]; intro c c' as p; cases p <;> rfl)

/-- **C167.** The two distances do not look at the classes of their arguments. -/
theorem C167_distances (A : Mat F) :
    (∀ y : Inst F, Blind (euclidean y)) ∧ (∀ y : Inst F, Blind (fun x => euclidean x y)) ∧
    (∀ y : Inst F, Blind (mahalanobis A y)) ∧ ∀ y : Inst F, Blind (fun x => mahalanobis A x y) := by
  refine ⟨?_, ?_, ?_, ?_⟩ <;> (intro y; rw [blind_iff]; intro c c' as p; rfl)

/-- **C167.** k nearest neighbours, with a distance that does not look at the class (`C167_distances`): the class of
the instance asked about is not looked at, in predictions and in class probabilities. -/
theorem C167_knn (m : Knn F) (hd : ∀ y, Blind (m.dist y)) : Blind m.predict ∧ Blind m.predictProbability := by
  have hn : Blind m.nearestNeighbors := by
    rw [blind_iff]
    intro c c' as p
    have he : ∀ y, Knn.eligible ⟨c, as, p⟩ y = Knn.eligible ⟨c', as, p⟩ y := by intro y; cases p <;> rfl
    unfold Knn.nearestNeighbors
    simp only [he, fun y => hd y ⟨c, as, p⟩ ⟨c', as, p⟩ ⟨rfl, rfl⟩]
  rw [blind_iff] at hn
  constructor
  · rw [blind_iff]
    intro c c' as p
    unfold Knn.predict
    rw [hn c c' as p]
    cases p <;> rfl
  · rw [blind_iff]
    intro c c' as p
    unfold Knn.predictProbability
    rw [hn c c' as p]

theorem gaussPredict_blind (prior : DD) (metric : Inst F → String → Res F) (h : Blind metric) : Blind (gaussPredict prior metric) := by
  rw [blind_iff] at *
  intro c c' as p
  unfold gaussPredict
  rw [h c c' as p]
  cases p <;> rfl

/-- **C167.** Nearest mean (with a distance as in `C167_distances`), naive Bayes, LDA and QDA. -/
theorem C167_parametric (km : KMeans F) (hd : ∀ y, Blind (fun x => km.dist x y)) (nb : NaiveBayes F) (lda : Lda F) (qda : Qda F) :
    Blind km.predict ∧ Blind nb.predict ∧ Blind lda.predict ∧ Blind qda.predict := by
  refine ⟨gaussPredict_blind _ _ ?_, gaussPredict_blind _ _ ?_, gaussPredict_blind _ _ ?_, gaussPredict_blind _ _ ?_⟩
  · rw [blind_iff]
    intro c c' as p
    funext k
    unfold KMeans.metric
    simp only [fun y => hd y ⟨c, as, p⟩ ⟨c', as, p⟩ ⟨rfl, rfl⟩]
  all_goals (rw [blind_iff]; intro c c' as p; rfl)

theorem satisfy_blind (k : Cond F) (c c' : String) (as : List (Attr F)) (p : Option (List String)) :
    k.satisfy ⟨c, as, p⟩ = k.satisfy ⟨c', as, p⟩ := rfl

mutual
theorem predictPlain_blind (c c' : String) (as : List (Attr F)) (p : Option (List String)) : ∀ n : Node F,
    n.predictPlain ⟨c, as, p⟩ = n.predictPlain ⟨c', as, p⟩
  | .mk _ leaf lab _ ch => by
    rw [Node.predictPlain, Node.predictPlain, predictPlainIn_blind c c' as p lab ch]
theorem predictPlainIn_blind (c c' : String) (as : List (Attr F)) (p : Option (List String)) (lab : String) : ∀ ch : List (Node F),
    Node.predictPlainIn lab ch ⟨c, as, p⟩ = Node.predictPlainIn lab ch ⟨c', as, p⟩
  | [] => by rw [Node.predictPlainIn, Node.predictPlainIn]
  | n :: ns => by
    rw [Node.predictPlainIn, Node.predictPlainIn, predictPlain_blind c c' as p n, predictPlainIn_blind c c' as p lab ns,
      satisfy_blind n.cond c c']
end

mutual
theorem predictComposite_blind (c c' : String) (as : List (Attr F)) (q : List String) : ∀ n : Node F,
    n.predictComposite ⟨c, as, some q⟩ = n.predictComposite ⟨c', as, some q⟩
  | .mk _ leaf _ d ch => by
    rw [Node.predictComposite, Node.predictComposite, predictCompositeIn_blind c c' as q _ ch]; rfl
theorem predictCompositeIn_blind (c c' : String) (as : List (Attr F)) (q : List String) (s : String) : ∀ ch : List (Node F),
    Node.predictCompositeIn s ch ⟨c, as, some q⟩ = Node.predictCompositeIn s ch ⟨c', as, some q⟩
  | [] => by rw [Node.predictCompositeIn, Node.predictCompositeIn]
  | n :: ns => by
    rw [Node.predictCompositeIn, Node.predictCompositeIn, predictComposite_blind c c' as q n,
      predictCompositeIn_blind c c' as q s ns, satisfy_blind n.cond c c']
end

mutual
theorem predictProbability_blind (c c' : String) (as : List (Attr F)) (p : Option (List String)) : ∀ n : Node F,
    n.predictProbability ⟨c, as, p⟩ = n.predictProbability ⟨c', as, p⟩
  | .mk _ leaf _ d ch => by
    rw [Node.predictProbability, Node.predictProbability, predictProbabilityIn_blind c c' as p d ch]
theorem predictProbabilityIn_blind (c c' : String) (as : List (Attr F)) (p : Option (List String)) (d : DD) : ∀ ch : List (Node F),
    Node.predictProbabilityIn d ch ⟨c, as, p⟩ = Node.predictProbabilityIn d ch ⟨c', as, p⟩
  | [] => by rw [Node.predictProbabilityIn, Node.predictProbabilityIn]
  | n :: ns => by
    rw [Node.predictProbabilityIn, Node.predictProbabilityIn, predictProbability_blind c c' as p n,
      predictProbabilityIn_blind c c' as p d ns, satisfy_blind n.cond c c']
end

/-- **C167.** Decision trees and tree ensembles: predictions and class probabilities. -/
theorem C167_trees (n : Node F) (forest : List (Node F)) :
    Blind (treePredict n) ∧ Blind n.predictProbability ∧ Blind (ensemblePredict forest) ∧ Blind (ensembleProbability forest) := by
  have ht : ∀ n : Node F, Blind (treePredict n) := by
    intro n
    rw [blind_iff]
    intro c c' as p
    unfold treePredict Node.predict
    cases p with
    | none =>
      simp only [Inst.isComposite, Option.isSome_none, Bool.false_eq_true, if_false, and_false]
      rw [predictPlain_blind c c']
    | some q =>
      simp only [Inst.isComposite, Option.isSome_some, if_true]
      rw [predictComposite_blind c c']
      rfl
  have hv : Blind (ensembleVotes forest) := by
    intro x y h
    unfold ensembleVotes
    simp only [fun t => ht t x y h]
  refine ⟨ht n, ?_, ?_, ?_⟩
  · rw [blind_iff]; intro c c' as p; exact predictProbability_blind c c' as p n
  · intro x y h; unfold ensemblePredict; rw [hv x y h]
  · intro x y h; unfold ensembleProbability; rw [hv x y h]

/-- **C167.** Neural networks, whatever they were asked before: answer, class probabilities and the state the call leaves
behind. -/
theorem C167_networks (labels : List String) (output : List F → Res (List F)) (s : NetMem F) :
    Blind (s.predict labels output) ∧ Blind (s.probability labels output) ∧ Blind (netPredict labels output) := by
  refine ⟨?_, ?_, ?_⟩ <;> (rw [blind_iff]; intro c c' as p; cases p <;> rfl)

theorem calcOutput_blind (c c' : String) (as : List (Attr F)) (p : Option (List String)) : ∀ n : SoftNode F,
    calcOutput ⟨c, as, p⟩ n = calcOutput ⟨c', as, p⟩ n
  | .leaf _ => rfl
  | .split d l r => by
    rw [calcOutput, calcOutput, calcOutput_blind c c' as p l, calcOutput_blind c c' as p r]; rfl

/-- **C167.** Soft decision trees and support vector machines. -/
theorem C167_soft_tree_svm (t : SoftTree F) (m : Svm F) : Blind (softPredict t) ∧ Blind m.predict := by
  constructor
  · rw [blind_iff]
    intro c c' as p
    unfold softPredict
    rw [calcOutput_blind c c']
  · rw [blind_iff]; intro c c' as p; rfl

/-- **C167.** So testing on instances with other classes compares those with the same predictions: with the classes
`r x` in place of the true ones the accuracy is the share of instances whose prediction is `r x`. -/
theorem C167_test (predict : Inst ℝ → Res String) (hb : Blind predict) (p r : Inst ℝ → String) (t : IList ℝ)
    (hp : ∀ x ∈ t, predict x = .ok (p x)) :
    ∃ perf, modelTest predict (t.map (fun x => { x with label := r x })) = .ok perf ∧
      perf.getAccuracy = .ok ((t.countP (fun x => r x == p x) : ℝ) / t.length) := by
  classical
  let q : Inst ℝ → String := fun y => match predict y with | .ok s => s | .error _ => ""
  have hq : ∀ x ∈ t, predict { x with label := r x } = .ok (q { x with label := r x }) ∧ q { x with label := r x } = p x := by
    intro x hx
    have := (hb { x with label := r x } x ⟨rfl, rfl⟩).trans (hp x hx)
    simp only [q, this, and_self]
  refine ⟨_, C43_test predict q (t.map (fun x => { x with label := r x })) (fun y hy => ?_), ?_⟩
  · obtain ⟨x, hx, rfl⟩ := List.mem_map.1 hy
    exact (hq x hx).1
  · simp only [Perf.getAccuracy, List.countP_map, List.length_map]
    congr 3
    refine List.countP_congr (fun x hx => ?_)
    simp only [Function.comp_apply, (hq x hx).2]

/-- two questions that differ in the class only, and a tree that could look at it -/
example : SameQuestion (⟨"a", [.continuous 1], some ["a", "b"]⟩ : Inst ℝ) ⟨"b", [.continuous 1], some ["a", "b"]⟩ ∧
    ¬ Blind (fun x : Inst ℝ => x.label) ∧ ¬ Blind (fun x : Inst ℝ => x.possibleLabels) := by
  refine ⟨⟨rfl, rfl⟩, fun h => ?_, fun h => ?_⟩
  · have := h ⟨"a", [], none⟩ ⟨"b", [], none⟩ ⟨rfl, rfl⟩
    simp at this
  · have := h ⟨"a", [], none⟩ ⟨"b", [], none⟩ ⟨rfl, rfl⟩
    simp [Inst.possibleLabels] at this

end Verif
