import Verif.Spec.MostProbable
import Verif.Props.TreeProb
import Verif.Props.Knn

/-! # Property C164: the predicted class is a most probable one -/

namespace Verif
open Dbl

theorem shares_most_probable (l : IList ℝ) (hne : l ≠ []) (c : String) (hc : IsMajority (l.map Inst.label) c) :
    MostProbable (l.classDistribution.getProbabilityDistribution : OMap ℝ) c := by
  obtain ⟨k1, _, k3, _⟩ := C47_dummy l hne
  obtain ⟨y, hy, hyc⟩ := List.mem_map.1 hc.mem
  obtain ⟨⟨a, q⟩, hq, e⟩ := List.mem_map.1 ((k3 c).2 ⟨y, hy, hyc⟩)
  simp only at e
  subst e
  refine ⟨q, hq, fun b r hr => ?_⟩
  rw [(k1 a q hq).1, (k1 b r hr).1]
  have := hc.max b
  gcongr

/-- **C164** (part) The dummy classifier, on a plain instance. -/
theorem C164_dummy_partial (train : IList ℝ) (hne : train ≠ []) (x : Inst ℝ) (hx : x.isComposite = false) :
    MostProbable (dummyProbability train.classDistribution) (dummyPredict train.classDistribution x) :=
  shares_most_probable train hne _ (C46_plain train x hne hx)

/-- **C164** (part) k nearest neighbours, on every instance with a neighbour. -/
theorem C164_knn_partial (m : Knn ℝ) (x : Inst ℝ) (ns : IList ℝ) (h : m.nearestNeighbors x = .ok ns) (hne : ns ≠ []) :
    ∃ c p, m.predict x = .ok c ∧ m.predictProbability x = .ok p ∧ MostProbable p c := by
  obtain ⟨c, h1, h2⟩ := (C50_vote m x ns h).1 hne
  refine ⟨c, _, h1, ?_, shares_most_probable ns hne c h2⟩
  unfold Knn.predictProbability
  rw [h]; rfl

/-- **C164** Ensembles, on every instance the trees can be asked about. -/
theorem C164_ensembles {forest : List (Node ℝ)} (hne : forest ≠ []) {x : Inst ℝ} {p : Node ℝ → String}
    (h : ∀ t ∈ forest, treePredict t x = .ok (p t)) :
    ∃ c pr, ensemblePredict forest x = .ok c ∧ ensembleProbability forest x = .ok pr ∧ MostProbable pr c := by
  set l : IList ℝ := forest.map (fun t => ⟨p t, [], none⟩) with hl
  have hlab : l.map Inst.label = forest.map p := by simp [hl]
  have hln : l ≠ [] := by simpa [hl] using hne
  have hcd : l.classDistribution = DD.ofList (forest.map p) := by rw [classDistribution_eq, hlab]
  refine ⟨(DD.ofList (forest.map p)).getMaxItem, l.classDistribution.getProbabilityDistribution, ?_, ?_,
    shares_most_probable l hln _ ?_⟩
  · unfold ensemblePredict
    rw [ensembleVotes_ok h]; rfl
  · unfold ensembleProbability
    rw [ensembleVotes_ok h, hcd]; rfl
  · rw [hlab]
    exact getMaxItem_majority _ (by simpa using hne)

/-- **C164** (part) Trained decision trees and stumps, on plain instances. -/
theorem C164_trees_partial {ts : List AttrType} {data grown : IList ℝ} (hne : grown ≠ [])
    (hts : ∀ x ∈ data, typesOf x = ts) {n : Node ℝ}
    (h : (treeTrain data none = .ok n ∧ grown = data) ∨ (stumpTrain data = .ok n ∧ grown = data) ∨
      ∃ r σ held, IsPermutation σ data.length ∧ Parts.byRatioStratified data r σ = .ok [held, grown] ∧
        treeTrain data (some (r, σ)) = .ok n)
    (x : Inst ℝ) (hx : typesOf x = ts) (hplain : x.isComposite = false) :
    ∃ c p, treePredict n x = .ok c ∧ n.predictProbability x = .ok p ∧ MostProbable p c := by
  obtain ⟨path, m, p, _, h2, _, _, h5⟩ := C134_trained_probabilities hne hts h x hx
  obtain ⟨a, q, h6, h7, h8⟩ := h5 hplain
  exact ⟨a, p, h6, h2, q, h7, h8⟩

/-- **C164 fails** for composite instances: the dummy classifier answers with the most frequent of the
possible classes, but reports the probabilities of all classes; a tree likewise; k nearest
neighbours report nothing when no training instance has a possible class. -/
theorem C164_refuted :
    (let d := IList.classDistribution ([⟨"a", [], none⟩, ⟨"a", [], none⟩, ⟨"b", [], none⟩] : IList XR)
     let x : Inst XR := ⟨"?", [], some ["b", "c"]⟩
     dummyPredict d x = "b" ∧ (dummyProbability d : OMap XR) = [("a", .fin (2/3)), ("b", .fin (1/3))] ∧
     treePredict (.mk Cond.root true "a" d []) x = .ok "b" ∧
     (Node.mk Cond.root true "a" d []).predictProbability x = .ok [("a", .fin (2/3)), ("b", .fin (1/3))]) ∧
    (let m : Knn XR := ⟨[⟨"a", [], none⟩], 1, euclidean⟩
     let x : Inst XR := ⟨"?", [], some ["b", "c"]⟩
     m.predict x = .ok "b" ∧ m.predictProbability x = .ok []) := by
  decide +kernel

example : MostProbable (dummyProbability (IList.classDistribution ([⟨"a", [], none⟩, ⟨"b", [], none⟩, ⟨"b", [], none⟩] : IList ℝ)))
    (dummyPredict (IList.classDistribution ([⟨"a", [], none⟩, ⟨"b", [], none⟩, ⟨"b", [], none⟩] : IList ℝ)) (⟨"?", [], none⟩ : Inst ℝ)) :=
  C164_dummy_partial _ (by simp) _ rfl

end Verif
