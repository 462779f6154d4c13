import Verif.Lemmas.RenameTransfer
import Verif.Lemmas.RenameNets

/-! # Property C173: classes may be called anything, as long as their alphabetical order stays

In each theorem `f` gives new names to the classes, `data` is the training data and `x` the instance asked about.
Both sides are complete runs: train a new object, ask it about an instance. -/

namespace Verif
open Dbl

variable {F : Type} [Dbl F] {f : String → String} {data : IList F} {x : Inst F}

/-- train, then ask: if both steps respect renamings, so does the run -/
theorem run_rn {M R S : Type} (ren : M → M) (act : R → S) {train train' : Res M}
    (ht : train' = train.map ren) {ask : M → Res R} {ask' : M → Res S} (ha : ∀ m, ask' (ren m) = (ask m).map act) :
    (train' >>= ask') = (train >>= ask).map act := by
  rw [ht, bind_map_res, map_bind_res]
  exact bind_congr_res (fun m _ => ha m)

/-- **C173.** The dummy classifier: predictions and class probabilities. -/
theorem C173_dummy (h : KeepsOrder f (namesIn data x)) :
    dummyPredict (IList.classDistribution (data.map (Inst.rn f))) (x.rn f) = f (dummyPredict data.classDistribution x) ∧
    (dummyProbability (IList.classDistribution (data.map (Inst.rn f))) : OMap F) =
      OMap.rn f (dummyProbability data.classDistribution) := by
  constructor
  · have := rename_transfer_class (fun d y => .ok (dummyPredict d.classDistribution y)) (fun g hg d y => by
      simp only [rn_classDist hg, rn_dummyPredict hg, map_ok_res]) h
    simpa [map_ok_res] using this
  · have := rename_transfer (fun d _ => (.ok (dummyProbability d.classDistribution) : Res (OMap F))) (fun g hg d y => by
      simp only [rn_classDist hg, dummyProbability, DD.getProbabilityDistribution_rn hg, map_ok_res]) h
    simpa [map_ok_res] using this

/-- **C173.** The random classifier, when it draws the same number. -/
theorem C173_random (r : Nat) (h : KeepsOrder f (namesIn data x)) :
    randomPredict (randomTrain (data.map (Inst.rn f))) r (x.rn f) = (randomPredict (randomTrain data) r x).map f :=
  rename_transfer_class (fun d y => randomPredict (randomTrain d) r y) (fun g hg d y => by
    unfold randomPredict randomTrain
    rw [rn_classDist hg, DD.getItems_rn, Inst.rn_isComposite, Inst.rn_possibleLabels]
    simp only [← apply_ite (List.map g), List.length_map, atR_mapU, map_ite_res, map_error_res]) h

/-- **C173.** k nearest neighbours, for every distance that does not look at the classes (`C167_distances`):
predictions and class probabilities. -/
theorem C173_knn (old : Knn F) (k : Int) (dist : Inst F → Inst F → Res F)
    (hd : ∀ g y z, dist (Inst.rn g y) (Inst.rn g z) = dist y z) (h : KeepsOrder f (namesIn data x)) :
    (old.train (data.map (Inst.rn f)) k dist).predict (x.rn f) = ((old.train data k dist).predict x).map f ∧
    (old.train (data.map (Inst.rn f)) k dist).predictProbability (x.rn f) =
      ((old.train data k dist).predictProbability x).map (OMap.rn f) :=
  ⟨rename_transfer_class (fun d y => (old.train d k dist).predict y)
    (fun g hg d y => rn_knnPredict hg (old.train d k dist) (hd g) y) h,
   rename_transfer (fun d y => (old.train d k dist).predictProbability y)
    (fun g hg d y => rn_knnProbability hg (old.train d k dist) (hd g) y) h⟩

/-- **C173.** The two distances meet the condition of `C173_knn` and `C173_kmeans`. -/
theorem C173_distances (A : Mat F) (g : String → String) (y z : Inst F) :
    euclidean (y.rn g) (z.rn g) = euclidean y z ∧ mahalanobis A (y.rn g) (z.rn g) = mahalanobis A y z := ⟨rfl, rfl⟩

/-- **C173.** Nearest mean. -/
theorem C173_kmeans (old : KMeans F) (dist : Inst F → Inst F → Res F)
    (hd : ∀ g y z, dist (Inst.rn g y) (Inst.rn g z) = dist y z) (h : KeepsOrder f (namesIn data x)) :
    (old.train (data.map (Inst.rn f)) dist >>= fun m => m.predict (x.rn f)) =
      (old.train data dist >>= fun m => m.predict x).map f := by
  refine rename_transfer_class (fun d y => old.train d dist >>= fun m => m.predict y) (fun g hg d y => ?_) h
  have hdist : ∀ (d : IList F) m, old.train d dist = .ok m → m.dist = dist := by
    intro d m hm
    unfold KMeans.train at hm
    simp only [bind_ok_iff] at hm
    obtain ⟨_, _, _, _, hm⟩ := hm
    cases hm; rfl
  rw [show old.train (d.map (Inst.rn g)) dist = (old.rn g).train (d.map (Inst.rn g)) dist from rfl, rn_kMeansTrain hg,
    bind_map_res, map_bind_res]
  refine bind_congr_res (fun m hm => ?_)
  refine rn_gaussPredict hg m.prior m.metric (m.rn g).metric (fun z c => rn_kMeansMetric hg m ?_ z c) y
  rw [hdist d m hm]
  exact hd g

/-- **C173.** Naive Bayes. -/
theorem C173_naive_bayes (h : KeepsOrder f (namesIn data x)) :
    (NaiveBayes.new.train (data.map (Inst.rn f)) >>= fun m => m.predict (x.rn f)) =
      (NaiveBayes.new.train data >>= fun m => m.predict x).map f :=
  rename_transfer_class (fun d y => NaiveBayes.new.train d >>= fun m => m.predict y) (fun g hg d y =>
    run_rn (NaiveBayes.rn g) g (rn_naiveBayesTrain hg NaiveBayes.new d)
      (fun m => rn_gaussPredict hg m.prior m.metric (m.rn g).metric (rn_naiveBayesMetric hg m) y)) h

/-- **C173.** Linear and quadratic discriminant analysis, for every inverse and determinant the matrix library may
compute. -/
theorem C173_discriminants (inverse : Mat F → Mat F) (det : Mat F → F) (h : KeepsOrder f (namesIn data x)) :
    (Lda.new.train inverse (data.map (Inst.rn f)) >>= fun m => m.predict (x.rn f)) =
      (Lda.new.train inverse data >>= fun m => m.predict x).map f ∧
    (Qda.new.train inverse det (data.map (Inst.rn f)) >>= fun m => m.predict (x.rn f)) =
      (Qda.new.train inverse det data >>= fun m => m.predict x).map f :=
  ⟨rename_transfer_class (fun d y => Lda.new.train inverse d >>= fun m => m.predict y) (fun g hg d y =>
    run_rn (Lda.rn g) g (rn_ldaTrain hg inverse Lda.new d)
      (fun m => rn_gaussPredict hg m.prior m.metric (m.rn g).metric (rn_ldaMetric hg m) y)) h,
   rename_transfer_class (fun d y => Qda.new.train inverse det d >>= fun m => m.predict y) (fun g hg d y =>
    run_rn (Qda.rn g) g (rn_qdaTrain hg inverse det Qda.new d)
      (fun m => rn_gaussPredict hg m.prior m.metric (m.rn g).metric (rn_qdaMetric hg m) y)) h⟩

/-- **C173.** Decision trees, pruned or not: predictions and class probabilities. -/
theorem C173_tree (pruning : Option (F × List Nat)) (h : KeepsOrder f (namesIn data x)) :
    (treeTrain (data.map (Inst.rn f)) pruning >>= fun t => treePredict t (x.rn f)) =
      (treeTrain data pruning >>= fun t => treePredict t x).map f ∧
    (treeTrain (data.map (Inst.rn f)) pruning >>= fun t => t.predictProbability (x.rn f)) =
      (treeTrain data pruning >>= fun t => t.predictProbability x).map (OMap.rn f) :=
  ⟨rename_transfer_class (fun d y => treeTrain d pruning >>= fun t => treePredict t y) (fun g hg d y =>
    run_rn (Node.rn g) g (rn_treeTrain hg d pruning) (fun t => rn_treePredict hg t y)) h,
   rename_transfer (fun d y => treeTrain d pruning >>= fun t => t.predictProbability y) (fun g hg d y =>
    run_rn (Node.rn g) (OMap.rn g) (rn_treeTrain hg d pruning) (fun t => rn_treeProbability hg t y)) h⟩

/-- **C173.** Decision stumps. -/
theorem C173_stump (h : KeepsOrder f (namesIn data x)) :
    (stumpTrain (data.map (Inst.rn f)) >>= fun t => treePredict t (x.rn f)) =
      (stumpTrain data >>= fun t => treePredict t x).map f :=
  rename_transfer_class (fun d y => stumpTrain d >>= fun t => treePredict t y) (fun g hg d y =>
    run_rn (Node.rn g) g (rn_stumpTrain hg d) (fun t => rn_treePredict hg t y)) h

/-- **C173.** Bagging and random forests, for the same draws: predictions and class probabilities. -/
theorem C173_ensemble (param : Node.SubsetParam) (draws : Nat → List Nat) (size : Int)
    (h : KeepsOrder f (namesIn data x)) :
    (ensembleTrain param draws [] (data.map (Inst.rn f)) size >>= fun t => ensemblePredict t (x.rn f)) =
      (ensembleTrain param draws [] data size >>= fun t => ensemblePredict t x).map f ∧
    (ensembleTrain param draws [] (data.map (Inst.rn f)) size >>= fun t => ensembleProbability t (x.rn f)) =
      (ensembleTrain param draws [] data size >>= fun t => ensembleProbability t x).map (OMap.rn f) :=
  ⟨rename_transfer_class (fun d y => ensembleTrain param draws [] d size >>= fun t => ensemblePredict t y) (fun g hg d y =>
    run_rn (List.map (Node.rn g)) g (rn_ensembleTrain hg param draws [] d size)
      (fun t => rn_ensemblePredict hg t y)) h,
   rename_transfer (fun d y => ensembleTrain param draws [] d size >>= fun t => ensembleProbability t y) (fun g hg d y =>
    run_rn (List.map (Node.rn g)) (OMap.rn g) (rn_ensembleTrain hg param draws [] d size)
      (fun t => rn_ensembleProbability hg t y)) h⟩

/-- **C173.** The linear perceptron, for the same random numbers: predictions and class probabilities. -/
theorem C173_perceptron (param : NetParam F) (old : Net (Mat F)) (h : KeepsOrder f (namesIn data x)) :
    (percTrain param old (data.map (Inst.rn f)) >>= fun m => netPredict m.labels (percOutput m.weights) (x.rn f)) =
      (percTrain param old data >>= fun m => netPredict m.labels (percOutput m.weights) x).map f ∧
    (percTrain param old (data.map (Inst.rn f)) >>= fun m => netProbability m.labels (percOutput m.weights) (x.rn f)) =
      (percTrain param old data >>= fun m => netProbability m.labels (percOutput m.weights) x).map (OMap.rn f) :=
  ⟨rename_transfer_class (fun d y => percTrain param old d >>= fun m => netPredict m.labels (percOutput m.weights) y)
    (fun g hg d y => run_rn (Net.rn g) g (rn_percTrain hg param old old d)
      (fun m => rn_netPredict hg m.labels (percOutput m.weights) y)) h,
   rename_transfer (fun d y => percTrain param old d >>= fun m => netProbability m.labels (percOutput m.weights) y)
    (fun g hg d y => run_rn (Net.rn g) (OMap.rn g) (rn_percTrain hg param old old d)
      (fun m => rn_netProbability hg m.labels (percOutput m.weights) y)) h⟩

/-- **C173.** The multilayer perceptron, for the same random numbers: predictions and class probabilities. -/
theorem C173_mlp (param : NetParam F) (H : Nat) (act : Activation) (old : Net (Two F)) (h : KeepsOrder f (namesIn data x)) :
    (mlpTrain param H act old (data.map (Inst.rn f)) >>= fun m => netPredict m.labels (mlpOutput act m.weights) (x.rn f)) =
      (mlpTrain param H act old data >>= fun m => netPredict m.labels (mlpOutput act m.weights) x).map f ∧
    (mlpTrain param H act old (data.map (Inst.rn f)) >>= fun m => netProbability m.labels (mlpOutput act m.weights) (x.rn f)) =
      (mlpTrain param H act old data >>= fun m => netProbability m.labels (mlpOutput act m.weights) x).map (OMap.rn f) :=
  ⟨rename_transfer_class (fun d y => mlpTrain param H act old d >>= fun m => netPredict m.labels (mlpOutput act m.weights) y)
    (fun g hg d y => run_rn (Net.rn g) g (rn_mlpTrain hg param H act old old d)
      (fun m => rn_netPredict hg m.labels (mlpOutput act m.weights) y)) h,
   rename_transfer (fun d y => mlpTrain param H act old d >>= fun m => netProbability m.labels (mlpOutput act m.weights) y)
    (fun g hg d y => run_rn (Net.rn g) (OMap.rn g) (rn_mlpTrain hg param H act old old d)
      (fun m => rn_netProbability hg m.labels (mlpOutput act m.weights) y)) h⟩

/-- **C173.** Deep networks, for the same random numbers: predictions and class probabilities. (`old` is a new object
if its weights are empty.) -/
theorem C173_deep (param : NetParam F) (hidden : List Nat) (act : Activation) (old : Net (List (Mat F)))
    (h : KeepsOrder f (namesIn data x)) :
    (deepTrain param hidden act old (data.map (Inst.rn f)) >>= fun m => netPredict m.labels (deepOutput act m.weights) (x.rn f)) =
      (deepTrain param hidden act old data >>= fun m => netPredict m.labels (deepOutput act m.weights) x).map f ∧
    (deepTrain param hidden act old (data.map (Inst.rn f)) >>= fun m =>
        netProbability m.labels (deepOutput act m.weights) (x.rn f)) =
      (deepTrain param hidden act old data >>= fun m => netProbability m.labels (deepOutput act m.weights) x).map (OMap.rn f) :=
  ⟨rename_transfer_class (fun d y => deepTrain param hidden act old d >>= fun m => netPredict m.labels (deepOutput act m.weights) y)
    (fun g hg d y => run_rn (Net.rn g) g (rn_deepTrain hg param hidden act old d)
      (fun m => rn_netPredict hg m.labels (deepOutput act m.weights) y)) h,
   rename_transfer (fun d y => deepTrain param hidden act old d >>= fun m => netProbability m.labels (deepOutput act m.weights) y)
    (fun g hg d y => run_rn (Net.rn g) (OMap.rn g) (rn_deepTrain hg param hidden act old d)
      (fun m => rn_netProbability hg m.labels (deepOutput act m.weights) y)) h⟩

/-- **C173.** Soft decision trees, for the same random numbers. -/
theorem C173_soft_tree (param : SoftParam F) (fuel : Nat) (h : KeepsOrder f (namesIn data x)) :
    (softTrain param fuel (data.map (Inst.rn f)) >>= fun t => softPredict t (x.rn f)) =
      (softTrain param fuel data >>= fun t => softPredict t x).map f :=
  rename_transfer_class (fun d y => softTrain param fuel d >>= fun t => softPredict t y) (fun g hg d y =>
    run_rn (SoftTree.rn g) g (rn_softTrain hg param fuel d) (fun t => rn_softPredict hg t y)) h

/-- **C173.** Support vector machines, whatever the solver answers. -/
theorem C173_svm (solve : List (NodeL F) → List F → List F → Res (F × List F)) (p : SvmParam F)
    (h : KeepsOrder f (namesIn data x)) :
    (Svm.train solve ⟨DD.empty, [], [], [], [], none, 0, 0⟩ (data.map (Inst.rn f)) p >>= fun m => m.1.predict (x.rn f)) =
      (Svm.train solve ⟨DD.empty, [], [], [], [], none, 0, 0⟩ data p >>= fun m => m.1.predict x).map f :=
  rename_transfer_class
    (fun d y => Svm.train solve ⟨DD.empty, [], [], [], [], none, 0, 0⟩ d p >>= fun m => m.1.predict y) (fun g hg d y =>
    run_rn (fun r => (r.1.rn g, r.2.map (Inst.rn g))) g (rn_svmTrain hg solve ⟨DD.empty, [], [], [], [], none, 0, 0⟩ d p)
      (fun m => rn_svmPredict hg m.1 y)) h

/-! ## a concrete renaming -/

/-- iris names instead of `0` and `1` -/
def irisNames : String → String := fun c => if c = "0" then "setosa" else if c = "1" then "virginica" else c

/-- two classes, one column -/
def zeroOne : IList XR := [⟨"0", [.continuous (.fin 1)], none⟩, ⟨"1", [.continuous (.fin 5)], none⟩,
  ⟨"1", [.continuous (.fin 6)], none⟩]

/-- the instance asked about -/
def zeroOneX : Inst XR := ⟨"0", [.continuous (.fin 2)], some ["0", "1"]⟩

theorem zeroOne_keeps : KeepsOrder irisNames (namesIn zeroOne zeroOneX) := by
  refine ⟨by decide, ?_, ?_⟩
  · intro a ha _
    simp [namesIn, Inst.names, zeroOne, zeroOneX] at ha
    rcases ha with rfl | rfl | rfl | rfl <;> decide
  · intro a ha b hb hab
    simp [namesIn, Inst.names, zeroOne, zeroOneX] at ha hb
    rcases ha with rfl | rfl | rfl | rfl <;> rcases hb with rfl | rfl | rfl | rfl <;> first | (exact absurd hab (by decide)) | decide

/-- `irisNames` does not keep the order of all strings: the hypothesis speaks of the names that occur only -/
example : ¬ OrderRenaming irisNames := fun h => absurd (h.mono (show "1" < "2" by decide)) (by decide)

example : (treeTrain zeroOne none >>= fun t => treePredict t zeroOneX) = .ok "0" ∧
    (treeTrain (zeroOne.map (Inst.rn irisNames)) none >>= fun t => treePredict t (zeroOneX.rn irisNames)) = .ok "setosa" := by
  have h : (treeTrain zeroOne none >>= fun t => treePredict t zeroOneX) = .ok "0" := by decide +kernel
  refine ⟨h, ?_⟩
  rw [(C173_tree none zeroOne_keeps).1, h]
  rfl

/-! ## names in another order -/

/-- one instance of each class -/
def oneEach : IList XR := [⟨"cat", [.continuous (.fin 1)], none⟩, ⟨"dog", [.continuous (.fin 2)], none⟩]

/-- exchanges the two names -/
def swapNames : String → String := fun c => if c = "cat" then "dog" else if c = "dog" then "cat" else c

/-- **C173, why the order must stay.** With one instance of each class, the dummy classifier
and the nearest neighbours answer the class whose name comes first. After exchanging the two names everywhere
(a one-to-one renaming) the answer should be `dog`, and is still `cat`. -/
theorem C173_order_needed :
    Function.Involutive swapNames ∧
    dummyPredict oneEach.classDistribution (⟨"cat", [.continuous (.fin 3)], none⟩ : Inst XR) = "cat" ∧
    dummyPredict (IList.classDistribution (oneEach.map (Inst.rn swapNames))) (⟨"dog", [.continuous (.fin 3)], none⟩ : Inst XR) = "cat" ∧
    ((⟨[], 0, euclidean⟩ : Knn XR).train oneEach 2 euclidean).predict ⟨"cat", [.continuous (.fin 3)], none⟩ = .ok "cat" ∧
    ((⟨[], 0, euclidean⟩ : Knn XR).train (oneEach.map (Inst.rn swapNames)) 2 euclidean).predict
      ⟨"dog", [.continuous (.fin 3)], none⟩ = .ok "cat" := by
  refine ⟨?_, by decide +kernel, by decide +kernel, by decide +kernel, by decide +kernel⟩
  intro c
  unfold swapNames
  by_cases h1 : c = "cat"
  · subst h1; decide
  · by_cases h2 : c = "dog"
    · subst h2; decide
    · simp [h1, h2]

end Verif
