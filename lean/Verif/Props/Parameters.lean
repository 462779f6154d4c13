import Verif.Model.Parameter
import Verif.Props.ForestSubset
import Verif.Props.SoftTree

/-! # Properties C184 and C185: parameter objects -/

set_option linter.unusedSectionVars false

namespace Verif
open Dbl

variable {F : Type} [Dbl F]

/-! ## the classes -/

/-- the parameter classes of the library -/
inductive PClass where
  | base | bagging | randomForest | c45 | kMeans | knn | linear | multi | deep | soft | svm
deriving DecidableEq, Repr

/-- the class each one is derived from -/
def PClass.parent : PClass → Option PClass
  | .base => none
  | .randomForest => some .bagging
  | .knn => some .kMeans
  | .multi | .deep | .soft => some .linear
  | _ => some .base

/-- `c` is `d` or derived from it -/
inductive PClass.Derives : PClass → PClass → Prop
  | refl (c : PClass) : Derives c c
  | up (c p d : PClass) (h : c.parent = some p) (hd : Derives p d) : Derives c d

/-- the class of an object -/
def Param.cls : Param F → PClass
  | .base _ => .base
  | .bagging _ _ => .bagging
  | .randomForest _ _ _ => .randomForest
  | .c45 _ _ _ => .c45
  | .kMeans _ _ => .kMeans
  | .knn _ _ _ => .knn
  | .linear _ _ => .linear
  | .multi _ _ _ _ => .multi
  | .deep _ _ _ _ => .deep
  | .soft _ _ _ => .soft
  | .svm _ _ _ _ _ _ => .svm

theorem derives_self {c : PClass} : c.Derives c := .refl c
theorem derives_parent {c d : PClass} (h : c.parent = some d) : c.Derives d := .up c d d h (.refl d)

theorem Param.getK_cls {p : Param F} {k : Int} (h : p.getK = .ok k) : p.cls.Derives .knn := by
  cases p <;> first | exact derives_self | cases h

theorem Param.metric_cls {p : Param F} {d : Inst F → Inst F → Res F} (h : p.getDistanceMetric = .ok d) : p.cls.Derives .kMeans := by
  cases p <;> first | exact derives_self | exact derives_parent rfl | cases h

theorem Param.isPrune_cls {p : Param F} {b : Bool} (h : p.isPrune = .ok b) : p.cls.Derives .c45 := by
  cases p <;> first | exact derives_self | cases h

theorem Param.ensemble_cls {p : Param F} {n : Int} (h : p.getEnsembleSize = .ok n) : p.cls.Derives .bagging := by
  cases p <;> first | exact derives_self | exact derives_parent rfl | cases h

theorem Param.subset_cls {p : Param F} {n : Int} (h : p.getAttributeSubsetSize = .ok n) : p.cls.Derives .randomForest := by
  cases p <;> first | exact derives_self | cases h

theorem Param.linear_cls {p : Param F} {l : Linear F} (h : p.asLinear = .ok l) : p.cls.Derives .linear := by
  cases p <;> first | exact derives_self | exact derives_parent rfl | cases h

theorem Param.multi_cls {p : Param F} {l : Nat × Activation} (h : p.asMulti = .ok l) : p.cls.Derives .multi := by
  cases p <;> first | exact derives_self | cases h

theorem Param.deep_cls {p : Param F} {l : List Nat × Activation} (h : p.asDeep = .ok l) : p.cls.Derives .deep := by
  cases p <;> first | exact derives_self | cases h

theorem Param.alpha_cls {p : Param F} {a : F} (h : p.getAlpha = .ok a) : p.cls.Derives .soft := by
  cases p <;> first | exact derives_self | cases h

theorem Param.svm_cls {p : Param F} {q : SvmParam F} (h : p.asSvm = .ok q) : p.cls.Derives .svm := by
  cases p <;> first | exact derives_self | cases h

/-- **C184** training ends normally only with an object of the class the classifier expects or of one derived from it -/
theorem C184_expected_class (E : Engines F) (p : Param F) (l : IList F) :
    (∀ old m, p.trainKnn old l = .ok m → p.cls.Derives .knn) ∧
    (∀ old m, p.trainKMeans old l = .ok m → p.cls.Derives .kMeans) ∧
    (∀ t, p.trainTree E l = .ok t → p.cls.Derives .c45) ∧
    (∀ old f, p.trainBagging E old l = .ok f → p.cls.Derives .bagging) ∧
    (∀ old f, p.trainForest E old l = .ok f → p.cls.Derives .randomForest) ∧
    (∀ old m, p.trainPerceptron E old l = .ok m → p.cls.Derives .linear) ∧
    (∀ old m, p.trainMulti E old l = .ok m → p.cls.Derives .multi) ∧
    (∀ old m, p.trainDeep E old l = .ok m → p.cls.Derives .deep) ∧
    (∀ old m, p.trainAuto E old l = .ok m → p.cls.Derives .multi) ∧
    (∀ fuel t, p.trainSoft E fuel l = .ok t → p.cls.Derives .soft) ∧
    (∀ rounds old m, p.trainSvm rounds old l = .ok m → p.cls.Derives .svm) := by
  refine ⟨?_, ?_, ?_, ?_, ?_, ?_, ?_, ?_, ?_, ?_, ?_⟩
  · intro old m h
    unfold Param.trainKnn at h
    simp only [bind_ok_iff] at h
    obtain ⟨k, hk, _⟩ := h
    exact Param.getK_cls hk
  · intro old m h
    unfold Param.trainKMeans at h
    simp only [bind_ok_iff] at h
    obtain ⟨_, _, d, hd, _⟩ := h
    exact Param.metric_cls hd
  · intro t h
    unfold Param.trainTree at h
    simp only [bind_ok_iff] at h
    obtain ⟨b, hb, _⟩ := h
    exact Param.isPrune_cls hb
  · intro old f h
    unfold Param.trainBagging at h
    simp only [bind_ok_iff] at h
    obtain ⟨b, hb, _⟩ := h
    exact Param.ensemble_cls hb
  · intro old f h
    unfold Param.trainForest at h
    simp only [bind_ok_iff] at h
    obtain ⟨b, hb, _⟩ := h
    exact Param.subset_cls hb
  · intro old f h
    unfold Param.trainPerceptron at h
    simp only [bind_ok_iff] at h
    obtain ⟨_, _, b, hb, _⟩ := h
    exact Param.linear_cls hb
  · intro old f h
    unfold Param.trainMulti at h
    simp only [bind_ok_iff] at h
    obtain ⟨_, _, b, hb, _⟩ := h
    exact Param.multi_cls hb
  · intro old f h
    unfold Param.trainDeep at h
    simp only [bind_ok_iff] at h
    obtain ⟨_, _, b, hb, _⟩ := h
    exact Param.deep_cls hb
  · intro old f h
    unfold Param.trainAuto at h
    simp only [bind_ok_iff] at h
    obtain ⟨_, _, b, hb, _⟩ := h
    exact Param.multi_cls hb
  · intro fuel t h
    unfold Param.trainSoft at h
    simp only [bind_ok_iff] at h
    obtain ⟨b, hb, _⟩ := h
    exact Param.alpha_cls hb
  · intro rounds old m h
    unfold Param.trainSvm at h
    simp only [bind_ok_iff] at h
    obtain ⟨x, _, h⟩ := h
    split at h
    · rw [bind_ok_iff] at h
      obtain ⟨b, hb, _⟩ := h
      exact Param.svm_cls hb
    · cases h

/-- **C184** an object of a derived class is as good as one of the base class made with the same arguments -/
theorem C184_derived_is_base (E : Engines F) (seed : Int) (l : IList F) :
    (∀ n sub old, (Param.randomForest seed n sub).trainBagging E old l = (Param.bagging seed n).trainBagging E old l) ∧
    (∀ k d old, (Param.knn seed k d).trainKMeans old l = (Param.kMeans seed d).trainKMeans old l) ∧
    (∀ q h a old, (Param.multi seed q h a).trainPerceptron E old l = (Param.linear seed q).trainPerceptron E old l) ∧
    (∀ q h a old, (Param.deep seed q h a).trainPerceptron E old l = (Param.linear seed q).trainPerceptron E old l) ∧
    (∀ q a old, (Param.soft seed q a).trainPerceptron E old l = (Param.linear seed q).trainPerceptron E old l) :=
  ⟨fun _ _ _ => rfl, fun _ _ _ => rfl, fun _ _ _ _ => rfl, fun _ _ _ _ => rfl, fun _ _ _ => rfl⟩

theorem init_first {α β : Type} (a : Res α) (f : α → Res β) : (do let _ ← a; let x ← a; f x) = (do let x ← a; f x) := by
  cases a <;> rfl

/-- **C184** every argument that is used is used for what it is: training with a parameter object is training with the numbers,
the distance, the activation function and the kernel it was made with, and with the answers of the engines for its seed -/
theorem C184_arguments (E : Engines F) (seed : Int) (l : IList F) :
    (∀ k d old, (Param.knn seed k d).trainKnn old l = .ok (old.train l k d)) ∧
    (∀ k old, (Param.knnDefault seed k).trainKnn old l = .ok (old.train l k euclidean)) ∧
    (∀ d old, (Param.kMeans seed d).trainKMeans old l = old.train l d) ∧
    (∀ old, (Param.kMeansDefault seed).trainKMeans old l = old.train l euclidean) ∧
    (∀ r, (Param.c45 seed true r).trainTree E l = treeTrain l (some (r, E.indexArray seed l.length)) ∧
      (Param.c45 seed false r).trainTree E l = treeTrain l none) ∧
    (∀ n old, (Param.bagging seed n).trainBagging E old l = ensembleTrain none (fun i => E.bootstrap i l.length) old l n) ∧
    (∀ n sub old, (Param.randomForest seed n sub).trainForest E old l =
      ensembleTrain (some (sub, E.indexArray seed)) (fun i => E.bootstrap i l.length) old l n) ∧
    (∀ t d g c C rounds old, (Param.svm seed t d g c C).trainSvm rounds old l =
      old.train (Svm.boundedSolver rounds ⟨t, d, g, c, C, true⟩) l ⟨t, d, g, c, C, true⟩) ∧
    (∀ lr e c ep, ∃ order,
      (∀ old, (Param.linear seed ⟨lr, e, c, ep⟩).trainPerceptron E old l =
        percTrain ⟨c, E.indexArray seed l.length, order, E.matrix seed, ep.toNat, lr, e⟩ old l) ∧
      (∀ h a old, (Param.multi seed ⟨lr, e, c, ep⟩ h a).trainMulti E old l =
        mlpTrain ⟨c, E.indexArray seed l.length, order, E.matrix seed, ep.toNat, lr, e⟩ h a old l) ∧
      (∀ h a old, (Param.deep seed ⟨lr, e, c, ep⟩ h a).trainDeep E old l =
        deepTrain ⟨c, E.indexArray seed l.length, order, E.matrix seed, ep.toNat, lr, e⟩ h a old l) ∧
      ∀ a data, Parts.byRatioStratified l c (E.indexArray seed l.length) = .ok [a, data] → order = E.shuffle seed data.length) ∧
    (∀ lr e c ep h a, ∃ order,
      (∀ old, (Param.multi seed ⟨lr, e, c, ep⟩ h a).trainAuto E old l =
        autoTrain ⟨c, E.indexArray seed l.length, order, E.matrix seed, ep.toNat, lr, e⟩ h old l) ∧
      ∀ a data, Parts.byRatioStratified l (Dbl.lit (1/5)) (E.indexArray seed l.length) = .ok [a, data] →
        order = E.shuffle seed data.length) ∧
    (∀ lr e c ep a fuel, (Param.soft seed ⟨lr, e, c, ep⟩ a).trainSoft E fuel l =
      softTrain ⟨c, E.indexArray seed l.length, E.shuffle seed, ep.toNat, e, a, E.rand seed⟩ fuel l) := by
  refine ⟨fun _ _ _ => rfl, fun _ _ => rfl, ?_, ?_, fun _ => ⟨rfl, rfl⟩, fun _ _ => rfl, fun _ _ _ => rfl, ?_, ?_, ?_,
    fun _ _ _ _ _ _ => rfl⟩
  · intro d old
    unfold Param.trainKMeans
    simp only [Param.getDistanceMetric, Except.toOption, Option.getD_some, res_bind_ok]
    cases old.train l d <;> rfl
  · intro old
    unfold Param.trainKMeans
    simp only [Param.kMeansDefault, Param.getDistanceMetric, Except.toOption, Option.getD_some, res_bind_ok]
    cases old.train l euclidean <;> rfl
  · intro t d g c C rounds old
    unfold Param.trainSvm Svm.train
    cases l.get 0 with
    | error e => rfl
    | ok x =>
      simp only [res_bind_ok]
      by_cases hx : discreteCheck x = true
      · simp [hx, Param.asSvm]
      · simp [hx]
  · intro lr e c ep
    refine ⟨E.shuffle seed (partSize E seed c l), ?_, ?_, ?_, ?_⟩
    · intro old
      unfold Param.trainPerceptron percTrain
      simp only [Param.asLinear, res_bind_ok, netParam, Param.getSeed]
      rw [init_first]
    · intro h a old
      unfold Param.trainMulti mlpTrain
      simp only [Param.asLinear, Param.asMulti, res_bind_ok, netParam, Param.getSeed]
      rw [init_first]
    · intro h a old
      unfold Param.trainDeep deepTrain
      simp only [Param.asLinear, Param.asDeep, res_bind_ok, netParam, Param.getSeed]
      rw [init_first]
    · intro a data hd
      unfold partSize
      rw [hd]
  · intro lr e c ep h a
    refine ⟨E.shuffle seed (partSize E seed (Dbl.lit (1/5)) l), ?_, ?_⟩
    · intro old
      unfold Param.trainAuto autoTrain
      simp only [Param.asLinear, Param.asMulti, res_bind_ok, netParam, Param.getSeed]
      rw [init_first]
    · intro a data hd
      unfold partSize
      rw [hd]

/-- **C184** a network told to train for no epochs, or for a negative number of them, ends with the weights it drew at the start -/
theorem C184_no_epochs (E : Engines F) (seed : Int) (q : Linear F) (hq : q.epoch ≤ 0) (l : IList F) (old : Net (Mat F)) (m : Net (Mat F))
    (h : (Param.linear seed q).trainPerceptron E old l = .ok m) :
    m.weights = E.matrix seed l.getDistinctClassLabels.length (m.d + 1) ∧
    ∀ q' : Linear F, q'.crossValidationRatio = q.crossValidationRatio → q'.epoch ≤ 0 →
      (Param.linear seed q').trainPerceptron E old l = .ok m := by
  have h0 : q.epoch.toNat = 0 := by omega
  unfold Param.trainPerceptron at h ⊢
  simp only [Param.asLinear, Param.getSeed, res_bind_ok, bind_ok_iff, percTrain, netParam, h0, epochLoop] at h ⊢
  obtain ⟨ini, hini, ini', hini', parts, hp, data, hd, val, hv, s, hs, h⟩ := h
  cases hs
  cases h
  have hl : ini'.1 = l.getDistinctClassLabels := by
    unfold netInitialize at hini'
    rw [bind_ok_iff] at hini'
    obtain ⟨x0, _, hini'⟩ := hini'
    split at hini'
    · cases hini'
    · cases hini'; rfl
  refine ⟨by simp only [hl], ?_⟩
  intro q' hr he
  have h0' : q'.epoch.toNat = 0 := by omega
  simp only [h0', hr]
  exact ⟨ini, hini, ini', hini', parts, hp, data, hd, val, hv, _, rfl, rfl⟩

/-! ## arguments that are never read -/

theorem autoTrain_ignores (a b : NetParam F) (hs : a.splitOrder = b.splitOrder) (ho : a.shuffleOrder = b.shuffleOrder)
    (hr : a.random = b.random) (he : a.epochs = b.epochs) (hl : a.learningRate = b.learningRate) (H : Nat) (old : Net (Two F))
    (l : IList F) : autoTrain a H old l = autoTrain b H old l := by
  unfold autoTrain
  rw [hs, ho, hr, he, hl]

/-- **C185** (refuted) "every argument given to a parameter object can make a difference": the seed of the parameters of
bagging, of the nearest neighbour and nearest mean classifiers, of support vector machines and of unpruned trees, the
pruning ratio of an unpruned tree, the decrease of the learning rate, the validation ratio and the activation function given to an auto-encoder,
the learning rate given to a soft decision tree, and the seed of a random forest that may use all attributes are never read -/
theorem C185_refuted (E : Engines F) (s s' : Int) (l : IList F) :
    (∀ n old, (Param.bagging s n).trainBagging E old l = (Param.bagging s' n).trainBagging E old l) ∧
    (∀ k d old, (Param.knn s k d).trainKnn old l = (Param.knn s' k d).trainKnn old l) ∧
    (∀ d old, (Param.kMeans s d).trainKMeans old l = (Param.kMeans s' d).trainKMeans old l) ∧
    (∀ t d g c C rounds old, (Param.svm s t d g c C).trainSvm rounds old l = (Param.svm s' t d g c C).trainSvm rounds old l) ∧
    (∀ r r', (Param.c45 s false r).trainTree E l = (Param.c45 s' false r').trainTree E l) ∧
    (∀ lr e c e' c' ep h a a' old, (Param.multi s ⟨lr, e, c, ep⟩ h a).trainAuto E old l =
      (Param.multi s ⟨lr, e', c', ep⟩ h a').trainAuto E old l) ∧
    (∀ lr lr' e c ep a fuel, (Param.soft s ⟨lr, e, c, ep⟩ a).trainSoft E fuel l = (Param.soft s ⟨lr', e, c, ep⟩ a).trainSoft E fuel l) ∧
    (∀ n sub old, (∀ x ∈ l, (x.attributeSize : Int) ≤ sub) →
      (Param.randomForest s n sub).trainForest E old l = (Param.randomForest s' n sub).trainForest E old l) := by
  refine ⟨fun _ _ => rfl, fun _ _ _ => rfl, fun _ _ => rfl, fun _ _ _ _ _ _ _ => rfl, fun _ _ => rfl, ?_, fun _ _ _ _ _ _ _ => rfl, ?_⟩
  · intro lr e c e' c' ep h a a' old
    unfold Param.trainAuto
    simp only [Param.asMulti, Param.asLinear, res_bind_ok, Param.getSeed]
    congr 1
  · intro n sub old h
    unfold Param.trainForest
    simp only [Param.getAttributeSubsetSize, Param.getEnsembleSize, res_bind_ok, Param.getSeed]
    rw [C159_forest_of_all_attributes h, C159_forest_of_all_attributes h]

/-! ## examples -/

/-- engines whose answers depend on the seed -/
def exEngines : Engines XR where
  indexArray s n := (List.range n).rotate s.toNat
  shuffle s n := (List.range n).rotate s.toNat
  matrix s r c := ⟨r, c, fun _ _ => .fin s⟩
  bootstrap i n := (List.range n).rotate i
  rand s i := .fin (s + i)

/-- a parameter of a random forest trains a bagged ensemble, one of the nearest mean classifier does not -/
example : ((Param.randomForest 5 2 1).trainBagging exEngines [] exSecondDecides).toOption.map (List.map Node.countNodes) = some [3, 3] ∧
    ((Param.bagging 7 2).trainBagging exEngines [] exSecondDecides).toOption.map (List.map Node.countNodes) = some [3, 3] ∧
    ((Param.kMeansDefault 1).trainBagging exEngines [] exSecondDecides).toOption.map (List.map Node.countNodes) = none := by decide +kernel

/-- the seed of a random forest does make a difference when it may not use all attributes -/
example : ((Param.randomForest 0 2 1).trainForest exEngines [] exSecondDecides).toOption.map (List.map Node.countNodes) = some [1, 1] ∧
    ((Param.randomForest 1 2 1).trainForest exEngines [] exSecondDecides).toOption.map (List.map Node.countNodes) = some [3, 3] ∧
    (∀ x ∈ exSecondDecides, (x.attributeSize : Int) ≤ 2) ∧
    ((Param.randomForest 0 2 2).trainForest exEngines [] exSecondDecides).toOption.map (List.map Node.countNodes) = some [3, 3] := by
  decide +kernel

/-- four instances with one number each -/
def exNumbers : IList XR := [⟨"a", [.continuous (.fin 1)], none⟩, ⟨"b", [.continuous (.fin 2)], none⟩,
  ⟨"a", [.continuous (.fin 3)], none⟩, ⟨"b", [.continuous (.fin 5)], none⟩]

/-- a perceptron trained for -3 epochs has the weights drawn with its seed -/
example : (((Param.linear 4 ⟨.fin 1, .fin 1, .fin (1/2), -3⟩).trainPerceptron exEngines ⟨[], 0, ⟨0, 0, fun _ _ => .nan⟩⟩ exNumbers).toOption.map
    (fun m => (m.labels, m.d, m.weights.rows, m.weights.cols, m.weights.e 1 1))) =
    some (["a", "b"], 1, 2, 2, XR.fin 4) := by decide +kernel

end Verif
