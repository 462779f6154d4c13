import Verif.Model.Knn
import Verif.Model.Partition

/-! # Parametric classifiers (`src/Model/Parametric`) -/

namespace Verif
open Dbl

variable {F : Type} [Dbl F]

/-- `m.find(k)->second`: dereferencing `end()` is undefined -/
def findR {V : Type} (m : OMap V) (k : String) : Res V :=
  match OMap.find? m k with
  | some v => .ok v
  | none => .error (.ub "dereference of end()")

/-- loop body GaussianModel.cpp:36-42 -/
def gaussStep (prior : DD) (metric : String → Res F) (best : String × F) (c : String) :
    Res (String × F) :=
  if prior.containsItem c then do
    let v ← metric c
    pure (if best.2 <. v then (c, v) else best)
  else pure best

/-- initial value of `predictedClass`: GaussianModel.cpp:22-29 -/
def gaussInit (prior : DD) (x : Inst F) : Res String :=
  if x.isComposite then atR x.possibleLabels 0 else pure prior.getMaxItem

/-- `GaussianModel::predict`: GaussianModel.cpp:15-45; `metric` is the virtual
`calculateMetric(instance, ·)` -/
def gaussPredict (prior : DD) (metric : Inst F → String → Res F) (x : Inst F) : Res String := do
  let init ← gaussInit prior x
  let labels := if x.isComposite then x.possibleLabels else prior.getItems
  let best ← labels.foldlM (gaussStep prior (metric x)) (init, Dbl.neg (Dbl.maxVal : F))
  pure best.1

/-! ## KMeans -/

/-- an instance made of attribute pointers that may be null (`InstanceList::average`) -/
abbrev MeanInst (F : Type) := String × List (Option (Attr F))

/-- the attributes, provided no pointer is null -/
def nonNull (as : List (Option (Attr F))) : Res (List (Attr F)) :=
  as.mapM (fun a => match a with
    | some a => .ok a
    | none => .error (.ub "null attribute"))

/-- state of `KMeansModel` -/
structure KMeans (F : Type) where
  prior : DD
  classMeans : List (MeanInst F)
  dist : Inst F → Inst F → Res F

namespace KMeans

/-- `calculateMetric`: KMeansModel.cpp:21-28. Simplification: a null attribute of the mean is
undefined behaviour here also for a test instance with fewer attributes. -/
def metric (m : KMeans F) (x : Inst F) (c : String) : Res F :=
  match m.classMeans.find? (fun p => p.1 == c) with
  | some p => do
    let as ← nonNull p.2
    let d ← m.dist x ⟨p.1, as, none⟩
    pure (Dbl.neg d)
  | none => pure (Dbl.neg Dbl.maxVal)

/-- `train`: KMeansModel.cpp:53-61 -/
def train (old : KMeans F) (trainSet : IList F) (dist : Inst F → Inst F → Res F) :
    Res (KMeans F) := do
  let m := { old with prior := trainSet.classDistribution, classMeans := [] }
  let parts ← Parts.byClass trainSet
  let means ← parts.mapM (fun p => p.average)
  pure { m with classMeans := m.classMeans ++ means, dist := dist }

/-- `predict` (inherited) -/
def predict (m : KMeans F) (x : Inst F) : Res String := gaussPredict m.prior m.metric x

end KMeans

/-! ## Naive Bayes -/

/-- state of `NaiveBayesModel` -/
structure NaiveBayes (F : Type) where
  prior : DD
  classMeans : OMap (List F)
  classDeviations : OMap (List F)
  classAttributeDistributions : OMap (List DD)

namespace NaiveBayes

/-- a new object -/
def new : NaiveBayes F := ⟨DD.empty, [], [], []⟩

/-- loop body NaiveBayesModel.cpp:41-44. (`Vector::getValue` is an unchecked access.) -/
def contStep (means devs : List F) (s : F) (p : Attr F × Nat) : Res F := do
  let xi ← p.1.contVal
  let mi ← idxR means p.2
  let si ← idxR devs p.2
  pure (s +. (Dbl.lit (-1/2) *. Dbl.pow ((xi -. mi) /. si) 2))

/-- the class lookup of `logLikelihoodContinuous`; for an instance without attributes the C++
does not look up the class -/
def lookupFor (m : OMap (List F)) (c : String) (x : Inst F) : Res (List F) :=
  if x.attrs.length = 0 then pure [] else findR m c

/-- `logLikelihoodContinuous`: NaiveBayesModel.cpp:37-47 -/
def logLikelihoodContinuous (m : NaiveBayes F) (c : String) (x : Inst F) : Res F := do
  let means ← lookupFor m.classMeans c x
  let devs ← lookupFor m.classDeviations c x
  x.attrs.zipIdx.foldlM (contStep means devs) (Dbl.log (m.prior.getProbability c : F))

/-- loop body NaiveBayesModel.cpp:64-65 -/
def discStep (ds : List DD) (s : F) (p : Attr F × Nat) : Res F := do
  let xi ← p.1.discVal
  let d ← atR ds p.2
  pure (s +. Dbl.log (d.getProbabilityLaplace xi : F))

/-- `logLikelihoodDiscrete`: NaiveBayesModel.cpp:59-68 -/
def logLikelihoodDiscrete (m : NaiveBayes F) (c : String) (x : Inst F) : Res F := do
  let ds ← findR m.classAttributeDistributions c
  x.attrs.zipIdx.foldlM (discStep ds) (Dbl.log (m.prior.getProbability c : F))

/-- `calculateMetric`: NaiveBayesModel.cpp:20-26 -/
def metric (m : NaiveBayes F) (x : Inst F) (c : String) : Res F :=
  if m.classAttributeDistributions.isEmpty then m.logLikelihoodContinuous c x
  else m.logLikelihoodDiscrete c x

/-- `average()->toVector()`: a null attribute is dereferenced -/
def meanVector (p : MeanInst F) : Res (List F) := do
  let as ← nonNull p.2
  Inst.toVector ⟨p.1, as, none⟩

/-- loop body NaiveBayesModel.cpp:103-107 -/
def contClass (m : NaiveBayes F) (p : String × IList F) : Res (NaiveBayes F) := do
  let a ← p.2.average
  let av ← meanVector a
  let s ← p.2.standardDeviation
  let sv ← meanVector s
  pure { m with classMeans := m.classMeans.emplace p.1 av,
                classDeviations := m.classDeviations.emplace p.1 sv }

/-- loop body NaiveBayesModel.cpp:118 -/
def discClass (m : NaiveBayes F) (p : String × IList F) : Res (NaiveBayes F) := do
  let ds ← p.2.allAttributesDistribution
  pure { m with classAttributeDistributions := m.classAttributeDistributions.emplace p.1 ds }

/-- `train`: NaiveBayesModel.cpp:100-136 -/
def train (old : NaiveBayes F) (trainSet : IList F) : Res (NaiveBayes F) := do
  let parts ← Parts.byClass trainSet
  let p0 ← atR parts 0
  let x0 ← atR p0 0
  let a0 ← x0.getAttribute 0
  let m := { old with prior := trainSet.classDistribution }
  let labelled := trainSet.getDistinctClassLabels.zip parts
  if a0.isDiscrete then labelled.foldlM discClass m else labelled.foldlM contClass m

/-- `predict` (inherited) -/
def predict (m : NaiveBayes F) (x : Inst F) : Res String := gaussPredict m.prior m.metric x

end NaiveBayes

/-! ## LDA and QDA -/

/-- state of `LdaModel` -/
structure Lda (F : Type) where
  prior : DD
  w0 : OMap F
  w : OMap (List F)

namespace Lda

/-- a new object -/
def new : Lda F := ⟨DD.empty, [], []⟩

/-- `calculateMetric`: LdaModel.cpp:26-36 -/
def metric (m : Lda F) (x : Inst F) (c : String) : Res F := do
  let xi ← x.toVector
  let wi ← findR m.w c
  let w0i ← findR m.w0 c
  match dotChecked wi xi with
  | some d => pure (d +. w0i)
  | none => pure Dbl.maxVal

/-- class covariance LdaModel.cpp:79-81 -/
def classCovariance (p : IList F) : Res (Mat F) := do
  let avg ← p.continuousAttributeAverage
  let c ← p.covariance avg
  pure (Mat.scale ⟨c.1, c.1, c.2⟩ (Dbl.ofInt (p.length - 1 : Int)))

/-- pooled covariance LdaModel.cpp:77-87 -/
def pooledCovariance (n : Nat) (parts : Parts F) (total : Nat) : Res (Mat F) := do
  let cov ← parts.foldlM (fun (cov : Mat F) p => do
    let cc ← classCovariance p
    pure (cov.addCaught cc)) (Mat.zeros n n)
  pure (cov.divide (Dbl.ofInt (total - parts.length : Int)))

/-- loop body LdaModel.cpp:94-103; `A` is the inverted covariance -/
def classWeights (A : Mat F) (m : Lda F) (p : String × IList F) : Res (Lda F) := do
  let avg ← p.2.continuousAttributeAverage
  match A.mulRight avg with
  | none => pure m
  | some wi =>
    let w := m.w.emplace p.1 wi
    match dotChecked wi avg with
    | none => pure { m with w := w }
    | some d =>
      pure { m with w := w,
                    w0 := m.w0.emplace p.1 ((Dbl.lit (-1/2) *. d) +.
                      Dbl.log (m.prior.getProbability p.1 : F)) }

/-- `train`: LdaModel.cpp:69-105; `inverse` is the matrix left by the library's `inverse()`
(its exception for a singular matrix is caught and printed) -/
def train (inverse : Mat F → Mat F) (old : Lda F) (trainSet : IList F) : Res (Lda F) := do
  let x0 ← atR trainSet 0
  if discreteCheck x0 = false then .error (.throw "DiscreteFeaturesNotAllowed") else do
    let parts ← Parts.byClass trainSet
    let cov ← pooledCovariance x0.continuousAttributeSize.toNat parts trainSet.length
    (trainSet.getDistinctClassLabels.zip parts).foldlM (classWeights (inverse cov))
      { old with prior := trainSet.classDistribution }

/-- `predict` (inherited) -/
def predict (m : Lda F) (x : Inst F) : Res String := gaussPredict m.prior m.metric x

end Lda

/-- state of `QdaModel` -/
structure Qda (F : Type) where
  prior : DD
  w0 : OMap F
  w : OMap (List F)
  W : OMap (Mat F)

namespace Qda

/-- a new object -/
def new : Qda F := ⟨DD.empty, [], [], []⟩

/-- `calculateMetric`: QdaModel.cpp:25-38 -/
def metric (m : Qda F) (x : Inst F) (c : String) : Res F := do
  let xi ← x.toVector
  let Wi ← findR m.W c
  let wi ← findR m.w c
  let w0i ← findR m.w0 c
  match (Wi.mulLeft xi).bind (fun q => dotChecked q xi), dotChecked wi xi with
  | some q, some d => pure ((q +. d) +. w0i)
  | _, _ => pure Dbl.maxVal

/-- loop body QdaModel.cpp:63-83 -/
def classWeights (inverse : Mat F → Mat F) (det : Mat F → F) (m : Qda F) (p : String × IList F) :
    Res (Qda F) := do
  let avg ← p.2.continuousAttributeAverage
  let c ← p.2.covariance avg
  let cov : Mat F := ⟨c.1, c.1, c.2⟩
  let determinant := det cov
  let A := inverse cov
  let m := { m with W := m.W.emplace p.1 (A.scale (Dbl.lit (-1/2))) }
  match A.mulLeft avg with
  | none => pure m
  | some wi =>
    let w := m.w.emplace p.1 wi
    match dotChecked wi avg with
    | none => pure { m with w := w }
    | some d =>
      pure { m with w := w,
                    w0 := m.w0.emplace p.1 ((Dbl.lit (-1/2) *. (d +. Dbl.log determinant)) +.
                      Dbl.log (m.prior.getProbability p.1 : F)) }

/-- `train`: QdaModel.cpp:54-84 -/
def train (inverse : Mat F → Mat F) (det : Mat F → F) (old : Qda F) (trainSet : IList F) :
    Res (Qda F) := do
  let x0 ← atR trainSet 0
  if discreteCheck x0 = false then .error (.throw "DiscreteFeaturesNotAllowed") else do
    let parts ← Parts.byClass trainSet
    (trainSet.getDistinctClassLabels.zip parts).foldlM (classWeights inverse det)
      { old with prior := trainSet.classDistribution }

/-- `predict` (inherited) -/
def predict (m : Qda F) (x : Inst F) : Res String := gaussPredict m.prior m.metric x

end Qda
end Verif
