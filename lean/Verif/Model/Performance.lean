import Verif.Model.DataSet

/-! # Performance measures (`src/Performance`) and testing (`src/Model/Model.cpp`) -/

namespace Verif
open Dbl

/-- `ConfusionMatrix`: ConfusionMatrix.h:15-18 (`matrix`, `classLabels`) -/
structure ConfMat where
  matrix : OMap Counter
  labels : List String
deriving DecidableEq, Repr

namespace ConfMat

/-- `ConfusionMatrix(classLabels)`: ConfusionMatrix.cpp:16-18 (and the default constructor
with no labels, 7-9) -/
def new (labels : List String) : ConfMat := ⟨[], labels⟩

/-- `classify(actualClass, predictedClass)`: ConfusionMatrix.cpp:29-36 -/
def classify (c : ConfMat) (actual predicted : String) : ConfMat :=
  let row : Counter := match OMap.find? c.matrix actual with
    | some r => r
    | none => []
  { c with matrix := OMap.insert c.matrix actual (Counter.put row predicted) }

/-- loop body of `addConfusionMatrix`: ConfusionMatrix.cpp:46-53 -/
def mergeRow (m : OMap Counter) (it : String × Counter) : OMap Counter :=
  match OMap.find? m it.1 with
  | some current => OMap.insert m it.1 (Counter.addAll current it.2)
  | none => OMap.emplace m it.1 it.2

/-- `addConfusionMatrix(other)`: ConfusionMatrix.cpp:44-55 -/
def addConfusionMatrix (c other : ConfMat) : ConfMat :=
  { c with matrix := other.matrix.foldl mergeRow c.matrix }

variable {F : Type} [Dbl F]

/-- `sumOfElements()`: ConfusionMatrix.cpp:63-69 -/
def sumOfElements (c : ConfMat) : F :=
  c.matrix.foldl (fun (s : F) it => s +. Dbl.ofNat (Counter.sumOfCounts it.2)) Dbl.zero

/-- `trace()`: ConfusionMatrix.cpp:77-85 -/
def trace (c : ConfMat) : F :=
  c.matrix.foldl (fun (s : F) it =>
    if OMap.contains it.2 it.1 then s +. Dbl.ofNat (Counter.count it.2 it.1) else s) Dbl.zero

/-- `columnSum(predictedClass)`: ConfusionMatrix.cpp:94-102 -/
def columnSum (c : ConfMat) (p : String) : F :=
  c.matrix.foldl (fun (s : F) it =>
    if OMap.contains it.2 p then s +. Dbl.ofNat (Counter.count it.2 p) else s) Dbl.zero

/-- `getAccuracy()`: ConfusionMatrix.cpp:109-111 -/
def getAccuracy (c : ConfMat) : F := c.trace /. c.sumOfElements

/-- `precision()`: ConfusionMatrix.cpp:118-127; `none` is an uninitialised array slot -/
def precision (c : ConfMat) : List (Option F) :=
  c.labels.map (fun a =>
    match OMap.find? c.matrix a with
    | some row => some ((Dbl.ofNat (Counter.count row a) : F) /. c.columnSum a)
    | none => none)

/-- `recall()`: ConfusionMatrix.cpp:134-143; `none` is an uninitialised array slot -/
def recall (c : ConfMat) : List (Option F) :=
  c.labels.map (fun a =>
    match OMap.find? c.matrix a with
    | some row => some (((Dbl.ofNat (Counter.count row a) : F) +. Dbl.zero) /.
        Dbl.ofNat (Counter.sumOfCounts row))
    | none => none)

/-- reading an array slot -/
def slot (l : List (Option F)) (i : Nat) : Res F := do
  match ← idxR l i with
  | some v => pure v
  | none => .error (.ub "uninitialised")

/-- `fMeasure()`: ConfusionMatrix.cpp:151-161 -/
def fMeasure (c : ConfMat) : Res (List F) :=
  (List.range c.labels.length).foldlM (fun r i => do
    let p ← slot c.precision i
    let q ← slot c.recall i
    pure (r ++ [(Dbl.ofInt 2 : F) /. ((Dbl.ofInt 1 /. p) +. (Dbl.ofInt 1 /. q))])) []

/-- loop body of `weightedFMeasure`: ConfusionMatrix.cpp:173-174; `find` of an absent class
yields `end()`, whose dereference is undefined -/
def weightedStep (c : ConfMat) (f : List F) (s : F) (i : Nat) : Res F := do
  let a ← atR c.labels i
  let fi ← idxR f i
  match OMap.find? c.matrix a with
  | some row => pure (s +. (fi *. Dbl.ofNat (Counter.sumOfCounts row)))
  | none => .error (.ub "dereference of end()")

/-- `weightedFMeasure()`: ConfusionMatrix.cpp:169-177 -/
def weightedFMeasure (c : ConfMat) : Res F := do
  let f ← c.fMeasure
  let sum ← (List.range c.labels.length).foldlM (c.weightedStep f) Dbl.zero
  pure (sum /. c.sumOfElements)

end ConfMat

/-- The three performance classes: Performance.h:9-18, ClassificationPerformance.h:11-19,
DetailedClassificationPerformance.h:12-19 -/
inductive Perf (F : Type) where
  | plain (errorRate : F)
  | classification (accuracy errorRate : F)
  | detailed (accuracy errorRate : F) (confusion : ConfMat)
deriving DecidableEq, Repr

namespace Perf
variable {F : Type} [Dbl F]

/-- `ClassificationPerformance(accuracy)`: ClassificationPerformance.cpp:12-14 -/
def ofAccuracy (a : F) : Perf F := .classification a (Dbl.ofInt 1 -. a)

/-- `DetailedClassificationPerformance(confusionMatrix)`:
DetailedClassificationPerformance.cpp:13-15 -/
def ofConfusion (c : ConfMat) : Perf F :=
  .detailed c.getAccuracy (Dbl.ofInt 1 -. c.getAccuracy) c

/-- `getErrorRate()`: Performance.cpp:21-23 -/
def getErrorRate : Perf F → F
  | .plain e => e
  | .classification _ e => e
  | .detailed _ e _ => e

/-- `isClassification()`: Performance.cpp:25-27, ClassificationPerformance.cpp:39-41 -/
def isClassification : Perf F → Bool
  | .plain _ => false
  | _ => true

/-- `containsDetails()`: Performance.cpp:29-31, ClassificationPerformance.cpp:35-37,
DetailedClassificationPerformance.cpp:26-28 -/
def containsDetails : Perf F → Bool
  | .detailed _ _ _ => true
  | _ => false

/-- `((ClassificationPerformance*) p)->getAccuracy()`: ClassificationPerformance.cpp:31-33 -/
def getAccuracy : Perf F → Res F
  | .plain _ => .error (.ub "cast to ClassificationPerformance")
  | .classification a _ => .ok a
  | .detailed a _ _ => .ok a

/-- `((DetailedClassificationPerformance*) p)->getConfusionMatrix()`:
DetailedClassificationPerformance.cpp:22-24 -/
def getConfusionMatrix : Perf F → Res ConfMat
  | .detailed _ _ c => .ok c
  | _ => .error (.ub "cast to DetailedClassificationPerformance")

end Perf

/-- `ExperimentPerformance`: ExperimentPerformance.h:15-19 -/
structure ExpPerf (F : Type) where
  results : List (Perf F)
  containsDetails : Bool
  classification : Bool
deriving DecidableEq, Repr

namespace ExpPerf
variable {F : Type} [Dbl F]

/-- `ExperimentPerformance()`: ExperimentPerformance.cpp:15, both flags start true
(ExperimentPerformance.h:18-19) -/
def new : ExpPerf F := ⟨[], true, true⟩

/-- `ExperimentPerformance(fileName)`: ExperimentPerformance.cpp:23-32; the stream is tested
before each `getline`, so the text after the last newline is parsed as well. -/
def ofFile (stod : String → Res F) (content : List Char) : Res (ExpPerf F) := do
  let lines := splitLines content []
  let rs ← (lines.1 ++ [lines.2]).foldlM (fun (rs : List (Perf F)) l => do
    let v ← stod l
    pure (rs ++ [Perf.plain v])) []
  pure ⟨rs, false, true⟩

/-- `add(performance)`: ExperimentPerformance.cpp:39-43 -/
def add (e : ExpPerf F) (p : Perf F) : ExpPerf F :=
  ⟨e.results ++ [p], p.containsDetails, p.isClassification⟩

/-- `numberOfExperiments()`: ExperimentPerformance.cpp:50-52 -/
def numberOfExperiments (e : ExpPerf F) : Nat := e.results.length

/-- `getErrorRate(index)`: ExperimentPerformance.cpp:60-62 -/
def getErrorRate (e : ExpPerf F) (i : Nat) : Res F := do
  let p ← atR e.results i
  pure p.getErrorRate

/-- `getAccuracy(index)`: ExperimentPerformance.cpp:70-76 -/
def getAccuracy (e : ExpPerf F) (i : Nat) : Res F := do
  let p ← atR e.results i
  if p.isClassification then p.getAccuracy
  else .error (.throw "ClassificationAlgorithmExpectedException")

/-- `meanPerformance()`: ExperimentPerformance.cpp:84-90 -/
def meanPerformance (e : ExpPerf F) : Perf F :=
  .plain ((e.results.foldl (fun (s : F) p => s +. p.getErrorRate) Dbl.zero) /.
    Dbl.ofNat e.results.length)

/-- the accuracy sum of ExperimentPerformance.cpp:102-106 -/
def sumAccuracy (e : ExpPerf F) : Res F :=
  e.results.foldlM (fun (s : F) p => do
    let a ← p.getAccuracy
    pure (s +. a)) Dbl.zero

/-- `meanClassificationPerformance()`: ExperimentPerformance.cpp:98-108; `none` is the null
pointer -/
def meanClassificationPerformance (e : ExpPerf F) : Res (Option (Perf F)) :=
  if e.results = [] ∨ e.classification = false then .ok none
  else do
    let s ← e.sumAccuracy
    pure (some (Perf.ofAccuracy (s /. Dbl.ofNat e.results.length)))

/-- `meanDetailedPerformance()`: ExperimentPerformance.cpp:117-126 -/
def meanDetailedPerformance (e : ExpPerf F) : Res (Option (Perf F)) :=
  if e.results = [] ∨ e.containsDetails = false then .ok none
  else do
    let first ← atR e.results 0
    let c0 ← first.getConfusionMatrix
    let sum ← (e.results.drop 1).foldlM (fun (c : ConfMat) p => do
      let d ← p.getConfusionMatrix
      pure (c.addConfusionMatrix d)) c0
    pure (some (Perf.ofConfusion sum))

/-- `results.size() - 1` in `size_t` (64 bits): ExperimentPerformance.cpp:141; for an empty
experiment it wraps around -/
def sizeMinusOne (e : ExpPerf F) : Nat :=
  if e.results.length = 0 then 2 ^ 64 - 1 else e.results.length - 1

/-- `standardDeviationPerformance()`: ExperimentPerformance.cpp:134-142 -/
def standardDeviationPerformance (e : ExpPerf F) : Perf F :=
  let avg := e.meanPerformance.getErrorRate
  .plain (Dbl.sqrt ((e.results.foldl (fun (s : F) p =>
      s +. Dbl.pow (p.getErrorRate -. avg) 2) Dbl.zero) /.
    Dbl.ofNat e.sizeMinusOne))

/-- `standardDeviationClassificationPerformance()`: ExperimentPerformance.cpp:150-163 -/
def standardDeviationClassificationPerformance (e : ExpPerf F) : Res (Option (Perf F)) :=
  if e.results = [] ∨ e.classification = false then .ok none
  else do
    match ← e.meanClassificationPerformance with
    | none => .error (.ub "null dereference")
    | some avg => do
      let avgA ← avg.getAccuracy
      let s ← e.results.foldlM (fun (s : F × F) p => do
        let a ← p.getAccuracy
        pure (s.1 +. Dbl.pow (a -. avgA) 2,
              s.2 +. Dbl.pow (p.getErrorRate -. avg.getErrorRate) 2)) (Dbl.zero, Dbl.zero)
      pure (some (.classification (Dbl.sqrt (s.1 /. Dbl.ofNat (e.results.length - 1)))
        (Dbl.sqrt (s.2 /. Dbl.ofNat (e.results.length - 1)))))

/-- `isBetter(other)`: ExperimentPerformance.cpp:172-177 -/
def isBetter (e other : ExpPerf F) : Res Bool := do
  match ← e.meanClassificationPerformance with
  | none => .error (.ub "null dereference")
  | some p => do
    let a1 ← p.getAccuracy
    match ← other.meanClassificationPerformance with
    | none => .error (.ub "null dereference")
    | some q => do
      let a2 ← q.getAccuracy
      pure (a2 <. a1)

end ExpPerf

/-! ## `Model::test` -/

variable {F : Type} [Dbl F]

/-- `Model::discreteCheck(instance)`: Model.cpp:30-37 -/
def discreteCheck (x : Inst F) : Bool :=
  x.attrs.all (fun a => !(a.isDiscrete && !a.isDiscreteIndexed))

/-- `Model::test(testSet)`: Model.cpp:45-53; `predict` is the virtual call -/
def modelTest (predict : Inst F → Res String) (testSet : IList F) : Res (Perf F) := do
  let c ← testSet.foldlM (fun (c : ConfMat) x => do
    let p ← predict x
    pure (c.classify x.label p)) (ConfMat.new testSet.getUnionOfPossibleClassLabels)
  pure (Perf.ofConfusion c)

/-- `Model::singleRun(parameter, trainSet, testSet)`: Model.cpp:64-67; `train` yields the
`predict` function of the trained model -/
def singleRun (train : IList F → Res (Inst F → Res String)) (trainSet testSet : IList F) :
    Res (Perf F) := do
  let predict ← train trainSet
  modelTest predict testSet

/-- `ValidatedModel::testClassifier(data)`: ValidatedModel.cpp:13-22 -/
def testClassifier (predict : Inst F → Res String) (data : IList F) : Res (Perf F) := do
  let count ← data.foldlM (fun (n : Nat) x => do
    let p ← predict x
    pure (if x.label = p then n + 1 else n)) 0
  pure (Perf.ofAccuracy ((Dbl.ofNat count : F) /. Dbl.ofNat data.length))

/-- `DummyModel`: the trained state is the class distribution. `train`/constructor:
DummyModel.cpp:13-15, 64-66; `predict`: 23-30 -/
def dummyPredict (d : DD) (x : Inst F) : String :=
  if x.isComposite then d.getMaxItemOf x.possibleLabels else d.getMaxItem

/-- `DummyModel::predictProbability`: DummyModel.cpp:53-55 -/
def dummyProbability (d : DD) : OMap F := d.getProbabilityDistribution

/-- `RandomModel::predict`: RandomModel.cpp:24-35; `r` is the value of `random()`. With an
empty list the remainder is undefined. -/
def randomPredict (labels : List String) (r : Nat) (x : Inst F) : Res String :=
  let ls := if x.isComposite then x.possibleLabels else labels
  if ls.length = 0 then .error (.ub "remainder by zero") else atR ls (r % ls.length)

/-- `RandomModel::train`: RandomModel.cpp:75-77 -/
def randomTrain (l : IList F) : List String := l.classDistribution.getItems

/-- `RandomModel::predictProbability`: RandomModel.cpp:61-67 -/
def randomProbability (labels : List String) : OMap F :=
  labels.foldl (fun m l => OMap.insert m l ((Dbl.ofInt 1 : F) /. Dbl.ofNat labels.length)) []

end Verif
