import Verif.Model.Performance

/-! # Statistical tests (`src/StatisticalTest`) -/

namespace Verif
open Dbl

variable {F : Type} [Dbl F]

/-- `StatisticalTestResult`: StatisticalTestResult.h, constructor StatisticalTestResult.cpp:13-16 -/
structure TestResult (F : Type) where
  pValue : F
  onlyTwoTailed : Bool
deriving DecidableEq, Repr

/-- the exception `StatisticalTestNotApplicable` -/
@[reducible] def notApplicable : Err := .throw "StatisticalTestNotApplicable"

namespace TestResult

/-- `oneTailed(alpha)`: StatisticalTestResult.cpp:26-35; `true` is `REJECT` -/
def oneTailed (r : TestResult F) (alpha : F) : Res Bool :=
  if r.onlyTwoTailed then .error notApplicable else .ok (r.pValue <. alpha)

/-- `twoTailed(alpha)`: StatisticalTestResult.cpp:50-64; `true` is `REJECT` -/
def twoTailed (r : TestResult F) (alpha : F) : Bool :=
  if r.onlyTwoTailed then r.pValue <. alpha
  else (r.pValue <. (alpha /. Dbl.ofInt 2)) || ((Dbl.ofInt 1 -. (alpha /. Dbl.ofInt 2)) <. r.pValue)

end TestResult

namespace StatTest

/-- the array `difference`: Combined5x2f.cpp:25-26, Combined5x2t.cpp:24-26, Paired5x2t.cpp:24-26,
Pairedt.cpp:22-23 -/
def differences (a b : ExpPerf F) : Res (List F) :=
  (List.range a.numberOfExperiments).mapM (fun i => do
    let x ← a.getErrorRate i
    let y ← b.getErrorRate i
    pure (x -. y))

/-- the mean of one pair of folds: Combined5x2f.cpp:31 -/
def pairMean (d : List F) (i : Nat) : Res F := do
  let x ← idxR d (2 * i)
  let y ← idxR d (2 * i + 1)
  pure ((x +. y) /. Dbl.ofInt 2)

/-- the variance of one pair of folds: Combined5x2f.cpp:31-32 -/
def pairVariance (d : List F) (i : Nat) : Res F := do
  let x ← idxR d (2 * i)
  let y ← idxR d (2 * i + 1)
  let mean ← pairMean d i
  pure (((x -. mean) *. (x -. mean)) +. ((y -. mean) *. (y -. mean)))

/-- the loop adding up the variances: Combined5x2f.cpp:29-34, Combined5x2t.cpp:29-34,
Paired5x2t.cpp:27-32 -/
def sumVariances (d : List F) : Res F :=
  (List.range (d.length / 2)).foldlM (fun s i => do
    let v ← pairVariance d i
    pure (s +. v)) Dbl.zero

/-- the loop adding up the means: Combined5x2t.cpp:29-31 -/
def sumMeans (d : List F) : Res F :=
  (List.range (d.length / 2)).foldlM (fun s i => do
    let v ← pairMean d i
    pure (s +. v)) Dbl.zero

/-- the two tests at the start of the 5x2 tests -/
def check5x2 (a b : ExpPerf F) : Res Unit :=
  if a.numberOfExperiments ≠ b.numberOfExperiments then .error notApplicable
  else if a.numberOfExperiments ≠ 10 then .error notApplicable
  else .ok ()

/-- `Combined5x2f::testStatistic`: Combined5x2f.cpp:15-41 -/
def combined5x2f (a b : ExpPerf F) : Res F := do
  check5x2 a b
  let d ← differences a b
  let numerator := d.foldl (fun s x => s +. (x *. x)) (Dbl.zero : F)
  let denominator ← sumVariances d
  let denominator := denominator *. Dbl.ofInt 2
  if denominator ==. Dbl.ofInt 0 then .error notApplicable else pure (numerator /. denominator)

/-- `Combined5x2t::testStatistic`: Combined5x2t.cpp:15-42 -/
def combined5x2t (a b : ExpPerf F) : Res F := do
  check5x2 a b
  let d ← differences a b
  let denominator ← sumVariances d
  let numerator ← sumMeans d
  let numerator := (Dbl.sqrt (Dbl.ofInt 10) *. numerator) /. Dbl.ofInt 5
  let denominator := Dbl.sqrt (denominator /. Dbl.ofInt 5)
  if denominator ==. Dbl.ofInt 0 then .error notApplicable else pure (numerator /. denominator)

/-- `Paired5x2t::testStatistic`: Paired5x2t.cpp:15-40 -/
def paired5x2t (a b : ExpPerf F) : Res F := do
  check5x2 a b
  let d ← differences a b
  let denominator ← sumVariances d
  let denominator := Dbl.sqrt (denominator /. Dbl.ofInt 5)
  let d0 ← idxR d 0
  if denominator ==. Dbl.ofInt 0 then .error notApplicable else pure (d0 /. denominator)

/-- `Pairedt::testStatistic`: Pairedt.cpp:15-37 -/
def pairedt (a b : ExpPerf F) : Res F :=
  if a.numberOfExperiments ≠ b.numberOfExperiments then .error notApplicable else do
    let d ← differences a b
    let sum := d.foldl (fun s x => s +. x) (Dbl.zero : F)
    let mean := sum /. Dbl.ofInt a.numberOfExperiments
    let sum := d.foldl (fun s x => s +. ((x -. mean) *. (x -. mean))) (Dbl.zero : F)
    let standardDeviation := Dbl.sqrt (sum /. Dbl.ofInt ((a.numberOfExperiments : Int) - 1))
    if standardDeviation ==. Dbl.ofInt 0 then .error notApplicable
    else pure ((Dbl.sqrt (Dbl.ofInt a.numberOfExperiments) *. mean) /. standardDeviation)

/-- `int` multiplication: overflow is undefined -/
def mulInt (a b : Int) : Res Int :=
  if -2147483648 ≤ a * b ∧ a * b ≤ 2147483647 then .ok (a * b) else .error (.ub "signed overflow")

/-- `Sign::factorial`: Sign.cpp:14-20 (loop `i = 2 .. n`) -/
def factorial (n : Nat) : Res Int :=
  (List.range (n - 1)).foldlM (fun r (i : Nat) => mulInt r (i + 2)) 1

/-- `Sign::binomial`: Sign.cpp:28-35 (called with `0 <= n <= m`) -/
def binomial (m n : Nat) : Res Int :=
  if n = 0 ∨ m = n then .ok 1 else do
    let a ← factorial m
    let b ← factorial n
    let c ← factorial (m - n)
    let d ← mulInt b c
    pure (a / d)

/-- the counting loop Sign.cpp:47-56: (plus, minus) -/
def signCounts (a b : ExpPerf F) : Res (Nat × Nat) :=
  (List.range a.numberOfExperiments).foldlM (fun (c : Nat × Nat) i => do
    let x ← a.getErrorRate i
    let y ← b.getErrorRate i
    pure (if x <. y then (c.1 + 1, c.2) else if y <. x then (c.1, c.2 + 1) else c)) (0, 0)

/-- `Sign::compare`: Sign.cpp:43-66 -/
def sign (a b : ExpPerf F) : Res (TestResult F) :=
  if a.numberOfExperiments ≠ b.numberOfExperiments then .error notApplicable else do
    let c ← signCounts a b
    let total := c.1 + c.2
    if total = 0 then .error notApplicable else do
      let p ← (List.range (c.1 + 1)).foldlM (fun (p : F) i => do
        let k ← binomial total i
        pure (p +. (Dbl.ofInt k /. Dbl.pow (Dbl.ofInt 2) total))) Dbl.zero
      pure ⟨p, false⟩

/-- `Combined5x2f::compare`: Combined5x2f.cpp:49-54; `fDist` is the library's
`Distribution::fDistribution` -/
def compare5x2f (fDist : F → Nat → Nat → F) (a b : ExpPerf F) : Res (TestResult F) := do
  let s ← combined5x2f a b
  pure ⟨fDist s a.numberOfExperiments (a.numberOfExperiments / 2), true⟩

/-- `Combined5x2t::compare` (Combined5x2t.cpp:51-55), `Paired5x2t::compare` (Paired5x2t.cpp:48-52):
`tDist` is the library's `Distribution::tDistribution` -/
def compare5x2t (tDist : F → Int → F) (statistic : ExpPerf F → ExpPerf F → Res F) (a b : ExpPerf F) :
    Res (TestResult F) := do
  let s ← statistic a b
  pure ⟨tDist s (a.numberOfExperiments / 2 : Nat), false⟩

/-- `Pairedt::compare`: Pairedt.cpp:45-49 -/
def comparePairedt (tDist : F → Int → F) (a b : ExpPerf F) : Res (TestResult F) := do
  let s ← pairedt a b
  pure ⟨tDist s ((a.numberOfExperiments : Int) - 1), false⟩

/-- `PairedTest::compare(classifier1, classifier2, alpha)`: PairedTest.cpp:19-33; `compare` is the
virtual two-argument method -/
def pairedCompare (compare : ExpPerf F → ExpPerf F → Res (TestResult F)) (a b : ExpPerf F)
    (alpha : F) : Res Int := do
  let r1 ← compare a b
  let r2 ← compare b a
  let t1 ← r1.oneTailed alpha
  let t2 ← r2.oneTailed alpha
  pure (if t1 then 1 else if t2 then -1 else 0)

end StatTest
end Verif
