import Verif.Model.Performance
import Verif.Model.DblReal
import Verif.Spec.Stats
import Mathlib.Data.Nat.Choose.Sum

/-! # Words used in the properties of the statistical tests -/

namespace Verif

/-- the error rates of an experiment -/
def ExpPerf.errs (e : ExpPerf ℝ) : List ℝ := e.results.map Perf.getErrorRate

/-- the paired differences of the error rates -/
def errDiffs (a b : ExpPerf ℝ) : List ℝ := List.zipWith (fun x y => x - y) a.errs b.errs

/-- the two differences of repetition `i` of a 5x2 experiment -/
def repetition (d : List ℝ) (i : Nat) : List ℝ := [d.getD (2 * i) 0, d.getD (2 * i + 1) 0]

/-- sum of the variances of the five repetitions -/
noncomputable def sumOfFiveVariances (d : List ℝ) : ℝ :=
  ((List.range 5).map (fun i => sampleVar (repetition d i))).sum

/-- sum of the means of the five repetitions -/
noncomputable def sumOfFiveMeans (d : List ℝ) : ℝ :=
  ((List.range 5).map (fun i => mean (repetition d i))).sum

/-- number of experiments in which the first classifier has the strictly lower error -/
noncomputable def wins (a b : ExpPerf ℝ) : Nat := (a.errs.zip b.errs).countP (fun p => decide (p.1 < p.2))

/-- probability of at most `k` heads in `n` tosses of a fair coin -/
noncomputable def binomialTail (n k : Nat) : ℝ :=
  (∑ i ∈ Finset.range (k + 1), (n.choose i : ℝ)) / 2 ^ n

end Verif
