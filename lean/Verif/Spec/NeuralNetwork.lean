import Verif.Model.NeuralNetwork
import Verif.Model.DblReal

/-! # What neural networks should do

Nothing here refers to the training code: the maximum of a sequence of validation results, the
functions a network computes, and its log-likelihood. -/

namespace Verif
open Dbl

/-- `kept` is the best of the weights `w 1, …, w n` reached after epochs `1, …, n`, epoch `j + 1`
having the result `acc j`: the earliest epoch whose result no other one beats; or the initial
weights `w 0` if no result is above `start`. `lt` and `le` compare results, larger being better. -/
def KeptBest {W F : Type} (lt le : F → F → Bool) (start : F) (acc : Nat → F) (n : Nat) (w : Nat → W)
    (kept : W) : Prop :=
  (kept = w 0 ∧ ∀ j < n, lt start (acc j) = false) ∨
  ∃ e < n, kept = w (e + 1) ∧ lt start (acc e) = true ∧ (∀ j < n, lt (acc e) (acc j) = false) ∧
    ∀ j < e, le (acc e) (acc j) = false

/-- the `j`-th learning rate: the first one reduced `j` times -/
def rateAt {F : Type} [Dbl F] (eta decrease : F) : Nat → F
  | 0 => eta
  | j + 1 => rateAt eta decrease j *. decrease

/-- the instances shuffled `j` times -/
def orderAt {F : Type} [Dbl F] (data : IList F) (σ : List Nat) : Nat → IList F
  | 0 => data
  | j + 1 => IList.shuffle (orderAt data σ j) σ

/-- `w 0, …, w n` are the weights before and after the epochs: in epoch `j + 1` every instance is
presented once, in the order given by shuffling once more, with the `j`-th learning rate -/
def IsTraining {W F : Type} [Dbl F] (present : F → W → Inst F → Res W) (data : IList F) (σ : List Nat)
    (eta decrease : F) (n : Nat) (w : Nat → W) : Prop :=
  ∀ j < n, (orderAt data σ (j + 1)).foldlM (present (rateAt eta decrease j)) (w j) = .ok (w (j + 1))

/-- the accuracy of weights `w` on a list: the fraction of its instances that the network with
these weights labels correctly -/
def AccuracyIs {W F : Type} [Dbl F] (labels : List String) (output : W → List F → Res (List F)) (t : IList F) (w : W)
    (a : F) : Prop :=
  ∃ p : Inst F → String, (∀ x ∈ t, netPredict labels (output w) x = .ok (p x)) ∧
    a = Dbl.ofNat (t.countP (fun x => x.label == p x)) /. Dbl.ofNat t.length

/-! ## the functions computed by a network (exact arithmetic) -/

/-- weighted sum of the inputs of node `i` -/
noncomputable def score (m : Mat ℝ) (u : Nat → ℝ) (i : Nat) : ℝ :=
  ∑ j ∈ Finset.range m.cols, m.e i j * u j

/-- the constant input 1 in front -/
def withBias (h : Nat → ℝ) : Nat → ℝ
  | 0 => 1
  | j + 1 => h j

/-- the activation functions -/
noncomputable def actReal : Activation → ℝ → ℝ
  | .sigmoid, z => 1 / (1 + Real.exp (-z))
  | .tanh, z => Real.tanh z
  | .relu, z => max z 0

/-- outputs of a network with the given layers, before normalisation -/
noncomputable def netScores (act : Activation) : List (Mat ℝ) → (Nat → ℝ) → Nat → ℝ
  | [], u => u
  | [w], u => score w u
  | w :: ws, u => netScores act ws (withBias (fun i => actReal act (score w u i)))

/-- logarithm of the probability `exp s_c / Σ_k exp s_k` that a network with outputs `s` gives to
class `c` of `K` -/
noncomputable def logProb (K : Nat) (s : Nat → ℝ) (c : Nat) : ℝ :=
  s c - Real.log (∑ k ∈ Finset.range K, Real.exp (s k))

/-- half the squared distance between inputs and outputs -/
noncomputable def reconstructionError (d : Nat) (r s : Nat → ℝ) : ℝ :=
  (∑ k ∈ Finset.range d, (r k - s k) ^ 2) / 2

/-- the layers fit each other: each takes one input more than the layer below has nodes -/
def Fits : List (Mat ℝ) → Nat → Nat → Prop
  | [], n, K => n = K + 1
  | w :: ws, n, K => w.cols = n ∧ Fits ws (w.rows + 1) K

/-- no rectifier node of a hidden layer has a weighted sum of exactly 0, where the rectifier has
no derivative -/
def NoKink (act : Activation) : List (Mat ℝ) → (Nat → ℝ) → Prop
  | [], _ => True
  | [_], _ => True
  | w :: ws, u => (∀ i < w.rows, act = .relu → score w u i ≠ 0) ∧
      NoKink act ws (withBias (fun i => actReal act (score w u i)))

/-- the matrix with entry `(i, j)` replaced -/
def setEntry (m : Mat ℝ) (i j : Nat) (t : ℝ) : Mat ℝ :=
  { m with e := fun a b => if a = i ∧ b = j then t else m.e a b }

/-- a numeric instance of `d` attributes; a composite one has a possible label -/
def NumericInst (d : Nat) (x : Inst ℝ) : Prop :=
  (∃ u : List ℝ, u.length = d ∧ x.attrs = u.map Attr.continuous) ∧ (x.isComposite = true → x.possibleLabels ≠ [])

/-- the numbers of a numeric instance -/
def numbersOf (x : Inst ℝ) : List ℝ := x.attrs.filterMap (fun
  | .continuous v => some v
  | _ => none)

end Verif
