import Verif.Model.SoftTree
import Verif.Model.DblReal
import Mathlib.Analysis.SpecialFunctions.Exp

/-! # Specification vocabulary for soft decision trees -/

namespace Verif
open Dbl

variable {F : Type} [Dbl F]

/-- the attributes of `x` are the `d` numbers `u` -/
def NumbersAre (x : Inst F) (u : List F) (d : Nat) : Prop := u.length = d ∧ x.attrs = u.map Attr.continuous

/-- `x` has `d` attributes, all numeric -/
def AllNumbers (d : Nat) (x : Inst F) : Prop := ∃ u, NumbersAre x u d

/-- vectors of a node of a tree for `K` classes and `d` numbers -/
def SoftData.Sized (K d : Nat) (e : SoftData F) : Prop :=
  e.w0s.length = K ∧ e.outputs.length = K ∧ e.w.length = d + 1

/-- a tree for `K` classes and `d` numbers -/
def SoftNode.Sized (K d : Nat) : SoftNode F → Prop
  | .leaf e => e.Sized K d
  | .split e l r => e.Sized K d ∧ l.Sized K d ∧ r.Sized K d

/-- number of nodes with children -/
def SoftNode.splits : SoftNode F → Nat
  | .leaf _ => 0
  | .split _ l r => l.splits + r.splits + 1

/-- number of instances of `data` whose label is not the predicted one -/
def wrongPredictions (labels : List String) (root : SoftNode F) (data : IList F) : Nat :=
  data.countP (fun x => decide (softPredict ⟨labels, root⟩ x ≠ .ok x.label))

/-- weight of the first child for the numbers `u`: the logistic function of `w₀ + w₁ u₁ + …` -/
noncomputable def gate (w u : List ℝ) : ℝ :=
  1 / (1 + Real.exp (-(List.zipWith (fun a b => a * b) (1 :: u) w).sum))

/-- the leaves of a tree: the product of the weights met on the way, and the vector of the leaf -/
noncomputable def leafWeights (u : List ℝ) : SoftNode ℝ → List (ℝ × List ℝ)
  | .leaf e => [(1, e.w0s)]
  | .split e l r =>
    (leafWeights u l).map (fun p => (gate e.w u * p.1, p.2)) ++
      (leafWeights u r).map (fun p => ((1 - gate e.w u) * p.1, p.2))

/-- component `k` of the output of a tree -/
noncomputable def treeScores (x : Inst ℝ) (t : SoftNode ℝ) (k : Nat) : ℝ :=
  match calcOutput x t with
  | .ok r => r.1.getD k 0
  | .error _ => 0

end Verif
