import Verif.Model.DblReal
import Verif.Model.Solver
import Verif.Model.InstanceList
import Mathlib.Algebra.BigOperators.Group.Finset.Basic
import Mathlib.Logic.Equiv.Basic

/-! # Words of the support vector machine properties -/

namespace Verif
open Dbl

/-- `n` lists the non-zero entries of `v` with their positions, in increasing order of position. -/
structure IsSparseOf {F : Type} [Dbl F] (v : List F) (n : NodeL F) : Prop where
  increasing : n.Pairwise (fun a b => a.index < b.index)
  entries : ∀ i a, (⟨i, a⟩ : SNode F) ∈ n ↔ v[i]? = some a ∧ (a ==. Dbl.zero) = false

/-- dot product of two vectors; the missing entries of the shorter one count as 0 -/
noncomputable def denseDot (u v : List ℝ) : ℝ :=
  ∑ i ∈ Finset.range (max u.length v.length), u.getD i 0 * v.getD i 0

/-- squared Euclidean distance of two vectors -/
noncomputable def denseSqDist (u v : List ℝ) : ℝ :=
  ∑ i ∈ Finset.range (max u.length v.length), (u.getD i 0 - v.getD i 0) ^ 2

/-- the four kernels as functions of two vectors -/
noncomputable def kernelFormula (p : SvmParam ℝ) (u v : List ℝ) : ℝ :=
  match p.kernelType with
  | .linear => denseDot u v
  | .polynom => (p.gamma * denseDot u v + p.coefficient0) ^ p.degree
  | .rbf => Real.exp (-p.gamma * denseSqDist u v)
  | .sigmoid => Real.tanh (p.gamma * denseDot u v + p.coefficient0)

/-- the original position of what is at position `k` after the given exchanges, the first one of the
list being made first -/
def rowAfter : List (Nat × Nat) → Nat → Nat
  | [], k => k
  | s :: rest, k => Equiv.swap s.1 s.2 (rowAfter rest k)

/-- `v'` is `v` after the given exchanges -/
def Exchanged {α : Type} (swaps : List (Nat × Nat)) (v v' : List α) : Prop :=
  v'.length = v.length ∧ ∀ k, v'[k]? = v[rowAfter swaps k]?

/-! ## the optimisation problem -/

/-- a two-class problem: minimise `Σ b_i a_i + ½ Σ a_i a_j q_ij` subject to `0 ≤ a_i ≤ C` and
`Σ y_i a_i = 0` -/
structure SvmProblem where
  vectors : List (List ℝ)
  labels : List ℝ
  linear : List ℝ
  param : SvmParam ℝ

namespace SvmProblem

/-- number of training instances -/
def size (P : SvmProblem) : Nat := P.vectors.length

/-- label of instance `i` -/
def y (P : SvmProblem) (i : Nat) : ℝ := P.labels.getD i 0

/-- coefficient of `a_i` in the objective -/
def b (P : SvmProblem) (i : Nat) : ℝ := P.linear.getD i 0

/-- kernel of two training instances -/
noncomputable def kernel (P : SvmProblem) (i j : Nat) : ℝ :=
  kernelFormula P.param (P.vectors.getD i []) (P.vectors.getD j [])

/-- `q_ij` -/
noncomputable def q (P : SvmProblem) (i j : Nat) : ℝ := P.y i * P.y j * P.kernel i j

/-- one label `+1` or `-1` and one coefficient for each instance, and `C > 0` -/
structure Valid (P : SvmProblem) : Prop where
  labels : P.labels.length = P.size
  linear : P.linear.length = P.size
  sign : ∀ i, i < P.size → P.y i = 1 ∨ P.y i = -1
  C_pos : 0 < P.param.C

/-- the constraints of the problem -/
structure Feasible (P : SvmProblem) (a : Nat → ℝ) : Prop where
  lower : ∀ i, i < P.size → 0 ≤ a i
  upper : ∀ i, i < P.size → a i ≤ P.param.C
  balance : ∑ i ∈ Finset.range P.size, P.y i * a i = 0

/-- partial derivative of the objective with respect to `a_i` -/
noncomputable def gradient (P : SvmProblem) (a : Nat → ℝ) (i : Nat) : ℝ :=
  P.b i + ∑ j ∈ Finset.range P.size, a j * P.q i j

/-- the objective -/
noncomputable def objective (P : SvmProblem) (a : Nat → ℝ) : ℝ :=
  ∑ i ∈ Finset.range P.size, P.b i * a i +
    (∑ i ∈ Finset.range P.size, ∑ j ∈ Finset.range P.size, a i * a j * P.q i j) / 2

/-- the squared distance of two training instances in the space of the kernel -/
noncomputable def gap (P : SvmProblem) (i j : Nat) : ℝ := P.kernel i i + P.kernel j j - 2 * P.kernel i j

/-- two training instances either differ in the space of the kernel, or they are the same vector with the
same label -/
def Consistent (P : SvmProblem) : Prop := ∀ i j, i < P.size → j < P.size →
  0 < P.gap i j ∨ (P.vectors.getD i [] = P.vectors.getD j [] ∧ P.y i = P.y j ∧ P.b i = P.b j)

/-- `y_i a_i` can be increased -/
def CanRise (P : SvmProblem) (a : Nat → ℝ) (i : Nat) : Prop :=
  (P.y i = 1 ∧ a i < P.param.C) ∨ (P.y i = -1 ∧ 0 < a i)

/-- `y_i a_i` can be decreased -/
def CanFall (P : SvmProblem) (a : Nat → ℝ) (i : Nat) : Prop :=
  (P.y i = 1 ∧ 0 < a i) ∨ (P.y i = -1 ∧ a i < P.param.C)

/-- increasing `y_i a_i` and decreasing `y_j a_j` by the same amount never improves the objective at
a rate of `ε` or more -/
def NearlyOptimal (P : SvmProblem) (ε : ℝ) (a : Nat → ℝ) : Prop :=
  ∀ i j, i < P.size → j < P.size → P.CanRise a i → P.CanFall a j →
    P.y j * P.gradient a j - P.y i * P.gradient a i < ε

/-- no feasible point has an objective smaller by more than `ε` -/
def MinimalUpTo (P : SvmProblem) (ε : ℝ) (a : Nat → ℝ) : Prop :=
  ∀ b, P.Feasible b → P.objective a ≤ P.objective b + ε

/-- the gradient of every feasible point is a number a `double` can hold -/
def InRange (P : SvmProblem) : Prop :=
  ∀ i, i < P.size →
    |P.b i| + ∑ j ∈ Finset.range P.size, P.param.C * |P.q i j| ≤ (Dbl.maxVal : ℝ)

/-- decision value of training instance `k` for multipliers `a` and threshold `ρ` -/
noncomputable def decision (P : SvmProblem) (a : Nat → ℝ) (ρ : ℝ) (k : Nat) : ℝ :=
  ∑ i ∈ Finset.range P.size, P.y i * a i * P.kernel i k - ρ

/-- the margin conditions of a trained machine up to `ε`: instances whose multiplier is below `C` are
on the right side of the margin, those whose multiplier is positive are not beyond it -/
structure Margins (P : SvmProblem) (ε : ℝ) (a : Nat → ℝ) (ρ : ℝ) : Prop where
  outside : ∀ k, k < P.size → a k < P.param.C → 1 - ε < P.y k * P.decision a ρ k
  inside : ∀ k, k < P.size → 0 < a k → P.y k * P.decision a ρ k < 1 + ε

end SvmProblem

/-! ## voting -/

/-- the pairs `i < j < n` in lexicographic order -/
structure IsPairs (n : Nat) (ps : List (Nat × Nat)) : Prop where
  mem : ∀ i j, (i, j) ∈ ps ↔ i < j ∧ j < n
  order : ps.Pairwise (fun p q => p.1 < q.1 ∨ (p.1 = q.1 ∧ p.2 < q.2))

/-- number of votes for class `c`, when the pair `(i, j)` votes for `i` if its decision value is positive
and for `j` otherwise -/
def votesFor {F : Type} [Dbl F] (ps : List (Nat × Nat)) (values : List F) (c : Nat) : Nat :=
  ((ps.zip values).filter (fun b => (if Dbl.lt Dbl.zero b.2 then b.1.1 else b.1.2) == c)).length

/-! ## two-class machines of a training list -/

/-- decision value of a query `q` for a two-class machine with training vectors `xs`, signed multipliers
`w` and threshold `ρ` -/
noncomputable def decisionValue (p : SvmParam ℝ) (q : List ℝ) (xs : List (List ℝ)) (w : List ℝ) (ρ : ℝ) : ℝ :=
  ∑ k ∈ Finset.range xs.length, w.getD k 0 * kernelFormula p q (xs.getD k []) - ρ

/-- the vectors of the instances of `l` with class label `c`, in their order -/
def classVectors (l : IList ℝ) (vec : Inst ℝ → List ℝ) (c : String) : List (List ℝ) :=
  (l.filter (fun x => x.label == c)).map vec

/-- the problem of separating the instances of class `a` (label `+1`) from those of class `b` -/
noncomputable def twoClass (p : SvmParam ℝ) (l : IList ℝ) (vec : Inst ℝ → List ℝ) (a b : String) : SvmProblem where
  vectors := classVectors l vec a ++ classVectors l vec b
  labels := List.replicate (classVectors l vec a).length 1 ++ List.replicate (classVectors l vec b).length (-1)
  linear := List.replicate ((classVectors l vec a).length + (classVectors l vec b).length) (-1)
  param := p

/-- the kernels with a feature space: linear; polynomial and RBF with parameters that are not negative -/
def FeatureKernel (p : SvmParam ℝ) : Prop :=
  p.kernelType = .linear ∨ (p.kernelType = .polynom ∧ 0 ≤ p.degree ∧ 0 ≤ p.gamma ∧ 0 ≤ p.coefficient0) ∨
    (p.kernelType = .rbf ∧ 0 ≤ p.gamma)

/-- the kernels that tell different vectors apart: linear, RBF, polynomials of odd degree or with a
positive constant -/
def SeparatingKernel (p : SvmParam ℝ) : Prop :=
  p.kernelType = .linear ∨ (p.kernelType = .rbf ∧ 0 < p.gamma) ∨
    (p.kernelType = .polynom ∧ 0 < p.degree ∧ 0 < p.gamma ∧ 0 ≤ p.coefficient0 ∧
      (Odd p.degree ∨ 0 < p.coefficient0))

/-! ## rows of a solver state -/

namespace Smo

/-- label, derivative and status stored at position `k` -/
def label (s : Smo ℝ) (k : Nat) : ℝ := s.y.getD k 0
@[inherit_doc label] def slope (s : Smo ℝ) (k : Nat) : ℝ := s.G.getD k 0
@[inherit_doc label] def mark (s : Smo ℝ) (k : Nat) : AlphaStatus := s.status.getD k .free

/-- label times multiplier of row `k` may be increased -/
def MayRise (s : Smo ℝ) (k : Nat) : Prop :=
  (s.label k = 1 ∧ s.mark k ≠ .upper) ∨ (s.label k = -1 ∧ s.mark k ≠ .lower)

/-- label times multiplier of row `k` may be decreased -/
def MayFall (s : Smo ℝ) (k : Nat) : Prop :=
  (s.label k = 1 ∧ s.mark k ≠ .lower) ∨ (s.label k = -1 ∧ s.mark k ≠ .upper)

/-- rate at which the objective falls when row `i` rises and row `j` falls -/
def violation (s : Smo ℝ) (i j : Nat) : ℝ := s.label j * s.slope j - s.label i * s.slope i

/-- all active rows are present, with labels `+1` or `-1` and derivatives a `double` can hold -/
structure RowsOk (s : Smo ℝ) : Prop where
  labels : s.activeSize ≤ s.y.length
  slopes : s.activeSize ≤ s.G.length
  marks : s.activeSize ≤ s.status.length
  sign : ∀ k, k < s.activeSize → s.label k = 1 ∨ s.label k = -1
  range : ∀ k, k < s.activeSize → |s.slope k| ≤ (Dbl.maxVal : ℝ)

end Smo

end Verif
