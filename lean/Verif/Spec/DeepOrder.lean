import Verif.Spec.NeuralNetwork

/-! # Words of property C226 for networks with several hidden layers -/

namespace Verif

/-- the matrix `A'` (of weights from a layer of `n` nodes, and the constant input, to a layer of `m` nodes) is the matrix `A` with node `τ j` of
the first layer numbered `j` and node `σ i` of the second layer numbered `i` -/
structure LayerRenumbered (n m : Nat) (τ σ : List Nat) (A A' : Mat ℝ) : Prop where
  rows : A.rows = m ∧ A'.rows = m
  cols : A.cols = n + 1 ∧ A'.cols = n + 1
  bias : ∀ i < m, A'.e i 0 = A.e (σ.getD i 0) 0
  from_ : ∀ i < m, ∀ j < n, A'.e i (j + 1) = A.e (σ.getD i 0) (τ.getD j 0 + 1)

/-- the weights of a network whose layer `k` has `size k` nodes (layer 0: the inputs) after renumbering each layer `k` by `perm k` -/
structure DeepRenumbered (size : Nat → Nat) (perm : Nat → List Nat) (ws ws' : List (Mat ℝ)) : Prop where
  count : ws'.length = ws.length
  layer : ∀ k A A', ws[k]? = some A → ws'[k]? = some A' → LayerRenumbered (size k) (size (k + 1)) (perm k) (perm (k + 1)) A A'

end Verif
