import Verif.Spec.NeuralNetwork

/-! # Words of property C226 -/

namespace Verif

/-- the weights `w'` are the weights `w` (of a network with `n` inputs and `H` hidden nodes) with hidden node `σ i` numbered `i` -/
structure HiddenRenumbered (n H : Nat) (σ : List Nat) (w w' : Two ℝ) : Prop where
  rows : w.W.rows = H ∧ w'.W.rows = H
  cols : w.W.cols = n + 1 ∧ w'.W.cols = n + 1
  into : ∀ i < H, ∀ j ≤ n, w'.W.e i j = w.W.e (σ.getD i 0) j
  outRows : w'.V.rows = w.V.rows
  outCols : w.V.cols = H + 1 ∧ w'.V.cols = H + 1
  bias : ∀ i < w.V.rows, w'.V.e i 0 = w.V.e i 0
  out : ∀ i < w.V.rows, ∀ j < H, w'.V.e i (j + 1) = w.V.e i (σ.getD j 0 + 1)

end Verif
