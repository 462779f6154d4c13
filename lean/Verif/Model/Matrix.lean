import Verif.Model.Dbl

/-! # Contract of the library classes `Vector` and `Matrix`

Not in /repo (library Math). A vector is the list of its components; a matrix is its size and
its entries. The exceptions the library throws for mismatched sizes, which /repo catches, are
`none`. Determinant and inverse are parameters of the model functions that use them. -/

namespace Verif
open Dbl

variable {F : Type} [Dbl F]

/-- `Matrix` -/
structure Mat (F : Type) where
  rows : Nat
  cols : Nat
  e : Nat → Nat → F

/-- `Vector::dotProduct`, without the size check: `double result = 0; result += v_i * w_i` -/
def dotV (v w : List F) : F :=
  (v.zip w).foldl (fun s p => s +. (p.1 *. p.2)) (Dbl.zero : F)

/-- `Vector::dotProduct`; `none` = `VectorSizeMismatch` -/
def dotChecked (v w : List F) : Option F :=
  if v.length = w.length then some (dotV v w) else none

/-- `Vector::subtract`; `none` = `VectorSizeMismatch` -/
def subChecked (v w : List F) : Option (List F) :=
  if v.length = w.length then some (List.zipWith (fun a b => a -. b) v w) else none

namespace Mat

/-- `Matrix(rows, cols)`: zero matrix -/
def zeros (r c : Nat) : Mat F := ⟨r, c, fun _ _ => Dbl.zero⟩

/-- `Matrix::add`; the size mismatch exception is caught by /repo everywhere, leaving the
matrix as it was -/
def addCaught (m n : Mat F) : Mat F :=
  if m.rows = n.rows ∧ m.cols = n.cols then ⟨m.rows, m.cols, fun i j => m.e i j +. n.e i j⟩ else m

/-- `multiplyWithConstant` -/
def scale (m : Mat F) (c : F) : Mat F := ⟨m.rows, m.cols, fun i j => m.e i j *. c⟩

/-- `divideByConstant` -/
def divide (m : Mat F) (c : F) : Mat F := ⟨m.rows, m.cols, fun i j => m.e i j /. c⟩

/-- row `i` as a list -/
def row (m : Mat F) (i : Nat) : List F := (List.range m.cols).map (fun (j : Nat) => m.e i j)

/-- column `j` as a list -/
def col (m : Mat F) (j : Nat) : List F := (List.range m.rows).map (fun (i : Nat) => m.e i j)

/-- `multiplyWithVectorFromRight(v)`: `r_i = Σ_j m_ij v_j`; `none` = `MatrixColumnMismatch` -/
def mulRight (m : Mat F) (v : List F) : Option (List F) :=
  if m.cols = v.length then some ((List.range m.rows).map (fun (i : Nat) => dotV (m.row i) v))
  else none

/-- `multiplyWithVectorFromLeft(v)`: `r_j = Σ_i v_i m_ij`; `none` = `MatrixRowMismatch` -/
def mulLeft (m : Mat F) (v : List F) : Option (List F) :=
  if m.rows = v.length then some ((List.range m.cols).map (fun (j : Nat) => dotV v (m.col j)))
  else none

end Mat
end Verif
