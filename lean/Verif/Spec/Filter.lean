import Verif.Model.Filter
import Verif.Spec.DataSet
import Verif.Spec.Stats
import Mathlib.Algebra.BigOperators.Group.Finset.Basic
import Mathlib.Algebra.BigOperators.Ring.Finset

/-! # Words used in the filter properties -/

namespace Verif
variable {F : Type}

/-- `vs` are the values attribute `i` takes in the data, each once, in increasing order. -/
structure IsValueTable (l : IList F) (i : Nat) (vs : List String) : Prop where
  sorted : vs.Pairwise (· < ·)
  mem_iff : ∀ v, v ∈ vs ↔ ∃ x ∈ l, x.attrs[i]? = some (.discrete v)

/-- the discrete attributes of an instance with their positions, in order -/
def discreteCells (x : Inst F) : List (Nat × String) :=
  x.attrs.zipIdx.filterMap (fun p =>
    match p.1 with
    | .discrete v => some (p.2, v)
    | _ => none)

/-- the attributes that are not (plain) discrete, in order -/
def otherAttrs (x : Inst F) : List (Attr F) := x.attrs.filter (fun a => typeOf a ≠ .discrete)

/-- `y` is `x` with every discrete attribute taken out and the blocks for them appended, in
attribute order; `block vs v b` says that `b` is the block for value `v` when the values of the
attribute in the data are `vs`. -/
structure ReplacesDiscrete (block : List String → String → List (Attr F) → Prop) (l : IList F)
    (x y : Inst F) : Prop where
  label : y.label = x.label
  possible : y.possible = x.possible
  attrs : ∃ blocks, y.attrs = otherAttrs x ++ blocks.flatten ∧
    List.Forall₂ (fun (c : Nat × String) b => ∃ vs, IsValueTable l c.1 vs ∧ block vs c.2 b)
      (discreteCells x) blocks

/-- one-hot vector of `v` over `vs` -/
def OneHotBlock [Dbl F] (vs : List String) (v : String) (b : List (Attr F)) : Prop :=
  b.length = vs.length ∧ ∀ (j : Nat) u, vs[j]? = some u →
    b[j]? = some (.continuous (if u = v then Dbl.one else Dbl.zero))

/-- one truth value per value of the attribute, true at `v` -/
def BinaryBlock (vs : List String) (v : String) (b : List (Attr F)) : Prop :=
  b.length = vs.length ∧ ∀ (j : Nat) u, vs[j]? = some u →
    b[j]? = some (.binary (if u = v then "true" else "false"))

/-- the position of `v` among `vs` and their number -/
def IndexBlock (vs : List String) (v : String) (b : List (Attr F)) : Prop :=
  ∃ k : Nat, k < vs.length ∧ vs[k]? = some v ∧ b = [.indexed v k vs.length]

/-- the pointers `refs` refer to the instances `l` -/
def PointTo (h : Heap F) (refs : List Nat) (l : IList F) : Prop :=
  List.Forall₂ (fun r x => h[r]? = some x) refs l

/-- Every instance the pointers refer to was changed as `R` says, all other memory is as it
was. -/
structure ChangedAt (R : Inst F → Inst F → Prop) (refs : List Nat) (h h' : Heap F) : Prop where
  size : h'.length = h.length
  changed : ∀ r ∈ refs, ∀ x, h[r]? = some x → ∃ y, h'[r]? = some y ∧ R x y
  rest : ∀ r, r ∉ refs → h'[r]? = h[r]?

end Verif

namespace Verif

/-- the numbers in column `i`, in data order -/
def numbersAt {F : Type} (l : IList F) (i : Nat) : List F :=
  l.filterMap (fun (x : Inst F) =>
    match x.attrs[i]? with
    | some (.continuous v) => some v
    | _ => none)

/-- `y` is `x` with the numbers of attribute `i` sent through `f i`, everything else kept -/
structure NumbersMapped {F : Type} (f : Nat → F → F) (x y : Inst F) : Prop where
  label : y.label = x.label
  possible : y.possible = x.possible
  width : y.attrs.length = x.attrs.length
  number : ∀ (i : Nat) v, x.attrs[i]? = some (.continuous v) →
    y.attrs[i]? = some (.continuous (f i v))
  other : ∀ (i : Nat) a, x.attrs[i]? = some a → typeOf a ≠ .continuous → y.attrs[i]? = some a

end Verif

namespace Verif

/-- the inner product of two lists of `d` numbers -/
noncomputable def inner (d : Nat) (u w : List ℝ) : ℝ := ∑ i ∈ Finset.range d, u.getD i 0 * w.getD i 0

/-- what `Matrix::characteristics()` is relied on to return for a symmetric `d × d` matrix:
`d` orthonormal eigenvectors with eigenvalues `ev` -/
structure IsEigenbasis (d : Nat) (M : Nat → Nat → ℝ) (es : List (List ℝ)) (ev : Nat → ℝ) :
    Prop where
  number : es.length = d
  size : ∀ e ∈ es, e.length = d
  orthonormal : ∀ a b, a < d → b < d →
    inner d (es.getD a []) (es.getD b []) = if a = b then 1 else 0
  eigen : ∀ a, a < d → ∀ i, i < d →
    ∑ j ∈ Finset.range d, M i j * (es.getD a []).getD j 0 = ev a * (es.getD a []).getD i 0

/-- sample covariance of two columns of numbers over the same rows -/
noncomputable def sampleCov {α : Type} (rows : List α) (f g : α → ℝ) : ℝ :=
  (rows.map (fun x => (f x - mean (rows.map f)) * (g x - mean (rows.map g)))).sum /
    ((rows.length : ℝ) - 1)

end Verif
