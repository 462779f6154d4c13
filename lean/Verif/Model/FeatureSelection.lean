import Verif.Model.Performance

/-! # Feature selection (`src/FeatureSelection`)

A feature subset is the vector of its indices (FeatureSubSet.h:11-27). The performance measurement
`multipleRun->execute(experiment.featureSelectedExperiment(subset))` is a parameter `run`; it
also receives the subsets measured before, so that it need not be deterministic. -/

namespace Verif
open Dbl

namespace FeatSel
variable {F : Type} [Dbl F]

/-- `FeatureSubSet(numberOfFeatures)`: FeatureSubSet.cpp:21-25 -/
def full (n : Nat) : List Nat := (List.range n).foldl (fun l i => l ++ [i]) []

/-- `forward`: SubSetSelection.cpp:23-31 -/
def forward (acc : List (List Nat)) (current : List Nat) (n : Nat) : List (List Nat) :=
  (List.range n).foldl (fun r i => if i ∈ current then r else r ++ [current ++ [i]]) acc

/-- `backward`: SubSetSelection.cpp:39-45 (`remove` erases by position, FeatureSubSet.cpp:85-87) -/
def backward (acc : List (List Nat)) (current : List Nat) : List (List Nat) :=
  (List.range current.length).foldl (fun r i => r ++ [current.eraseIdx i]) acc

/-- `operatorToModify` of the three selections -/
inductive Op where
  | fwd | bwd | flt
deriving DecidableEq, Repr

/-- `operatorToModify`: ForwardSelection.cpp:21-25, BackwardSelection.cpp:22-26,
FloatingSelection.cpp:20-25 -/
def Op.candidates : Op → List Nat → Nat → List (List Nat)
  | .fwd, current, n => forward [] current n
  | .bwd, current, _ => backward [] current
  | .flt, current, n => backward (forward [] current n) current

/-- initial subset: ForwardSelection.cpp:10, BackwardSelection.cpp:12, FloatingSelection.cpp:10,
SubSetSelection.cpp:92-98 -/
def Op.initial : Op → Nat → List Nat
  | .bwd, n => full n
  | _, _ => []

/-- local variables of `execute`; `evaluated` records the measurements made -/
structure St (F : Type) where
  best : List Nat
  bestPerf : Option (ExpPerf F)
  processed : List (List Nat)
  betterFound : Bool
  evaluated : List (List Nat)

/-- the performance measurement -/
abbrev Runner (F : Type) := List (List Nat) → List Nat → Res (ExpPerf F)

/-- `bestPerformance == nullptr || currentPerformance->isBetter(bestPerformance)`:
SubSetSelection.cpp:79 -/
def improves (p : ExpPerf F) : Option (ExpPerf F) → Res Bool
  | none => .ok true
  | some q => p.isBetter q

/-- SubSetSelection.cpp:78-84 -/
def measure (run : Runner F) (st : St F) (c : List Nat) : Res (St F) := do
  let p ← run st.evaluated c
  let better ← improves p st.bestPerf
  let st := { st with evaluated := st.evaluated ++ [c] }
  pure (if better then { st with best := c, bestPerf := some p, betterFound := true } else st)

/-- the guard on empty subsets, SubSetSelection.cpp:77 -/
def measureNonEmpty (run : Runner F) (st : St F) (c : List Nat) : Res (St F) :=
  if 0 < c.length then measure run st c else .ok st

/-- the loop body SubSetSelection.cpp:69-86 -/
def candidateStep (run : Runner F) (st : St F) (c : List Nat) : Res (St F) :=
  if c ∈ st.processed then .ok st
  else do
    let st ← measureNonEmpty run st c
    pure { st with processed := st.processed ++ [c] }

/-- one round SubSetSelection.cpp:66-87; the candidates are computed before the first one is tried -/
def round (op : Op) (n : Nat) (run : Runner F) (st : St F) : Res (St F) :=
  (op.candidates st.best n).foldlM (candidateStep run) { st with betterFound := false }

/-- the `while` loop SubSetSelection.cpp:65-88; `none` when `fuel` rounds were not enough -/
def loop (op : Op) (n : Nat) (run : Runner F) : Nat → St F → Option (Res (St F))
  | 0, _ => none
  | fuel + 1, st =>
    if st.betterFound then
      match round op n run st with
      | .ok st' => loop op n run fuel st'
      | .error e => some (.error e)
    else some (.ok st)

/-- lines SubSetSelection.cpp:56-64 -/
def start (run : Runner F) (initial : List Nat) : Res (St F) :=
  if 0 < initial.length then do
    let p ← run [] initial
    pure ⟨initial, some p, [initial], true, [initial]⟩
  else pure ⟨initial, none, [initial], true, []⟩

/-- `execute`: SubSetSelection.cpp:55-90; the final state, whose `best` is returned -/
def execute (op : Op) (initial : List Nat) (n : Nat) (run : Runner F) (fuel : Nat) :
    Option (Res (St F)) :=
  match start run initial with
  | .ok st => loop op n run fuel st
  | .error e => some (.error e)

end FeatSel
end Verif
