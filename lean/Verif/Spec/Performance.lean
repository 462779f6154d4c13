import Verif.Model.Performance

/-! # Words used in the performance properties

A *history* is the list of `(actual, predicted)` pairs passed to `classify`. -/

namespace Verif

/-- The confusion matrix after a history of `classify` calls on a fresh matrix. -/
def afterHistory (labels : List String) (h : List (String × String)) : ConfMat :=
  h.foldl (fun c q => c.classify q.1 q.2) (ConfMat.new labels)

/-- number of calls with actual class `a` and predicted class `p` -/
def nCell (h : List (String × String)) (a p : String) : Nat := h.count (a, p)

/-- number of calls whose prediction was right -/
def nCorrect (h : List (String × String)) : Nat := h.countP (fun q => q.1 == q.2)

/-- number of calls with actual class `a` -/
def nActual (h : List (String × String)) (a : String) : Nat := h.countP (fun q => q.1 == a)

/-- number of calls with predicted class `p` -/
def nPredicted (h : List (String × String)) (p : String) : Nat := h.countP (fun q => q.2 == p)

/-- content of a cell of a confusion matrix: 0 when there is no entry -/
def ConfMat.cell (c : ConfMat) (a p : String) : Nat :=
  match c.matrix.lookup a with
  | some row => (row.lookup p).getD 0
  | none => 0

end Verif
