import Verif.Model.InstanceList
import Verif.Model.DblXR
import Mathlib.Data.List.Induction

/-! # Property C174: an instance list contains what was added to it since it was last emptied -/

set_option linter.unusedSectionVars false

namespace Verif
open Dbl
variable {F : Type} [Dbl F]

/-! ## specification -/

/-- the calls that change the members of an `InstanceList` -/
inductive ListCall (F : Type) where
  | add (x : Inst F)
  | addAll (xs : List (Inst F))
  | clear

/-- a call that empties the list -/
def ListCall.empties : ListCall F → Bool
  | .clear => true
  | _ => false

/-- the instances a call brings along -/
def ListCall.brings : ListCall F → List (Inst F)
  | .add x => [x]
  | .addAll xs => xs
  | .clear => []

/-- the calls after the last one that empties the list -/
def sinceEmptied (cs : List (ListCall F)) : List (ListCall F) :=
  (cs.reverse.takeWhile (fun c => !c.empties)).reverse

/-- the program makes one call -/
def ListCall.exec (l : IList F) : ListCall F → IList F
  | .add x => l.add x
  | .addAll xs => l.addAll xs
  | .clear => l.clear

/-- the program makes the calls `cs`, in this order, on the list `l` -/
def execAll (l : IList F) (cs : List (ListCall F)) : IList F := cs.foldl ListCall.exec l

/-! ## theorems -/

/-- **C174.** After any sequence of calls a list that was empty at the start contains the instances
brought by the calls since the last `clear()`, in order, with repetitions. -/
theorem C174_history (cs : List (ListCall F)) :
    execAll [] cs = (sinceEmptied cs).flatMap ListCall.brings := by
  induction cs using List.reverseRecOn with
  | nil => rfl
  | append_singleton cs c ih =>
    unfold execAll at *
    rw [List.foldl_append, ih]
    unfold sinceEmptied
    cases c <;> simp [ListCall.exec, ListCall.empties, ListCall.brings, IList.add, IList.addAll, IList.clear]

/-- **C174.** `size()` is the number of instances brought since the last `clear()`; `get(i)` is the
`i`-th of them, and an exception for other `i`. -/
theorem C174_get (cs : List (ListCall F)) :
    (execAll [] cs).length = ((sinceEmptied cs).map (fun c => c.brings.length)).sum ∧
    ∀ i : Nat,
      (∀ x, IList.get (execAll [] cs) i = .ok x ↔ ((sinceEmptied cs).flatMap ListCall.brings)[i]? = some x) ∧
      ((execAll [] cs).length ≤ i → IList.get (execAll [] cs) i = .error (.throw "out_of_range")) := by
  rw [C174_history]
  refine ⟨by simp [List.length_flatMap], fun i => ⟨fun x => ?_, fun h => ?_⟩⟩
  · unfold IList.get atR
    cases ((sinceEmptied cs).flatMap ListCall.brings)[i]? <;> simp
  · unfold IList.get atR
    rw [List.getElem?_eq_none h]

/-- **C174.** What was in the list stays where it was as long as the list is not emptied. -/
theorem C174_keeps (l : IList F) (cs : List (ListCall F)) (h : ∀ c ∈ cs, c.empties = false) :
    execAll l cs = l ++ cs.flatMap ListCall.brings := by
  induction cs generalizing l with
  | nil => simp [execAll]
  | cons c cs ih =>
    have hc := h c (by simp)
    unfold execAll at *
    rw [List.foldl_cons, ih _ (fun d hd => h d (by simp [hd]))]
    cases c <;> simp_all [ListCall.exec, ListCall.empties, ListCall.brings, IList.add, IList.addAll]

/-- a history with a `clear()` in the middle -/
example : execAll [] [.add (⟨"a", [], none⟩ : Inst XR), .clear, .add ⟨"b", [], none⟩, .addAll [⟨"c", [], none⟩, ⟨"b", [], none⟩]] =
    [⟨"b", [], none⟩, ⟨"c", [], none⟩, ⟨"b", [], none⟩] := by
  rw [C174_history]; rfl
example : ∀ c ∈ ([.add ⟨"b", [], none⟩, .addAll [⟨"c", [], none⟩, ⟨"b", [], none⟩]] : List (ListCall XR)),
    c.empties = false := by simp [ListCall.empties]

end Verif
