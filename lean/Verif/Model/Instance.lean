import Verif.Model.Attribute
import Mathlib.Data.String.Basic

/-! # Instances (`src/Instance`) -/

namespace Verif
open Dbl

/-- `Instance` (Instance.h:16-45) and `CompositeInstance` (CompositeInstance.h:11-23): label,
attributes, and `some` possible labels for a composite one. -/
structure Inst (F : Type) where
  label : String
  attrs : List (Attr F)
  possible : Option (List String) := none
deriving DecidableEq, Repr

namespace Inst
variable {F : Type} [Dbl F]

/-- `CompositeInstance(vector<string>)`: CompositeInstance.cpp:34-36, `possibleLabels.at(0)`
throws on an empty list -/
def ofPossible (possibleLabels : List String) : Res (Inst F) :=
  match possibleLabels with
  | [] => .error (.throw "out_of_range")
  | c :: rest => .ok ⟨c, [], some rest⟩

/-- `setPossibleClassLabels`: CompositeInstance.cpp:65-67 (appends) -/
def setPossibleClassLabels (x : Inst F) (ls : List String) : Inst F :=
  { x with possible := some ((x.possible.getD []) ++ ls) }

/-- `isComposite()`: Instance.h:41, CompositeInstance.h:21 -/
def isComposite (x : Inst F) : Bool := x.possible.isSome

/-- `getPossibleClassLabels()`: Instance.cpp:142-146, CompositeInstance.cpp:56-58 -/
def possibleLabels (x : Inst F) : List String :=
  match x.possible with
  | some ls => ls
  | none => [x.label]

/-- `addAttribute(Attribute*)`: Instance.cpp:54-56 (the other overloads, 36-47, wrap the
value in a new attribute first) -/
def addAttribute (x : Inst F) (a : Attr F) : Inst F := { x with attrs := x.attrs ++ [a] }

/-- `addVectorAttribute`: Instance.cpp:63-67 -/
def addVectorAttribute (x : Inst F) (v : List F) : Inst F :=
  v.foldl (fun x d => x.addAttribute (.continuous d)) x

/-- `removeAttribute(index)`: Instance.cpp:74-76, `erase(begin()+index)` -/
def removeAttribute (x : Inst F) (i : Nat) : Res (Inst F) :=
  if i < x.attrs.length then .ok { x with attrs := x.attrs.eraseIdx i }
  else .error (.ub "erase past the end")

/-- `removeAllAttributes()`: Instance.cpp:81-83 -/
def removeAllAttributes (x : Inst F) : Inst F := { x with attrs := [] }

/-- `getAttribute(index)`: Instance.cpp:91-93 -/
def getAttribute (x : Inst F) (i : Nat) : Res (Attr F) := atR x.attrs i

/-- `attributeSize()`: Instance.cpp:100-102 -/
def attributeSize (x : Inst F) : Nat := x.attrs.length

/-- `continuousAttributeSize()`: Instance.cpp:109-115 -/
def continuousAttributeSize (x : Inst F) : Int :=
  x.attrs.foldl (fun s a => s + a.continuousAttributeSize) 0

/-- `continuousAttributes()`: Instance.cpp:124-131 -/
def continuousAttributes (x : Inst F) : Res (List F) :=
  x.attrs.foldlM (fun r a => do
    let inserted ← a.continuousAttributes
    pure (r ++ inserted)) []

/-- `toVector()`: Instance.cpp:167-174 -/
def toVector (x : Inst F) : Res (List F) :=
  x.attrs.foldlM (fun r a => do
    let inserted ← a.continuousAttributes
    pure (r ++ inserted)) []

/-- `to_string()`: Instance.cpp:153-160, CompositeInstance.cpp:74-80 -/
def toStr (showD : F → String) (x : Inst F) : String :=
  let base := x.attrs.foldl (fun r a => r ++ (a.toStr showD ++ ",")) "" ++ x.label
  match x.possible with
  | none => base
  | some ls => ls.foldl (fun r l => r ++ ";" ++ l) base

/-- `getSubSetOfFeatures`: Instance.cpp:189-195; the result is a plain `Instance` -/
def getSubSetOfFeatures (x : Inst F) (s : List Nat) : Res (Inst F) :=
  s.foldlM (fun r f => do
    let a ← atR x.attrs f
    pure (r.addAttribute a)) ⟨x.label, [], none⟩

/-- `((DiscreteAttribute*) x->getAttribute(i))->getValue()` -/
def discAt (x : Inst F) (i : Nat) : Res String := do
  let a ← x.getAttribute i
  a.discVal

/-- `((ContinuousAttribute*) x->getAttribute(i))->getValue()` -/
def contAt (x : Inst F) (i : Nat) : Res F := do
  let a ← x.getAttribute i
  a.contVal

/-- `((DiscreteIndexedAttribute*) x->getAttribute(i))->getIndex()` -/
def indexAt (x : Inst F) (i : Nat) : Res Int := do
  let a ← x.getAttribute i
  a.getIndex

end Inst
end Verif
