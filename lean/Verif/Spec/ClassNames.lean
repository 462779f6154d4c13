import Verif.Model.Instance
import Verif.Model.Deps

/-! # Specification: other names for the classes -/

namespace Verif
variable {F : Type}

/-- the instance with every class name `c` replaced by `f c` -/
def Inst.rn (f : String → String) (x : Inst F) : Inst F := ⟨f x.label, x.attrs, x.possible.map (List.map f)⟩

/-- class probabilities with every class name `c` replaced by `f c` -/
def OMap.rn {V : Type} (f : String → String) (m : OMap V) : OMap V := m.map (fun p => (f p.1, p.2))

/-- the class names that occur in an instance: its class and its possible classes -/
def Inst.names (x : Inst F) : List String := x.label :: x.possible.getD []

/-- the class names that occur in the training data or in the instance asked about -/
def namesIn (data : List (Inst F)) (x : Inst F) : List String := data.flatMap Inst.names ++ x.names

/-- `f` gives the names in `S` new names in the same alphabetical order. The empty string, which some classifiers
answer when they have seen nothing, stays the empty string. -/
structure KeepsOrder (f : String → String) (S : List String) : Prop where
  empty : f "" = ""
  nonempty : ∀ a ∈ S, a ≠ "" → f a ≠ ""
  order : ∀ a ∈ S, ∀ b ∈ S, a < b → f a < f b

end Verif
