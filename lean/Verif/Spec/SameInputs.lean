import Verif.Model.NeuralNetwork
import Verif.Spec.DataSet

/-! # Words used in the properties about what classifiers read of an instance -/

namespace Verif

/-- equal, or both binary -/
inductive AttrAlike {F : Type} : Attr F → Attr F → Prop
  | same (a : Attr F) : AttrAlike a a
  | binary (v w : String) : AttrAlike (.binary v) (.binary w)

/-- the two instances are equal except for the values of binary attributes -/
structure AlikeButBinary {F : Type} (x y : Inst F) : Prop where
  label : x.label = y.label
  possible : x.possible = y.possible
  attrs : List.Forall₂ AttrAlike x.attrs y.attrs

variable {F : Type} [Dbl F]

/-- the two instances have the same class, the same possible classes and the same numbers -/
structure SameInputs (x y : Inst F) : Prop where
  label : y.label = x.label
  possible : y.possible = x.possible
  size : y.continuousAttributeSize = x.continuousAttributeSize
  inputs : y.toVector = x.toVector
  accepted : discreteCheck y = discreteCheck x

end Verif
