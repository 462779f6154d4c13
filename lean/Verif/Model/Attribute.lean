import Verif.Model.Dbl

/-! # Attributes (`src/Attribute`) -/

namespace Verif
open Dbl

/-- `AttributeType` (src/Attribute/AttributeType.h:8-25) -/
inductive AttrType where
  | continuous | discrete | binary | discreteIndexed
deriving DecidableEq, Repr

/-- The concrete attribute classes: ContinuousAttribute.h:12-26, DiscreteAttribute.h:12-26,
BinaryAttribute.h:9-17, DiscreteIndexedAttribute.h:9-23. -/
inductive Attr (F : Type) where
  | continuous (value : F)
  | discrete (value : String)
  | binary (value : String)
  | indexed (value : String) (index maxIndex : Int)
deriving DecidableEq, Repr

namespace Attr
variable {F : Type} [Dbl F]

/-- `DiscreteAttribute(bool)` / `BinaryAttribute(bool)`: DiscreteAttribute.cpp:38-44,
BinaryAttribute.cpp:12-13 -/
def ofBool (b : Bool) : Attr F := .binary (if b then "true" else "false")

/-- `isDiscrete()`: DiscreteAttribute.h:20, ContinuousAttribute.h:22, BinaryAttribute.h:13,
DiscreteIndexedAttribute.h:19 -/
def isDiscrete : Attr F → Bool
  | .discrete _ => true
  | _ => false

/-- `isContinuous()`: ContinuousAttribute.h:23, DiscreteAttribute.h:21, BinaryAttribute.h:14,
DiscreteIndexedAttribute.h:20 -/
def isContinuous : Attr F → Bool
  | .continuous _ => true
  | _ => false

/-- `isDiscreteIndexed()`: ContinuousAttribute.h:24, DiscreteAttribute.h:22,
BinaryAttribute.h:15, DiscreteIndexedAttribute.h:21 -/
def isDiscreteIndexed : Attr F → Bool
  | .indexed _ _ _ => true
  | _ => false

/-- `isBinary()`: ContinuousAttribute.h:25, DiscreteAttribute.h:23, BinaryAttribute.h:16,
DiscreteIndexedAttribute.h:22 -/
def isBinary : Attr F → Bool
  | .binary _ => true
  | _ => false

/-- `continuousAttributeSize()`: ContinuousAttribute.cpp:43-45, DiscreteAttribute.cpp:46-48,
DiscreteIndexedAttribute.cpp:39-41 -/
def continuousAttributeSize : Attr F → Int
  | .continuous _ => 1
  | .discrete _ => 0
  | .binary _ => 0
  | .indexed _ _ maxIndex => maxIndex

/-- `continuousAttributes()`: ContinuousAttribute.cpp:47-51, DiscreteAttribute.cpp:50-52,
DiscreteIndexedAttribute.cpp:43-54 (`reserve` of a negative size throws length_error). -/
def continuousAttributes : Attr F → Res (List F)
  | .continuous v => .ok [v]
  | .discrete _ => .ok []
  | .binary _ => .ok []
  | .indexed _ index maxIndex =>
    if maxIndex < 0 then .error (.throw "length_error")
    else .ok ((List.range maxIndex.toNat).foldl
      (fun r (i : Nat) => if (i : Int) ≠ index then r ++ [Dbl.zero] else r ++ [Dbl.one]) [])

/-- `((DiscreteAttribute*) a)->getValue()`: DiscreteAttribute.cpp:21-23; binary and indexed
attributes are subclasses, for a continuous one the cast is invalid. -/
def discVal : Attr F → Res String
  | .discrete v => .ok v
  | .binary v => .ok v
  | .indexed v _ _ => .ok v
  | .continuous _ => .error (.ub "cast to DiscreteAttribute")

/-- `((ContinuousAttribute*) a)->getValue()`: ContinuousAttribute.cpp:21-23 -/
def contVal : Attr F → Res F
  | .continuous v => .ok v
  | _ => .error (.ub "cast to ContinuousAttribute")

/-- `((DiscreteIndexedAttribute*) a)->getIndex()`: DiscreteIndexedAttribute.cpp:26-28 -/
def getIndex : Attr F → Res Int
  | .indexed _ i _ => .ok i
  | _ => .error (.ub "cast to DiscreteIndexedAttribute")

/-- `((DiscreteIndexedAttribute*) a)->getMaxIndex()`: DiscreteIndexedAttribute.cpp:35-37 -/
def getMaxIndex : Attr F → Res Int
  | .indexed _ _ m => .ok m
  | _ => .error (.ub "cast to DiscreteIndexedAttribute")

/-- `to_string()`: ContinuousAttribute.cpp:39-41, DiscreteAttribute.cpp:30-36; `show` is
`std::to_string(double)`. -/
def toStr (showD : F → String) : Attr F → String
  | .continuous v => showD v
  | .discrete v => if v = "," then "comma" else v
  | .binary v => if v = "," then "comma" else v
  | .indexed v _ _ => if v = "," then "comma" else v

end Attr
end Verif
