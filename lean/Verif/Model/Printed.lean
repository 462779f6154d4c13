import Verif.Model.DataSet
import Verif.Model.Knn

/-! # Short descriptions: `DataSet::to_string`, `KnnInstance::to_string` -/

namespace Verif
open Dbl

variable {F : Type} [Dbl F]

/-- `to_string(dataSetName)`: DataSet.cpp:246-248; `discreteAttributeCount()` and `continuousAttributeCount()` of the data set
(DataSet.cpp:194-205) are those of its definition -/
def DataSet.text (ds : DataSet F) (name : String) : String :=
  name ++ toString ds.sampleSize ++ toString ds.classCount ++ toString ds.attributeCount ++
    toString ds.definition.discreteAttributeCount ++ toString ds.definition.continuousAttributeCount

/-- conversion `double -> char` (signed, 8 bits): the fraction is dropped; undefined when the result does not fit, so for NaN -/
def toCharCode (d : F) : Res Int :=
  if Dbl.zero <=. d then
    if d <. Dbl.ofInt 128 then
      match (List.range 128).reverse.find? (fun k => (Dbl.ofNat k : F) <=. d) with
      | some k => .ok k
      | none => .error (.ub "double to char")
    else .error (.ub "double to char")
  else if Dbl.ofInt (-129) <. d then
    match (List.range 129).reverse.find? (fun k => d <=. Dbl.neg (Dbl.ofNat k : F)) with
    | some k => .ok (-(k : Int))
    | none => .error (.ub "double to char")
  else .error (.ub "double to char")

/-- `KnnInstance::to_string()`: KnnInstance.cpp:23-29. `str += distance` appends one character, the distance converted to `char`. The
result is the text before that character and the code of the character. -/
def knnText (x : Inst F) (distance : F) : Res (String × Int) := do
  let c ← toCharCode distance
  pure (x.label ++ " ", c)

end Verif
