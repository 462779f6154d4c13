import Verif.Model.DataSet

/-! # Words used in the data-set properties -/

namespace Verif

/-- The declared type an attribute value belongs to. -/
def typeOf {F : Type} : Attr F → AttrType
  | .continuous _ => .continuous
  | .discrete _ => .discrete
  | .binary _ => .binary
  | .indexed _ _ _ => .discreteIndexed

/-- The attribute types of an instance, in order. -/
def typesOf {F : Type} (x : Inst F) : List AttrType := x.attrs.map typeOf

/-- `x` is what a file row with these cells means under definition `d`: last cell is the class
label, cell `i` is the value of attribute `i` with the declared type. -/
structure RowMeans {F : Type} (stod : String → Res F) (d : DataDef) (fields : List String)
    (x : Inst F) : Prop where
  columns : fields.length = d.types.length + 1
  plain : x.possible = none
  label : fields.getLast? = some x.label
  width : x.attrs.length = d.types.length
  cell : ∀ (i : Nat) (t : AttrType) (c : String) (a : Attr F), d.types[i]? = some t → fields[i]? = some c → x.attrs[i]? = some a →
    match t with
    | .continuous => ∃ v, stod c = .ok v ∧ a = .continuous v
    | .discrete => a = .discrete c
    | .binary => a = .binary c
    | .discreteIndexed => ∃ vs, d.values[i]? = some vs ∧
        a = .indexed c (if c ∈ vs then (vs.idxOf c : Int) else -1) vs.length

/-- Text of a file: the given lines, each followed by a newline, then `rest`. -/
def fileText (lines : List String) (rest : String) : List Char :=
  (lines.map (fun l => l.toList ++ ['\n'])).flatten ++ rest.toList

/-- no newline inside -/
def OneLine (s : String) : Prop := '\n' ∉ s.toList

end Verif

namespace Verif

/-- `fields` separated by `sep` -/
def joinWith (sep : String) : List String → String
  | [] => ""
  | [a] => a
  | a :: b :: l => a ++ sep ++ joinWith sep (b :: l)

/-- What the library's `split` is relied on to do: it undoes joining with a comma, for
non-empty fields without comma. -/
def SplitsCommas (split : String → String → List String) : Prop :=
  ∀ fields : List String, fields ≠ [] → (∀ f ∈ fields, f ≠ "" ∧ ',' ∉ f.toList) →
    split (joinWith "," fields) "," = fields

/-- a text that can be a cell of a comma separated file -/
structure CellText (s : String) : Prop where
  nonempty : s ≠ ""
  noComma : ',' ∉ s.toList
  oneLine : OneLine s

/-- `a` is a value for attribute `i` of definition `d` that text can carry: names are cell
texts, a number is printed exactly, an indexed value is in the value list with its position. -/
def Writable {F : Type} (showD : F → String) (stod : String → Res F) (d : DataDef) (i : Nat) :
    Attr F → Prop
  | .continuous v => CellText (showD v) ∧ stod (showD v) = .ok v
  | .discrete v => CellText v
  | .binary v => CellText v
  | .indexed v k m => CellText v ∧ ∃ vs, d.values[i]? = some vs ∧ vs[k.toNat]? = some v ∧ 0 ≤ k ∧
      (∀ j < k.toNat, vs[j]? ≠ some v) ∧ m = vs.length

/-- the same for any one-character separator -/
def SplitsAt (split : String → String → List String) (c : Char) : Prop :=
  ∀ fields : List String, fields ≠ [] → (∀ f ∈ fields, f ≠ "" ∧ c ∉ f.toList) →
    split (joinWith (String.ofList [c]) fields) (String.ofList [c]) = fields

/-- `s` is the text of a number -/
def IsNumber {F : Type} (stod : String → Res F) (s : String) : Prop := ∃ v, stod s = .ok v

/-- a row the reader without declared types cannot use: wrong number of columns, or text where the
column is numeric -/
def Unusable {F : Type} (stod : String → Res F) (types : List AttrType) (fields : List String) : Prop :=
  fields.length ≠ types.length + 1 ∨
    ∃ (i : Nat) (c : String), types[i]? = some .continuous ∧ fields[i]? = some c ∧ ¬ IsNumber stod c

/-- `x` is what a row means to the reader without declared types: numeric columns are numbers, the
others names; a class label with semicolons lists possible classes, the first is the class. -/
structure GuessedRow {F : Type} (split : String → String → List String) (stod : String → Res F)
    (types : List AttrType) (fields : List String) (x : Inst F) : Prop where
  columns : fields.length = types.length + 1
  width : x.attrs.length = types.length
  cell : ∀ (i : Nat) (t : AttrType) (c : String) (a : Attr F), types[i]? = some t → fields[i]? = some c →
    x.attrs[i]? = some a →
    (t = .continuous ∧ ∃ v, stod c = .ok v ∧ a = .continuous v) ∨ (t = .discrete ∧ a = .discrete c)
  label : ∃ s, fields.getLast? = some s ∧
    ((';' ∉ s.toList ∧ x.label = s ∧ x.possible = none) ∨
      (';' ∈ s.toList ∧ ∃ ps, split s ";" = x.label :: ps ∧ x.possible = some ps))

end Verif
