import Verif.Model.Partition

/-! # Data definitions, data sets and data files (`src/DataSet`, file constructors) -/

namespace Verif
open Dbl

/-- `DataDefinition`: DataDefinition.h:14-37 (`attributeTypes`, `attributeValueList`) -/
structure DataDef where
  types : List AttrType
  values : List (List String)
deriving DecidableEq, Repr

namespace DataDef

/-- `DataDefinition()`: DataDefinition.cpp:10 -/
def empty : DataDef := ⟨[], []⟩

/-- `DataDefinition(attributeTypes)`: DataDefinition.cpp:17-19 -/
def ofTypes (ts : List AttrType) : DataDef := ⟨ts, []⟩

/-- `attributeCount()`: DataDefinition.cpp:26-28 -/
def attributeCount (d : DataDef) : Nat := d.types.length

/-- `discreteAttributeCount()`: DataDefinition.cpp:35-43 -/
def discreteAttributeCount (d : DataDef) : Nat :=
  d.types.foldl (fun c t => if t = .discrete ∨ t = .binary then c + 1 else c) 0

/-- `continuousAttributeCount()`: DataDefinition.cpp:50-58 -/
def continuousAttributeCount (d : DataDef) : Nat :=
  d.types.foldl (fun c t => if t = .continuous then c + 1 else c) 0

/-- `getAttributeType(index)`: DataDefinition.cpp:66-68 -/
def getAttributeType (d : DataDef) (i : Nat) : Res AttrType := atR d.types i

/-- `addAttribute(type)`: DataDefinition.cpp:75-77 -/
def addAttribute (d : DataDef) (t : AttrType) : DataDef := { d with types := d.types ++ [t] }

/-- `removeAttribute(index)`: DataDefinition.cpp:84-86; the value list is not touched -/
def removeAttribute (d : DataDef) (i : Nat) : Res DataDef :=
  if i < d.types.length then .ok { d with types := d.types.eraseIdx i }
  else .error (.ub "erase past the end")

/-- `removeAllAttributes()`: DataDefinition.cpp:91-93 -/
def removeAllAttributes (d : DataDef) : DataDef := { d with types := [] }

/-- `getSubSetOfFeatures`: DataDefinition.cpp:101-108; the value list is not copied -/
def getSubSetOfFeatures (d : DataDef) (s : List Nat) : Res DataDef := do
  let ts ← s.foldlM (fun r f => do
    let t ← atR d.types f
    pure (r ++ [t])) []
  pure (ofTypes ts)

/-- `numberOfValues(attributeIndex)`: DataDefinition.cpp:115-117 -/
def numberOfValues (d : DataDef) (i : Nat) : Res Nat := do
  let vs ← idxR d.values i
  pure vs.length

/-- the loop of DataDefinition.cpp:126-131, started at position `i` -/
def findFrom (value : String) : List String → Int → Int
  | [], _ => -1
  | v :: vs, i => if v = value then i else findFrom value vs (i + 1)

/-- `featureValueIndex(attributeIndex, value)`: DataDefinition.cpp:125-132 -/
def featureValueIndex (d : DataDef) (i : Nat) (value : String) : Res Int := do
  let vs ← idxR d.values i
  pure (findFrom value vs 0)

end DataDef

/-- The four-way test on the dynamic type of an attribute: DataSet.cpp:110-128, 143-157 -/
def kindOf {F : Type} [Dbl F] (a : Attr F) : Option AttrType :=
  if a.isBinary then some .binary
  else if a.isDiscreteIndexed then some .discreteIndexed
  else if a.isDiscrete then some .discrete
  else if a.isContinuous then some .continuous
  else none

/-- `DataSet`: DataSet.h:14-45 (`instances`, `definition`) -/
structure DataSet (F : Type) where
  instances : IList F
  definition : DataDef
deriving DecidableEq, Repr

namespace DataSet
variable {F : Type} [Dbl F]

/-- `DataSet()`: DataSet.cpp:15-17 -/
def new : DataSet F := ⟨[], DataDef.empty⟩

/-- `DataSet(definition)`: DataSet.cpp:24-27 -/
def ofDefinition (d : DataDef) : DataSet F := ⟨[], d⟩

/-- the loop of `checkDefinition` from attribute `i` on -/
def checkFrom (d : DataDef) : List (Attr F) → Nat → Res Bool
  | [], _ => .ok true
  | a :: as, i =>
    match kindOf a with
    | some k => do
      let t ← d.getAttributeType i
      if t ≠ k then pure false else checkFrom d as (i + 1)
    | none => checkFrom d as (i + 1)

/-- `checkDefinition(instance)`: DataSet.cpp:108-131; there is no length comparison, a longer
instance makes `getAttributeType` throw. -/
def checkDefinition (ds : DataSet F) (x : Inst F) : Res Bool :=
  checkFrom ds.definition x.attrs 0

/-- `setDefinition(instance)`: DataSet.cpp:139-160 -/
def setDefinition (ds : DataSet F) (x : Inst F) : DataSet F :=
  { ds with definition := DataDef.ofTypes (x.attrs.foldl (fun ts a =>
      match kindOf a with
      | some k => ts ++ [k]
      | none => ts) []) }

/-- `sampleSize()`: DataSet.cpp:167-169 -/
def sampleSize (ds : DataSet F) : Nat := ds.instances.length

/-- `classCount()`: DataSet.cpp:176-178 -/
def classCount (ds : DataSet F) : Nat := ds.instances.classDistribution.size

/-- `attributeCount()`: DataSet.cpp:185-187 -/
def attributeCount (ds : DataSet F) : Nat := ds.definition.attributeCount

/-- `getClasses()`: DataSet.cpp:212-220 -/
def getClasses (ds : DataSet F) : Res String := do
  let ls := ds.instances.getDistinctClassLabels
  let first ← atR ls 0
  pure ((ls.drop 1).foldl (fun r l => r ++ (";" ++ l)) first)

/-- `info(dataSetName)`: DataSet.cpp:229-238 -/
def info (ds : DataSet F) (name : String) : Res String := do
  let r := "DATASET: " ++ name ++ "\n"
  let r := r ++ "Number of instances: " ++ toString ds.sampleSize ++ "\n"
  let r := r ++ "Number of distinct class labels: " ++ toString ds.classCount ++ "\n"
  let r := r ++ "Number of attributes: " ++ toString ds.attributeCount ++ "\n"
  let r := r ++ "Number of discrete attributes: " ++
    toString ds.definition.discreteAttributeCount ++ "\n"
  let r := r ++ "Number of continuous attributes: " ++
    toString ds.definition.continuousAttributeCount ++ "\n"
  let c ← ds.getClasses
  pure (r ++ "Class labels: " ++ c)

/-- `addInstance(current)`: DataSet.cpp:255-264 -/
def addInstance (ds : DataSet F) (x : Inst F) : Res (DataSet F) :=
  if ds.definition.attributeCount = 0 then
    let ds := ds.setDefinition x
    .ok { ds with instances := ds.instances.add x }
  else do
    if ← ds.checkDefinition x then
      pure { ds with instances := ds.instances.add x }
    else pure ds

/-- `addInstanceList(list)`: DataSet.cpp:271-275 (an exception is reported as the outcome of
the whole call; the instances added before it stay in the C++ object) -/
def addInstanceList (ds : DataSet F) (l : List (Inst F)) : Res (DataSet F) :=
  l.foldlM (fun ds x => ds.addInstance x) ds

/-- `getClassInstances()`: DataSet.cpp:291-293 -/
def getClassInstances (ds : DataSet F) : Res (Parts F) := Parts.byClass ds.instances

/-- `getSubSetOfFeatures(featureSubSet)`: DataSet.cpp:333-340 -/
def getSubSetOfFeatures (ds : DataSet F) (s : List Nat) : Res (DataSet F) := do
  let d ← ds.definition.getSubSetOfFeatures s
  ds.instances.foldlM (fun r x => do
    let y ← x.getSubSetOfFeatures s
    r.addInstance y) (ofDefinition d)

/-- `writeToFile(outFileName)`: DataSet.cpp:318-325; the characters written -/
def writeToFile (showD : F → String) (ds : DataSet F) : List Char :=
  ds.instances.foldl (fun out x => out ++ ((x.toStr showD).toList ++ ['\n'])) []

end DataSet

/-! ## Reading files -/

/-- What successive `getline` calls deliver: the newline-terminated lines and the text after
the last newline (during which `getline` sets the end-of-file flag). `cur` is the part of the
current line read so far. -/
def splitLines : List Char → List Char → List String × String
  | [], cur => ([], String.ofList cur)
  | c :: cs, cur =>
    if c = '\n' then
      let r := splitLines cs []
      (String.ofList cur :: r.1, r.2)
    else splitLines cs (cur ++ [c])

variable {F : Type} [Dbl F]

/-- one cell of a data file: InstanceList.cpp:52-67. `stod` is the library function
(throwing on text that is not a number). -/
def readCell (stod : String → Res F) (d : DataDef) (i : Nat) (cell : String) : Res (Attr F) := do
  match ← d.getAttributeType i with
  | .discrete => pure (.discrete cell)
  | .binary => pure (.binary cell)
  | .continuous => do
    let v ← stod cell
    pure (.continuous v)
  | .discreteIndexed => do
    let k ← d.featureValueIndex i cell
    let m ← d.numberOfValues i
    pure (.indexed cell k m)

/-- one accepted line of a data file: InstanceList.cpp:49-68 -/
def readRow (stod : String → Res F) (d : DataDef) (fields : List String) : Res (Inst F) := do
  let label ← idxR fields (fields.length - 1)
  (List.range (fields.length - 1)).foldlM (fun x i => do
    let cell ← idxR fields i
    let a ← readCell stod d i cell
    pure (x.addAttribute a)) ⟨label, [], none⟩

/-- the body of the reading loop -/
def readLine (split : String → String → List String) (stod : String → Res F) (d : DataDef)
    (sep : String) (l : IList F) (line : String) : Res (IList F) :=
  let fields := split line sep
  if fields.length = d.attributeCount + 1 then do
    let x ← readRow stod d fields
    pure (l ++ [x])
  else pure l

/-- `InstanceList(definition, separator, fileName)`: InstanceList.cpp:41-73. `split` is
`StringUtils::split` (a dependency). The loop tests `good()` after each `getline`, so the text
after the last newline is not processed. A file that cannot be opened reads like an empty
one. -/
def IList.ofFile (split : String → String → List String) (stod : String → Res F) (d : DataDef)
    (sep : String) (content : List Char) : Res (IList F) :=
  (splitLines content []).1.foldlM (readLine split stod d sep) []

/-- `DataSet(definition, separator, fileName)`: DataSet.cpp:95-98 -/
def DataSet.ofFile (split : String → String → List String) (stod : String → Res F) (d : DataDef)
    (sep : String) (content : List Char) : Res (DataSet F) := do
  let l ← IList.ofFile split stod d sep content
  pure ⟨l, d⟩

/-- the exception caught by DataSet.cpp:48, 69 -/
def isInvalidArgument : Err → Bool
  | .throw "invalid_argument" => true
  | _ => false

/-- the type of one cell of the first line: DataSet.cpp:45-50 -/
def guessStep (stod : String → Res F) (d : DataDef) (c : String) : Res DataDef :=
  match stod c with
  | .ok _ => .ok (d.addAttribute .continuous)
  | .error e => if isInvalidArgument e then .ok (d.addAttribute .discrete) else .error e

/-- the first line: DataSet.cpp:44-51 -/
def guessTypes (stod : String → Res F) (cells : List String) : Res DataDef :=
  cells.foldlM (guessStep stod) DataDef.empty

/-- one cell of a line: DataSet.cpp:65-78 -/
def addCell (stod : String → Res F) (t : AttrType) (c : String) (x : Inst F) : Res (Inst F) :=
  match t with
  | .continuous =>
    match stod c with
    | .ok v => .ok (x.addAttribute (.continuous v))
    | .error e => if isInvalidArgument e then .ok x else .error e
  | .discrete => .ok (x.addAttribute (.discrete c))
  | .binary => .ok x
  | .discreteIndexed => .ok x

/-- cells of a line in the untyped reader: DataSet.cpp:64-79 -/
def readCells (stod : String → Res F) (d : DataDef) (cells : List String) (x : Inst F) :
    Res (Inst F) :=
  (List.range cells.length).foldlM (fun x i => do
    let c ← idxR cells i
    let t ← d.getAttributeType i
    addCell stod t c x) x

/-- the instance a class label stands for: DataSet.cpp:57-63 -/
def labelInst (split : String → String → List String) (label : String) : Res (Inst F) :=
  if ';' ∈ label.toList then Inst.ofPossible (split label ";") else .ok ⟨label, [], none⟩

/-- one line with the right number of columns: DataSet.cpp:57-82 -/
def readFields (split : String → String → List String) (stod : String → Res F) (is : IList F)
    (d : DataDef) (fields : List String) : Res (DataSet F) := do
  let label ← idxR fields (fields.length - 1)
  let x0 ← labelInst split label
  let x ← readCells stod d fields.dropLast x0
  pure ⟨if x.attributeSize = d.attributeCount then is.add x else is, d⟩

/-- the loop body of the untyped reader: DataSet.cpp:42-83; the flag is `i == 0` -/
def readGuessLine (split : String → String → List String) (stod : String → Res F)
    (st : DataSet F × Bool) (line : String) : Res (DataSet F × Bool) :=
  let fields := split line ","
  if st.2 then
    if fields = [] then .error (.ub "operator[] on an empty vector")
    else do
      let d ← guessTypes stod fields.dropLast
      let ds ← readFields split stod st.1.instances d fields
      pure (ds, false)
  else if fields.length ≠ st.1.definition.attributeCount + 1 then .ok st
  else do
    let ds ← readFields split stod st.1.instances st.1.definition fields
    pure (ds, false)

/-- `DataSet(ifstream&)`: DataSet.cpp:34-86. The loop tests `good()` before each `getline`, so
the text after the last newline (possibly empty) is processed as one more line. -/
def DataSet.ofStream (split : String → String → List String) (stod : String → Res F)
    (content : List Char) : Res (DataSet F) := do
  let lines := splitLines content []
  let r ← (lines.1 ++ [lines.2]).foldlM (readGuessLine split stod) (DataSet.new, true)
  pure r.1

end Verif
