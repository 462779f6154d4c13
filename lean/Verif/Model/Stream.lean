import Verif.Model.Deps

/-! # Text streams (`std::ostream`, `std::ifstream`)

Contract of the C++ standard library, part of the trusted base: formatted output is the
sequence of written characters, formatted input skips white space and sets `failbit`. Numbers
too large for their type are not modelled. -/

namespace Verif
open Dbl

/-- `isspace` in the "C" locale -/
def isBlank (c : Char) : Bool :=
  c = ' ' || c = '\n' || c = '\t' || c = '\r' || c = '\x0b' || c = '\x0c'

/-- an open `ifstream`: the characters not yet read, and whether `failbit` is set -/
structure In where
  rest : List Char
  failed : Bool
deriving DecidableEq, Repr

/-- a freshly opened file with the given contents -/
def In.ofText (t : List Char) : In := ⟨t, false⟩

/-- a computation that reads from a stream and may fail -/
abbrev Rd (α : Type) := StateT In Res α

/-- `out << s << "\n"` -/
def line (s : String) : List Char := s.toList ++ ['\n']

/-- conversions between numbers and text: `out << x` (six significant digits), `in >> x`
(`none` when no number can be read), `std::to_string(x)`, `stof(s)`, `stoi(s)`. Parameters of
the model; contracts are stated where they are used. -/
structure Txt (F : Type) where
  shown : F → String
  scan : List Char → Option (F × List Char)
  toStr : F → String
  stof : String → Res F
  stoi : String → Res Int

/-- using a local variable: undefined when it was never given a value -/
def use {α : Type} (v : Option α) : Rd α :=
  match v with
  | some a => pure a
  | none => throw (.ub "uninitialised variable")

/-- `in >> s` for a string: `old` is the value of `s` before. On an exhausted stream the
variable keeps its value. (Since C++11 `operator>>` clears the string only after the sentry
succeeded.) -/
def rdWord (old : String) : Rd String := fun i =>
  if i.failed then .ok (old, i)
  else match i.rest.dropWhile isBlank with
    | [] => .ok (old, ⟨[], true⟩)
    | c :: cs => .ok (String.ofList ((c :: cs).takeWhile (fun c => !isBlank c)),
        ⟨(c :: cs).dropWhile (fun c => !isBlank c), false⟩)

/-- the digits at the front of a text, as a number, and what follows -/
def scanNat (s : List Char) : Option (Nat × List Char) :=
  match s.takeWhile Char.isDigit with
  | [] => none
  | c :: cs => some (Nat.ofDigitChars 10 (c :: cs) 0, s.dropWhile Char.isDigit)

/-- the integer at the front of a text, and what follows -/
def scanInt (s : List Char) : Option (Int × List Char) :=
  match s with
  | '-' :: s => (scanNat s).map (fun p => (-(p.1 : Int), p.2))
  | '+' :: s => (scanNat s).map (fun p => ((p.1 : Int), p.2))
  | s => (scanNat s).map (fun p => ((p.1 : Int), p.2))

/-- `in >> n` for a number: `old` is the value before (`none`: uninitialised). An exhausted or
failed stream leaves the variable alone; text that is no number stores 0 and sets `failbit`. -/
def rdNum {α : Type} (scan : List Char → Option (α × List Char)) (zero : α) (old : Option α) :
    Rd (Option α) := fun i =>
  if i.failed then .ok (old, i)
  else match i.rest.dropWhile isBlank with
    | [] => .ok (old, ⟨[], true⟩)
    | c :: cs => match scan (c :: cs) with
      | some (n, rest) => .ok (some n, ⟨rest, false⟩)
      | none => .ok (some zero, ⟨c :: cs, true⟩)

/-- `in >> n`, `int n` -/
def rdInt (old : Option Int) : Rd (Option Int) := rdNum scanInt 0 old

/-- `in >> x`, `double x` -/
def rdDouble {F : Type} [Dbl F] (T : Txt F) (old : Option F) : Rd (Option F) :=
  rdNum T.scan Dbl.zero old

/-- `in >> c`, `char c` -/
def rdChar (old : Option Char) : Rd (Option Char) := fun i =>
  if i.failed then .ok (old, i)
  else match i.rest.dropWhile isBlank with
    | [] => .ok (old, ⟨[], true⟩)
    | c :: cs => .ok (some c, ⟨cs, false⟩)

/-- `in.ignore()`: one character; end of file does not set `failbit` -/
def rdIgnore : Rd Unit := fun i =>
  if i.failed then .ok ((), i) else .ok ((), ⟨i.rest.tail, false⟩)

/-- `getline(in, s)`: the sentry does not skip white space; an exhausted stream leaves the
empty string and sets `failbit`, a failed one leaves `s` alone -/
def rdLine (old : String) : Rd String := fun i =>
  if i.failed then .ok (old, i)
  else match i.rest with
    | [] => .ok ("", ⟨[], true⟩)
    | c :: cs => .ok (String.ofList ((c :: cs).takeWhile (fun c => c != '\n')),
        ⟨((c :: cs).dropWhile (fun c => c != '\n')).tail, false⟩)

/-- `for (int i = 0; i < n; i++)`; the state is the variables the body changes -/
def rdLoop {σ : Type} (body : σ → Rd σ) : Nat → σ → Rd σ
  | 0, s => pure s
  | n + 1, s => do
    let s ← body s
    rdLoop body n s

/-! ## The Math library

`serialize` and the stream constructors of `DiscreteDistribution`, `Vector` and `Matrix` are
not in /repo. They are parameters; what theorems need of them is `LibOk` (Spec/Stream). -/

/-- writers and readers of the Math library -/
structure MathLib (F : Type) where
  ddText : DD → List Char
  ddRead : Rd DD
  vecText : List F → List Char
  vecRead : Rd (List F)

/-- writer and reader of `Matrix` (Math library) -/
structure MatLib (F M : Type) where
  matText : M → List Char
  matRead : Rd M

end Verif
