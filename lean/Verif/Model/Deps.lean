import Verif.Model.Dbl
import Mathlib.Data.String.Basic

/-!
# Contracts of the libraries /repo depends on

None of these is in /repo; they are modelled after the published Starlang libraries
(DataStructure, Math, Sampling, Util) and are part of the trusted base.
-/

namespace Verif
open Dbl

/-! ## `std::map<string, V>`: association list in increasing key order -/

/-- `std::map<string, V>` in iteration order. (`std::string` compares bytes; for UTF-8 this
is the code point order of Lean's `String`.) -/
abbrev OMap (V : Type) := List (String × V)

namespace OMap
variable {V : Type}

/-- `find(k)->second` -/
def find? (m : OMap V) (k : String) : Option V := m.lookup k

/-- `m[k] = v` / `insert_or_assign` -/
def insert : OMap V → String → V → OMap V
  | [], k, v => [(k, v)]
  | (k', v') :: m, k, v =>
    if k = k' then (k, v) :: m
    else if k < k' then (k, v) :: (k', v') :: m
    else (k', v') :: insert m k v

/-- `m.emplace(k, v)`: does nothing when the key is present -/
def emplace (m : OMap V) (k : String) (v : V) : OMap V :=
  match m.find? k with
  | some _ => m
  | none => m.insert k v

/-- `m.erase(k)` -/
def erase (m : OMap V) (k : String) : OMap V := m.filter (fun p => p.1 != k)

/-- keys in iteration order -/
def keys (m : OMap V) : List String := m.map Prod.fst

/-- `containsKey` -/
def contains (m : OMap V) (k : String) : Bool := (m.find? k).isSome

end OMap

/-! ## `CounterHashMap<string>` -/

/-- `CounterHashMap<string>` (a `map<string, int>` of counts) -/
abbrev Counter := OMap Nat

namespace Counter

/-- `count(item)`: 0 when absent -/
def count (m : Counter) (k : String) : Nat := (OMap.find? m k).getD 0

/-- `put(item)`: add one -/
def put (m : Counter) (k : String) : Counter := OMap.insert m k (count m k + 1)

/-- `putNTimes(item, n)` -/
def putN (m : Counter) (k : String) (n : Nat) : Counter := OMap.insert m k (count m k + n)

/-- `sumOfCounts()` -/
def sumOfCounts (m : Counter) : Nat := m.foldl (fun s p => s + p.2) 0

/-- `add(other)`: `putNTimes` for every entry of the other map -/
def addAll (m other : Counter) : Counter := other.foldl (fun m p => putN m p.1 p.2) m

/-- first key with the strictly greatest count, starting from `("", 0)`: `max()` -/
def max (m : Counter) : String :=
  (m.foldl (fun (b : String × Nat) p => if p.2 > b.2 then p else b) ("", 0)).1

end Counter

/-! ## `DiscreteDistribution` -/

/-- `DiscreteDistribution`: counts plus a running total -/
structure DD where
  m : Counter
  sum : Nat
deriving DecidableEq, Repr

namespace DD

/-- default constructor -/
def empty : DD := ⟨[], 0⟩

/-- `addItem` -/
def addItem (d : DD) (k : String) : DD := ⟨Counter.put d.m k, d.sum + 1⟩

/-- `removeItem` (of a present item): decrement, erase at 0 -/
def removeItem (d : DD) (k : String) : DD :=
  let c := Counter.count d.m k
  if c ≤ 1 then ⟨OMap.erase d.m k, d.sum - 1⟩ else ⟨OMap.insert d.m k (c - 1), d.sum - 1⟩

/-- `addDistribution` -/
def addDistribution (d e : DD) : DD :=
  ⟨Counter.addAll d.m e.m, d.sum + e.sum⟩

/-- `removeDistribution` (of a sub-distribution): subtract the counts, erase those that
become 0, subtract the totals -/
def removeDistribution (d e : DD) : DD :=
  ⟨e.m.foldl (fun m p =>
      if Counter.count m p.1 - p.2 ≠ 0 then OMap.insert m p.1 (Counter.count m p.1 - p.2)
      else OMap.erase m p.1) d.m,
   d.sum - e.sum⟩

/-- `getSum()` -/
def getSum (d : DD) : Nat := d.sum

/-- `getCount(item)` -/
def getCount (d : DD) (k : String) : Nat := Counter.count d.m k

/-- `containsItem(item)` -/
def containsItem (d : DD) (k : String) : Bool := OMap.contains d.m k

/-- `getItems()` in key order -/
def getItems (d : DD) : List String := OMap.keys d.m

/-- `size()` -/
def size (d : DD) : Nat := d.m.length

/-- `getIndex(item)`: position in key order, -1 when absent -/
def getIndex (d : DD) (k : String) : Int :=
  if k ∈ getItems d then ((getItems d).idxOf k : Int) else -1

/-- `getMaxItem()`: first item in key order with the strictly greatest count (start -1) -/
def getMaxItem (d : DD) : String :=
  (d.m.foldl (fun (b : String × Int) p => if (p.2 : Int) > b.2 then (p.1, (p.2 : Int)) else b)
    ("", -1)).1

/-- `getMaxItem(list)`: first item of the list with the strictly greatest frequency
(absent items have frequency 0, start -1) -/
def getMaxItemOf (d : DD) (l : List String) : String :=
  (l.foldl (fun (b : String × Int) k =>
      if (getCount d k : Int) > b.2 then (k, (getCount d k : Int)) else b) ("", -1)).1

variable {F : Type} [Dbl F]

/-- `getProbability(item)`: `count / sum`, 0 when absent -/
def getProbability (d : DD) (k : String) : F :=
  match OMap.find? d.m k with
  | some c => (Dbl.ofNat c : F) /. Dbl.ofNat d.sum
  | none => Dbl.zero

/-- `getProbabilityLaplaceSmoothing(item)` -/
def getProbabilityLaplace (d : DD) (k : String) : F :=
  match OMap.find? d.m k with
  | some c => (Dbl.ofNat (c + 1) : F) /. Dbl.ofNat (d.sum + d.m.length + 1)
  | none => (Dbl.one : F) /. Dbl.ofNat (d.sum + d.m.length + 1)

/-- `getProbabilityDistribution()` -/
def getProbabilityDistribution (d : DD) : OMap F :=
  d.m.map (fun p => (p.1, getProbability d p.1))

/-- `entropy()`: `-Σ p log2 p` over the entries, in key order -/
def entropy (d : DD) : F :=
  d.m.foldl (fun (s : F) p =>
    let pr : F := (Dbl.ofNat p.2 : F) /. Dbl.ofNat d.sum
    s -. (pr *. Dbl.log pr) /. Dbl.log (Dbl.ofInt 2 : F)) Dbl.zero

end DD

/-! ## stable sort -/

/-- insert `x` before the first element that is not smaller -/
def insertBy {α : Type} (lt : α → α → Bool) (x : α) : List α → List α
  | [] => [x]
  | y :: ys => if lt y x then y :: insertBy lt x ys else x :: y :: ys

/-- `std::stable_sort` with comparator `lt` (for a comparator that is a strict weak order on
the elements; otherwise the C++ call is undefined) -/
def stableSort {α : Type} (lt : α → α → Bool) (l : List α) : List α :=
  l.foldr (insertBy lt) []

end Verif
