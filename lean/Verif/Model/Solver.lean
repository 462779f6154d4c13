import Verif.Model.Kernel

/-! # The SMO solver (`src/Model/Svm/Solver`)

Reading a `vector` with `operator[]` outside its size, or an entry of `out` that was never assigned,
is the outcome `ub`. -/

namespace Verif
open Dbl

variable {F : Type} [Dbl F]

/-- `AlphaStatusType`: AlphaStatusType.h -/
inductive AlphaStatus where
  | lower
  | upper
  | free
deriving DecidableEq, Repr

/-- `fmax` of <cmath>: a NaN argument is ignored -/
def fmaxD (a b : F) : F := if b <=. a then a else if b ==. b then b else a

/-- `fmin` of <cmath>: a NaN argument is ignored -/
def fminD (a b : F) : F := if a <=. b then a else if b ==. b then b else a

/-- members of `Solver` (Solver.h:15-27) and the variable `counter` of `solve` -/
structure Smo (F : Type) where
  l : Nat
  activeSize : Nat
  y : List F
  alpha : List F
  G : List F
  status : List AlphaStatus
  Q : QMat F
  C : F
  b : List F
  activeSet : List Nat
  GBar : List F
  unshrinked : Bool
  shrinking : Bool
  counter : Int
deriving DecidableEq, Repr

/-- `out`: an array of two `int`s without initial value (Solver.cpp:67, 301) -/
structure WorkSet where
  first : Option Nat
  second : Option Nat
deriving DecidableEq, Repr

/-- `v[k] = f(v[k])` -/
def updateAt (v : List F) (k : Nat) (f : F → Res F) : Res (List F) := do
  let a ← idxR v k
  let c ← f a
  pure (v.set k c)

/-- `for (k in ks) v[k] = f(k, v[k])` -/
def updateAll (v : List F) (ks : List Nat) (f : Nat → F → Res F) : Res (List F) :=
  ks.foldlM (fun v k => updateAt v k (f k)) v

/-- the value stored by `updateAlphaStatus`: Solver.cpp:172-182 -/
def statusOf (C a : F) : AlphaStatus :=
  if C <=. a then .upper else if a <=. Dbl.zero then .lower else .free

namespace Smo

/-- `updateAlphaStatus(i)`: Solver.cpp:172-182 -/
def updateAlphaStatus (s : Smo F) (i : Nat) : Res (Smo F) := do
  let a ← idxR s.alpha i
  let _ ← idxR s.status i
  pure { s with status := s.status.set i (statusOf s.C a) }

/-- `isUpperBound(i)`: Solver.cpp:184-186 -/
def isUpper (s : Smo F) (i : Nat) : Res Bool := do
  let t ← idxR s.status i
  pure (decide (t = .upper))

/-- `isLowerBound(i)`: Solver.cpp:188-190 -/
def isLower (s : Smo F) (i : Nat) : Res Bool := do
  let t ← idxR s.status i
  pure (decide (t = .lower))

/-- `isFree(i)`: Solver.cpp:192-194 -/
def isFree (s : Smo F) (i : Nat) : Res Bool := do
  let t ← idxR s.status i
  pure (decide (t = .free))

/-- `swapIndex(i, j)`: Solver.cpp:200-209 -/
def swapIndex (s : Smo F) (i j : Nat) : Res (Smo F) := do
  let Q ← s.Q.swapIndex i j
  let y ← swapR s.y i j
  let G ← swapR s.G i j
  let alpha ← swapR s.alpha i j
  let b ← swapR s.b i j
  let GBar ← swapR s.GBar i j
  let activeSet ← swapR s.activeSet i j
  let status ← swapR s.status i j
  pure { s with Q := Q, y := y, G := G, alpha := alpha, b := b, GBar := GBar,
                activeSet := activeSet, status := status }

/-- loop body Solver.cpp:217-219 -/
def resetEntry (s : Smo F) (i : Nat) (_old : F) : Res F := do
  let g ← idxR s.GBar i
  let b ← idxR s.b i
  pure (g +. b)

/-- `v[j] += c * q[j]`: Solver.cpp:50, 54, 145, 149, 157, 161, 225 -/
def addScaled (c : F) (q : List F) (j : Nat) (old : F) : Res F := do
  let a ← idxR q j
  pure (old +. (c *. a))

/-- `v[j] -= c * q[j]`: Solver.cpp:145, 157 -/
def subScaled (c : F) (q : List F) (j : Nat) (old : F) : Res F := do
  let a ← idxR q j
  pure (old -. (c *. a))

/-- loop body Solver.cpp:220-228 -/
def freeContribution (s : Smo F) (G : List F) (i : Nat) : Res (List F) := do
  let free ← s.isFree i
  if free then do
    let Qi ← s.Q.getQ i s.l
    let a ← idxR s.alpha i
    updateAll G (List.range' s.activeSize (s.l - s.activeSize)) (addScaled a Qi)
  else pure G

/-- `reconstructGradient()`: Solver.cpp:211-229 -/
def reconstructGradient (s : Smo F) : Res (Smo F) :=
  if s.activeSize = s.l then pure s
  else do
    let G ← updateAll s.G (List.range' s.activeSize (s.l - s.activeSize)) s.resetEntry
    let G ← (List.range s.activeSize).foldlM s.freeContribution G
    pure { s with G := G }

/-- the variables `GMax` and `out` of `selectWorkingSet` -/
structure Sel (F : Type) where
  g0 : F
  g1 : F
  out : WorkSet
deriving DecidableEq, Repr

/-- `if (v >= GMax[0]) { GMax[0] = v; out[0] = i; }` -/
def Sel.offer0 (t : Sel F) (v : F) (i : Nat) : Sel F :=
  if t.g0 <=. v then { t with g0 := v, out := { t.out with first := some i } } else t

/-- `if (v >= GMax[1]) { GMax[1] = v; out[1] = i; }` -/
def Sel.offer1 (t : Sel F) (v : F) (i : Nat) : Sel F :=
  if t.g1 <=. v then { t with g1 := v, out := { t.out with second := some i } } else t

/-- loop body Solver.cpp:234-260 for label `y`, gradient `g` and status `u` of row `i` -/
def selRow (t : Sel F) (i : Nat) (y g : F) (u : AlphaStatus) : Sel F :=
  if y ==. Dbl.ofInt 1 then
    let t := if u ≠ .upper then t.offer0 (Dbl.neg g) i else t
    if u ≠ .lower then t.offer1 g i else t
  else
    let t := if u ≠ .upper then t.offer1 (Dbl.neg g) i else t
    if u ≠ .lower then t.offer0 g i else t

/-- loop body Solver.cpp:233-261 -/
def selStep (s : Smo F) (t : Sel F) (i : Nat) : Res (Sel F) := do
  let y ← idxR s.y i
  let u ← idxR s.status i
  let g ← idxR s.G i
  pure (selRow t i y g u)

/-- `selectWorkingSet(out)`: Solver.cpp:231-266; returns the answer and the array `out` -/
def selectWorkingSet (s : Smo F) (out : WorkSet) : Res (Bool × WorkSet) := do
  let t ← (List.range s.activeSize).foldlM s.selStep ⟨Dbl.neg Dbl.maxVal, Dbl.neg Dbl.maxVal, out⟩
  pure ((t.g0 +. t.g1) <. Dbl.lit (1/1000), t.out)

/-- reads an entry of `out` -/
def readOut (o : Option Nat) : Res Nat :=
  match o with
  | some i => pure i
  | none => .error (.ub "uninitialised")

/-- condition for `continue` in the loop Solver.cpp:307-332: the row `k` stays active -/
def staysActive (s : Smo F) (gm0 gm1 : F) (k : Nat) : Res Bool := do
  let u ← idxR s.status k
  let y ← idxR s.y k
  let g ← idxR s.G k
  pure (match u with
    | .lower => if y ==. Dbl.ofInt 1 then gm0 <=. Dbl.neg g else gm1 <=. Dbl.neg g
    | .upper => if y ==. Dbl.ofInt 1 then gm1 <=. g else gm0 <=. g
    | .free => true)

/-- loop Solver.cpp:307-336; `n` is the number `activeSize - k` of rows still to be looked at, which
both branches of the loop decrease by one -/
def shrinkLoop (gm0 gm1 : F) : (n k : Nat) → Smo F → Res (Smo F)
  | 0, _, s => pure s
  | n + 1, k, s => do
    let stay ← s.staysActive gm0 gm1 k
    if stay then shrinkLoop gm0 gm1 n (k + 1) s
    else do
      let s' ← ({ s with activeSize := s.activeSize - 1 } : Smo F).swapIndex k (s.activeSize - 1)
      shrinkLoop gm0 gm1 n k s'

/-- condition for `continue` in the loop Solver.cpp:342-367: the row `k` stays inactive -/
def staysInactive (s : Smo F) (gm0 gm1 : F) (k : Nat) : Res Bool := do
  let u ← idxR s.status k
  let y ← idxR s.y k
  let g ← idxR s.G k
  pure (match u with
    | .lower => if y ==. Dbl.ofInt 1 then Dbl.neg g <. gm0 else Dbl.neg g <. gm1
    | .upper => if y ==. Dbl.ofInt 1 then g <. gm1 else g <. gm0
    | .free => true)

/-- loop Solver.cpp:342-371 with `k + 1 = activeSize + n`; the branch that makes a row active leaves
`k` as it is (`k++` before `k--`) and increases `activeSize`, so both branches decrease `n` -/
def unshrinkLoop (gm0 gm1 : F) : (n : Nat) → Smo F → Res (Smo F)
  | 0, s => pure s
  | n + 1, s => do
    let stay ← s.staysInactive gm0 gm1 (s.activeSize + n)
    if stay then unshrinkLoop gm0 gm1 n s
    else do
      let s' ← s.swapIndex (s.activeSize + n) s.activeSize
      unshrinkLoop gm0 gm1 n { s' with activeSize := s.activeSize + 1 }

/-- `doShrinking()`: Solver.cpp:299-372 -/
def doShrinking (s : Smo F) : Res (Smo F) := do
  let w ← s.selectWorkingSet ⟨none, none⟩
  if w.1 then pure s
  else do
    let o1 ← readOut w.2.second
    let o0 ← readOut w.2.first
    let y1 ← idxR s.y o1
    let g1 ← idxR s.G o1
    let y0 ← idxR s.y o0
    let g0 ← idxR s.G o0
    let gm0 := Dbl.neg y1 *. g1
    let gm1 := y0 *. g0
    let s ← shrinkLoop gm0 gm1 s.activeSize 0 s
    if s.unshrinked || (Dbl.lit (1/1000) *. Dbl.ofInt 10 <. Dbl.neg (gm0 +. gm1)) then pure s
    else do
      let s ← ({ s with unshrinked := true } : Smo F).reconstructGradient
      unshrinkLoop gm0 gm1 (s.l - s.activeSize) s

/-- Solver.cpp:61-66 -/
def countDown (s : Smo F) : Res (Smo F) :=
  if s.counter - 1 = 0 then
    let s' : Smo F := { s with counter := (min s.l 1000 : Nat) }
    if s.shrinking then s'.doShrinking else pure s'
  else pure { s with counter := s.counter - 1 }

/-- Solver.cpp:61-78: the chosen pair, `none` for `break` -/
def choose (s : Smo F) : Res (Smo F × Option (Nat × Nat)) := do
  let s ← s.countDown
  let w ← s.selectWorkingSet ⟨none, none⟩
  if w.1 then do
    let s ← s.reconstructGradient
    let s : Smo F := { s with activeSize := s.l }
    let w' ← s.selectWorkingSet w.2
    if w'.1 then pure (s, none)
    else do
      let i ← readOut w'.2.first
      let j ← readOut w'.2.second
      pure ({ s with counter := 1 }, some (i, j))
  else do
    let i ← readOut w.2.first
    let j ← readOut w.2.second
    pure (s, some (i, j))

end Smo

/-- Solver.cpp:88-96 for `alpha[i]` and `alpha[j]` -/
def clipDiff (C diff : F) (a : F × F) : F × F :=
  let a := if a.2 <. Dbl.zero then (diff, Dbl.zero) else a
  if C <. a.1 then (C, C -. diff) else a

/-- Solver.cpp:98-105 for `alpha[i]` and `alpha[j]` -/
def clipDiffNeg (C diff : F) (a : F × F) : F × F :=
  let a := if a.1 <. Dbl.zero then (Dbl.zero, Dbl.neg diff) else a
  if C <. a.2 then (C +. diff, C) else a

/-- Solver.cpp:113-120 for `alpha[i]` and `alpha[j]` -/
def clipSumHigh (C sum : F) (a : F × F) : F × F :=
  let a := if C <. a.1 then (C, sum -. C) else a
  if C <. a.2 then (sum -. C, C) else a

/-- Solver.cpp:122-129 for `alpha[i]` and `alpha[j]` -/
def clipSumLow (sum : F) (a : F × F) : F × F :=
  let a := if a.2 <. Dbl.zero then (sum, Dbl.zero) else a
  if a.1 <. Dbl.zero then (Dbl.zero, sum) else a

/-- Solver.cpp:83-131: the new `alpha[i]` and `alpha[j]`, from the labels, the gradients, the
multipliers and `Qi[i]`, `Qj[j]`, `Qi[j]` -/
def movePair (C yi yj gi gj ai aj qii qjj qij : F) : F × F :=
  if (yi ==. yj) = false then
    let delta := (Dbl.neg gi -. gj) /. fmaxD ((qii +. qjj) +. (Dbl.ofInt 2 *. qij)) Dbl.zero
    let diff := ai -. aj
    let a := (ai +. delta, aj +. delta)
    if Dbl.zero <. diff then clipDiff C diff a else clipDiffNeg C diff a
  else
    let delta := (gi -. gj) /. fmaxD ((qii +. qjj) -. (Dbl.ofInt 2 *. qij)) Dbl.zero
    let sum := ai +. aj
    let a := (ai -. delta, aj +. delta)
    if C <. sum then clipSumHigh C sum a else clipSumLow sum a

namespace Smo

/-- loop body Solver.cpp:134-136 -/
def gradEntry (Qi Qj : List F) (di dj : F) (k : Nat) (old : F) : Res F := do
  let a ← idxR Qi k
  let b ← idxR Qj k
  pure (old +. ((a *. di) +. (b *. dj)))

/-- Solver.cpp:141-152 (and 153-164): `GBar` after the status of row `i` changed -/
def barUpdate (s : Smo F) (i : Nat) (before after : Bool) (GBar : List F) : Res (List F) :=
  if before ≠ after then do
    let Qi ← s.Q.getQ i s.l
    if before then updateAll GBar (List.range s.l) (subScaled s.C Qi)
    else updateAll GBar (List.range s.l) (addScaled s.C Qi)
  else pure GBar

/-- `alpha[i]` and `alpha[j]` are assigned: Solver.cpp:79-131; `i` is written before `j` (for
`i = j` the C++ statements would alternate on one cell; `selectWorkingSet` never chooses `i = j`
when it answers `false` in exact arithmetic, see `C69`) -/
def moveAlpha (s : Smo F) (i j : Nat) (Qi Qj : List F) : Res (List F × F × F) := do
  let ai ← idxR s.alpha i
  let aj ← idxR s.alpha j
  let yi ← idxR s.y i
  let yj ← idxR s.y j
  let gi ← idxR s.G i
  let gj ← idxR s.G j
  let qii ← idxR Qi i
  let qjj ← idxR Qj j
  let qij ← idxR Qi j
  let a := movePair s.C yi yj gi gj ai aj qii qjj qij
  pure ((s.alpha.set i a.1).set j a.2, a.1 -. ai, a.2 -. aj)

/-- Solver.cpp:79-164 -/
def move (s : Smo F) (i j : Nat) : Res (Smo F) := do
  let Qi ← s.Q.getQ i s.activeSize
  let Qj ← s.Q.getQ j s.activeSize
  let m ← s.moveAlpha i j Qi Qj
  let G ← updateAll s.G (List.range s.activeSize) (gradEntry Qi Qj m.2.1 m.2.2)
  let ui ← s.isUpper i
  let uj ← s.isUpper j
  let s ← ({ s with alpha := m.1, G := G } : Smo F).updateAlphaStatus i
  let s ← s.updateAlphaStatus j
  let vi ← s.isUpper i
  let GBar ← s.barUpdate i ui vi s.GBar
  let vj ← s.isUpper j
  let GBar ← s.barUpdate j uj vj GBar
  pure { s with GBar := GBar }

/-- body of the loop Solver.cpp:60-165; `true` for `break` -/
def iterate (s : Smo F) : Res (Smo F × Bool) := do
  let c ← s.choose
  match c.2 with
  | none => pure (c.1, true)
  | some (i, j) => do
    let s ← c.1.move i j
    pure (s, false)

/-- at most `n` rounds of the loop Solver.cpp:60-165; the flag tells whether `break` was reached -/
def run : Nat → Smo F → Res (Smo F × Bool)
  | 0, s => pure (s, false)
  | n + 1, s => do
    let r ← s.iterate
    if r.2 then pure r else run n r.1

/-- loop body Solver.cpp:45-58 -/
def initialRow (s : Smo F) (i : Nat) : Res (Smo F) := do
  let low ← s.isLower i
  if low then pure s
  else do
    let Qi ← s.Q.getQ i s.l
    let a ← idxR s.alpha i
    let G ← updateAll s.G (List.range s.l) (addScaled a Qi)
    let up ← s.isUpper i
    if up then do
      let GBar ← updateAll s.GBar (List.range s.l) (addScaled s.C Qi)
      pure { s with G := G, GBar := GBar }
    else pure { s with G := G }

/-- constructor (Solver.cpp:10-17) and Solver.cpp:25-59 -/
def start (l : Nat) (x : List (NodeL F)) (y b : List F) (p : SvmParam F) : Res (Smo F) := do
  let Q ← QMat.make l x p y
  let G ← (List.range l).mapM (idxR b)
  let s : Smo F :=
    { l := l, activeSize := l, y := y, alpha := List.replicate l Dbl.zero, G := G,
      status := List.replicate l (statusOf p.C Dbl.zero), Q := Q, C := p.C, b := b,
      activeSet := List.range l, GBar := List.replicate l Dbl.zero, unshrinked := false,
      shrinking := p.shrinking, counter := (min l 1000 : Nat) + 1 }
  (List.range l).foldlM initialRow s

/-- loop body Solver.cpp:167: reads and writes the same array -/
def writeBack (activeSet : List Nat) (alpha : List F) (i : Nat) : Res (List F) := do
  let a ← idxR alpha i
  let k ← idxR activeSet i
  let _ ← idxR alpha k
  pure (alpha.set k a)

/-- variables of `calculateRho`: Solver.cpp:269-270 -/
structure RhoAcc (F : Type) where
  upper : F
  lower : F
  sumFree : F
  free : Nat
deriving DecidableEq, Repr

/-- loop body Solver.cpp:272-290 for label `y`, gradient `g` and status `u` -/
def rhoRow (r : RhoAcc F) (y g : F) (u : AlphaStatus) : RhoAcc F :=
  let yG := y *. g
  match u with
  | .lower =>
    if Dbl.zero <. y then { r with upper := fminD r.upper yG } else { r with lower := fmaxD r.lower yG }
  | .upper =>
    if y <. Dbl.zero then { r with upper := fminD r.upper yG } else { r with lower := fmaxD r.lower yG }
  | .free => { r with free := r.free + 1, sumFree := r.sumFree +. yG }

/-- loop body Solver.cpp:271-291 -/
def rhoStep (s : Smo F) (r : RhoAcc F) (i : Nat) : Res (RhoAcc F) := do
  let y ← idxR s.y i
  let g ← idxR s.G i
  let u ← idxR s.status i
  pure (rhoRow r y g u)

/-- `calculateRho()`: Solver.cpp:268-297 -/
def calculateRho (s : Smo F) : Res F := do
  let r ← (List.range s.activeSize).foldlM s.rhoStep ⟨Dbl.maxVal, Dbl.neg Dbl.maxVal, Dbl.zero, 0⟩
  pure (if r.free > 0 then r.sumFree /. Dbl.ofNat r.free
    else (r.upper +. r.lower) /. Dbl.ofInt 2)

/-- Solver.cpp:166-169 -/
def finish (s : Smo F) : Res (F × List F) := do
  let alpha ← (List.range s.l).foldlM (writeBack s.activeSet) s.alpha
  let rho ← ({ s with alpha := alpha } : Smo F).calculateRho
  pure (rho, alpha)

/-- `solve()`: Solver.cpp:19-170, stopped after `n` rounds; `none` when `break` was not reached -/
def solve (n l : Nat) (x : List (NodeL F)) (y b : List F) (p : SvmParam F) :
    Res (Option (F × List F)) := do
  let s ← start l x y b p
  let r ← run n s
  if r.2 then do
    let o ← r.1.finish
    pure (some o)
  else pure none

end Smo

end Verif
