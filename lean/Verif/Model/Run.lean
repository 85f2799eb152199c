import Verif.Model.Sim
import Verif.Model.Cards
import Mathlib.Analysis.SpecialFunctions.Trigonometric.Basic
/-
Model of the time loop of src/simulation.c and of the observers of src/observer.c.
Unscaled fields (`UNSCALE_Ex( v , i ) = v`, the default build). `real` is `ℝ`; `unsigned long` is 64 bits.
-/
namespace Vulture.Run
open Real

/-! ### Simulation -/

/-- `parseNT` on the scanned number; `numSteps < 0UL` is never true. src/simulation.c:83-104 -/
def parseNT (scanned : Option (BitVec 64)) : Option (BitVec 64) := scanned.bind fun n =>
  if n < 0 then none else some n

open Classical in
/-- `parseCN` on the scanned number. src/simulation.c:63-80 -/
noncomputable def parseCN (scanned : Option ℝ) : Option ℝ := scanned.bind fun c => if c ≥ 1 then none else some c

open Classical in
/-- Courant number of the run; `courantNumber` starts as -1. src/simulation.c:51, 112-118 -/
noncomputable def courant (card : Option ℝ) : ℝ :=
  let c := card.getD (-1)
  if c < 0 then sqrt 3 / 2 else c

/-- The time loop with `fuel` evaluations of its condition: `none` while it has not ended. A body that does not return
is `none` as well. `numTimeSteps - 1` and the counter wrap at 64 bits. src/simulation.c:157-223 -/
def loop {σ : Type*} (N : BitVec 64) (body : BitVec 64 → σ → Option σ) : Nat → BitVec 64 → σ → Option σ
  | 0, _, _ => none
  | f + 1, t, s => if t ≤ N - 1 then (body t s).bind fun s' => loop N body f (t + 1) s' else some s

/-- The loop ends with `r`. -/
def Ends {σ : Type*} (N : BitVec 64) (body : BitVec 64 → σ → Option σ) (s r : σ) : Prop :=
  ∃ fuel, loop N body fuel 0 s = some r

/-! ### Observers -/

/-- Kinds of observer the program can create. src/observer.c:179-182, 455-459 -/
inductive Kind | wfTime | wfFreq | binary | asciiTime | asciiFreq
  deriving DecidableEq, Repr

/-- `ObserverItem` after `initObservers`. src/observer.c:51-86 -/
structure Item where
  kind : Kind
  gbbox : BBox
  step : Axis → Int
  waveform : Nat

/-- `initObservers`: the observers of the mesh, then two for every waveform. src/observer.c:449-472 -/
def allItems (user : List Item) (numWaveforms : Nat) : List Item :=
  user ++ (List.range numWaveforms).flatMap fun w =>
    [⟨.wfTime, fun _ => 0, fun _ => 0, w⟩, ⟨.wfFreq, fun _ => 0, fun _ => 0, w⟩]

/-- `parseOT`. src/observer.c:332-348 -/
def parseOT (start stop : BitVec 64) : Option (BitVec 64 × BitVec 64) := if stop < start then none else some (start, stop)

/-- Output window. src/observer.c:416-421 -/
def window (ot : Option (BitVec 64 × BitVec 64)) (N : BitVec 64) : BitVec 64 × BitVec 64 := ot.getD (0, N - 1)

/-- `numOutTimeSteps`. src/observer.c:425 -/
def numOut (w : BitVec 64 × BitVec 64) : BitVec 64 := w.2 - w.1 + 1

/-- What the set-up hands to the observers; `wave w t` is `getWaveformValue( t , w , 0.0 )`. -/
structure Env where
  items : List Item
  win : BitVec 64 × BitVec 64
  numFreq : Nat
  omega : Nat → ℝ
  wave : Nat → ℝ → ℝ
  giboxLo : Axis → Int

/-- `omega[f]`. src/observer.c:511-512 -/
noncomputable def omegaOf (startFreq stepFreq : ℝ) (f : Nat) : ℝ := 2 * π * (startFreq + f * stepFreq)

/-- `stepFreq`. src/observer.c:430-442 -/
noncomputable def stepFreqOf (of : Option (ℝ × ℝ × Nat)) (N : Nat) (dt : ℝ) : ℝ :=
  match of with
  | none => 1 / (N * dt)
  | some (f0, f1, n) => (f1 - f0) / (n - 1)

/-- `numFreq`. src/observer.c:434, 388 -/
def numFreqOf (of : Option (ℝ × ℝ × Nat)) (N : Nat) : Nat :=
  match of with
  | none => max (N / 10) 1
  | some (_, _, n) => n

/-- One line of an ASCII time file: step number, time, values. src/observer.c:797-801 -/
structure Line where
  step : BitVec 64
  time : ℝ
  values : List ℝ

/-- One record of impulse.dat: node in mesh coordinates, six field values. src/observer.c:1180-1193 -/
structure Rec where
  node : Int × Int × Int
  values : List ℝ

/-- What has been written, and the running transforms. -/
structure Out where
  excite : List ℝ
  lines : Nat → List Line
  impulse : List Rec
  dft : Nat → Nat → Nat → ℝ × ℝ

/-- Before the run: files without records, zero transforms. src/observer.c:925-932 -/
def Out.empty : Out := ⟨[], fun _ => [], [], fun _ _ _ => (0, 0)⟩

/-- `for( i = lo ; i <= hi ; i += step )` with `fuel` evaluations of the condition: the values of `i`. -/
def forLoop (hi step : Int) : Nat → Int → Option (List Int)
  | 0, _ => none
  | f + 1, i => if i ≤ hi then (forLoop hi step f (i + step)).map (i :: ·) else some []

/-- The values the loop takes when the step is positive. -/
def strided (lo hi step : Int) : List Int := (List.range ((hi - lo) / step + 1).toNat).map fun (m : Nat) => lo + m * step

/-- The result of the loop: it does not end when the step is zero. See `forLoop` and `C32.for_loop`. -/
def forStep (lo hi step : Int) : Option (List Int) :=
  if step ≥ 1 then some (strided lo hi step) else if lo > hi then some [] else none

/-- `getNumberOfOutputNodes` along an axis; C division. src/observer.c:523-532 -/
def numNodes (b : BBox) (step : Axis → Int) (a : Axis) : Int := 1 + (b a.hi - b a.lo).tdiv (step a)

/-- Nodes of a binary observer in the order they are written: x fastest. src/observer.c:1172-1174 -/
def boxNodes (b : BBox) (step : Axis → Int) : Option (List (Int × Int × Int)) :=
  (forStep (b .zlo) (b .zhi) (step .z)).bind fun ks =>
  (forStep (b .ylo) (b .yhi) (step .y)).bind fun js =>
  (forStep (b .xlo) (b .xhi) (step .x)).map fun is =>
    ks.flatMap fun k => js.flatMap fun j => is.map fun i => (i, j, k)

/-- Order of components in lines and records. src/observer.c:784-789, 1176-1181 -/
def fieldList : List Fc := [.ex, .ey, .ez, .hx, .hy, .hz]

/-- Field values at a node. -/
def fieldsAt (m : Loc → ℝ) (t : Int × Int × Int) : List ℝ := fieldList.map fun fc => m (.fld fc t.1 t.2.1 t.2.2)

/-- The low corner of an item's box. src/observer.c:781-783 -/
def Item.node (x : Item) : Int × Int × Int := (x.gbbox .xlo, x.gbbox .ylo, x.gbbox .zlo)

/-- Values of an ASCII observer. src/observer.c:774-794, 868-888 -/
def Item.values (e : Env) (x : Item) (m : Loc → ℝ) (time : ℝ) : List ℝ :=
  match x.kind with
  | .wfTime | .wfFreq => [e.wave x.waveform time]
  | _ => fieldsAt m x.node

/-- `updateObserverAsciiTime`. src/observer.c:760-805 -/
def asciiLine (e : Env) (x : Item) (m : Loc → ℝ) (t : BitVec 64) (time : ℝ) : Line := ⟨t, time, x.values e m time⟩

/-- `updateObserverAsciiFreq`: one addition to every accumulator. src/observer.c:890-899 -/
noncomputable def dftAdd (e : Env) (v : List ℝ) (time : ℝ) (d : Nat → Nat → ℝ × ℝ) : Nat → Nat → ℝ × ℝ := fun comp f =>
  if comp < v.length ∧ f < e.numFreq then
    ((d comp f).1 + v.getD comp 0 * cos (e.omega f * time), (d comp f).2 - v.getD comp 0 * sin (e.omega f * time))
  else d comp f

/-- `updateImpulseDat`. src/observer.c:1164-1199 -/
def records (e : Env) (x : Item) (m : Loc → ℝ) : Option (List Rec) :=
  (boxNodes x.gbbox x.step).map fun l => l.map fun t =>
    ⟨(t.1 - e.giboxLo .x, t.2.1 - e.giboxLo .y, t.2.2 - e.giboxLo .z), fieldsAt m t⟩

/-- `isOTValid`. src/observer.c:626 -/
def inWin (w : BitVec 64 × BitVec 64) (t : BitVec 64) : Bool := decide (t ≥ w.1) && decide (t ≤ w.2)

/-- The branch of `updateObservers` for the item at position `o` of the list. src/observer.c:634-647 -/
noncomputable def updateItem (e : Env) (t : BitVec 64) (time : ℝ) (m : Loc → ℝ) (x : Item) (o : Nat) (out : Out) :
    Option Out :=
  match x.kind with
  | .wfTime => some { out with lines := fun p => if p = o then out.lines p ++ [asciiLine e x m t time] else out.lines p }
  | .wfFreq => some { out with dft := fun p => if p = o then dftAdd e (x.values e m time) time (out.dft p) else out.dft p }
  | .binary => if inWin e.win t then (records e x m).map fun r => { out with impulse := out.impulse ++ r } else some out
  | .asciiTime => if inWin e.win t then
      some { out with lines := fun p => if p = o then out.lines p ++ [asciiLine e x m t time] else out.lines p }
    else some out
  | .asciiFreq => if inWin e.win t then
      some { out with dft := fun p => if p = o then dftAdd e (x.values e m time) time (out.dft p) else out.dft p }
    else some out

/-- All items from position `o` on. src/observer.c:632-648 -/
noncomputable def updateItems (e : Env) (t : BitVec 64) (time : ℝ) (m : Loc → ℝ) : List Item → Nat → Out → Option Out
  | [], _, out => some out
  | x :: l, o, out => (updateItem e t time m x o out).bind (updateItems e t time m l (o + 1))

/-- `updateObservers`. src/observer.c:622-652 -/
noncomputable def updateObservers (e : Env) (t : BitVec 64) (time : ℝ) (m : Loc → ℝ) (out : Out) : Option Out :=
  updateItems e t time m e.items 0
    (if e.items.any (fun x => x.kind = .binary) then { out with excite := out.excite ++ [e.wave 0 time] } else out)

/-- The body of the time loop: observers see the fields before the update. `u n` supplies the excitation values of step
`n`, evaluated at `n dt` in the electric and `(n + 1/2) dt` in the magnetic part. src/simulation.c:159-221 -/
noncomputable def body (S : Sim) (C : CRef → ℝ) (u : Nat → Loc → ℝ) (e : Env) (dt : ℝ) (t : BitVec 64)
    (s : (Loc → ℝ) × Out) : Option ((Loc → ℝ) × Out) :=
  (updateObservers e t (t.toNat * dt) s.1 s.2).map fun out => (S.step.run C (setInputs (u t.toNat) s.1), out)

/-- `flushObserverDft`: the two numbers written for a component; `w` is the waveform's accumulator.
src/observer.c:979-992 -/
noncomputable def quotient (c w : ℝ × ℝ) : ℝ × ℝ :=
  let denom := w.1 * w.1 + w.2 * w.2
  ((c.1 * w.1 + c.2 * w.2) / denom, (c.2 * w.1 - c.1 * w.2) / denom)

end Vulture.Run
