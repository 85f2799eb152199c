import Verif.Model.Setup
import Verif.Model.Binary
/-
A run as a whole: from the mesh file to the output files. The observers of Model/Run.lean are made from the `OP` and `WF`
cards the way `initObservers` makes them, and the files are those the observers open, write and close.
Models: src/observer.c:51-86, 177-281, 351-395, 399-520, 668-737, 760-1013, 1031-1198; src/simulation.c:136-230;
src/grid.c:1181-1193.
Left out: column titles and the digits of numbers; `process.dat` (Model/ProcessDat.lean).
-/
namespace Vulture.Setup
open _root_.Vulture.Run Vulture.Deck

/-- The cards `NT`, `OT` and `OF` as scanned. -/
structure Request where
  steps : BitVec 64
  times : Option (BitVec 64 × BitVec 64)
  freqs : Option (ℝ × ℝ × Nat)

open Classical in
/-- `parseOF`. src/observer.c:351-395 -/
noncomputable def parseOF (f0 f1 : ℝ) (n : Nat) : Option (ℝ × ℝ × Nat) :=
  if f0 < 0 then none else if f1 < f0 then none else if n < 1 then none else some (f0, f1, n)

/-- The three cards pass their parsers. -/
def Request.Accepted (Q : Request) : Prop :=
  (parseNT (some Q.steps)).isSome ∧ (∀ t, Q.times = some t → (Run.parseOT t.1 t.2).isSome) ∧
    ∀ f, Q.freqs = some f → (parseOF f.1 f.2.1 f.2.2).isSome

/-- Format and domain decide the branch of `updateObservers`. src/observer.c:634-647 -/
def kindOf (o : ObsItem) : Kind := if o.ascii then (if o.freq then .asciiFreq else .asciiTime) else .binary

/-- An observer placed on the grid. src/observer.c:474-478 -/
def obsItem (c : Cfg) (o : ObsItem) : Item := ⟨kindOf o, place c o.mbbox, o.step, o.wave⟩

/-- `startFreq`. src/observer.c:368, 433 -/
noncomputable def startFreq (Q : Request) : ℝ := match Q.freqs with | none => 0 | some f => f.1

/-- `stepFreq`. src/observer.c:430-442 -/
noncomputable def stepFreq (R : Run) (Q : Request) : ℝ := stepFreqOf Q.freqs Q.steps.toNat R.dt

/-- What `initObservers` sets up. A waveform number without a waveform has value 0 here; such runs are excluded in
`Leaves`. src/observer.c:399-520 -/
noncomputable def obsEnv (X : Experiment) (R : Run) (Q : Request) : Run.Env where
  items := allItems (R.state.obs.map (obsItem R.cfg)) R.state.waves.length
  win := window Q.times Q.steps
  numFreq := numFreqOf Q.freqs Q.steps.toNat
  omega := omegaOf (startFreq Q) (stepFreq R Q)
  wave := fun w t => match R.state.waves[w]? with
    | some n => waveValue R.dt (X.waves n) t
    | none => 0
  giboxLo := fun a => R.cfg.gibox a.lo

/-- First line of a field file: node in mesh lines and in metres. src/observer.c:751, 836; src/grid.c:1181-1193 -/
structure Head where
  node : Axis → Int
  pos : Axis → ℝ

/-- Contents of an output file: lines of numbers. `freq`: frequency, then real and imaginary parts. `impulse`: the number
of steps announced in the header, then the records. -/
inductive Contents
  | time (head : Option Head) (lines : List Line)
  | freq (head : Option Head) (rows : List (ℝ × List (ℝ × ℝ)))
  | excite (values : List ℝ)
  | impulse (steps : BitVec 64) (records : List Rec)

/-- `bboxInPhysicalUnits` and the first line. src/observer.c:746-751, 831-836 -/
def headOf (X : Experiment) (b : BBox) : Head := ⟨fun a => b a.lo, fun a => X.lines a (b a.lo)⟩

/-- `item->waveformObserver`: position of the frequency observer of waveform `w` in the list. src/observer.c:449-459,
504-505 -/
def reference (s : State) (w : Nat) : Nat := s.obs.length + 2 * w + 1

/-- `flushObserverDft` of a field observer. src/observer.c:974-996 -/
noncomputable def fieldRows (R : Run) (Q : Request) (e : Run.Env) (out : Out) (o w : Nat) : List (ℝ × List (ℝ × ℝ)) :=
  (List.range e.numFreq).map fun (f : Nat) =>
    (startFreq Q + f * stepFreq R Q, (List.range 6).map fun comp =>
      quotient (out.dft o comp f) (out.dft (reference R.state w) 0 f))

/-- `flushObserverDft` of a waveform observer. src/observer.c:964-972 -/
noncomputable def waveRows (R : Run) (Q : Request) (e : Run.Env) (out : Out) (o : Nat) : List (ℝ × List (ℝ × ℝ)) :=
  (List.range e.numFreq).map fun (f : Nat) => (startFreq Q + f * stepFreq R Q, [out.dft o 0 f])

/-- The file of an `OP` card; a binary observer has none of its own. src/observer.c:725-757, 808-851 -/
noncomputable def obsFile (X : Experiment) (R : Run) (Q : Request) (e : Run.Env) (out : Out) (x : ObsItem × Nat) :
    Option (String × Contents) :=
  match kindOf x.1 with
  | .asciiTime => some ("eh_" ++ x.1.name ++ "_td.asc", .time (some (headOf X x.1.mbbox)) (out.lines x.2))
  | .asciiFreq => some ("eh_" ++ x.1.name ++ "_fd.asc",
      .freq (some (headOf X x.1.mbbox)) (fieldRows R Q e out x.2 x.1.wave))
  | _ => none

/-- The two files of a `WF` card. src/observer.c:734-742, 819-827 -/
noncomputable def waveFiles (R : Run) (Q : Request) (e : Run.Env) (out : Out) (x : String × Nat) :
    List (String × Contents) :=
  [("wf_" ++ x.1 ++ "_td.asc", .time none (out.lines (R.state.obs.length + 2 * x.2))),
   ("wf_" ++ x.1 ++ "_fd.asc", .freq none (waveRows R Q e out (reference R.state x.2)))]

/-- `thereAreObserversFormat( OF_BINARY )`. src/observer.c:548-571 -/
def anyBinary (s : State) : Bool := s.obs.any fun o => !o.ascii

/-- The files of a run. src/observer.c:668-737, 1031-1059, 1137-1198 -/
noncomputable def filesOf (X : Experiment) (R : Run) (Q : Request) (out : Out) : List (String × Contents) :=
  R.state.obs.zipIdx.filterMap (obsFile X R Q (obsEnv X R Q) out) ++
  R.state.waves.zipIdx.flatMap (waveFiles R Q (obsEnv X R Q) out) ++
  if anyBinary R.state then
    [("impulse.dat", .impulse (numOut (obsEnv X R Q).win) out.impulse), ("excite.dat", .excite out.excite)]
  else []

/-- An observer uses a waveform: a frequency observer the one of its number (`waveformObserverFreqList[item->waveformNumber]`),
a binary one number 0 (`assert( 0 )` if it does not exist). src/observer.c:504-505, 629-630; src/waveform.c:593-596 -/
def WavesExist (s : State) : Prop :=
  ∀ o ∈ s.obs, (kindOf o = .asciiFreq → o.wave < s.waves.length) ∧ (kindOf o = .binary → 0 < s.waves.length)

/-- The program, given this input, runs to its end and leaves these files. -/
def Leaves (k : Consts) (J : Junk) (X : Experiment) (Q : Request) (files : List (String × Contents)) : Prop :=
  Q.Accepted ∧ ∃ R, setup k J X = some R ∧ WavesExist R.state ∧ ∃ m out,
    Ends Q.steps (Run.body R.sim R.coefs R.drive (obsEnv X R Q) R.dt) (fun _ => 0, Out.empty) (m, out) ∧
    files = filesOf X R Q out

end Vulture.Setup
