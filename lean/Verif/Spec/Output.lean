import Verif.Model.Output
import Verif.Spec.Observe
import Verif.Spec.Files
/-
Specification for C61: what the cards ask to be recorded, in the terms of the mesh file.
-/
namespace Vulture.Spec
open Setup Deck

/-- The steps recorded: those of the run, between the two numbers of the `OT` card if there is one. -/
noncomputable def observed (Q : Request) : List Nat :=
  match Q.times with
  | none => List.range Q.steps.toNat
  | some t => stepsIn t.1.toNat t.2.toNat Q.steps.toNat

/-- The name on a `WF` card, an `OP` card. -/
def waveOf : Deck.Card → Option String | .wf n => some n | _ => none
def probeOf : Deck.Card → Option OPCard | .op c => some c | _ => none

/-- Names of the `WF` cards in order. -/
def waveNames (f : Deck.File) : List String := f.cards.filterMap waveOf

/-- `OP` cards in order. -/
def probes (f : Deck.File) : List OPCard := f.cards.filterMap probeOf

/-- The waveform a frequency observer is divided by: the one it names, or else the first of the file. -/
def dividedBy (f : Deck.File) (c : OPCard) : Option String :=
  if c.waveform = "" then (waveNames f).head? else some c.waveform

/-- A component of the field at a mesh node before step `q`: mesh node `(0,0,0)` is the low corner of the inner box of the
grid. -/
noncomputable def atNode (R : Run) (q : Nat) (fc : Fc) (t : Int × Int × Int) : ℝ :=
  R.fields q (.fld fc (t.1 + R.cfg.gibox .xlo) (t.2.1 + R.cfg.gibox .ylo) (t.2.2 + R.cfg.gibox .zlo))

/-- The six numbers recorded of a node. -/
noncomputable def sixAt (R : Run) (q : Nat) (t : Int × Int × Int) : List ℝ :=
  [atNode R q .ex t, atNode R q .ey t, atNode R q .ez t, atNode R q .hx t, atNode R q .hy t, atNode R q .hz t]

/-- Low corner of a card's box. -/
def corner (c : OPCard) : Int × Int × Int := (c.bbox .xlo, c.bbox .ylo, c.bbox .zlo)

/-- Steps of a binary observer. -/
def strideOf (c : OPCard) : Axis → Int | .x => c.stepX | .y => c.stepY | .z => c.stepZ

/-- The frequencies asked for: their number, and each of them. -/
noncomputable def frequencyCount (Q : Request) : Nat :=
  match Q.freqs with
  | none => max (Q.steps.toNat / 10) 1
  | some f => f.2.2

noncomputable def frequency (Q : Request) (dt : ℝ) (m : Nat) : ℝ :=
  match Q.freqs with
  | none => m / (Q.steps.toNat * dt)
  | some f => f.1 + m * ((f.2.1 - f.1) / (f.2.2 - 1))

/-- Two real numbers as a complex one. -/
def asComplex (p : ℝ × ℝ) : ℂ := ⟨p.1, p.2⟩

end Vulture.Spec
