import Verif.Spec.Amplitudes
import Verif.Model.Output
/-
Specification for C79: the same input with other names.
-/
namespace Vulture.Spec
open Setup

/-- New names, one function for each kind of thing that has a name. -/
structure Renaming where
  medium : String → String
  boundary : String → String
  wire : String → String
  waveform : String → String
  source : String → String
  planeWave : String → String
  observer : String → String

/-- Different things keep different names, and the names the program itself gives stay as they are: free space and metal, the
outer walls, the media the program makes for resistive sources, and the missing name of a waveform on an `OP` card. -/
structure Renaming.Proper (ρ : Renaming) : Prop where
  medium : ρ.medium.Injective
  boundary : ρ.boundary.Injective
  wire : ρ.wire.Injective
  waveform : ρ.waveform.Injective
  source : ρ.source.Injective
  planeWave : ρ.planeWave.Injective
  observer : ρ.observer.Injective
  medium_free : ρ.medium "FREE_SPACE" = "FREE_SPACE"
  medium_pec : ρ.medium "PEC" = "PEC"
  medium_resistor : ∀ n : Nat, ρ.medium (String.ofList (Names.resistName n)) = String.ofList (Names.resistName n)
  boundary_pec : ρ.boundary "PEC" = "PEC"
  boundary_pmc : ρ.boundary "PMC" = "PMC"
  boundary_free : ρ.boundary "FREE_SPACE" = "FREE_SPACE"
  wire_pec : ρ.wire "PEC" = "PEC"
  wire_free : ρ.wire "FREE_SPACE" = "FREE_SPACE"
  waveform_none : ρ.waveform "" = ""

/-- A card with the new names. -/
def Renaming.card (ρ : Renaming) : Deck.Card → Deck.Card
  | .mt n m => .mt (ρ.medium n) m
  | .bt n b => .bt (ρ.boundary n) b
  | .wt n => .wt (ρ.wire n)
  | .wf n => .wf (ρ.waveform n)
  | .mb c => .mb { c with medium := ρ.medium c.medium }
  | .tb c => .tb { c with boundary := ρ.boundary c.boundary }
  | .tw c => .tw { c with wire := ρ.wire c.wire }
  | .ex q b n tag w size delay resist => .ex q b (ρ.source n) tag (ρ.waveform w) size delay resist
  | .pw c delay => .pw { c with name := ρ.planeWave c.name, waveform := ρ.waveform c.waveform } delay
  | .op c => .op { c with name := ρ.observer c.name, waveform := ρ.waveform c.waveform }

/-- The same experiment with the new names: the cards are renamed, and each waveform is found under its new name. -/
def Renamed (ρ : Renaming) (X Y : Experiment) : Prop :=
  ∃ w : String → Wave, (∀ n, w (ρ.waveform n) = X.waves n) ∧ Y = { withCards X (X.file.cards.map ρ.card) with waves := w }

/-- The name of an output file contains the name of its probe or waveform. -/
inductive FileName (ρ : Renaming) : String → String → Prop
  | probe_time (n : String) : FileName ρ ("eh_" ++ n ++ "_td.asc") ("eh_" ++ ρ.observer n ++ "_td.asc")
  | probe_freq (n : String) : FileName ρ ("eh_" ++ n ++ "_fd.asc") ("eh_" ++ ρ.observer n ++ "_fd.asc")
  | wave_time (n : String) : FileName ρ ("wf_" ++ n ++ "_td.asc") ("wf_" ++ ρ.waveform n ++ "_td.asc")
  | wave_freq (n : String) : FileName ρ ("wf_" ++ n ++ "_fd.asc") ("wf_" ++ ρ.waveform n ++ "_fd.asc")
  | impulse : FileName ρ "impulse.dat" "impulse.dat"
  | excite : FileName ρ "excite.dat" "excite.dat"

/-- The same files, with the same contents, under the new names. -/
def SameFiles (ρ : Renaming) (fs fs' : List (String × Contents)) : Prop :=
  List.Forall₂ (fun a b => FileName ρ a.1 b.1 ∧ a.2 = b.2) fs fs'

end Vulture.Spec
