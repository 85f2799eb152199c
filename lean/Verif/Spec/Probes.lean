import Verif.Spec.Output
import Verif.Spec.Amplitudes
/-
Specification for C67 and C68: inputs that differ in their `OP` cards only, and files that are continued.
-/
namespace Vulture.Spec
open Setup Deck

/-- Not an `OP` card. -/
def notProbe : Deck.Card → Bool | .op _ => false | _ => true

/-- Two lists of cards have the same cards, in the same order, apart from `OP` cards: those may be added, removed, changed
and moved. -/
def SameButProbes (l l' : List Deck.Card) : Prop := l.filter notProbe = l'.filter notProbe

/-- Of the `OP` cards, only those chosen. -/
def keepProbes (keep : OPCard → Bool) (l : List Deck.Card) : List Deck.Card :=
  l.filter fun | .op c => keep c | _ => true

/-- The name of the file of an `OP` card with text output. -/
def probeFile (c : OPCard) : String := "eh_" ++ c.name ++ (if c.freq then "_fd.asc" else "_td.asc")

/-- A file of time steps that begins with all of another: same heading, same first lines. The number of steps announced at the
start of the binary file may differ. -/
inductive Continues : Contents → Contents → Prop
  | time (h : Option Head) {l l' : List Run.Line} (p : l <+: l') : Continues (.time h l) (.time h l')
  | excite {l l' : List ℝ} (p : l <+: l') : Continues (.excite l) (.excite l')
  | impulse (n n' : BitVec 64) {l l' : List Run.Rec} (p : l <+: l') : Continues (.impulse n l) (.impulse n' l')

/-- A file of frequencies. -/
def isSpectrum : Contents → Bool | .freq _ _ => true | _ => false

end Vulture.Spec
