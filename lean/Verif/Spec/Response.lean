import Verif.Spec.Amplitudes
import Mathlib.Algebra.BigOperators.Group.Finset.Basic
/-
Specification for C69 and C70: an input with other waveforms and delays; the sources and waves of a file.
-/
namespace Vulture.Spec
open Setup

/-- The card with the delay that goes with its name; `d` for `EX` cards, `g` for `PW` cards. -/
noncomputable def retime (d g : String → ℝ) : Deck.Card → Deck.Card
  | .ex q b n tag w z _ resist => .ex q b n tag w z (d n) resist
  | .pw c _ => .pw c (g c.name)
  | c => c

/-- The input with waveforms `W` and delays `d`, `g`. -/
noncomputable def withDrive (X : Experiment) (W : String → Wave) (d g : String → ℝ) : Experiment :=
  { X with waves := W, file := { X.file with cards := X.file.cards.map (retime d g) } }

/-- Names of the `EX` cards in order, with the waveforms they name. -/
def exNames (f : Deck.File) : List (String × String) :=
  f.cards.filterMap fun | .ex _ _ n _ w _ _ _ => some (n, w) | _ => none

/-- Names of the `PW` cards in order, with the waveforms they name. -/
def pwNames (f : Deck.File) : List (String × String) :=
  f.cards.filterMap fun | .pw c _ => some (c.name, c.waveform) | _ => none

/-- What the sources supply in step `q`: the value of each one's waveform at the time of the step, or half a step later, less
the delay, times a weight. -/
noncomputable def supplied (w : String → ℝ → ℝ) (d : String → ℝ) (dt : ℝ) (half : Bool) (q : ℕ) (weight : ℕ → ℝ)
    (l : List (String × String)) : ℝ :=
  ((l.zipIdx).map fun x => w x.1.2 ((if half then (q + 1 / 2) * dt else q * dt) - d x.1.1) * weight x.2).sum

/-- Amplitude of a waveform: 1 when its card gives none (stored as a negative number; cards cannot give one). -/
noncomputable def amplitude : Wave → ℝ
  | .builtin w => if w.size < 0 then 1 else w.size
  | .table size _ _ _ _ => if size < 0 then 1 else size

/-- The waveform with `a` times the amplitude. -/
noncomputable def louder (a : ℝ) : Wave → Wave
  | .builtin w => .builtin { w with size := a * amplitude (.builtin w) }
  | .table size delay x y n => .table (a * amplitude (.table size delay x y n)) delay x y n

end Vulture.Spec
