import Verif.Spec.Deck
import Verif.Spec.Grid
/-
Times and places at which a user expects the waveforms to be evaluated.
-/
namespace Vulture.Spec
open Deck

/-- Electric samples belong to whole time steps: the value in memory after step `n` is the one at `n * dt`.
Magnetic samples belong to half steps: the value after step `n` is the one at `(n + 1/2) * dt`. -/
noncomputable def electricTime (dt : ℝ) (n : ℤ) : ℝ := n * dt
noncomputable def magneticTime (dt : ℝ) (n : ℤ) : ℝ := (n + 1 / 2) * dt

/-- Position of a sample along an axis: on a mesh line, or in the middle between two. `m` counts mesh lines from the
first. -/
noncomputable def samplePlace (lines : Axis → Int → ℝ) (fc : Fc) (m : Axis → Int) (a : Axis) : ℝ :=
  if pos2 fc a 0 = 1 then (lines a (m a) + lines a (m a + 1)) / 2 else lines a (m a)

/-- The field of a plane wave at place `r` and time `t`: `A` amplitude of the component, `k` direction, `r0` place of the
origin, `v` velocity, `g` waveform, `T` delay. -/
noncomputable def planeWave (A : ℝ) (k r0 : Axis → ℝ) (v : ℝ) (g : ℝ → ℝ) (T : ℝ) (r : Axis → ℝ) (t : ℝ) : ℝ :=
  A * g (t - (k .x * (r .x - r0 .x) + k .y * (r .y - r0 .y) + k .z * (r .z - r0 .z)) / v - T)

/-- The same card with `T` added to its delay. -/
def delayCard (T : ℝ) : Deck.Card → Deck.Card
  | .ex k b n tag w size delay resist => .ex k b n tag w size (delay + T) resist
  | .pw c delay => .pw c (delay + T)
  | c => c

/-- The same file with `T` added to every delay. -/
def delayFile (T : ℝ) (f : File) : File := { f with cards := f.cards.map (delayCard T) }

end Vulture.Spec
