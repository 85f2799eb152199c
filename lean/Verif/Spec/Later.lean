import Verif.Spec.Timing
import Verif.Spec.Response
import Verif.Spec.Output
/-
Specification for C98: the same input with all the delays longer.
-/
namespace Vulture.Spec
open Setup

/-- The input with `T` added to the delay of every source and every plane wave. -/
noncomputable def delayed (X : Experiment) (T : ℝ) : Experiment := { X with file := delayFile T X.file }

/-- No `EX` or `PW` card has a negative delay. -/
def NotBefore (f : Deck.File) : Prop :=
  (∀ q b n tag w z delay resist, Deck.Card.ex q b n tag w z delay resist ∈ f.cards → 0 ≤ delay) ∧
  ∀ c delay, Deck.Card.pw c delay ∈ f.cards → 0 ≤ delay

/-- The waveforms are zero before time zero. -/
def Causal (X : Experiment) (dt : ℝ) : Prop := ∀ n t, t < 0 → waveValue dt (X.waves n) t = 0

/-- The steps of a run, each with its number and its time and the numbers recorded of it. -/
noncomputable def stepLines (N : ℕ) (dt : ℝ) (v : ℕ → List ℝ) : List _root_.Vulture.Run.Line :=
  (List.range N).map fun q => ⟨BitVec.ofNat 64 q, q * dt, v q⟩

/-- Six zeros for `M` steps, then `v` from its beginning. -/
noncomputable def postponed (M : ℕ) (v : ℕ → List ℝ) : ℕ → List ℝ :=
  fun q => if q < M then [0, 0, 0, 0, 0, 0] else v (q - M)

/-- A complex number, as a pair, turned back by the angle `phi`. -/
noncomputable def turnedBack (phi : ℝ) (p : ℝ × ℝ) : ℝ × ℝ :=
  (p.1 * Real.cos phi + p.2 * Real.sin phi, p.2 * Real.cos phi - p.1 * Real.sin phi)

/-- The rows of a spectrum with every number turned back by `2 pi f T`, where `f` is the frequency of its row. -/
noncomputable def delayedSpectrum (T : ℝ) (rows : List (ℝ × List (ℝ × ℝ))) : List (ℝ × List (ℝ × ℝ)) :=
  rows.map fun r => (r.1, r.2.map (turnedBack (2 * Real.pi * r.1 * T)))

end Vulture.Spec
