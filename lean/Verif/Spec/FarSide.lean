import Verif.Spec.Output
import Verif.Spec.Sides
/-
Specification for C101: probes on the far sides of the mesh.
-/
namespace Vulture.Spec
open Setup

/-- The order of the six numbers on a line. -/
def sixComponents : List Fc := [.ex, .ey, .ez, .hx, .hy, .hz]

/-- One of the six columns of a file. -/
noncomputable def column (i : ℕ) (l : List _root_.Vulture.Run.Line) : List ℝ := l.map fun x => x.values.getD i 0

/-- The samples of the component lie half a cell from the nodes along the axis: the electric field along it and the magnetic
field across it. -/
def HalfWay (fc : Fc) (d : Axis) : Prop := pos2 fc d 0 = 1

/-- The card records a node of the mesh. -/
def NodeInMesh (X : Experiment) (c : OPCard) : Prop := ∀ a : Axis, 0 ≤ c.bbox a.lo ∧ c.bbox a.lo ≤ cellsOf X.file a

/-- A card that records the node `m` along `d`, and otherwise the same one. -/
def NextTo (c c' : OPCard) (d : Axis) (m : Int) : Prop := ∀ a : Axis, c'.bbox a.lo = if a = d then m else c.bbox a.lo

/-- The card is a time-domain probe of the file. -/
def TimeProbe (X : Experiment) (c : OPCard) : Prop := Deck.Card.op c ∈ X.file.cards ∧ c.ascii = true ∧ c.freq = false

/-- The card is a frequency-domain probe of the file. -/
def FrequencyProbe (X : Experiment) (c : OPCard) : Prop := Deck.Card.op c ∈ X.file.cards ∧ c.ascii = true ∧ c.freq = true

/-- The rows of the file of a frequency-domain probe. -/
noncomputable def spectralRows (Q : Request) (dt : ℝ) (z : ℕ → ℕ → ℝ × ℝ) : List (ℝ × List (ℝ × ℝ)) :=
  (List.range (frequencyCount Q)).map fun m => (frequency Q dt m, [z m 0, z m 1, z m 2, z m 3, z m 4, z m 5])

/-- The waveform has something at the frequency. -/
def Excited (X : Experiment) (Q : Request) (dt : ℝ) (n : String) (m : ℕ) : Prop :=
  transform (List.range Q.steps.toNat) (fun q => waveValue dt (X.waves n) (q * dt)) (2 * Real.pi * frequency Q dt m) dt ≠ 0

end Vulture.Spec
