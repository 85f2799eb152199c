import Verif.Spec.Maxwell
/-
Specification for C76: sources that hold a field or a voltage, or add to it.
-/
namespace Vulture.Spec
open Setup

/-- The source prescribes a field or a voltage (an ideal voltage if its resistance is 10 mΩ or less). -/
def Tag.prescribes (t : Tag) (r : ℝ) : Prop :=
  match t.qty with
  | .E | .H | .V => True
  | .VR | .IG => r ≤ 1 / 100
  | _ => False

/-- The field a source of the given size stands for: itself, or the voltage spread evenly along its box, counted from the high
end to the low end. -/
noncomputable def heldField (X : Experiment) (t : Tag) (b : BBox) (size r : ℝ) : ℝ :=
  match t.qty with
  | .V => -size / boxLength X b t.pol
  | .VR => -(1 / 2) * size / boxLength X b t.pol
  | .IG => -(1 / 2) * (r * size) / boxLength X b t.pol
  | _ => size

/-- The card is a source that acts on the sample. -/
def ActsOn (x : Deck.Card) (fc : Fc) (q : Axis → Int) : Prop :=
  ∃ m b n w size delay r, ∃ t : Tag, x = .ex m b n t.spell w size delay r ∧ t.Valid ∧ t.component = fc ∧ SampleIn b fc (q .x) (q .y) (q .z)

/-- The card is a source that overwrites the sample (`=` tags). -/
def Overwrites (x : Deck.Card) (fc : Fc) (q : Axis → Int) : Prop :=
  ∃ m b n w size delay r, ∃ t : Tag, x = .ex m b n t.spell w size delay r ∧ t.Valid ∧ t.component = fc ∧ SampleIn b fc (q .x) (q .y) (q .z) ∧ t.hard = true

/-- Time of a sample of a component in step `n`. -/
noncomputable def sampleTime (T : ℝ) (fc : Fc) (n : ℕ) : ℝ := if fc.isE then n * T else (n + 1 / 2) * T

open Classical in
/-- The field a card adds to a sample. -/
noncomputable def addedField (X : Experiment) (T time : ℝ) (fc : Fc) (q : Axis → Int) : Deck.Card → ℝ
  | .ex _ b _ tag w size delay r => match tagOf tag with
    | some t => if t.component = fc ∧ SampleIn b fc (q .x) (q .y) (q .z) ∧ t.prescribes r then
        heldField X t b size r * waveValue T (X.waves w) (time - delay) else 0
    | none => 0
  | _ => 0

open Classical in
/-- The current density a card impresses on a sample; sources that prescribe fields impress none. -/
noncomputable def addedCurrent (X : Experiment) (T time : ℝ) (fc : Fc) (q : Axis → Int) : Deck.Card → ℝ
  | .ex _ b _ tag w size delay r => match tagOf tag with
    | some t => if t.component = fc ∧ SampleIn b fc (q .x) (q .y) (q .z) ∧ ¬ t.prescribes r then
        density X t b size r * waveValue T (X.waves w) (time - delay) else 0
    | none => 0
  | _ => 0

end Vulture.Spec
