import Verif.Spec.Drive
import Verif.Spec.Material
import Verif.Spec.SheetCard
/-
Specification for C72: Maxwell's difference equations in the coordinates, lengths, materials and currents of the mesh file.
-/
namespace Vulture.Spec
open Setup

/-- Value of a field sample before step `n`; the sample is named by mesh coordinates. -/
noncomputable def value (R : Setup.Run) (n : ℕ) (fc : Fc) (q : Axis → Int) : ℝ :=
  R.fields n (.fld fc (q .x + R.cfg.gibox .xlo) (q .y + R.cfg.gibox .ylo) (q .z + R.cfg.gibox .zlo))

/-- Distance of the middles of the two cells that meet at a node. -/
noncomputable def middleDistance (X : Experiment) (a : Axis) (m : Int) : ℝ := (cellLength X a (m - 1) + cellLength X a m) / 2

/-- Component `a` of the rotation of the magnetic field at an electric sample, with the lengths of the mesh. -/
noncomputable def rotH (X : Experiment) (F : Fc → (Axis → Int) → ℝ) (a : Axis) (q : Axis → Int) : ℝ :=
  let b := a.next
  let c := b.next
  (F c.h q - F c.h (back q b)) / middleDistance X b (q b) - (F b.h q - F b.h (back q c)) / middleDistance X c (q c)

/-- Component `a` of the rotation of the electric field at a magnetic sample. -/
noncomputable def rotE (X : Experiment) (F : Fc → (Axis → Int) → ℝ) (a : Axis) (q : Axis → Int) : ℝ :=
  let b := a.next
  let c := b.next
  (F c.e (ahead q b) - F c.e q) / cellLength X b (q b) - (F b.e (ahead q c) - F b.e q) / cellLength X c (q c)

/-- Component a source acts on. -/
def Tag.component (t : Tag) : Fc := if t.qty.electric then t.pol.e else t.pol.h

/-- A source that impresses a current: not hard, and neither a field nor an ideal voltage. -/
def Tag.current (t : Tag) (r : ℝ) : Prop := t.hard = false ∧
  match t.qty with
  | .E | .H | .V => False
  | .VR | .IG => 1 / 100 < r
  | _ => True

/-- Current density of a source of the given size in the box `b`: currents are spread evenly over the cross section of the box,
moments over its volume, surface currents over its thickness; a voltage behind a resistance drives the current of the shorted
circuit. -/
noncomputable def density (X : Experiment) (t : Tag) (b : BBox) (size r : ℝ) : ℝ :=
  let along := if t.qty.electric then boxLength X b t.pol else boxWidth X b t.pol
  let across := fun a => if t.qty.electric then boxWidth X b a else boxLength X b a
  let area := across t.pol.next * across t.pol.next.next
  match t.qty with
  | .J | .JM => size
  | .JS | .JMS => size / across (t.norm.getD .x)
  | .I | .IM => size / area
  | .ID | .IMD => size / area / along
  | .VR => size / area / r
  | .IG => size / area
  | _ => 0

open Classical in
/-- The tag that is spelt this way. -/
noncomputable def tagOf (s : List Char) : Option Tag := if h : ∃ t : Tag, t.Valid ∧ t.spell = s then some h.choose else none

open Classical in
/-- Current density a card impresses on a sample at a time; `T`: the time step (it limits the default widths of pulses). -/
noncomputable def impressed (X : Experiment) (T time : ℝ) (fc : Fc) (q : Axis → Int) : Deck.Card → ℝ
  | .ex _ b _ tag w size delay r => match tagOf tag with
    | some t => if t.component = fc ∧ SampleIn b fc (q .x) (q .y) (q .z) then
        density X t b size r * waveValue T (X.waves w) (time - delay) else 0
    | none => 0
  | _ => 0

/-- All impressed currents together. -/
noncomputable def totalCurrent (X : Experiment) (T time : ℝ) (fc : Fc) (q : Axis → Int) : ℝ :=
  (X.file.cards.map (impressed X T time fc q)).sum

/-- The sources that act on the sample all impress currents. -/
def OnlyCurrents (X : Experiment) (fc : Fc) (q : Axis → Int) : Prop :=
  ∀ m b n tag w size delay r, Deck.Card.ex m b n tag w size delay r ∈ X.file.cards → ∀ t : Tag, t.Valid → t.spell = tag →
    t.component = fc → SampleIn b fc (q .x) (q .y) (q .z) → t.current r

/-- The sample is in the box or half a cell from it; the corners of the box may be given in any order. -/
def Near (b : BBox) (fc : Fc) (q : Axis → Int) : Prop :=
  ∀ a : Axis, 2 * min (b a.lo) (b a.hi) - 1 ≤ pos2 fc a (q a) ∧ pos2 fc a (q a) ≤ 2 * max (b a.lo) (b a.hi) + 1

/-- The sample is in the box and not on its surface. -/
def Inside3 (b : BBox) (fc : Fc) (q : Axis → Int) : Prop :=
  ∀ a : Axis, 2 * b a.lo < pos2 fc a (q a) ∧ pos2 fc a (q a) < 2 * b a.hi

/-- No impedance sheet, and no side of a box where a plane wave enters, touches the sample. -/
def ClearOfSheets (X : Experiment) (fc : Fc) (q : Axis → Int) : Prop :=
  ∀ c pr, Deck.Card.tb c ∈ X.file.cards → BoundaryNamed X.file.cards c.boundary (.sibc pr) → ¬ Near c.bbox fc q
def ClearOfWaves (X : Experiment) (fc : Fc) (q : Axis → Int) : Prop :=
  ∀ p t, Deck.Card.pw p t ∈ X.file.cards → Inside3 p.bbox fc q ∨ ¬ Near p.bbox fc q

/-- The block cards of dispersive media that contain the sample. -/
def DebyeCard (X : Experiment) (fc : Fc) (q : Axis → Int) (x : Deck.Card) (e s u : ℝ) (poles : List DPole) : Prop :=
  ∃ c mask, x = .mb c ∧ Includes c mask ∧ Contains c.bbox mask fc (q .x) (q .y) (q .z) ∧
    MediumNamed X.file.cards c.medium (.debye e s u poles)

/-- The sample lies in a `MUR` side of the mesh. -/
def OnMurSide (X : Experiment) (fc : Fc) (q : Axis → Int) : Prop :=
  ∃ f, X.file.bt f = .mur ∧ OnPlane (meshBox X) f fc (q .x) (q .y) (q .z)

/-- Ampere's law at a sample over one step, by what the sample is made of: `T` time step, `E`, `E'` electric field before and
after the step, `curl` rotation of the magnetic field, `J` impressed current density. Numbers of a material must be in the
documented ranges. In metal there is no electric field. Dispersive matter has its own law (`DispersiveAmpere`). -/
def AmpereIn (k : Consts) (T E E' curl J : ℝ) : Stuff → Prop
  | .vacuum => AmpereWithCurrent T k.eps0 0 E E' curl J
  | .metal => E' = 0
  | .matter e s u => 1 ≤ e → 0 ≤ s → 1 ≤ u → AmpereWithCurrent T (e * k.eps0) s E E' curl J
  | .dispersive _ _ _ _ => True

/-- Relative permeability. -/
def relPermeability : Stuff → ℝ
  | .vacuum | .metal => 1
  | .matter _ _ u | .dispersive _ _ u _ => u

/-- The numbers of the material are in the documented ranges. -/
def InRange (k : Consts) (T : ℝ) : Stuff → Prop
  | .vacuum | .metal => True
  | .matter e s u => 1 ≤ e ∧ 0 ≤ s ∧ 1 ≤ u
  | .dispersive e s u poles => 1 ≤ e ∧ 0 ≤ s ∧ 1 ≤ u ∧
      0 ≤ T * (poles.map fun q => (k.eps0 * q.res / (1 - T / 2 * q.pole) : ℂ).re).sum

/-- No source acts on the sample. -/
def NoSource (X : Experiment) (fc : Fc) (q : Axis → Int) : Prop :=
  ∀ m b n tag w size delay r, Deck.Card.ex m b n tag w size delay r ∈ X.file.cards → ∀ t : Tag, t.Valid → t.spell = tag →
    t.component = fc → ¬ SampleIn b fc (q .x) (q .y) (q .z)

/-- Exactly one block card of a dispersive medium contains the sample. -/
def OneDebyeCard (X : Experiment) (fc : Fc) (q : Axis → Int) : Prop :=
  ∃ pre x post, X.file.cards = pre ++ x :: post ∧ (∃ e s u poles, DebyeCard X fc q x e s u poles) ∧
    ∀ y, y ∈ pre ∨ y ∈ post → ∀ e s u poles, ¬ DebyeCard X fc q y e s u poles

end Vulture.Spec
