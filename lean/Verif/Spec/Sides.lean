import Verif.Spec.Locality
import Verif.Spec.Ghosts
/-
Specification for C81: what each type of side does to the fields next to it, in the coordinates of the mesh file. Places outside
the mesh are described by `HalfOutside`, `MirrorImage` and `PeriodImage` of Spec/Ghosts, with the mesh as the box.
-/
namespace Vulture.Spec
open Setup

/-- The sample one cell further from a side, into the mesh. -/
def inwards (f : Face) (q : Axis → Int) : Axis → Int := fun a => if a = f.axis then q a + (if f.isLo then 1 else -1) else q a

/-- Size of the cells of the mesh next to a side. -/
noncomputable def sideCell (X : Experiment) (f : Face) : ℝ := cellLength X f.axis (if f.isLo then 0 else cellsOf X.file f.axis - 1)

/-- Neither dispersive matter, an impedance sheet, a plane wave nor a source acts on the electric sample. -/
def Undisturbed (X : Experiment) (a : Axis) (q : Axis → Int) : Prop :=
  (∀ x ∈ X.file.cards, ∀ e s u poles, ¬ DebyeCard X a.e q x e s u poles) ∧
  ClearOfSheets X a.e q ∧ ClearOfWaves X a.e q ∧ NoSource X a.e q

/-- The electric sample lies in a `MUR` side and in no other one, with at least one sample between it and the opposite
`MUR` side, if there is one. -/
structure InMurSide (X : Experiment) (f : Face) (a : Axis) (q : Axis → Int) : Prop where
  mur : X.file.bt f = .mur
  inMesh : SampleIn (meshBox X) a.e (q .x) (q .y) (q .z)
  onSide : OnPlane (meshBox X) f a.e (q .x) (q .y) (q .z)
  noOther : ∀ g, g ≠ f → X.file.bt g = .mur → ¬ OnPlane (meshBox X) g a.e (q .x) (q .y) (q .z)
  thick : 2 ≤ cellsOf X.file f.axis ∨ X.file.bt f.opposite ≠ .mur

/-- The electric sample lies on an edge of the mesh where two `MUR` sides meet. -/
def OnMurEdges (X : Experiment) (a : Axis) (q : Axis → Int) : Prop :=
  SampleIn (meshBox X) a.e (q .x) (q .y) (q .z) ∧ ∃ f g : Face, f.axis ≠ g.axis ∧ X.file.bt f = .mur ∧ X.file.bt g = .mur ∧
    OnPlane (meshBox X) f a.e (q .x) (q .y) (q .z) ∧ OnPlane (meshBox X) g a.e (q .x) (q .y) (q .z)

/-- The equation `∂E/∂n = (1/c) ∂E/∂t` of waves that leave the mesh, `n` pointing inwards, centred half a cell (`d`) inside and
half a step (`T`) after the old values: `E`, `E'` old and new value in the side, `P`, `P'` one cell further inside. -/
def LeavingWave (c T d E E' P P' : ℝ) : Prop :=
  ((P' - E') / d + (P - E) / d) / 2 = 1 / c * (((P' - P) / T + (E' - E) / T) / 2)

/-- The place one period of the mesh further along an axis. -/
def opposite (X : Experiment) (d : Axis) (q : Axis → Int) : Axis → Int := fun a => if a = d then q a + cellsOf X.file d else q a

/-- The sides across `d` are periodic and the file says the same about both of them: the samples in the two planes are ordinary,
made of the same and driven by the same currents, and the cells at both ends have the same size. The other sides conduct, are
magnetic walls or periodic. -/
structure SameEnds (X : Experiment) (T : ℝ) (d : Axis) : Prop where
  periodic : X.file.bt d.lo = .periodic
  others : ∀ f, f.axis ≠ d → X.file.bt f = .pec ∨ X.file.bt f = .pmc ∨ X.file.bt f = .periodic
  cells : cellLength X d 0 = cellLength X d (cellsOf X.file d - 1)
  electric : ∀ a q, a ≠ d → q d = 0 → SampleIn (meshBox X) a.e (q .x) (q .y) (q .z) →
    OrdinaryE X a q ∧ OrdinaryE X a (opposite X d q) ∧ SaySame X X (fun b => if b = d then cellsOf X.file d else 0) T a.e q
  magnetic : ∀ q, q d = 0 → SampleIn (meshBox X) d.h (q .x) (q .y) (q .z) →
    OrdinaryH X d q ∧ OrdinaryH X d (opposite X d q) ∧ SaySame X X (fun b => if b = d then cellsOf X.file d else 0) T d.h q

end Vulture.Spec
