import Verif.Model.Cards
import Verif.Spec.Geometry
import Verif.Props.C06_FaceMask
/-
Specification: the rules of the six cards that carry a bounding box, written from the manual,
apart from the rule for the box limits themselves.
-/
namespace Vulture.Spec

/-- The names that other cards have declared. -/
structure Declared where
  medium : String → Bool
  boundary : String → Bool
  wire : String → Bool
  source : String → Bool
  waveform : String → Bool
  observer : String → Bool
  planeWave : String → Bool

/-- The text is a binary numeral of a number of at most six bits. -/
def SixBits (s : List Char) : Prop := ∃ v, v ≤ 63 ∧ C06.IsMaskNumeral s v

/-- A string of six characters, each `0` or `1`. -/
def SixFlags (s : List Char) : Prop := s.length = 6 ∧ ∀ c ∈ s, c = '0' ∨ c = '1'

/-- The limits of a box that every card checks: low not above high along x and y, all limits
inside the mesh. -/
def LimitsChecked (mbox b : BBox) : Prop :=
  (∀ a : Axis, a ≠ .z → b a.lo ≤ b a.hi) ∧ Within b mbox

/-- A material block: a volume of a declared medium. -/
def BlockRules (n : Declared) (c : MBCard) : Prop :=
  7 ≤ c.numScanned ∧ IsVolume c.bbox ∧ n.medium c.medium = true ∧ SixBits c.mask

/-- An internal surface: a surface of a declared boundary type, oriented, turned by at most half
a turn. -/
def SurfaceRules (n : Declared) (c : TBCard) : Prop :=
  7 ≤ c.numScanned ∧ (∃ a, IsSurfaceNormal c.bbox a) ∧ n.boundary c.boundary = true ∧
  (c.orient = 1 ∨ c.orient = -1) ∧ -180 ≤ c.angle ∧ c.angle ≤ 180

/-- A wire: a line of a declared wire type. -/
def WireRules (n : Declared) (c : TWCard) : Prop :=
  7 ≤ c.numScanned ∧ (∃ a, IsLineAlong c.bbox a) ∧ n.wire c.wire = true

/-- A source: a new name, a known kind, a declared waveform, and a line if it is lumped. -/
def SourceRules (n : Declared) (c : EXCard) : Prop :=
  9 ≤ c.numScanned ∧ n.source c.name = false ∧ c.knownTag = true ∧ n.waveform c.waveform = true ∧
  (c.lumped = true → ∃ a, IsLineAlong c.bbox a)

/-- An observer: a new name, a known kind, a reference waveform that is declared if there is one;
a point if its output is text, otherwise with steps that are not negative. -/
def ObserverRules (n : Declared) (c : OPCard) : Prop :=
  8 ≤ c.numScanned ∧ n.observer c.name = false ∧ c.knownType = true ∧
  (c.waveform = "" ∨ n.waveform c.waveform = true) ∧
  (c.ascii = true → IsPoint c.bbox) ∧
  (c.ascii = false → 0 ≤ c.stepX ∧ 0 ≤ c.stepY ∧ 0 ≤ c.stepZ)

/-- A plane wave: a new name, a declared waveform, angles in their ranges; if a face mask is given
it has six flags, if a size is given it is not negative. -/
def PlaneWaveRules (n : Declared) (c : PWCard) : Prop :=
  11 ≤ c.numScanned ∧ n.planeWave c.name = false ∧ n.waveform c.waveform = true ∧
  (0 ≤ c.theta ∧ c.theta ≤ 180) ∧ (0 ≤ c.phi ∧ c.phi ≤ 360) ∧ (0 ≤ c.eta ∧ c.eta < 360) ∧
  (12 ≤ c.numScanned → SixFlags c.mask) ∧ (13 ≤ c.numScanned → 0 ≤ c.size)

end Vulture.Spec
