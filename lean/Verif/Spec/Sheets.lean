import Verif.Spec.Items
/-
Unit squares of impedance sheets and how they meet, in node coordinates.
-/
namespace Vulture.Spec

/-- The sheet covers the unit square with normal `d` and low corner `p`. -/
def Covers (s : SibcSurf) (d : Axis) (p : Int × Int × Int) : Prop :=
  s.normal = d ∧ coord d p = s.gbbox d.lo ∧ ∀ a, a ≠ d → s.gbbox a.lo ≤ coord a p ∧ coord a p < s.gbbox a.hi

/-- The four edges of a square: low and high side along the first tangential axis, low and high side along the second. -/
inductive Edge | lowFirst | highFirst | lowSecond | highSecond
  deriving DecidableEq, Repr

/-- The axis along which the edge lies at the low or high end. -/
def Edge.across (n : Axis) : Edge → Axis
  | .lowFirst | .highFirst => n.next
  | .lowSecond | .highSecond => n.next.next

def Edge.isHigh : Edge → Bool
  | .highFirst | .highSecond => true
  | _ => false

/-- Low corner of the square that stands on the edge, on the side of lower (`above = false`) or higher coordinates
along the normal; its normal is `Edge.across`. -/
def standing (n : Axis) (p : Int × Int × Int) (above : Bool) (e : Edge) : Int × Int × Int :=
  let q := if e.isHigh then shift (e.across n) 1 p else p
  if above then q else shift n (-1) q

/-- The corners of a unit square. -/
def IsCorner (d : Axis) (p : Int × Int × Int) (v : Int × Int × Int) : Prop :=
  coord d v = coord d p ∧ ∀ a, a ≠ d → coord a v = coord a p ∨ coord a v = coord a p + 1

/-- Two squares share an edge: along one axis both ends are corners of both. -/
def ShareEdge (d : Axis) (p : Int × Int × Int) (d' : Axis) (p' : Int × Int × Int) : Prop :=
  ∃ (u : Axis) (v : Int × Int × Int), IsCorner d p v ∧ IsCorner d p (shift u 1 v) ∧ IsCorner d' p' v ∧
    IsCorner d' p' (shift u 1 v)

end Vulture.Spec
