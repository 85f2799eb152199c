import Verif.Spec.Sheets
import Verif.Spec.Media
/-
Specification for C59: how an impedance sheet and the mesh around it meet. A sheet is made of unit squares; each
square has electric fields on its two sides. An edge of the mesh in the sheet belongs to one or two squares.
-/
namespace Vulture.Spec

/-- A side of a sheet, seen along its normal: low (side a) or high (side b). -/
inductive Side | a | b
  deriving DecidableEq, Repr

/-- Which tangential magnetic component of a sheet with normal `n`: along the first or second axis after the normal;
the electric field across it, in the sheet, is along the other. -/
inductive Along | first | second
  deriving DecidableEq, Repr

/-- Direction of the magnetic component. -/
def Along.mag (n : Axis) : Along → Axis
  | .first => n.next
  | .second => n.next.next

/-- Direction of the electric field in the sheet whose jump drives that magnetic component. -/
def Along.el (n : Axis) : Along → Axis
  | .first => n.next.next
  | .second => n.next

/-- The node of the sheet's plane next to the magnetic sample `q` on that side. -/
def foot (n : Axis) (side : Side) (q : Int × Int × Int) : Int × Int × Int :=
  match side with
  | .a => shift n 1 q
  | .b => q

/-- The sample lies half a cell from the plane of the sheet, on that side. -/
def Beside (w : SibcSurf) (side : Side) (q : Int × Int × Int) : Prop :=
  coord w.normal (foot w.normal side q) = w.gbbox w.normal.lo

/-- Number of the stored electric field of a square: component 1 on sides a, b, then component 2. -/
def storedAt (al : Along) (side : Side) : Nat :=
  match al, side with
  | .second, .a => 0
  | .second, .b => 1
  | .first, .a => 2
  | .first, .b => 3

/-- Electric field of the square with low corner `p` of sheet number `n`. -/
def squareField {K : Type*} (s : Loc → K) (n : Nat) (w : SibcSurf) (al : Along) (side : Side) (p : Int × Int × Int) : K :=
  s (.et n (storedAt al side) (p.1 - w.gbbox .xlo) (p.2.1 - w.gbbox .ylo) (p.2.2 - w.gbbox .zlo))

/-- The sample is farther than half a cell from everything the sheet covers. -/
def Apart (w : SibcSurf) (fc : Fc) (q : Int × Int × Int) : Prop :=
  ∃ a : Axis, samplePos fc q.1 q.2.1 q.2.2 a < 2 * w.gbbox a.lo - 1 ∨ 2 * w.gbbox a.hi + 1 < samplePos fc q.1 q.2.1 q.2.2 a

open Classical in
/-- Field of an edge of the sheet, seen from one side: the squares on the two sides of the edge contribute with their
weights. -/
noncomputable def edgeField {K : Type*} [CommRing K] (s : Loc → K) (weightHere weightBelow : K) (n : Nat) (w : SibcSurf)
    (al : Along) (side : Side) (p : Int × Int × Int) : K :=
  (if Covers w w.normal p then weightHere * squareField s n w al side p else 0) +
  (if Covers w w.normal (shift (al.mag w.normal) (-1) p) then
    weightBelow * squareField s n w al side (shift (al.mag w.normal) (-1) p) else 0)

end Vulture.Spec

namespace Vulture.Spec

/-- Electric fields of the mesh and of the sheets as after the step, magnetic fields as before it: what the magnetic
half of the step works on. -/
def between {K : Type*} (before after : Loc → K) : Loc → K
  | .fld fc i j k => if fc.isE then after (.fld fc i j k) else before (.fld fc i j k)
  | l => after l

/-- Position `i` along an axis lies in a wall of the mesh at which fields are continued evenly: a magnetic wall or the
end of a period. -/
def OnEvenWall (c : Cfg) (a : Axis) (i : Int) : Prop :=
  ∃ f : Face, f.axis = a ∧ (c.bt f = .pmc ∨ c.bt f = .periodic) ∧ i = c.gibox f

end Vulture.Spec
