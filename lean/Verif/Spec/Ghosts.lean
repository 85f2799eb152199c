import Verif.Spec.Grid
/-
Ghost samples: the samples half a cell outside a wall of the box `b`.  Stated through sample
positions (`pos2`, twice the position in cells), not through array indices.
-/
namespace Vulture.Spec

/-- Position of a sample, doubled. -/
def place (fc : Fc) (q : Axis → Int) (a : Axis) : Int := pos2 fc a (q a)

/-- Sample `q` lies half a cell outside face `f` of `b`. -/
def HalfOutside (b : BBox) (f : Face) (fc : Fc) (q : Axis → Int) : Prop :=
  place fc q f.axis = if f.isLo then 2 * b f - 1 else 2 * b f + 1

/-- Along the other axes the sample lies on the grid or in its border of ghost samples. -/
def OnExtendedGrid (b : BBox) (f : Face) (q : Axis → Int) : Prop :=
  ∀ a : Axis, a ≠ f.axis → b a.lo - 1 ≤ q a ∧ q a ≤ b a.hi

/-- `r` is the mirror image of `q` in the plane of face `f`. -/
def MirrorImage (b : BBox) (f : Face) (fc : Fc) (q r : Axis → Int) : Prop :=
  place fc q f.axis + place fc r f.axis = 2 * (2 * b f) ∧ ∀ a, a ≠ f.axis → place fc r a = place fc q a

/-- `r` lies one period of the box from `q`, towards the inside. -/
def PeriodImage (b : BBox) (f : Face) (fc : Fc) (q r : Axis → Int) : Prop :=
  place fc r f.axis = place fc q f.axis +
    (if f.isLo then 2 * (b f.axis.hi - b f.axis.lo) else - (2 * (b f.axis.hi - b f.axis.lo))) ∧
  ∀ a, a ≠ f.axis → place fc r a = place fc q a

end Vulture.Spec
