import Verif.Model.Basic
/-
Specification vocabulary for integer boxes: points of a box. Uses only the types of the model.
-/
namespace Vulture.Spec

/-- A lattice node. -/
abbrev Node := Axis → Int

/-- `p` is a node of the closed box `b`. -/
def InBox (b : BBox) (p : Node) : Prop := ∀ a : Axis, b a.lo ≤ p a ∧ p a ≤ b a.hi

/-- The box is normal: low ≤ high on every axis. -/
def Normal (b : BBox) : Prop := ∀ a : Axis, b a.lo ≤ b a.hi

/-- `b1` lies inside `b2` (limits). -/
def Within (b1 b2 : BBox) : Prop := ∀ a : Axis, b2 a.lo ≤ b1 a.lo ∧ b1 a.hi ≤ b2 a.hi

/-- `b` has zero extent along `a`. -/
def Flat (b : BBox) (a : Axis) : Prop := b a.lo = b a.hi

/-- A line along `a`: flat in the other two axes only. -/
def IsLineAlong (b : BBox) (a : Axis) : Prop := ¬ Flat b a ∧ ∀ c, c ≠ a → Flat b c
/-- A surface normal to `a`: flat in that axis only. -/
def IsSurfaceNormal (b : BBox) (a : Axis) : Prop := Flat b a ∧ ∀ c, c ≠ a → ¬ Flat b c
/-- Volume: flat nowhere. -/
def IsVolume (b : BBox) : Prop := ∀ a, ¬ Flat b a
/-- Point: flat everywhere. -/
def IsPoint (b : BBox) : Prop := ∀ a, Flat b a

/-- A single mesh element (node, edge, face, cell): no extent exceeds one cell. -/
def Elemental (b : BBox) : Prop := ∀ a : Axis, b a.hi - b a.lo ≤ 1

end Vulture.Spec
