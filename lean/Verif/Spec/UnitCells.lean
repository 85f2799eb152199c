import Verif.Model.Basic
/-
Specification for C36: unit cells of a box.
-/
namespace Vulture.Spec

/-- Coordinate of a node. -/
def co (t : Int × Int × Int) : Axis → Int
  | .x => t.1
  | .y => t.2.1
  | .z => t.2.2

/-- Low corners of the unit cells of a box; along an axis where the box is flat the cell is flat as well. -/
def LowCorner (lo hi : Axis → Int) (t : Int × Int × Int) : Prop :=
  ∀ a, if lo a = hi a then co t a = lo a else lo a ≤ co t a ∧ co t a < hi a

/-- Nodes of the unit cell at `t`. -/
def CellNode (lo hi : Axis → Int) (t p : Int × Int × Int) : Prop :=
  ∀ a, if lo a = hi a then co p a = co t a else co p a = co t a ∨ co p a = co t a + 1

/-- A node of the mesh of `nx * ny * nz` nodes. -/
def MeshNode (nx ny nz : Int) (t : Int × Int × Int) : Prop :=
  (0 ≤ t.1 ∧ t.1 < nx) ∧ (0 ≤ t.2.1 ∧ t.2.1 < ny) ∧ (0 ≤ t.2.2 ∧ t.2.2 < nz)

/-- Number of axes along which a box extends. -/
def extents (lo hi : Axis → Int) : Nat :=
  (if lo .x = hi .x then 0 else 1) + (if lo .y = hi .y then 0 else 1) + (if lo .z = hi .z then 0 else 1)

/-- Two nodes are ends of one mesh edge. -/
def Adjacent (p q : Int × Int × Int) : Prop := (p.1 - q.1).natAbs + (p.2.1 - q.2.1).natAbs + (p.2.2 - q.2.2).natAbs = 1

end Vulture.Spec
