import Verif.Spec.Geometry
/-
C05  Bounding box classification is geometric.
-/
namespace Vulture.C05
open Spec

/-- The lookup tables are never indexed out of range. -/
theorem bboxType_defined (b : BBox) : (bboxType b).isSome ∧ (bboxDirection b).isSome := by
  unfold bboxType bboxDirection degenerateMask b2i bboxTypeTable bboxDirectionTable
  split <;> split <;> split <;> simp

/-- Type is volume/surface/line/point exactly when the box is flat in 0/1/2/3 axes. -/
theorem bboxType_geometric (b : BBox) :
    (bboxType b = some .volume ↔ IsVolume b) ∧
    (bboxType b = some .surface ↔ ∃ a, IsSurfaceNormal b a) ∧
    (bboxType b = some .line ↔ ∃ a, IsLineAlong b a) ∧
    (bboxType b = some .point ↔ IsPoint b) := by
  have hall : ∀ P : Axis → Prop, (∀ a, P a) ↔ P .x ∧ P .y ∧ P .z :=
    fun P => ⟨fun h => ⟨h _, h _, h _⟩, fun h a => by cases a <;> simp [h]⟩
  have hex : ∀ P : Axis → Prop, (∃ a, P a) ↔ P .x ∨ P .y ∨ P .z :=
    fun P => ⟨fun ⟨a, h⟩ => by cases a <;> simp [h], fun h => by
      rcases h with h | h | h <;> exact ⟨_, h⟩⟩
  by_cases hx : b .xlo = b .xhi <;> by_cases hy : b .ylo = b .yhi <;>
    by_cases hz : b .zlo = b .zhi <;>
    simp [bboxType, degenerateMask, b2i, bboxTypeTable, IsVolume, IsSurfaceNormal, IsLineAlong,
      IsPoint, Flat, hall, hex, Axis.lo, Axis.hi, hx, hy, hz]

/-- The direction of a line is its long axis, that of a surface its normal axis. -/
theorem bboxDirection_geometric (b : BBox) (a : Axis) :
    (IsLineAlong b a → bboxDirection b = some (some a)) ∧
    (IsSurfaceNormal b a → bboxDirection b = some (some a)) ∧
    (IsVolume b ∨ IsPoint b → bboxDirection b = some none) := by
  have hall : ∀ P : Axis → Prop, (∀ a, P a) ↔ P .x ∧ P .y ∧ P .z :=
    fun P => ⟨fun h => ⟨h _, h _, h _⟩, fun h a => by cases a <;> simp [h]⟩
  by_cases hx : b .xlo = b .xhi <;> by_cases hy : b .ylo = b .yhi <;>
    by_cases hz : b .zlo = b .zhi <;> cases a <;>
    simp [bboxDirection, degenerateMask, b2i, bboxDirectionTable, IsVolume, IsSurfaceNormal,
      IsLineAlong, IsPoint, Flat, hall, Axis.lo, Axis.hi, hx, hy, hz]

/-- The face box of a normal box consists of exactly the nodes of the box on that face. -/
theorem faceBox_nodes (b : BBox) (hb : Normal b) (f : Face) (p : Node) :
    InBox (getFaceOfBoundingBox b f) p ↔ InBox b p ∧ p f.axis = b f := by
  have hx := hb .x; have hy := hb .y; have hz := hb .z
  have hall : ∀ P : Axis → Prop, (∀ a, P a) ↔ P .x ∧ P .y ∧ P .z :=
    fun P => ⟨fun h => ⟨h _, h _, h _⟩, fun h a => by cases a <;> simp [h]⟩
  simp only [Axis.lo, Axis.hi] at hx hy hz
  unfold InBox
  rw [hall, hall]
  cases f <;> simp [getFaceOfBoundingBox, mkBox, Face.axis, Axis.lo, Axis.hi] <;> omega

/-- Containment of limits is containment of nodes (for a normal inner box). -/
theorem bboxIsWithin_nodes (b1 b2 : BBox) (h1 : Normal b1) :
    bboxIsWithin b1 b2 = true ↔ ∀ p, InBox b1 p → InBox b2 p := by
  constructor
  · intro h p hp a
    have := hp a
    simp [bboxIsWithin] at h
    cases a <;> simp [Axis.lo, Axis.hi] at * <;> omega
  · intro h
    have hlo := h (fun a => b1 a.lo) (fun a => ⟨Int.le_refl _, h1 a⟩)
    have hhi := h (fun a => b1 a.hi) (fun a => ⟨h1 a, Int.le_refl _⟩)
    have lx := hlo .x; have ly := hlo .y; have lz := hlo .z
    have ux := hhi .x; have uy := hhi .y; have uz := hhi .z
    simp only [Axis.lo, Axis.hi] at *
    simp [bboxIsWithin]; omega

/-- Offsetting a box translates its nodes by the low corner of the offset box. -/
theorem offset_nodes (b off : BBox) (p : Node) :
    InBox (offsetBoundingBox b off) p ↔ InBox b (fun a => p a - off a.lo) := by
  have hall : ∀ P : Axis → Prop, (∀ a, P a) ↔ P .x ∧ P .y ∧ P .z :=
    fun P => ⟨fun h => ⟨h _, h _, h _⟩, fun h a => by cases a <;> simp [h]⟩
  unfold InBox
  rw [hall, hall]
  simp [offsetBoundingBox, Axis.lo, Axis.hi]; omega

example : Normal (mkBox 1 4 2 2 0 7) ∧ IsSurfaceNormal (mkBox 1 4 2 2 0 7) .y := by
  constructor
  · intro a; cases a <;> simp [mkBox, Axis.lo, Axis.hi]
  · refine ⟨by simp [Flat, mkBox, Axis.lo, Axis.hi], ?_⟩
    intro c; cases c <;> simp [Flat, mkBox, Axis.lo, Axis.hi]

/-- **Finding.** The test for an elemental box (one cell, face, edge or node) accepts *every*
box (src/bounding_box.c:152 returns `true` unconditionally)... -/
theorem bboxIsElemental_accepts_everything (b : BBox) : bboxIsElemental b = true := by
  unfold bboxIsElemental bboxType degenerateMask b2i bboxTypeTable
  by_cases hx : b .xlo = b .xhi <;> by_cases hy : b .ylo = b .yhi <;>
    by_cases hz : b .zlo = b .zhi <;> simp [hx, hy, hz]

/-- ...so it does not decide `Elemental`: the claimed equivalence fails. -/
theorem bboxIsElemental_not_geometric :
    ¬ ∀ b : BBox, Normal b → (bboxIsElemental b = true ↔ Elemental b) := by
  intro h
  have := (h (mkBox 0 5 0 0 0 0) (by intro a; cases a <;> simp [mkBox, Axis.lo, Axis.hi])).1
    (bboxIsElemental_accepts_everything _) .x
  simp [mkBox, Axis.lo, Axis.hi] at this

/-- What does hold: elemental boxes are not rejected. -/
theorem bboxIsElemental_partial (b : BBox) : Elemental b → bboxIsElemental b = true :=
  fun _ => bboxIsElemental_accepts_everything b

/-- A component lies in a face iff an E component is tangential to it / an H component normal. -/
theorem field_in_boundary (c : Fc) (f : Face) :
    fieldIsInBoundary c f =
      (match c with
       | .ex | .ey | .ez => fieldIsParallelToBoundary c f
       | .hx | .hy | .hz => !fieldIsParallelToBoundary c f) := by
  cases c <;> cases f <;> decide

/-- A component is parallel to a face iff it is not parallel to the face's normal axis. -/
theorem field_parallel_boundary_axis (c : Fc) (f : Face) :
    fieldIsParallelToBoundary c f = !fieldIsParallelToAxis c f.axis := by
  cases c <;> cases f <;> decide

end Vulture.C05
