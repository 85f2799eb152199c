/-
Basic enumerations and bounding boxes.
Models: src/fdtd_types.h, src/fdtd_types.c, src/bounding_box.h, src/bounding_box.c
-/
namespace Vulture

/-- `CoordAxis` without the value `CA_UNDEFINED`. src/fdtd_types.h:52-59 -/
inductive Axis | x | y | z
  deriving DecidableEq, Repr

/-- `MeshFace`. src/fdtd_types.h:84-94 (values 0..5 in this order). -/
inductive Face | xlo | xhi | ylo | yhi | zlo | zhi
  deriving DecidableEq, Repr

/-- `FieldComponent`. src/fdtd_types.h:98-108 (values 0..5 in this order). -/
inductive Fc | ex | ey | ez | hx | hy | hz
  deriving DecidableEq, Repr

/-- `BoundingBoxType`. src/fdtd_types.h:112-120; `BB_INVALID` is never produced by `bboxType`
and is left out. -/
inductive BBType | point | line | surface | volume
  deriving DecidableEq, Repr

/-- Low face of an axis (`XLO`, `YLO`, `ZLO`). src/fdtd_types.h:84-94 -/
def Axis.lo : Axis → Face | .x => .xlo | .y => .ylo | .z => .zlo
/-- High face of an axis (`XHI`, `YHI`, `ZHI`). src/fdtd_types.h:84-94 -/
def Axis.hi : Axis → Face | .x => .xhi | .y => .yhi | .z => .zhi
/-- Axis normal to a face. src/fdtd_types.h:84-94 -/
def Face.axis : Face → Axis
  | .xlo => .x | .xhi => .x | .ylo => .y | .yhi => .y | .zlo => .z | .zhi => .z
/-- True for `XLO`, `YLO`, `ZLO`. src/fdtd_types.h:84-94 -/
def Face.isLo : Face → Bool
  | .xlo => true | .xhi => false | .ylo => true | .yhi => false | .zlo => true | .zhi => false
/-- Numerical value of the C enumerator. src/fdtd_types.h:84-94 -/
def Face.toNat : Face → Nat
  | .xlo => 0 | .xhi => 1 | .ylo => 2 | .yhi => 3 | .zlo => 4 | .zhi => 5
/-- All faces in the order of the C loops `for(face=XLO;face<=ZHI;face++)`. -/
def Face.all : List Face := [.xlo, .xhi, .ylo, .yhi, .zlo, .zhi]

/-- Statements about all axes, faces or components can be decided. -/
instance (p : Axis → Prop) [DecidablePred p] : Decidable (∀ a, p a) :=
  decidable_of_iff (p .x ∧ p .y ∧ p .z) ⟨fun h a => by cases a <;> simp [h], fun h => ⟨h _, h _, h _⟩⟩
instance (p : Face → Prop) [DecidablePred p] : Decidable (∀ a, p a) :=
  decidable_of_iff (p .xlo ∧ p .xhi ∧ p .ylo ∧ p .yhi ∧ p .zlo ∧ p .zhi)
    ⟨fun h a => by cases a <;> simp [h], fun h => ⟨h _, h _, h _, h _, h _, h _⟩⟩
instance (p : Fc → Prop) [DecidablePred p] : Decidable (∀ a, p a) :=
  decidable_of_iff (p .ex ∧ p .ey ∧ p .ez ∧ p .hx ∧ p .hy ∧ p .hz)
    ⟨fun h a => by cases a <;> simp [h], fun h => ⟨h _, h _, h _, h _, h _, h _⟩⟩

/-- A C `int bbox[6]` indexed by `MeshFace`. -/
abbrev BBox := Face → Int

/-- `setBoundingBoxFromNodes`. src/bounding_box.c:292-304 -/
def mkBox (ilo ihi jlo jhi klo khi : Int) : BBox
  | .xlo => ilo | .xhi => ihi | .ylo => jlo | .yhi => jhi | .zlo => klo | .zhi => khi

/-- `bboxIsNormal`. src/bounding_box.h:31-34, *as written*: the third conjunct compares
`bbox[ZLO]` with itself. -/
def bboxIsNormal (b : BBox) : Bool :=
  decide (b .xlo ≤ b .xhi) && decide (b .ylo ≤ b .yhi) && decide (b .zlo ≤ b .zlo)

/-- `bboxIsWithin`. src/bounding_box.h:37-42 -/
def bboxIsWithin (b1 b2 : BBox) : Bool :=
  decide (b1 .xlo ≥ b2 .xlo) && decide (b1 .xhi ≤ b2 .xhi) &&
  decide (b1 .ylo ≥ b2 .ylo) && decide (b1 .yhi ≤ b2 .yhi) &&
  decide (b1 .zlo ≥ b2 .zlo) && decide (b1 .zhi ≤ b2 .zhi)

/-- `offsetBoundingBox`. src/bounding_box.h:45-57 -/
def offsetBoundingBox (b off : BBox) : BBox
  | .xlo => b .xlo + off .xlo
  | .ylo => b .ylo + off .ylo
  | .zlo => b .zlo + off .zlo
  | .xhi => b .xhi + off .xlo
  | .yhi => b .yhi + off .ylo
  | .zhi => b .zhi + off .zlo

/-- The C value of a comparison. -/
def b2i (p : Prop) [Decidable p] : Nat := if p then 1 else 0

/-- The index `mask = ix + 2*iy + 4*iz`. src/bounding_box.c:43-47, 59-63 -/
def degenerateMask (b : BBox) : Nat :=
  b2i (b .xlo = b .xhi) + 2 * b2i (b .ylo = b .yhi) + 4 * b2i (b .zlo = b .zhi)

/-- Table of `bboxType`. src/bounding_box.c:41 -/
def bboxTypeTable : List BBType :=
  [.volume, .surface, .surface, .line, .surface, .line, .line, .point]

/-- `bboxType`. src/bounding_box.c:38-51. `none` would be an out-of-range table index
(shown impossible below). -/
def bboxType (b : BBox) : Option BBType := bboxTypeTable[degenerateMask b]?

/-- Table of `bboxDirection` (`none` = `CA_UNDEFINED`). src/bounding_box.c:57 -/
def bboxDirectionTable : List (Option Axis) :=
  [none, some .x, some .y, some .z, some .z, some .y, some .x, none]

/-- `bboxDirection`. src/bounding_box.c:54-67 -/
def bboxDirection (b : BBox) : Option (Option Axis) := bboxDirectionTable[degenerateMask b]?

/-- `getFaceOfBoundingBox`. src/bounding_box.c:70-130, one equation per `case`. -/
def getFaceOfBoundingBox (b : BBox) : Face → BBox
  | .xlo => mkBox (b .xlo) (b .xlo) (b .ylo) (b .yhi) (b .zlo) (b .zhi)
  | .xhi => mkBox (b .xhi) (b .xhi) (b .ylo) (b .yhi) (b .zlo) (b .zhi)
  | .ylo => mkBox (b .xlo) (b .xhi) (b .ylo) (b .ylo) (b .zlo) (b .zhi)
  | .yhi => mkBox (b .xlo) (b .xhi) (b .yhi) (b .yhi) (b .zlo) (b .zhi)
  | .zlo => mkBox (b .xlo) (b .xhi) (b .ylo) (b .yhi) (b .zlo) (b .zlo)
  | .zhi => mkBox (b .xlo) (b .xhi) (b .ylo) (b .yhi) (b .zhi) (b .zhi)

/-- `bboxIsElemental`. src/bounding_box.c:133-159, including the second, unconditional
`return true` on line 152. (`fmax` of `int`s is exact in `double`.) -/
def bboxIsElemental (b : BBox) : Bool :=
  let maxSize := max (max (b .xhi - b .xlo) (b .yhi - b .ylo)) (b .zhi - b .zlo)
  match bboxType b with
  | some .point => decide (maxSize = 0)
  | some .line | some .surface | some .volume => if maxSize = 1 then true else true
  | none => false

/-- `fieldIsInBoundary`. src/bounding_box.c:162-212 -/
def fieldIsInBoundary : Fc → Face → Bool
  | .ex, f => !(f == .xlo || f == .xhi)
  | .ey, f => !(f == .ylo || f == .yhi)
  | .ez, f => !(f == .zlo || f == .zhi)
  | .hx, f => (f == .xlo || f == .xhi)
  | .hy, f => (f == .ylo || f == .yhi)
  | .hz, f => (f == .zlo || f == .zhi)

/-- `fieldIsParallelToBoundary`. src/bounding_box.c:216-251 -/
def fieldIsParallelToBoundary : Fc → Face → Bool
  | .ex, f | .hx, f => !(f == .xlo || f == .xhi)
  | .ey, f | .hy, f => !(f == .ylo || f == .yhi)
  | .ez, f | .hz, f => !(f == .zlo || f == .zhi)

/-- `fieldIsParallelToAxis`. src/bounding_box.c:254-289 -/
def fieldIsParallelToAxis : Fc → Axis → Bool
  | .ex, a | .hx, a => a == .x
  | .ey, a | .hy, a => a == .y
  | .ez, a | .hz, a => a == .z

end Vulture
