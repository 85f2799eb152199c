import Verif.Model.Msh
import Verif.Spec.UnitCells
import Verif.Spec.Observe
import Verif.Spec.Drawing
/-
Specification for C94: what a Gmsh file of a mesh shows.
-/
namespace Vulture.Spec
open Vulture.Gmsh (Msh MshElement)
open Vulture.Deck (Card)

/-- Axes along which a box extends. -/
def extended (b : BBox) : List Axis := [Axis.x, Axis.y, Axis.z].filter fun a => b a.lo ≠ b a.hi

/-- One step along an axis. -/
def next (t : Int × Int × Int) : Axis → Int × Int × Int
  | .x => (t.1 + 1, t.2.1, t.2.2)
  | .y => (t.1, t.2.1 + 1, t.2.2)
  | .z => (t.1, t.2.1, t.2.2 + 1)

/-- Corners of the unit cell at `t` in the order Gmsh asks for: a point, the ends of a line, the corners of a quadrangle all
around, those of the bottom of a hexahedron and those above them. -/
def cellCorners (b : BBox) (t : Int × Int × Int) : List (Int × Int × Int) :=
  match extended b with
  | [a] => [t, next t a]
  | [a, c] => [t, next t a, next (next t a) c, next t c]
  | [a, c, d] => [t, next t a, next (next t a) c, next t c,
      next t d, next (next t a) d, next (next (next t a) c) d, next (next t c) d]
  | _ => [t]

/-- What is shown: all unit cells of a box, or its nodes at some distance from each other. -/
inductive Shape
  | cells (b : BBox)
  | nodes (b : BBox) (step : Axis → Int)

/-- The parts of a shape by their low corners. -/
def Shape.part : Shape → Int × Int × Int → Prop
  | .cells b, t => LowCorner (fun a => b a.lo) (fun a => b a.hi) t
  | .nodes b step, t => ∀ a, Selected (b a.lo) (b a.hi) (step a) (co t a)

/-- Corners of a part. -/
def Shape.corners : Shape → Int × Int × Int → List (Int × Int × Int)
  | .cells b, t => cellCorners b t
  | .nodes _ _, t => [t]

/-- Dimension of the parts. -/
def Shape.dim : Shape → Nat
  | .cells b => (extended b).length
  | .nodes _ _ => 0

/-- A shape and the name of its group. -/
structure Thing where
  name : String
  shape : Shape

/-- The axis across a face. -/
def acrossFace : Face → Axis
  | .xlo | .xhi => .x
  | .ylo | .yhi => .y
  | .zlo | .zhi => .z

/-- A face of a box. -/
def faceBox (b : BBox) (f : Face) : BBox := fun g => if acrossFace g = acrossFace f then b f else b g

/-- The names of the sides of the mesh. -/
def sideName : Face → String
  | .xlo => "XLO" | .xhi => "XHI" | .ylo => "YLO" | .yhi => "YHI" | .zlo => "ZLO" | .zhi => "ZHI"

/-- What a mesh file asks to be shown: the sides of the mesh unless switched off, the boxes of the cards, the active faces
of the plane waves, the output nodes of the observers. -/
inductive Shown (f : Deck.File) (external : Bool) : Thing → Prop
  | side (a : Face) : external = true → Shown f external ⟨"BT_" ++ sideName a, .cells (faceBox (mkBox 0 f.nx 0 f.ny 0 f.nz) a)⟩
  | sheet (c : TBCard) : Card.tb c ∈ f.cards → Shown f external ⟨"BT_" ++ c.boundary, .cells c.bbox⟩
  | block (c : MBCard) : Card.mb c ∈ f.cards → Shown f external ⟨"MT_" ++ c.medium, .cells c.bbox⟩
  | wire (c : TWCard) : Card.tw c ∈ f.cards → Shown f external ⟨"WT_" ++ c.wire, .cells c.bbox⟩
  | source (k : Nat) (b : BBox) (name : String) (tag : List Char) (wave : String) (size delay resist : ℝ) :
      Card.ex k b name tag wave size delay resist ∈ f.cards → Shown f external ⟨"EX_" ++ name, .cells b⟩
  | wave (c : PWCard) (delay : ℝ) (a : Face) : Card.pw c delay ∈ f.cards → Deck.pwActive c a = true →
      Shown f external ⟨"PW_" ++ c.name, .cells (faceBox c.bbox a)⟩
  | observer (c : OPCard) : Card.op c ∈ f.cards → Shown f external ⟨"OP_" ++ c.name, .nodes c.bbox fun a =>
      if c.ascii then 1 else match a with | .x => c.stepX | .y => c.stepY | .z => c.stepZ⟩

/-- Gmsh's codes of points, lines, quadrangles and hexahedra. -/
def mshCode : Nat → Nat
  | 0 => 15 | 1 => 1 | 2 => 3 | _ => 5

/-- The element is the part at `t` of a thing: of the right type, in the group of that name and of its dimension, its nodes
at the corners in order. `u`: positions of the mesh lines. -/
def Draws {K : Type} (m : Msh K) (u : Axis → Int → K) (th : Thing) (entity : Nat) (t : Int × Int × Int) (e : MshElement) : Prop :=
  e.code = mshCode th.shape.dim ∧ (∃ g, e.tags = [g, entity] ∧ (th.shape.dim, g, th.name) ∈ m.names) ∧
  List.Forall₂ (fun i p => (i, pin u (co p)) ∈ m.nodes) e.nodes (th.shape.corners t)

/-- One element for each part of a thing. -/
def OnceEach {K : Type} (m : Msh K) (u : Axis → Int → K) (th : Thing) (entity : Nat) (es : List MshElement) : Prop :=
  ∃ ts : List (Int × Int × Int), ts.Nodup ∧ (∀ t, t ∈ ts ↔ th.shape.part t) ∧ List.Forall₂ (Draws m u th entity) ts es

/-- Where a mesh line stands in the picture: at its coordinate, or at its number. -/
def shownAt {K : Type} [IntCast K] (physical : Bool) (lines : Axis → Int → K) (a : Axis) (i : Int) : K :=
  if physical then lines a i else (i : K)

/-- The boxes of plane waves extend along all axes, and observers have positive distances between their nodes. -/
def Exportable (f : Deck.File) : Prop :=
  (∀ c delay, Card.pw c delay ∈ f.cards → ∀ a : Axis, c.bbox a.lo < c.bbox a.hi) ∧
  (∀ c, Card.op c ∈ f.cards → c.ascii = false → 1 ≤ c.stepX ∧ 1 ≤ c.stepY ∧ 1 ≤ c.stepZ)

end Vulture.Spec
