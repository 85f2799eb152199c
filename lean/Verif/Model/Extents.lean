import Verif.Model.Basic
/-
Grid extents, field limits, PML slabs and Mur faces (index arithmetic only).
Models: src/grid.c:357-454, src/pml.c:133-195, src/mur.c:65-116, src/surface.c:240-326.
-/
namespace Vulture

/-- `BoundaryType` of an external surface after validation. src/boundary.h:38-50; the internal-only
types (`BT_FREE_SPACE`, `BT_SIBC`) end in `assert(0)` (src/surface.c:318-320) and are left out. -/
inductive BType | pec | pmc | periodic | pml | mur
  deriving DecidableEq, Repr

/-- What a run is set up from: cells per axis (`numLines - 1`), boundary type and number of layers
of each outer face. -/
structure Cfg where
  n : Axis → Int
  bt : Face → BType
  layers : Face → Int

/-- Layer validation of one outer surface: `none` = error exit. src/surface.c:277-321 -/
def surfaceLayers (t : BType) (numLayers : Int) : Option Int :=
  match t with
  | .pec | .pmc | .periodic | .mur => some 0
  | .pml => if numLayers < 1 then none else some numLayers

/-- Opposite face: `surface - 2 * ( surface % 2 ) + 1`. src/surface.c:302 -/
def Face.opposite : Face → Face
  | .xlo => .xhi | .xhi => .xlo | .ylo => .yhi | .yhi => .ylo | .zlo => .zhi | .zhi => .zlo

/-- `initExternalSurfaceParameters` on declared layers; `none` = error exit.
src/surface.c:240-326 (the default-PML declaration of lines 251-266 is the caller's choice of `bt`) -/
def initExternalSurfaceParameters (n : Axis → Int) (bt : Face → BType) (declared : Face → Int) :
    Option Cfg :=
  if Face.all.any (fun f => (surfaceLayers (bt f) (declared f)).isNone ||
      (bt f == .periodic && !(bt f.opposite == .periodic))) then none
  else some ⟨n, bt, fun f => (surfaceLayers (bt f) (declared f)).getD 0⟩

/-- `NUM_GHOST_CELLS`. src/grid.h:33 -/
def NUM_GHOST_CELLS : Int := 1

namespace Cfg
variable (c : Cfg)

/-- `numLines`. src/grid.c:196-198 -/
def numLines (a : Axis) : Int := c.n a + 1

/-- `mbox`. src/grid.c:188-193 -/
def mbox : BBox
  | .xlo => 0 | .ylo => 0 | .zlo => 0
  | .xhi => c.n .x | .yhi => c.n .y | .zhi => c.n .z

/-- Low side of `gobox`. src/grid.c:364-366 -/
def goboxLo (_ : Axis) : Int := NUM_GHOST_CELLS
/-- Low side of `gibox`. src/grid.c:367-369 -/
def giboxLo (a : Axis) : Int := goboxLo a + c.layers a.lo
/-- High side of `gibox`. src/grid.c:370-372 -/
def giboxHi (a : Axis) : Int := c.giboxLo a + c.numLines a - 1
/-- High side of `gobox`. src/grid.c:373-375 -/
def goboxHi (a : Axis) : Int := c.giboxHi a + c.layers a.hi

/-- `gibox`. src/grid.c:367-372 -/
def gibox : BBox
  | .xlo => c.giboxLo .x | .xhi => c.giboxHi .x | .ylo => c.giboxLo .y | .yhi => c.giboxHi .y
  | .zlo => c.giboxLo .z | .zhi => c.giboxHi .z
/-- `gobox`. src/grid.c:364-366, 373-375 -/
def gobox : BBox
  | .xlo => goboxLo .x | .xhi => c.goboxHi .x | .ylo => goboxLo .y | .yhi => c.goboxHi .y
  | .zlo => goboxLo .z | .zhi => c.goboxHi .z
/-- `ggbox`. src/grid.c:361-363, 376-378 -/
def ggbox : BBox
  | .xlo => 0 | .ylo => 0 | .zlo => 0
  | .xhi => c.gobox .xhi + 1 | .yhi => c.gobox .yhi + 1 | .zhi => c.gobox .zhi + 1
/-- `numCells`. src/grid.c:381-383 -/
def numCells (a : Axis) : Int := c.gobox a.hi - c.gobox a.lo + 2 * NUM_GHOST_CELLS

end Cfg

/-- `setFieldLimits`, one entry. src/grid.c:414-454 -/
def setFieldLimits (bbox : BBox) (incl : Face → Bool) (fc : Fc) (face : Face) : Int :=
  if face.isLo then
    if fieldIsInBoundary fc face then
      if incl face then bbox face else bbox face + 1
    else bbox face
  else
    if fieldIsInBoundary fc face then
      if incl face then bbox face else bbox face - 1
    else bbox face - 1

/-- Inner-grid limits `gfilim`: Mur faces are excluded. src/grid.c:390-405 -/
def Cfg.gfilim (c : Cfg) : Fc → Face → Int :=
  setFieldLimits c.gibox (fun f => !(c.bt f == .mur))
/-- Outer-grid limits `gfolim`. src/grid.c:393, 406 -/
def Cfg.gfolim (c : Cfg) : Fc → Face → Int := setFieldLimits c.gobox (fun _ => true)

/-- `pbox[region]`. src/pml.c:148-187 -/
def Cfg.pbox (c : Cfg) : Face → BBox
  | .xlo => mkBox (c.gobox .xlo) (c.gibox .xlo) (c.gobox .ylo) (c.gobox .yhi) (c.gobox .zlo) (c.gobox .zhi)
  | .xhi => mkBox (c.gibox .xhi) (c.gobox .xhi) (c.gobox .ylo) (c.gobox .yhi) (c.gobox .zlo) (c.gobox .zhi)
  | .ylo => mkBox (c.gibox .xlo) (c.gibox .xhi) (c.gobox .ylo) (c.gibox .ylo) (c.gobox .zlo) (c.gobox .zhi)
  | .yhi => mkBox (c.gibox .xlo) (c.gibox .xhi) (c.gibox .yhi) (c.gobox .yhi) (c.gobox .zlo) (c.gobox .zhi)
  | .zlo => mkBox (c.gibox .xlo) (c.gibox .xhi) (c.gibox .ylo) (c.gibox .yhi) (c.gobox .zlo) (c.gibox .zlo)
  | .zhi => mkBox (c.gibox .xlo) (c.gibox .xhi) (c.gibox .ylo) (c.gibox .yhi) (c.gibox .zhi) (c.gobox .zhi)

/-- `includeBoundary[region][face]` of the PML. src/pml.c:136-141 -/
def pmlInclude : Face → Face → Bool
  | .xlo, .xhi => false
  | .xhi, .xlo => false
  | .ylo, .yhi => false
  | .yhi, .ylo => false
  | .zlo, .zhi => false
  | .zhi, .zlo => false
  | _, _ => true

/-- `fplim[region]`. src/pml.c:190-191 -/
def Cfg.fplim (c : Cfg) (region : Face) : Fc → Face → Int :=
  setFieldLimits (c.pbox region) (pmlInclude region)

/-- `includeBoundary` of a Mur face after `deselectAdjacentEdgesByType`. src/mur.c:65-98, 110-114 -/
def Cfg.murInclude (c : Cfg) (face f : Face) : Bool :=
  !(f.axis != face.axis && c.bt f == .mur)

/-- `fmlim[face]` (only set for Mur faces). src/mur.c:112-116 -/
def Cfg.fmlim (c : Cfg) (face : Face) : Fc → Face → Int :=
  setFieldLimits (getFaceOfBoundingBox c.gibox face) (c.murInclude face)

/-- `[lo, hi]` as the C loops `for( i = lo ; i <= hi ; i++ )` visit it. -/
def intRange (lo hi : Int) : List Int := (List.range (hi + 1 - lo).toNat).map (fun (t : Nat) => lo + t)

/-- The triple loop over the limits of one component, `i` outermost. e.g. src/grid.c:721-744 -/
def boxLoop (lim : Face → Int) : List (Int × Int × Int) :=
  (intRange (lim .xlo) (lim .xhi)).flatMap fun i =>
    (intRange (lim .ylo) (lim .yhi)).flatMap fun j =>
      (intRange (lim .zlo) (lim .zhi)).map fun k => (i, j, k)

end Vulture
