import Verif.Model.Basic
import Verif.Model.FaceMask
/-
Validation of the geometry cards MB, TB, TW, EX, OP, PW (the decisions of the parsers, after
`sscanf` has delivered the tokens). `true` = the card is accepted, `false` = the parser returns
false, upon which `readMesh` stops with an error.
Names are resolved by the arguments `known...` (see Model/Registry.lean for the registries).
-/
namespace Vulture

/-- Tokens of an `MB` card. src/block.c:73-74 -/
structure MBCard where
  numScanned : Nat
  bbox : BBox
  medium : String
  mask : List Char := "111111".toList

/-- `parseMB`. src/block.c:63-117 (line 103: the mask is checked when `numScanned <= 8`, i.e.
always). -/
def parseMB (mbox : BBox) (knownMedium : String → Bool) (c : MBCard) : Bool :=
  decide (c.numScanned ≥ 7) && bboxIsNormal c.bbox && bboxIsWithin c.bbox mbox &&
  decide (bboxType c.bbox = some .volume) && knownMedium c.medium &&
  (decide (c.numScanned > 8) || decide (setFaceMaskFromString c.mask ≠ FACE_MASK_ERROR))

/-- Tokens of a `TB` card. src/surface.c:187-188 -/
structure TBCard where
  numScanned : Nat
  bbox : BBox
  boundary : String
  orient : Int := 1
  angle : Rat := 0

/-- `parseTB`. src/surface.c:177-236 -/
def parseTB (mbox : BBox) (knownBoundary : String → Bool) (c : TBCard) : Bool :=
  decide (c.numScanned ≥ 7) && bboxIsNormal c.bbox && bboxIsWithin c.bbox mbox &&
  decide (bboxType c.bbox = some .surface) && knownBoundary c.boundary &&
  !(decide (c.orient ≠ 1) && decide (c.orient ≠ -1)) &&
  !(decide (c.angle < -180) || decide (c.angle > 180))

/-- Tokens of a `TW` card. src/line.c:104-106 -/
structure TWCard where
  numScanned : Nat
  bbox : BBox
  wire : String

/-- `parseTW`. src/line.c:92-161; the wire end types (lines 135-152), which stop the program when
unknown, are left out. -/
def parseTW (mbox : BBox) (knownWire : String → Bool) (c : TWCard) : Bool :=
  decide (c.numScanned ≥ 7) && bboxIsNormal c.bbox && bboxIsWithin c.bbox mbox &&
  decide (bboxType c.bbox = some .line) && knownWire c.wire

/-- Tokens of an `EX` card; `lumped` says that the tag is one of VR*/IG* (Thevenin/Norton),
`knownTag` that the tag is in the table. src/source.c:371-403, 418-421 -/
structure EXCard where
  numScanned : Nat
  bbox : BBox
  name : String
  knownTag : Bool
  lumped : Bool
  waveform : String

/-- `parseEX`. src/source.c:350-465 -/
def parseEX (mbox : BBox) (knownSource knownWaveform : String → Bool) (c : EXCard) : Bool :=
  decide (c.numScanned ≥ 9) && !knownSource c.name && c.knownTag &&
  bboxIsNormal c.bbox && bboxIsWithin c.bbox mbox &&
  (!c.lumped || !(decide (bboxType c.bbox ≠ some .line) || !bboxIsElemental c.bbox)) &&
  knownWaveform c.waveform

/-- Tokens of an `OP` card: `ascii` for the types `TDOM_ASCII` and `FDOM_ASCII`, `freq` for the latter.
src/observer.c:179-182, 197-199, 240-255 -/
structure OPCard where
  numScanned : Nat
  bbox : BBox
  name : String
  knownType : Bool
  ascii : Bool
  stepX : Int := 1
  stepY : Int := 1
  stepZ : Int := 1
  waveform : String := ""
  freq : Bool := false

/-- `parseOP`. src/observer.c:177-281 -/
def parseOP (mbox : BBox) (knownObserver knownWaveform : String → Bool) (c : OPCard) : Bool :=
  decide (c.numScanned ≥ 8) && !knownObserver c.name &&
  bboxIsNormal c.bbox && bboxIsWithin c.bbox mbox && c.knownType &&
  (if c.ascii then !decide (bboxType c.bbox ≠ some .point)
   else !(decide (c.stepX < 0) || decide (c.stepY < 0) || decide (c.stepZ < 0))) &&
  (decide (c.waveform = "") || knownWaveform c.waveform)

/-- Tokens of a `PW` card. src/planewave.c:193-195 -/
structure PWCard where
  numScanned : Nat
  bbox : BBox
  name : String
  waveform : String
  theta : Rat
  phi : Rat
  eta : Rat
  mask : List Char := "111111".toList
  size : Rat := 1

/-- `parsePW`. src/planewave.c:176-273 -/
def parsePW (mbox : BBox) (knownPlaneWave knownWaveform : String → Bool) (c : PWCard) : Bool :=
  decide (c.numScanned ≥ 11) && !knownPlaneWave c.name &&
  bboxIsNormal c.bbox && bboxIsWithin c.bbox mbox && knownWaveform c.waveform &&
  !(decide (c.theta < 0) || decide (c.theta > 180)) &&
  !(decide (c.phi < 0) || decide (c.phi > 360)) &&
  !(decide (c.eta < 0) || decide (c.eta ≥ 360)) &&
  (decide (c.numScanned < 12) ||
    (decide (c.mask.length = 6) && (decodeFaceMask c.mask).isSome)) &&
  !(decide (c.numScanned ≥ 13) && decide (c.size < 0))

/-- `parseDM` on scanned values: mesh box for a mesh of `nx*ny*nz` cells; `none` = rejected.
src/grid.c:177-205 -/
def parseDM (nx ny nz : Int) : Option BBox :=
  if nx < 1 ∨ ny < 1 ∨ nz < 1 then none else some (mkBox 0 nx 0 ny 0 nz)

end Vulture
