import Verif.Model.Sim
import Verif.Model.FaceMask
import Mathlib.Algebra.Field.Basic
/-
Media: update coefficients and the assignment of media to field samples.
Models: src/medium.c:75-184 (after scanning), 381-441, 482-504, 571-590; src/grid.c:1146-1161,
1726-1873; src/block.c:148-224; src/line.c:165-204; src/surface.c:350-458; src/pml.c:457-629;
src/source.c:548-571 (media only); src/debye.c:76-196 (limits only).
-/
namespace Vulture

/-! ### Coefficients -/

/-- Update coefficients of one medium. src/medium.h -/
structure Coef (K : Type*) where
  alpha : K
  beta : K
  gamma : K
  deriving DecidableEq, Repr

/-- `MediumType`. src/medium.h:49-58 -/
inductive MType | freeSpace | pec | simple | debye
  deriving DecidableEq, Repr

/-- Parameters of a declared medium; `sum` is the sum of `creal( dbeta[..] )` over its poles
(0 without poles). src/medium.h:70-90 -/
structure Medium (K : Type*) where
  type : MType
  eps_r : K
  sigma : K
  mu_r : K
  sum : K
  deriving DecidableEq, Repr

variable {K : Type*}

/-- `calcCoeffFromParam`. src/medium.c:482-504 -/
def calcCoeff [Field K] (dt eps0 mu0 : K) (m : Medium K) : Coef K where
  alpha := (2 * m.eps_r * eps0 + 2 * m.sum * dt - dt * m.sigma) /
    (2 * m.eps_r * eps0 + 2 * m.sum * dt + dt * m.sigma)
  beta := 2 * dt / (2 * m.eps_r * eps0 + 2 * m.sum * dt + dt * m.sigma)
  gamma := dt / (m.mu_r * mu0)

/-- What `parseMT` stores for a card that is not of type `DEBYE`: the defaults 1, 0, 1 unless a
`SIMPLE` card gives values, which are then checked. Argument: the numbers scanned after name and type,
in order. `none` = card rejected. src/medium.c:82-84, 118-139 -/
def parseMT [Field K] [LT K] [DecidableLT K] (t : MType) (vals : List K) : Option (Medium K) :=
  match t with
  | .freeSpace | .pec => some ⟨t, 1, 0, 1, 0⟩
  | _ =>
    let eps_r := vals[0]?.getD 1
    let sigma := vals[1]?.getD 0
    let mu_r := vals[2]?.getD 1
    if eps_r < 1 ∨ sigma < 0 ∨ mu_r < 1 then none else some ⟨t, eps_r, sigma, mu_r, 0⟩

/-- `initMedia`: coefficients of medium number `n` of the list; numbers 0 and 1 are forced to free
space and PEC, whatever their parameters. src/medium.c:381-441 -/
def mediumCoef [Field K] (dt eps0 mu0 : K) (n : Nat) (m : Medium K) : Coef K :=
  if n = 0 then ⟨1, dt / eps0, dt / mu0⟩
  else if n = 1 then ⟨-1, 0, dt / mu0⟩
  else calcCoeff dt eps0 mu0 m

/-- `updateSimpleMedium`: coefficients of the medium of a resistive source. src/medium.c:571-590 -/
def resistCoef [Field K] (dt eps0 mu0 sigma : K) : Coef K :=
  calcCoeff dt eps0 mu0 ⟨.simple, 1, sigma, 1, 0⟩

/-! ### Assignment to samples -/

/-- Per-sample arrays: `alphaEx`, `betaEx`, .. (or `mediumEx`, .. with indexed media); `M` is what a
sample stores. src/grid.c:85-110 -/
abbrev MArr (M : Type*) := Fc → Int → Int → Int → M

variable {M : Type*}

/-- One array assignment. -/
def MArr.put (A : MArr M) (fc : Fc) (t : Int × Int × Int) (m : M) : MArr M := fun fc' i j k =>
  if fc' = fc ∧ (i, j, k) = t then m else A fc' i j k

/-- One triple loop of `setMediumOnGrid`. src/grid.c:1819-1826 -/
def fillBox (lim : Face → Int) (fc : Fc) (m : M) (A : MArr M) : MArr M :=
  (boxLoop lim).foldl (fun A t => A.put fc t m) A

/-- Components in the order of the loops. -/
def Fc.all : List Fc := [.ex, .ey, .ez, .hx, .hy, .hz]

/-- `setMediumOnGrid`. src/grid.c:1726-1873 -/
def setMediumOnGrid (gbbox : BBox) (m : M) (mask : Face → Bool) (A : MArr M) : MArr M :=
  match bboxType gbbox with
  | some .volume | some .surface | some .line =>
    Fc.all.foldl (fun A fc => fillBox (setFieldLimits gbbox mask fc) fc m A) A
  | _ => A

/-- One medium assignment of the set-up: box in grid coordinates, faces included, medium. -/
structure Fill (M : Type*) where
  box : BBox
  mask : Face → Bool
  med : M

def Fill.apply (f : Fill M) (A : MArr M) : MArr M := setMediumOnGrid f.box f.med f.mask A

/-- What the mesh file asks for, in mesh coordinates. `blocks`: MB cards (medium, mask); `lines`: TW
cards of type PEC or FREE_SPACE; `surfaces`: TB cards of type PEC, FREE_SPACE or SIBC (other types set
nothing); `resist`: lumped sources with resistance. -/
structure MedSetup (M : Type*) where
  free : M
  pec : M
  blocks : List (BBox × (Face → Bool) × M)
  lines : List (BBox × M)
  surfaces : List (BBox × M)
  resist : List (BBox × M)

/-- `FACE_MASK_ALL` as flags. src/fdtd_types.h:126 -/
def maskAll : Face → Bool := fun _ => true

/-- `initMediaArrays`. src/grid.c:1146-1161 -/
def initMediaFill (c : Cfg) (S : MedSetup M) : Fill M := ⟨c.ggbox, Face.isLo, S.free⟩

/-- `initBlocks`. src/block.c:172-215 -/
def blockFills (c : Cfg) (S : MedSetup M) : List (Fill M) :=
  S.blocks.map fun b => ⟨offsetBoundingBox b.1 c.gibox, b.2.1, b.2.2⟩
/-- `initLines`. src/line.c:173-199 -/
def lineFills (c : Cfg) (S : MedSetup M) : List (Fill M) :=
  S.lines.map fun b => ⟨offsetBoundingBox b.1 c.gibox, maskAll, b.2⟩
/-- `initInternalSurfaces`. src/surface.c:360-397 -/
def surfaceFills (c : Cfg) (S : MedSetup M) : List (Fill M) :=
  S.surfaces.map fun b => ⟨offsetBoundingBox b.1 c.gibox, maskAll, b.2⟩
/-- `initExternalPecPmcSurfaces`: faces whose boundary type maps to the PEC medium (PEC and the
backing of PML). src/surface.c:409-458, src/boundary.c:48 -/
def externalFills (c : Cfg) (S : MedSetup M) : List (Fill M) :=
  (Face.all.filter fun f => c.bt f == .pec || c.bt f == .pml).map fun f =>
    ⟨getFaceOfBoundingBox c.gobox f, maskAll, S.pec⟩
/-- The media of resistive sources. src/source.c:560, 567 -/
def resistFills (c : Cfg) (S : MedSetup M) : List (Fill M) :=
  S.resist.map fun b => ⟨offsetBoundingBox b.1 c.gibox, maskAll, b.2⟩

/-- Assignments in sequence. -/
def applyFills (l : List (Fill M)) (A : MArr M) : MArr M := l.foldl (fun A f => f.apply A) A

/-- Inclusion flags of `initPmlMaterialArrays`: both faces of the own axis are left out.
src/pml.c:465-470 -/
def pmlCopyInclude (r f : Face) : Bool := !(f.axis == r.axis)

/-- Plane the PML region copies from: fields on the node planes of the region's axis come from the
interface plane, the others from one index further. src/pml.c:486-533 -/
def pmlCopyPlane (c : Cfg) (r : Face) (fc : Fc) : Int :=
  if fieldIsInBoundary fc r then c.gibox r else if r.isLo then c.gibox r + 1 else c.gibox r - 1

/-- One component of one region; in place. src/pml.c:491-499 -/
def pmlCopyField (c : Cfg) (r : Face) (fc : Fc) (A : MArr M) : MArr M :=
  (boxLoop (setFieldLimits (c.pbox r) (pmlCopyInclude r) fc)).foldl (fun A t =>
    let q := setAx r.axis (pmlCopyPlane c r fc) t
    A.put fc t (A fc q.1 q.2.1 q.2.2)) A

/-- `initPmlMaterialArrays`: all regions (those without layers are empty), z first.
src/pml.c:457-629 -/
def pmlCopy (c : Cfg) (A : MArr M) : MArr M :=
  [Face.zlo, .zhi, .ylo, .yhi, .xlo, .xhi].foldl (fun A r =>
    Fc.all.foldl (fun A fc => pmlCopyField c r fc A) A) A

/-- Media arrays before `propagate`; `junk` is the uninitialised memory.
src/vulture.c:140-170 (order of the `init...` calls) -/
def mediaArrays (c : Cfg) (S : MedSetup M) (junk : MArr M) : MArr M :=
  applyFills (resistFills c S) (pmlCopy c (applyFills
    (initMediaFill c S :: (blockFills c S ++ lineFills c S ++ surfaceFills c S ++ externalFills c S))
    junk))

/-- Coefficient references of the update loops as the media arrays answer them; `rest` answers the
others. src/grid.h:137-165 -/
def coefRef (A : MArr (Coef K)) (rest : CRef → K) : CRef → K
  | .alpha fc i j k => (A fc i j k).alpha
  | .beta fc i j k => (A fc i j k).beta
  | .gamma fc i j k => (A fc i j k).gamma
  | r => rest r

/-- Debye blocks of the run: one per MB card with a Debye medium (`poles` gives the number of poles of
those media), with the limits of the card's box and mask, regardless of later assignments.
src/debye.c:99-189 -/
def debyeBlocks (c : Cfg) (S : MedSetup M) (poles : M → Option Nat) : List DebyeBlk :=
  S.blocks.filterMap fun b => (poles b.2.2).map fun n =>
    ⟨setFieldLimits (offsetBoundingBox b.1 c.gibox) b.2.1, n⟩

end Vulture
