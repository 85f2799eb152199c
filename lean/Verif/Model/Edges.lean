import Verif.Model.Extents
import Mathlib.Algebra.Order.Field.Basic
import Mathlib.Algebra.Order.Floor.Defs
import Mathlib.Analysis.Real.Sqrt
/-
Mesh lines, cell edges, time step, physical positions.
Models: src/grid.c:208-322, 583-679, 1214-1291, 1395-1549.
Real numbers stand for the floating-point type `real`; array accesses outside the allocated range are
not trapped here (an arbitrary value is read), see C18.edges_use_mesh_lines_only.
-/
namespace Vulture

/-- One-dimensional arrays of reals. Storage outside the allocation holds arbitrary values. -/
abbrev Arr (K : Type*) := Int → K

/-- `A[i] = v`. -/
def Arr.set {K : Type*} (A : Arr K) (i : Int) (v : K) : Arr K := fun j => if j = i then v else A j

/-- `for( i = lo ; i <= hi ; i++ ) A[i] = f( i , A )`. -/
def Arr.fill {K : Type*} (A : Arr K) (lo hi : Int) (f : Int → Arr K → K) : Arr K :=
  (intRange lo hi).foldl (fun B i => B.set i (f i B)) A

/-- `setUniformMesh`. src/grid.c:314-322 -/
def setUniformMesh {K : Type*} [Mul K] [IntCast K] (v : Arr K) (numLines : Int) (del : K) : Arr K :=
  v.fill 0 (numLines - 1) fun i _ => (i : K) * del

/-- Validation of an MS card with its one or three numbers: the increments used, `none` = rejected.
src/grid.c:215-244 -/
def parseMSValues {K : Type*} [LinearOrder K] [Zero K] (nums : List K) : Option (Axis → K) :=
  match nums with
  | [d] => if d ≤ 0 then none else some fun _ => d
  | [dx, dy, dz] => if dx ≤ 0 ∨ dy ≤ 0 ∨ dz ≤ 0 then none
      else some fun | .x => dx | .y => dy | .z => dz
  | _ => none

/-- Validation of an XL (YL, ZL) card: any list of the announced number of lines is accepted.
src/grid.c:257-311 -/
def parseXLValues {K : Type*} (numLines : Nat) (nums : List K) : Option (Int → K → K) :=
  if h : numLines ≤ nums.length then
    some fun i d => if hi : 0 ≤ i ∧ i < numLines then nums[i.toNat]'(by omega) else d
  else none

/-- What `initCellEdges` leaves for one axis. src/grid.c:67-84 -/
structure EdgeArrays (K : Type*) where
  de : Arr K
  ide : Arr K
  dh : Arr K
  idh : Arr K
  dmin : K
  dmax : K

section
variable {K : Type*} [Field K] [LinearOrder K]

/-- `if( d < dmin ) dmin = d`. src/grid.c:621 -/
def minStep (A : Arr K) (m : K) (i : Int) : K := if A i < m then A i else m
/-- `if( d > dmax ) dmax = d`. src/grid.c:622 -/
def maxStep (A : Arr K) (m : K) (i : Int) : K := if A i > m then A i else m

/-- Primary edges of one axis. src/grid.c:599-603 (605-609, 611-615) -/
def primaryEdges (glo gihlo gihhi ghi : Int) (lines : Int → K) (A : Arr K) : Arr K :=
  let a := A.fill glo (gihlo - 1) fun _ _ => lines 1 - lines 0
  let b := a.fill gihlo (gihhi - 1) fun i _ => lines (i - gihlo + 1) - lines (i - gihlo)
  let d := b.fill gihhi (ghi - 1) fun _ _ => lines (gihhi - gihlo) - lines (gihhi - gihlo - 1)
  let e := d.set (glo - 1) (d glo)
  e.set ghi (e (ghi - 1))

/-- `initCellEdges` for one axis; `big` is `REAL_MAX`, `junk` the uninitialised storage.
src/grid.c:583-668 -/
def initCellEdges (c : Cfg) (a : Axis) (lines : Int → K) (big : K) (junk : EdgeArrays K) :
    EdgeArrays K :=
  let lo := c.gobox a.lo
  let hi := c.gobox a.hi
  let de := primaryEdges lo (c.gibox a.lo) (c.gibox a.hi) hi lines junk.de
  let ide := junk.ide.fill (lo - 1) hi fun i _ => 1 / de i
  let dmin1 := (intRange (lo - 1) hi).foldl (minStep de) big
  let dmax1 := (intRange (lo - 1) hi).foldl (maxStep de) 0
  let dh0 := junk.dh.fill lo hi fun i _ => (1 / 2) * (de i + de (i - 1))
  let dh := dh0.set (lo - 1) (dh0 lo)
  let idh0 := junk.idh.fill lo hi fun i _ => 1 / dh i
  let idh := idh0.set (lo - 1) (idh0 lo)
  { de := de, ide := ide, dh := dh, idh := idh
    dmin := (intRange lo hi).foldl (minStep dh) dmin1
    dmax := (intRange lo hi).foldl (maxStep dh) dmax1 }

end

/-- Time step: `CN / c0 / sqrt( sum of 1 / dmin^2 )`. src/grid.c:671-673 -/
noncomputable def timeStep (cn c0 : ℝ) (dmin : Axis → ℝ) : ℝ :=
  cn / c0 / Real.sqrt ((1 / dmin .x) * (1 / dmin .x) + (1 / dmin .y) * (1 / dmin .y)
    + (1 / dmin .z) * (1 / dmin .z))

/-- `nodeInPhysicalUnits`, one axis. src/grid.c:1252-1281 -/
def nodeInPhysicalUnits {K : Type*} [Field K] [LinearOrder K] [IsStrictOrderedRing K] [FloorRing K]
    (numLines : Int) (lines : Int → K) (r : K) : K :=
  let i : Int := ⌊r⌋
  let frac : K := r - i
  if i < 0 then lines 0 + r * (lines 1 - lines 0)
  else if i > numLines - 2 then
    lines (numLines - 1) + (r - numLines + 1) * (lines (numLines - 1) - lines (numLines - 2))
  else (1 - frac) * lines i + frac * lines (i + 1)

/-- `getFieldPhysicalLocation`, one axis: the component is offset by half an edge along the axis or
not. src/grid.c:1395-1443 -/
def getFieldPhysicalLocation {K : Type*} [Field K] (giboxLo : Int) (lines : Int → K) (de : Arr K)
    (fc : Fc) (a : Axis) (ig : Int) : K :=
  let half := match fc, a with
    | .ex, .x | .ey, .y | .ez, .z | .hx, .y | .hx, .z | .hy, .x | .hy, .z | .hz, .x | .hz, .y => true
    | _, _ => false
  if half then lines (ig - giboxLo) + (1 / 2) * de ig else lines (ig - giboxLo)

/-- `getFieldIndexLocation`, one axis. src/grid.c:1446-1488 -/
def getFieldIndexLocation {K : Type*} [Field K] (fc : Fc) (a : Axis) (ig : Int) : K :=
  match fc, a with
  | .ex, .x => ig + 1 / 2 | .ex, .y => ig | .ex, .z => ig
  | .ey, .x => ig | .ey, .y => ig + 1 / 2 | .ey, .z => ig
  | .ez, .x => ig | .ez, .y => ig | .ez, .z => ig + 1 / 2
  | .hx, .x => ig | .hx, .y => ig + 1 / 2 | .hx, .z => ig + 1 / 2
  | .hy, .x => ig + 1 / 2 | .hy, .y => ig | .hy, .z => ig + 1 / 2
  | .hz, .x => ig + 1 / 2 | .hz, .y => ig + 1 / 2 | .hz, .z => ig

/-- `getNodeLocation`, one axis. src/grid.c:1491-1500 -/
def getNodeLocation {K : Type*} (giboxLo : Int) (lines : Int → K) (ig : Int) : K := lines (ig - giboxLo)

/-- `GridType`. src/grid.h -/
inductive GridType | cubic | uniform | nonuniform
  deriving DecidableEq, Repr

/-- Uniformity of one axis: the *signed* difference of neighbouring edges is compared.
src/grid.c:1511-1521 -/
def axisIsUniform {K : Type*} [Field K] [LinearOrder K] (tol : K) (lo hi : Int) (de : Arr K) : Bool :=
  (intRange (lo + 1) (hi - 1)).all fun i => !(decide (de i - de (i - 1) > tol))

/-- `setGridType`. src/grid.c:1503-1549 -/
def setGridType {K : Type*} [Field K] [LinearOrder K] (tol : K) (gibox : BBox)
    (de : Axis → Arr K) : GridType :=
  if axisIsUniform tol (gibox .xlo) (gibox .xhi) (de .x) &&
      axisIsUniform tol (gibox .ylo) (gibox .yhi) (de .y) &&
      axisIsUniform tol (gibox .zlo) (gibox .zhi) (de .z) then
    if |de .x (gibox .xlo) - de .y (gibox .ylo)| < tol ∧ |de .y (gibox .ylo) - de .z (gibox .zlo)| < tol
    then .cubic else .uniform
  else .nonuniform

end Vulture
