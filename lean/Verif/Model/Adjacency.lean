import Verif.Model.Sim
/-
Adjacency flags of impedance sheets.
Models: src/sibc.c:211-397 (`initSibcSurfaces`), src/sibc.c:826-836 (`setSibcFace`).
-/
namespace Vulture.Adj

/-- The temporary array `isSibcFace`; `none` is an element that has not been written since `malloc`.
src/sibc.c:229-235, src/alloc_array.c:87 -/
abbrev FaceMap := Int → Int → Int → Axis → Option Bool

/-- Straight after allocation. -/
def fresh : FaceMap := fun _ _ _ _ => none

/-- `setSibcFace`. src/sibc.c:826-836 -/
def setSibcFace (m : FaceMap) (gbbox : BBox) (dir : Axis) (value : Bool) : FaceMap := fun i j k d =>
  if d = dir ∧ (gbbox .xlo ≤ i ∧ i < gbbox .xhi) ∧ (gbbox .ylo ≤ j ∧ j < gbbox .yhi) ∧ (gbbox .zlo ≤ k ∧ k < gbbox .zhi)
  then some value else m i j k d

/-- `gbbox` of a sheet after one has been added along the normal. src/sibc.c:249-266 -/
def extended (s : SibcSurf) : BBox := fun f => if f = s.normal.hi then s.gbbox f + 1 else s.gbbox f

/-- The array when the flags are taken from it. src/sibc.c:232-316 -/
def faceMap (gobox : BBox) (l : List SibcSurf) : FaceMap :=
  l.foldl (fun m s => setSibcFace m (extended s) s.normal true)
    (setSibcFace (setSibcFace (setSibcFace fresh gobox .x false) gobox .y false) gobox .z false)

/-- `isAdjA[..][f]` of the face at `i`, `j`, `k`. src/sibc.c:335-338, 350-353, 366-369 -/
def isAdjA (m : FaceMap) (normal : Axis) (i j k : Int) (f : Nat) : Option Bool :=
  match normal, f with
  | .x, 0 => m (i-1) j k .y | .x, 1 => m (i-1) (j+1) k .y | .x, 2 => m (i-1) j k .z | .x, _ => m (i-1) j (k+1) .z
  | .y, 0 => m i (j-1) k .z | .y, 1 => m i (j-1) (k+1) .z | .y, 2 => m i (j-1) k .x | .y, _ => m (i+1) (j-1) k .x
  | .z, 0 => m i j (k-1) .x | .z, 1 => m (i+1) j (k-1) .x | .z, 2 => m i j (k-1) .y | .z, _ => m i (j+1) (k-1) .y

/-- `isAdjB[..][f]`. src/sibc.c:339-342, 354-357, 370-373 -/
def isAdjB (m : FaceMap) (normal : Axis) (i j k : Int) (f : Nat) : Option Bool :=
  match normal, f with
  | .x, 0 => m i j k .y | .x, 1 => m i (j+1) k .y | .x, 2 => m i j k .z | .x, _ => m i (j+1) (k+1) .z
  | .y, 0 => m i j k .z | .y, 1 => m i j (k+1) .z | .y, 2 => m i j k .x | .y, _ => m (i+1) j (k+1) .x
  | .z, 0 => m i j k .x | .z, 1 => m (i+1) j k .x | .z, 2 => m i j k .y | .z, _ => m (i+1) (j+1) k .y

end Vulture.Adj
