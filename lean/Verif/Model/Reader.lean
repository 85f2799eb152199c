import Verif.Spec.Files
import Verif.Model.Binary
/-
Model of m/tdfdReadImpulseDat3D.m, the companion reader of `impulse.dat` and `process.dat`.
Simplifications: the box lines of `process.dat` are given as numbers (its text is not modelled); `fread` as `int32` and as `float32` both give
the 32-bit words, a `float32` stays a word; file errors other than positions outside the file are not modelled. `none` is an error exit.
-/
namespace Vulture.Reader
open Vulture.Run Vulture.Spec

/-- Octave range `lo:step:hi` for integer values. -/
def range (lo step hi : Int) : List Int :=
  if step ≤ 0 then [] else (List.range ((hi - lo) / step + 1).toNat).map fun (m : Nat) => lo + m * step

/-- `x`, `y`, `z`. m/tdfdReadImpulseDat3D.m:153-155 -/
def axisNodes (b : BoxLine) (a : Axis) : List Int := range (b.lo a) (b.step a) (b.hi a)

/-- `nx`, `ny`, `nz`. m/tdfdReadImpulseDat3D.m:142-144 -/
def count (b : BoxLine) (a : Axis) : Nat := (axisNodes b a).length

/-- `opBlockSize(no)`. m/tdfdReadImpulseDat3D.m:120-124 -/
def blockSize (b : BoxLine) : Nat := 9 * 4 * count b .z * count b .y * count b .x

/-- `timeBlockSize`, `opPreSkip`, `opPostSkip`; `op` is `opCardNum - 1`. m/tdfdReadImpulseDat3D.m:126-129 -/
def timeBlock (bs : List BoxLine) : Nat := (bs.map blockSize).sum
def preSkip (bs : List BoxLine) (op : Nat) : Nat := ((bs.take op).map blockSize).sum
def postSkip (bs : List BoxLine) (op : Nat) : Nat := ((bs.drop (op + 1)).map blockSize).sum

/-- `fread( fd , n , ... )` at a position; the `reshape` that follows fails when fewer than `n` words are left.
m/tdfdReadImpulseDat3D.m:187-188, 208-209 -/
def fread (file : List (BitVec 8)) (pos : Int) (n : Nat) : Option (List (BitVec 32)) :=
  if 0 ≤ pos ∧ pos + 4 * n ≤ file.length then words ((file.drop pos.toNat).take (4 * n)) else none

/-- `fseek( fd , off , 'cof' )`: positions outside the file are refused. -/
def fseek (file : List (BitVec 8)) (pos off : Int) : Option Int :=
  if 0 ≤ pos + off ∧ pos + off ≤ file.length then some (pos + off) else none

/-- Element `( c , ix , iy , iz )` of `reshape( w , [ 9 , nx , ny , nz ] )`, counted from zero (the first index runs fastest).
m/tdfdReadImpulseDat3D.m:188-189, 209-210 -/
def element (nx ny : Nat) (w : List (BitVec 32)) (c ix iy iz : Nat) : Option (BitVec 32) := w[c + 9 * (ix + nx * (iy + ny * iz))]?

/-- The coordinate assertions. m/tdfdReadImpulseDat3D.m:192-198 -/
def coordinatesMatch (b : BoxLine) (w : List (BitVec 32)) : Bool :=
  ((List.range (count b .x)).map fun i => (element (count b .x) (count b .y) w 0 i 0 0).map BitVec.toInt) =
      (axisNodes b .x).map some ∧
  ((List.range (count b .y)).map fun j => (element (count b .x) (count b .y) w 1 0 j 0).map BitVec.toInt) =
      (axisNodes b .y).map some ∧
  ((List.range (count b .z)).map fun k => (element (count b .x) (count b .y) w 2 0 0 k).map BitVec.toInt) =
      (axisNodes b .z).map some

/-- One pass of the time loop from position `pos`: the block and the position after it. m/tdfdReadImpulseDat3D.m:160-230 -/
def pass (file : List (BitVec 8)) (bs : List BoxLine) (op : Nat) (b : BoxLine) (pos skip : Int) :
    Option (List (BitVec 32) × Int) :=
  (if skip ≠ 0 then fseek file pos (skip * timeBlock bs) else some pos).bind fun p1 =>
  (fseek file p1 (preSkip bs op)).bind fun p2 =>
  (fread file p2 (9 * count b .x * count b .y * count b .z)).bind fun w =>
  if coordinatesMatch b w = false then none else
  (fseek file (p2 + 4 * (9 * count b .x * count b .y * count b .z : Nat)) (postSkip bs op)).map fun p3 => (w, p3)

/-- The time loop; `last` is the number of the step read before. m/tdfdReadImpulseDat3D.m:136, 160-230 -/
def passes (file : List (BitVec 8)) (bs : List BoxLine) (op : Nat) (b : BoxLine) :
    Int → Int → List Int → Option (List (List (BitVec 32)) × Int × Int)
  | pos, last, [] => some ([], pos, last)
  | pos, last, t :: ts => do
    let r ← pass file bs op b pos (t - last - 1)
    let q ← passes file bs op b r.2 t ts
    return (r.1 :: q.1, q.2)

/-- What the reader returns: times, axes and, for each time, the six field arrays. -/
structure Result where
  times : List ℝ
  axisOf : Axis → List Int
  blocks : List (List (BitVec 32))

/-- Field `c` (0 to 5: Ex Ey Ez Hx Hy Hz) at `( ix , iy , iz , ts )`, counted from zero. m/tdfdReadImpulseDat3D.m:213-218 -/
def Result.field (r : Result) (c ix iy iz ts : Nat) : Option (BitVec 32) := do
  let w ← r.blocks[ts]?
  element (r.axisOf .x).length (r.axisOf .y).length w (c + 3) ix iy iz

open Classical in
/-- The reader from the checks of the requested steps `ts` on; `n`, `dt` are the words of the header. m/tdfdReadImpulseDat3D.m:108-118, 131-246 -/
noncomputable def body (real : BitVec 32 → ℝ) (file : List (BitVec 8)) (bs : List BoxLine) (op : Nat) (b : BoxLine) (n : Int)
    (dt : BitVec 32) (ts : List Int) : Option Result :=
  if (∃ t ∈ ts, t < 1 ∨ n < t) ∨ ts = [] then none else
  (passes file bs op b 8 0 ts).bind fun r =>
  (fseek file r.2.1 ((n - r.2.2) * timeBlock bs)).bind fun last =>
  if last = 8 + n * timeBlock bs then some ⟨ts.map fun (t : Int) => real dt * ((t : ℝ) - 1), axisNodes b, r.1⟩ else none

/-- `tdfdReadImpulseDat3D( op + 1 , timeNum )`; `real` gives the value of a `float32`. m/tdfdReadImpulseDat3D.m:60-246 -/
noncomputable def readImpulse3D (real : BitVec 32 → ℝ) (file : List (BitVec 8)) (bs : List BoxLine) (op : Nat) (timeNum : List Int) :
    Option Result :=
  (bs[op]?).bind fun b =>
  (fread file 0 2).bind fun h =>
  (h[0]?).bind fun n =>
  (h[1]?).bind fun dt =>
  body real file bs op b n.toInt dt
    (if timeNum = [] then (List.range n.toInt.toNat).map fun (m : Nat) => (m + 1 : Int) else timeNum.mergeSort)

end Vulture.Reader
