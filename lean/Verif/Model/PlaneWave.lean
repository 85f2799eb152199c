import Verif.Model.Sim
import Mathlib.Analysis.SpecialFunctions.Trigonometric.Basic
/-
Model of the plane wave set-up of src/planewave.c over `ℝ`: angles of a PW card, vectors and origin of the wave, the
analytic incident field.
-/
namespace Vulture.PlaneWave
open Real

/-- The angle checks of a PW card. src/planewave.c:227-243 -/
def anglesOk (theta phi eta : ℝ) : Prop :=
  ¬ (theta < 0 ∨ theta > 180) ∧ ¬ (phi < 0 ∨ phi > 360) ∧ ¬ (eta < 0 ∨ eta ≥ 360)

/-- `degrees2radians`; the constant `pi` of the code is taken as π. src/util.c:40-43 -/
noncomputable def rad (angle : ℝ) : ℝ := π / 180 * angle

/-- `kinc`. src/planewave.c:465-467 -/
noncomputable def kinc (theta phi : ℝ) : Axis → ℝ
  | .x => sin (rad theta) * cos (rad phi)
  | .y => sin (rad theta) * sin (rad phi)
  | .z => cos (rad theta)

/-- `Finc`. src/planewave.c:470-475 -/
noncomputable def finc (eta0 size theta phi eta : ℝ) : Fc → ℝ
  | .ex => size * (cos (rad eta) * sin (rad phi) - sin (rad eta) * cos (rad theta) * cos (rad phi))
  | .ey => size * (-cos (rad eta) * cos (rad phi) - sin (rad eta) * cos (rad theta) * sin (rad phi))
  | .ez => size * (sin (rad eta) * sin (rad theta))
  | .hx => size / eta0 * (sin (rad eta) * sin (rad phi) + cos (rad eta) * cos (rad theta) * cos (rad phi))
  | .hy => size / eta0 * (-sin (rad eta) * cos (rad phi) + cos (rad eta) * cos (rad theta) * sin (rad phi))
  | .hz => size / eta0 * (-cos (rad eta) * sin (rad theta))

/-- Corner as a triple of faces. -/
def corner (fx fy fz : Face) : Axis → Face
  | .x => fx | .y => fy | .z => fz

open Classical in
/-- The faces `ijk0` is taken from; `none` is `assert( 0 )`. src/planewave.c:478-548 -/
noncomputable def originCorner (theta phi : ℝ) : Option (Axis → Face) :=
  if theta ≥ 0 ∧ theta ≤ 90 then
    if phi ≥ 0 ∧ phi ≤ 90 then some (corner .xlo .ylo .zlo)
    else if phi > 90 ∧ phi ≤ 180 then some (corner .xhi .ylo .zlo)
    else if phi > 180 ∧ phi ≤ 270 then some (corner .xhi .yhi .zlo)
    else if phi > 270 ∧ phi < 360 then some (corner .xlo .yhi .zlo)
    else none
  else if theta > 90 ∧ theta ≤ 180 then
    if phi ≥ 0 ∧ phi ≤ 90 then some (corner .xlo .ylo .zhi)
    else if phi > 90 ∧ phi ≤ 180 then some (corner .xhi .ylo .zhi)
    else if phi > 180 ∧ phi ≤ 270 then some (corner .xhi .yhi .zhi)
    else if phi > 270 ∧ phi < 360 then some (corner .xlo .yhi .zhi)
    else none
  else none

/-- `ijk0`. src/planewave.c:478-548 -/
noncomputable def ijk0 (theta phi : ℝ) (gbbox : BBox) : Option (Axis → ℤ) :=
  (originCorner theta phi).map fun o a => gbbox (o a)

/-- `getNodeLocation`: mesh lines are indexed from the low side of the inner box. src/grid.c:1493-1502 -/
def nodeLocation (c : Cfg) (lines : Axis → ℤ → ℝ) (q : Axis → ℤ) : Axis → ℝ := fun a => lines a (q a - c.giboxLo a)

/-- `incidentFieldAnalytic` at the location `r`: `F` is `Finc[field]`, `v` the phase velocity, `g` the value of
`getWaveformValue` with the plane wave's waveform and delay. src/planewave.c:557-573 -/
noncomputable def analytic (F : ℝ) (k r r0 : Axis → ℝ) (v : ℝ) (g : ℝ → ℝ) (time : ℝ) : ℝ :=
  let d := k .x * (r .x - r0 .x) + k .y * (r .y - r0 .y) + k .z * (r .z - r0 .z)
  F * g (time - d / v)

/-- `decodeFaceMask`, on the six characters the caller has checked for; `none` when it returns false.
src/planewave.c:1200-1223, 246-258 -/
def decodeFaceMask (mask : Face → Char) : Option (Face → Bool) :=
  if Face.all.all (fun f => mask f == '0' || mask f == '1') then some fun f => mask f == '1' else none

/-! ### The auxiliary grid -/

/-- `getFieldIndexLocation`: 1/2 along the axes where the sample lies between nodes. src/grid.c:1448-1491 -/
noncomputable def halfOff : Fc → Axis → ℝ
  | .ex, .x => 1 / 2 | .ex, _ => 0
  | .ey, .y => 1 / 2 | .ey, _ => 0
  | .ez, .z => 1 / 2 | .ez, _ => 0
  | .hx, .x => 0 | .hx, _ => 1 / 2
  | .hy, .y => 0 | .hy, _ => 1 / 2
  | .hz, .z => 0 | .hz, _ => 1 / 2

noncomputable def indexLocation (fc : Fc) (q : Axis → ℤ) : Axis → ℝ := fun a => q a + halfOff fc a

/-- Distance of the sample from the origin plane in cells. src/planewave.c:1388-1390 -/
noncomputable def auxDist (k : Axis → ℝ) (q0 : Axis → ℤ) (fc : Fc) (q : Axis → ℤ) : ℝ :=
  k .x * (indexLocation fc q .x - q0 .x) + k .y * (indexLocation fc q .y - q0 .y) + k .z * (indexLocation fc q .z - q0 .z)

/-- Index of the lower of the two elements that are read: `m0+id` for electric, `m0-1+id` for magnetic components,
`m0 = 2`. src/planewave.c:112, 1398-1408 -/
noncomputable def auxIdx (fc : Fc) (d : ℝ) : ℤ := if fc.isE then 2 + ⌊d⌋ else 2 - 1 + ⌊d + 1 / 2⌋

/-- `dp`. src/planewave.c:1399, 1407 -/
noncomputable def auxFrac (fc : Fc) (d : ℝ) : ℝ := if fc.isE then d - ⌊d⌋ else d + 1 / 2 - ⌊d + 1 / 2⌋

/-- Weight of the lower (upper) element, including `Finc` and, for a magnetic component, `eta0`.
src/planewave.c:1400, 1409, 1417 -/
noncomputable def auxWeight (eta0 F : ℝ) (fc : Fc) (d : ℝ) (upper : Bool) : ℝ :=
  let v := if upper then auxFrac fc d else 1 - auxFrac fc d
  F * (if fc.isE then v else eta0 * v)

/-- Length of the diagonal of the box in cells. src/planewave.c:1248-1250 -/
noncomputable def diagonal (b : BBox) : ℝ :=
  sqrt ((b .xhi - b .xlo : ℤ) * (b .xhi - b .xlo : ℤ) + (b .yhi - b .ylo : ℤ) * (b .yhi - b .ylo : ℤ) +
    (b .zhi - b .zlo : ℤ) * (b .zhi - b .zlo : ℤ))

/-- `nx`: conversion to int of a positive number; `npml = 10`. src/planewave.c:115, 1248-1250 -/
noncomputable def auxNx (b : BBox) : ℤ := ⌊6 + 10 + diagonal b⌋

/-- The auxiliary grid of a plane wave; arrays have `nx + 1` elements. src/planewave.c:1248-1266, 1375-1419 -/
noncomputable def auxGridOf (theta phi : ℝ) (b : BBox) (q0 : Axis → ℤ) : AuxGrid :=
  ⟨auxNx b, auxNx b - 10, fun fc i j k => auxIdx fc (auxDist (kinc theta phi) q0 fc
    (fun | .x => i | .y => j | .z => k))⟩

/-- `betaEyi` and `gammaHzi`: `rel` is the ratio of the numerical phase velocities along the axis and along the wave.
src/planewave.c:1241-1245 -/
noncomputable def betaEyi (dt eps0 d rel : ℝ) : ℝ := dt / (eps0 * d) / rel
noncomputable def gammaHzi (dt mu0 d rel : ℝ) : ℝ := dt / (mu0 * d) / rel

/-! ### Numerical phase velocity -/

/-- `numPhaseVelocityFunc`: the Newton correction. src/grid.c:1571-1589 -/
noncomputable def newtonStep (d A : Axis → ℝ) (B k : ℝ) : ℝ :=
  let t := fun a => sin (A a * k) / d a
  let func := t .x * t .x + t .y * t .y + t .z * t .z - B * B
  let derivative := A .x * sin (2 * A .x * k) / (d .x * d .x) + A .y * sin (2 * A .y * k) / (d .y * d .y) +
    A .z * sin (2 * A .z * k) / (d .z * d .z)
  func / derivative

/-- Angular frequency at which the phase velocity is determined. src/grid.c:1604 -/
noncomputable def testFrequency (dt : ℝ) : ℝ := 2 * π * (1 / dt / 23)

/-- `A[]`; angles in radians. src/grid.c:1606-1608 -/
noncomputable def halfCells (d : Axis → ℝ) (theta phi : ℝ) : Axis → ℝ
  | .x => 1 / 2 * d .x * sin theta * cos phi
  | .y => 1 / 2 * d .y * sin theta * sin phi
  | .z => 1 / 2 * d .z * cos theta

/-- `B`. src/grid.c:1609 -/
noncomputable def halfStep (c0 dt : ℝ) : ℝ := sin (1 / 2 * testFrequency dt * dt) / (c0 * dt)

/-- `numericalPhaseVelocity`: ten Newton iterations. src/grid.c:1592-1617 -/
noncomputable def phaseVelocity (c0 dt : ℝ) (d : Axis → ℝ) (theta phi : ℝ) : ℝ :=
  let w := testFrequency dt
  w / (fun k => k - newtonStep d (halfCells d theta phi) (halfStep c0 dt) k)^[10] (w / c0)

/-- `relPhaseVelocity`; angles of the card in degrees. src/planewave.c:1239 -/
noncomputable def relPhaseVelocity (c0 dt : ℝ) (d : Axis → ℝ) (theta phi : ℝ) : ℝ :=
  phaseVelocity c0 dt d 0 0 / phaseVelocity c0 dt d (π * theta / 180) (π * phi / 180)

end Vulture.PlaneWave
