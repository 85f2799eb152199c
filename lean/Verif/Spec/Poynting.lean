import Verif.Spec.Circuit
import Mathlib.Order.Interval.Finset.Basic
import Mathlib.Data.Int.Interval
/-
Specification for C80: energy in a box of the mesh, heat, work of the sources, and the flow through the sides of the box.
-/
namespace Vulture.Spec
open Setup Finset

/-- Indices along an axis of the samples of a component strictly inside the box: nodes between the two sides, or cells. -/
noncomputable def innerRange (b : BBox) (fc : Fc) (a : Axis) : Finset Int :=
  if pos2 fc a 0 = 0 then Ioo (b a.lo) (b a.hi) else Ico (b a.lo) (b a.hi)

/-- Sum over the points whose coordinates lie in given ranges. -/
def sumOver (r : Axis → Finset Int) (f : (Axis → Int) → ℝ) : ℝ :=
  ∑ i ∈ r .x, ∑ j ∈ r .y, ∑ l ∈ r .z, f (Deck.triple i j l)

/-- Sum over the electric samples strictly inside the box; `f a q`: sample of component `a`. -/
noncomputable def insideE (b : BBox) (f : Axis → (Axis → Int) → ℝ) : ℝ :=
  sumOver (innerRange b .ex) (f .x) + sumOver (innerRange b .ey) (f .y) + sumOver (innerRange b .ez) (f .z)
/-- Sum over the magnetic samples strictly inside the box. -/
noncomputable def insideH (b : BBox) (f : Axis → (Axis → Int) → ℝ) : ℝ :=
  sumOver (innerRange b .hx) (f .x) + sumOver (innerRange b .hy) (f .y) + sumOver (innerRange b .hz) (f .z)

/-- Volume that belongs to an edge, and to a square, of the mesh. -/
noncomputable def edgeVolume (X : Experiment) (a : Axis) (q : Axis → Int) : ℝ := cellLength X a (q a) * edgeArea X a q
noncomputable def squareVolume (X : Experiment) (a : Axis) (q : Axis → Int) : ℝ := middleDistance X a (q a) * squareArea X a q

/-- Energy strictly inside the box at the time of step `n + 1`: `1/2 (eps E^2 + mu H^2)`, where the square of the magnetic field
is the product of its values half a step before and half a step after. -/
noncomputable def energyIn (X : Experiment) (R : Setup.Run) (eps mu : Axis → (Axis → Int) → ℝ) (b : BBox) (n : ℕ) : ℝ :=
  1 / 2 * insideE b (fun a q => edgeVolume X a q * eps a q * value R (n + 1) a.e q ^ 2) +
  1 / 2 * insideH b (fun a q => squareVolume X a q * mu a q * (value R n a.h q * value R (n + 1) a.h q))

/-- Mean of a field over a step. -/
noncomputable def meanOver (R : Setup.Run) (n : ℕ) (fc : Fc) (q : Axis → Int) : ℝ := (value R n fc q + value R (n + 1) fc q) / 2

/-- Heat developed inside the box in step `n`. -/
noncomputable def heatIn (X : Experiment) (R : Setup.Run) (sigma : Axis → (Axis → Int) → ℝ) (b : BBox) (n : ℕ) : ℝ :=
  R.dt * insideE b fun a q => edgeVolume X a q * sigma a q * meanOver R n a.e q ^ 2

/-- Work that the impressed currents inside the box do in step `n`; a current takes energy from a field along it. The magnetic
current is the mean of its values half a step before and after. -/
noncomputable def workIn (X : Experiment) (R : Setup.Run) (b : BBox) (n : ℕ) : ℝ :=
  -(R.dt * (insideE b (fun a q => edgeVolume X a q * (meanOver R n a.e q * totalCurrent X R.dt (n * R.dt) a.e q)) +
    insideH b (fun a q => squareVolume X a q * (value R n a.h q *
      ((totalCurrent X R.dt ((n - 1 / 2) * R.dt) a.h q + totalCurrent X R.dt ((n + 1 / 2) * R.dt) a.h q) / 2)))))

/-- Sum over the electric samples of a component on the plane with index `m` across axis `d`, strictly between the other sides. -/
noncomputable def onSide (b : BBox) (d : Axis) (m : Int) (fc : Fc) (f : (Axis → Int) → ℝ) : ℝ :=
  sumOver (fun a => if a = d then {m} else innerRange b fc a) f

/-- Area that belongs to an edge of direction `u` in a plane, `v` being the other axis of the plane. -/
noncomputable def edgeStrip (X : Experiment) (u v : Axis) (q : Axis → Int) : ℝ := cellLength X u (q u) * middleDistance X v (q v)

/-- Flow of energy out of the box through its two sides across axis `d`: component `d` of `E × H`, with the electric field on the
side and the magnetic field half a cell inside. -/
noncomputable def outAcross (X : Experiment) (E H : Fc → (Axis → Int) → ℝ) (b : BBox) (d : Axis) : ℝ :=
  let u := d.next
  let v := u.next
  (onSide b d (b d.hi) u.e (fun q => edgeStrip X u v q * (E u.e q * H v.h (back q d))) -
   onSide b d (b d.hi) v.e (fun q => edgeStrip X v u q * (E v.e q * H u.h (back q d)))) -
  (onSide b d (b d.lo) u.e (fun q => edgeStrip X u v q * (E u.e q * H v.h q)) -
   onSide b d (b d.lo) v.e (fun q => edgeStrip X v u q * (E v.e q * H u.h q)))

/-- Energy that leaves the box in step `n`. -/
noncomputable def flowOut (X : Experiment) (R : Setup.Run) (b : BBox) (n : ℕ) : ℝ :=
  R.dt * (outAcross X (meanOver R n) (value R n) b .x + outAcross X (meanOver R n) (value R n) b .y +
    outAcross X (meanOver R n) (value R n) b .z)

/-- The edge is made of `stuff` (metal or matter in the documented ranges), and the equations of C72 apply to it. -/
def PlainEdge (X : Experiment) (a : Axis) (q : Axis → Int) (stuff : Stuff) : Prop :=
  MatterEdge X a q stuff ∨ OrdinaryE X a q ∧ MadeOf X a.e (q .x) (q .y) (q .z) .metal ∧ stuff = .metal

/-- All samples strictly inside the box are plain; `M`: what the edges are made of; `mu`: permeability of the squares. -/
structure PlainBox (k : Consts) (X : Experiment) (T : ℝ) (b : BBox) (M : Axis → (Axis → Int) → Stuff) (mu : Axis → (Axis → Int) → ℝ) : Prop where
  open_box : ∀ a : Axis, b a.lo < b a.hi
  edges : ∀ a q, (∀ d, q d ∈ innerRange b a.e d) → PlainEdge X a q (M a q)
  squares : ∀ a q, (∀ d, q d ∈ innerRange b a.h d) → MatterSquare k X T a q (mu a q)

end Vulture.Spec
