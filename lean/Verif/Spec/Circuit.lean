import Verif.Spec.Locality
/-
Specification for C75: circuit laws. Currents through edges, voltages along loops, charges of nodes, magnetic flux through squares.
-/
namespace Vulture.Spec
open Setup

/-- The mesh lines increase. -/
def Increasing (X : Experiment) : Prop := ∀ a m, 0 ≤ m → m < cellsOf X.file a → X.lines a m < X.lines a (m + 1)

/-- Cross section that belongs to an edge of direction `a`: it reaches to the middles of the cells around the edge. -/
noncomputable def edgeArea (X : Experiment) (a : Axis) (q : Axis → Int) : ℝ :=
  middleDistance X a.next (q a.next) * middleDistance X a.next.next (q a.next.next)

/-- Area of the square of normal `a` between four edges of the mesh. -/
noncomputable def squareArea (X : Experiment) (a : Axis) (q : Axis → Int) : ℝ :=
  cellLength X a.next (q a.next) * cellLength X a.next.next (q a.next.next)

/-- Permittivity and conductivity of the matter edges can be made of. -/
noncomputable def permittivity (k : Consts) : Stuff → ℝ
  | .matter e _ _ => e * k.eps0
  | _ => k.eps0
def conductivity : Stuff → ℝ
  | .matter _ s _ => s
  | _ => 0

/-- An edge that is not metal, with its material in the documented ranges; the equations of C72 apply to it. -/
def MatterEdge (X : Experiment) (a : Axis) (q : Axis → Int) (stuff : Stuff) : Prop :=
  OrdinaryE X a q ∧ MadeOf X a.e (q .x) (q .y) (q .z) stuff ∧
    match stuff with
    | .vacuum => True
    | .matter e s u => 1 ≤ e ∧ 0 ≤ s ∧ 1 ≤ u
    | .metal | .dispersive _ _ _ _ => False

/-- Current through an edge in step `n`: displacement current, conduction current and impressed current. -/
noncomputable def edgeCurrent (k : Consts) (X : Experiment) (R : Setup.Run) (n : ℕ) (a : Axis) (q : Axis → Int) (stuff : Stuff) : ℝ :=
  edgeArea X a q * (permittivity k stuff * (value R (n + 1) a.e q - value R n a.e q) / R.dt +
    conductivity stuff * (value R (n + 1) a.e q + value R n a.e q) / 2 + totalCurrent X R.dt (n * R.dt) a.e q)

/-- The magnetic field along a loop around the edge, along the lines that join the middles of cells. -/
noncomputable def loopH (X : Experiment) (F : Fc → (Axis → Int) → ℝ) (a : Axis) (q : Axis → Int) : ℝ :=
  let b := a.next
  let c := b.next
  (F c.h q - F c.h (back q b)) * middleDistance X c (q c) - (F b.h q - F b.h (back q c)) * middleDistance X b (q b)

/-- `I` is the current through an edge in step `n`: that of its matter, or, for an edge of metal, the current that a loop of the
magnetic field around it shows. -/
def CurrentIs (k : Consts) (X : Experiment) (R : Setup.Run) (n : ℕ) (a : Axis) (q : Axis → Int) (I : ℝ) : Prop :=
  (∃ stuff, MatterEdge X a q stuff ∧ I = edgeCurrent k X R n a q stuff) ∨
  (MadeOf X a.e (q .x) (q .y) (q .z) .metal ∧ I = loopH X (value R n) a q)

/-- What leaves a node through its six edges, if `f a q` goes along the edge of direction `a` that starts at node `q`. -/
def leaving (f : Axis → (Axis → Int) → ℝ) (q : Axis → Int) : ℝ :=
  (f .x q - f .x (back q .x)) + (f .y q - f .y (back q .y)) + (f .z q - f .z (back q .z))

/-- What leaves a cell through its six squares, if `f a q` goes through the low square of normal `a` of cell `q`. -/
def leavingCell (f : Axis → (Axis → Int) → ℝ) (q : Axis → Int) : ℝ :=
  (f .x (ahead q .x) - f .x q) + (f .y (ahead q .y) - f .y q) + (f .z (ahead q .z) - f .z q)

/-- A node's six edges have a property. -/
def SixEdges (P : Axis → (Axis → Int) → Prop) (q : Axis → Int) : Prop := ∀ a, P a q ∧ P a (back q a)
/-- A cell's six squares have a property. -/
def SixSquares (P : Axis → (Axis → Int) → Prop) (q : Axis → Int) : Prop := ∀ a, P a q ∧ P a (ahead q a)

/-- Charge of a node before step `n` by Gauss's law: the flux of the displacement out of the box around it. `eps`: permittivity
of the edges. -/
noncomputable def nodeCharge (X : Experiment) (R : Setup.Run) (eps : Axis → (Axis → Int) → ℝ) (n : ℕ) (q : Axis → Int) : ℝ :=
  leaving (fun a p => edgeArea X a p * eps a p * value R n a.e p) q

/-- Magnetic flux out of a cell before step `n`. -/
noncomputable def cellFlux (X : Experiment) (R : Setup.Run) (mu : Axis → (Axis → Int) → ℝ) (n : ℕ) (q : Axis → Int) : ℝ :=
  leavingCell (fun a p => squareArea X a p * mu a p * value R n a.h p) q

/-- Squares to which the equations of C72 apply, of a material in the documented ranges with permeability `mu`. -/
def MatterSquare (k : Consts) (X : Experiment) (T : ℝ) (a : Axis) (q : Axis → Int) (mu : ℝ) : Prop :=
  OrdinaryH X a q ∧ ∃ stuff, MadeOf X a.h (q .x) (q .y) (q .z) stuff ∧ InRange k T stuff ∧ mu = relPermeability stuff * k.mu0

/-- The point of the plane `q` with the given coordinates along the two axes after `a`. -/
def planePoint (a : Axis) (q : Axis → Int) (i j : Int) : Axis → Int :=
  fun d => if d = a then q a else if d = a.next then i else j

/-- The magnetic field along a rectangle around the edges of direction `a` with indices `lb..hb` and `lc..hc`. -/
noncomputable def rectangleH (X : Experiment) (F : Fc → (Axis → Int) → ℝ) (a : Axis) (q : Axis → Int) (lb hb lc hc : Int) : ℝ :=
  let b := a.next
  let c := b.next
  ∑ j ∈ Finset.Icc lc hc, F c.h (planePoint a q hb j) * middleDistance X c j
  - ∑ i ∈ Finset.Icc lb hb, F b.h (planePoint a q i hc) * middleDistance X b i
  - ∑ j ∈ Finset.Icc lc hc, F c.h (planePoint a q (lb - 1) j) * middleDistance X c j
  + ∑ i ∈ Finset.Icc lb hb, F b.h (planePoint a q i (lc - 1)) * middleDistance X b i

/-- The electric field along a rectangle around the squares of normal `a` with indices `lb..hb` and `lc..hc`. -/
noncomputable def rectangleE (X : Experiment) (F : Fc → (Axis → Int) → ℝ) (a : Axis) (q : Axis → Int) (lb hb lc hc : Int) : ℝ :=
  let b := a.next
  let c := b.next
  ∑ i ∈ Finset.Icc lb hb, F b.e (planePoint a q i lc) * cellLength X b i
  + ∑ j ∈ Finset.Icc lc hc, F c.e (planePoint a q (hb + 1) j) * cellLength X c j
  - ∑ i ∈ Finset.Icc lb hb, F b.e (planePoint a q i (hc + 1)) * cellLength X b i
  - ∑ j ∈ Finset.Icc lc hc, F c.e (planePoint a q lb j) * cellLength X c j

end Vulture.Spec
