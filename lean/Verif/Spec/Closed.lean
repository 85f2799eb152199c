import Verif.Spec.Poynting
import Verif.Spec.Sides
/-
Specification for C87: models that nothing can leave. Every side conducts, is a magnetic wall or is periodic. Energy, heat and work
of the whole mesh; samples in the sides count with the part of their volume that lies inside the mesh.
-/
namespace Vulture.Spec
open Setup Finset

/-- Part of a line through a node, from the middle of one cell to the middle of the next, that lies in the mesh. -/
noncomputable def insideLength (X : Experiment) (a : Axis) (i : Int) : ℝ :=
  (if 0 < i then cellLength X a (i - 1) / 2 else 0) + (if i < cellsOf X.file a then cellLength X a i / 2 else 0)

/-- Volume inside the mesh that belongs to an edge, and to a square, of the mesh. -/
noncomputable def edgeShare (X : Experiment) (a : Axis) (q : Axis → Int) : ℝ :=
  cellLength X a (q a) * (insideLength X a.next (q a.next) * insideLength X a.next.next (q a.next.next))
noncomputable def squareShare (X : Experiment) (a : Axis) (q : Axis → Int) : ℝ :=
  insideLength X a (q a) * (cellLength X a.next (q a.next) * cellLength X a.next.next (q a.next.next))

/-- Indices along an axis of the samples of a component in the mesh, sides included: nodes, or cells. -/
noncomputable def meshRange (X : Experiment) (fc : Fc) (a : Axis) : Finset Int :=
  if pos2 fc a 0 = 0 then Icc 0 (cellsOf X.file a) else Ico 0 (cellsOf X.file a)

/-- Sums over all electric, and all magnetic, samples of the mesh; `f a q`: sample of component `a`. -/
noncomputable def allE (X : Experiment) (f : Axis → (Axis → Int) → ℝ) : ℝ :=
  sumOver (meshRange X .ex) (f .x) + sumOver (meshRange X .ey) (f .y) + sumOver (meshRange X .ez) (f .z)
noncomputable def allH (X : Experiment) (f : Axis → (Axis → Int) → ℝ) : ℝ :=
  sumOver (meshRange X .hx) (f .x) + sumOver (meshRange X .hy) (f .y) + sumOver (meshRange X .hz) (f .z)

/-- Stored energy: `1/2 eps E^2` at the time of step `n + 1` and `1/2 mu H^2` half a step before. -/
noncomputable def storedEnergy (X : Experiment) (R : Setup.Run) (eps mu : Axis → (Axis → Int) → ℝ) (n : ℕ) : ℝ :=
  1 / 2 * allE X (fun a q => edgeShare X a q * eps a q * value R (n + 1) a.e q ^ 2) +
  1 / 2 * allH X (fun a q => squareShare X a q * mu a q * value R n a.h q ^ 2)

/-- Energy in the mesh at the time of step `n + 1`: the square of the magnetic field is the product of its values half a step
before and half a step after. -/
noncomputable def totalEnergy (X : Experiment) (R : Setup.Run) (eps mu : Axis → (Axis → Int) → ℝ) (n : ℕ) : ℝ :=
  1 / 2 * allE X (fun a q => edgeShare X a q * eps a q * value R (n + 1) a.e q ^ 2) +
  1 / 2 * allH X (fun a q => squareShare X a q * mu a q * (value R n a.h q * value R (n + 1) a.h q))

/-- Heat developed in the mesh in step `n`. -/
noncomputable def totalHeat (X : Experiment) (R : Setup.Run) (sigma : Axis → (Axis → Int) → ℝ) (n : ℕ) : ℝ :=
  R.dt * allE X fun a q => edgeShare X a q * sigma a q * meanOver R n a.e q ^ 2

/-- Work of the impressed currents in step `n` (see `workIn`). -/
noncomputable def totalWork (X : Experiment) (R : Setup.Run) (n : ℕ) : ℝ :=
  -(R.dt * (allE X (fun a q => edgeShare X a q * (meanOver R n a.e q * totalCurrent X R.dt (n * R.dt) a.e q)) +
    allH X (fun a q => squareShare X a q * (value R n a.h q *
      ((totalCurrent X R.dt ((n - 1 / 2) * R.dt) a.h q + totalCurrent X R.dt ((n + 1 / 2) * R.dt) a.h q) / 2)))))

/-- The model is closed: its sides conduct, are magnetic walls or are periodic; all its samples are plain (`M`: what the edges are
made of; `mu`: permeability of the squares); edges in conducting sides are metal (no lumped source is in one); the file says the
same about both ends of a periodic axis. -/
structure SealedModel (k : Consts) (X : Experiment) (T : ℝ) (M : Axis → (Axis → Int) → Stuff) (mu : Axis → (Axis → Int) → ℝ) : Prop where
  sides : ∀ f, X.file.bt f = .pec ∨ X.file.bt f = .pmc ∨ X.file.bt f = .periodic
  ends : ∀ d : Axis, X.file.bt d.lo = .periodic → SameEnds X T d
  edges : ∀ a q, (∀ d, q d ∈ meshRange X a.e d) → PlainEdge X a q (M a q)
  walls : ∀ a q, (∀ d, q d ∈ meshRange X a.e d) → OnPecSide X a.e (q .x) (q .y) (q .z) → M a q = .metal
  squares : ∀ a q, (∀ d, q d ∈ meshRange X a.h d) → MatterSquare k X T a q (mu a q)

/-- The cells of the mesh are smaller than the number the code starts its search for the smallest one with. -/
def Representable (k : Consts) (X : Experiment) : Prop := ∀ a i, 0 ≤ i → i < cellsOf X.file a → X.lines a (i + 1) - X.lines a i < k.big

/-- No current is impressed on any sample of the mesh at or after time `t`. -/
def SilentFrom (X : Experiment) (T t : ℝ) : Prop := ∀ fc q s, t ≤ s → totalCurrent X T s fc q = 0

end Vulture.Spec
