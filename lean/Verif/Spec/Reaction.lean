import Verif.Spec.Energy
import Verif.Model.Sim
import Mathlib.Algebra.BigOperators.NatAntidiagonal
/-
Currents impressed by sources, and the reaction (Rumsey) of fields and currents: the volume sum of field times
current density.
-/
namespace Vulture.Spec
open Finset

open Classical in
/-- Electric current density impressed on a sample: the sum of the drive values `v n` of the electric current sources
whose box contains the sample. -/
noncomputable def currentE (l : List Src) (v : ℕ → ℝ) (fc : Fc) (i j k : Int) : ℝ :=
  (l.zipIdx.map fun x => if x.1.kind = .ecurr ∧ x.1.field = fc ∧ SampleIn x.1.gbbox fc i j k then v x.2 else 0).sum

open Classical in
/-- Magnetic current density impressed on a sample. -/
noncomputable def currentH (l : List Src) (v : ℕ → ℝ) (fc : Fc) (i j k : Int) : ℝ :=
  (l.zipIdx.map fun x => if x.1.kind = .hcurr ∧ x.1.field = fc ∧ SampleIn x.1.gbbox fc i j k then v x.2 else 0).sum

/-- Volume sum of electric field times electric current density. -/
noncomputable def reactionE (g : Filling) (b : BBox) (s : Loc → ℝ) (J : Fc → Int → Int → Int → ℝ) : ℝ :=
  sumE b fun fc i j k => g.vol fc i j k * (s (.fld fc i j k) * J fc i j k)

/-- Volume sum of magnetic field times magnetic current density. -/
noncomputable def reactionH (g : Filling) (b : BBox) (s : Loc → ℝ) (M : Fc → Int → Int → Int → ℝ) : ℝ :=
  sumH b fun fc i j k => g.vol fc i j k * (s (.fld fc i j k) * M fc i j k)

/-- Every source impresses an electric current on an electric component or a magnetic current on a magnetic
component. -/
def CurrentsOnly (l : List Src) : Prop :=
  ∀ x ∈ l, x.kind = .ecurr ∧ x.field.isE = true ∨ x.kind = .hcurr ∧ x.field.isE = false

/-- The same box with excitations `l`. -/
def driven (S : Sim) (l : List Src) : Sim := { S with srcs := l }

/-- Length of the edge an electric sample lies on. -/
def Filling.edgeLength (g : Filling) : Fc → Int → Int → Int → ℝ
  | .ex, i, _, _ => g.de .x i
  | .ey, _, j, _ => g.de .y j
  | .ez, _, _, k => g.de .z k
  | _, _, _, _ => 0

/-- Area of the dual face the edge of an electric sample passes through. -/
def Filling.dualArea (g : Filling) : Fc → Int → Int → Int → ℝ
  | .ex, _, j, k => g.dh .y j * g.dh .z k
  | .ey, i, _, k => g.dh .z k * g.dh .x i
  | .ez, i, j, _ => g.dh .x i * g.dh .y j
  | _, _, _, _ => 0

/-- A current source on the single edge of the electric sample `(fc, i, j, k)` inside the box `b`. -/
structure OnEdge (b : BBox) (x : Src) (fc : Fc) (i j k : Int) : Prop where
  kind : x.kind = .ecurr
  field : x.field = fc
  electric : fc.isE = true
  inside : SampleIn b fc i j k
  only : ∀ i' j' k', SampleIn x.gbbox fc i' j' k' ↔ i' = i ∧ j' = j ∧ k' = k

end Vulture.Spec
