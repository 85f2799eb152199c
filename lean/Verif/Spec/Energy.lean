import Verif.Spec.Media
import Verif.Model.Prog
import Mathlib.Data.Int.Interval
import Mathlib.Algebra.BigOperators.Group.Finset.Basic
import Mathlib.Data.Real.Basic
/-
The textbook energy of a staggered grid: every sample carries the volume around it, the product of a
cell length for each axis along which the sample is half-way between nodes and of a dual length for
each other axis.
-/
namespace Vulture.Spec
open Finset

/-- What fills a box: cell lengths `de`, dual lengths `dh`, permittivity and conductivity of every
electric sample, permeability of every magnetic sample, and the time step. -/
structure Filling where
  de : Axis → Int → ℝ
  dh : Axis → Int → ℝ
  eps : Fc → Int → Int → Int → ℝ
  sigma : Fc → Int → Int → Int → ℝ
  mu : Fc → Int → Int → Int → ℝ
  dt : ℝ

/-- Length along one axis that belongs to a sample. -/
def Filling.len (g : Filling) (fc : Fc) (a : Axis) (i : Int) : ℝ :=
  if pos2 fc a i = 2 * i then g.dh a i else g.de a i

/-- Volume that belongs to a sample. -/
def Filling.vol (g : Filling) (fc : Fc) (i j k : Int) : ℝ :=
  g.len fc .x i * g.len fc .y j * g.len fc .z k

/-- Sum over all samples of a component in the closed box: indices `lo..hi` along an axis if the
component lies on the nodes, `lo..hi-1` if half-way. -/
def boxSum (b : BBox) (fc : Fc) (f : Int → Int → Int → ℝ) : ℝ :=
  ∑ i ∈ Icc (b .xlo) (b .xhi - pos2 fc .x 0), ∑ j ∈ Icc (b .ylo) (b .yhi - pos2 fc .y 0),
    ∑ k ∈ Icc (b .zlo) (b .zhi - pos2 fc .z 0), f i j k

/-- Sum over the three electric components. -/
def sumE (b : BBox) (f : Fc → Int → Int → Int → ℝ) : ℝ :=
  boxSum b .ex (f .ex) + boxSum b .ey (f .ey) + boxSum b .ez (f .ez)
/-- Sum over the three magnetic components. -/
def sumH (b : BBox) (f : Fc → Int → Int → Int → ℝ) : ℝ :=
  boxSum b .hx (f .hx) + boxSum b .hy (f .hy) + boxSum b .hz (f .hz)

/-- `1/2 (sum of eps E^2 + sum of mu H^2)` over the box. -/
noncomputable def stored (g : Filling) (b : BBox) (s : Loc → ℝ) : ℝ :=
  1 / 2 * sumE b (fun fc i j k => g.eps fc i j k * g.vol fc i j k * s (.fld fc i j k) ^ 2) +
  1 / 2 * sumH b (fun fc i j k => g.mu fc i j k * g.vol fc i j k * s (.fld fc i j k) ^ 2)

/-- Energy at the time of the electric samples of `s'`: the magnetic samples are half a step earlier
(`s`) and half a step later (`s'`), and their product replaces the square. -/
noncomputable def leapEnergy (g : Filling) (b : BBox) (s s' : Loc → ℝ) : ℝ :=
  1 / 2 * sumE b (fun fc i j k => g.eps fc i j k * g.vol fc i j k * s' (.fld fc i j k) ^ 2) +
  1 / 2 * sumH b (fun fc i j k => g.mu fc i j k * g.vol fc i j k *
    (s (.fld fc i j k) * s' (.fld fc i j k)))

/-- Ohmic heat of one step: `dt` times the sum of `sigma E^2`, with `E` the mean of the old and the new
field. -/
noncomputable def heat (g : Filling) (b : BBox) (s s' : Loc → ℝ) : ℝ :=
  g.dt * sumE b (fun fc i j k => g.sigma fc i j k * g.vol fc i j k *
    ((s (.fld fc i j k) + s' (.fld fc i j k)) / 2) ^ 2)

/-- No electric field on conducting samples (those the update leaves without a curl term). -/
def FieldFree (C : CRef → ℝ) (b : BBox) (s : Loc → ℝ) : Prop :=
  ∀ fc i j k, (fc = .ex ∨ fc = .ey ∨ fc = .ez) → SampleIn b fc i j k → C (.beta fc i j k) = 0 →
    s (.fld fc i j k) = 0

end Vulture.Spec
