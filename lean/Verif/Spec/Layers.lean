import Verif.Spec.Sides
import Mathlib.MeasureTheory.Integral.IntervalIntegral.Basic
/-
Specification for C83: what the fields do in the absorbing layers outside a `PML` side, in terms of the mesh file.
-/
namespace Vulture.Spec
open Setup

/-- The mesh with the absorbing layers around it. -/
def gridBox (X : Experiment) : BBox := fun f =>
  meshBox X f + if X.file.bt f = .pml then (if f.isLo then - X.file.layers f else X.file.layers f) else 0

/-- The sample lies outside the mesh in an absorbing layer, and not on the metal behind it. -/
structure InLayer (X : Experiment) (fc : Fc) (q : Axis → Int) : Prop where
  inside : SampleIn (gridBox X) fc (q .x) (q .y) (q .z)
  outside : ¬ SampleIn (meshBox X) fc (q .x) (q .y) (q .z)
  front : ∀ f, X.file.bt f = .pml → ¬ OnPlane (gridBox X) f fc (q .x) (q .y) (q .z)

/-- Largest conductivity of a layer with the parameters `p`, of thickness `D`, made of cells of size `d`. -/
noncomputable def topConductivity (eta0 : ℝ) (p : PmlParams) (D d : ℝ) : ℝ :=
  if 0 < p.refCoeff then - (p.order + 1) / (2 * eta0 * p.nEff * D) * Real.log p.refCoeff else 4 * (p.order + 1) / (5 * eta0 * p.nEff * d)

/-- Polynomial profile: conductivity and stretching at distance `x` from the inner side of a layer of thickness `D`. -/
noncomputable def profileSigma (eta0 : ℝ) (p : PmlParams) (D d x : ℝ) : ℝ := topConductivity eta0 p D d * (x / D) ^ p.order
noncomputable def profileKappa (p : PmlParams) (D x : ℝ) : ℝ := 1 + (p.kmax - 1) * (x / D) ^ p.order

/-- Thickness of the layers of a side: their cells continue the outermost cells of the mesh. -/
noncomputable def layerThickness (X : Experiment) (f : Face) : ℝ := X.file.layers f * sideCell X f

/-- How far a sample lies outside a side of the mesh (negative: inside). -/
noncomputable def outwards (X : Experiment) (f : Face) (fc : Fc) (q : Axis → Int) : ℝ :=
  (if f.isLo then - (pos2 fc f.axis (q f.axis) : ℝ) / 2 else (pos2 fc f.axis (q f.axis) : ℝ) / 2 - cellsOf X.file f.axis) * sideCell X f

open Classical in
/-- Conductivity and stretching along an axis at the place of a sample: those of the layer it is in, none between the layers. -/
noncomputable def sigmaAt (k : Consts) (X : Experiment) (fc : Fc) (q : Axis → Int) (b : Axis) : ℝ :=
  if X.file.bt b.lo = .pml ∧ 0 < outwards X b.lo fc q then
    profileSigma k.eta0 (X.par b.lo) (layerThickness X b.lo) (sideCell X b.lo) (outwards X b.lo fc q)
  else if X.file.bt b.hi = .pml ∧ 0 < outwards X b.hi fc q then
    profileSigma k.eta0 (X.par b.hi) (layerThickness X b.hi) (sideCell X b.hi) (outwards X b.hi fc q)
  else 0
open Classical in
noncomputable def kappaAt (X : Experiment) (fc : Fc) (q : Axis → Int) (b : Axis) : ℝ :=
  if X.file.bt b.lo = .pml ∧ 0 < outwards X b.lo fc q then profileKappa (X.par b.lo) (layerThickness X b.lo) (outwards X b.lo fc q)
  else if X.file.bt b.hi = .pml ∧ 0 < outwards X b.hi fc q then profileKappa (X.par b.hi) (layerThickness X b.hi) (outwards X b.hi fc q)
  else 1

/-- The rate `κ ∂U/∂t + (σ/ε₀) U`, centred between `U` and `U'`: the derivative in time stretched by `κ + σ/(iωε₀)`. -/
noncomputable def stretchedRate (eps0 T κ σ U U' : ℝ) : ℝ := κ * (U' - U) / T + σ / eps0 * ((U' + U) / 2)

/-- The documented ranges of the parameters of the `PML` sides. -/
def GoodLayers (k : Consts) (X : Experiment) : Prop :=
  0 < k.eta0 ∧ (∀ b i, 0 < cellLength X b i) ∧ ∀ f, X.file.bt f = .pml →
    1 ≤ (X.par f).order ∧ 0 < (X.par f).nEff ∧ (X.par f).refCoeff ≤ 1 ∧ 1 ≤ (X.par f).kmax

/-- The sample of the mesh whose material continues to a sample of a layer: the nearest one, except that half-cell samples of low
layers continue the second cell (see C40). -/
def continued (X : Experiment) (fc : Fc) (q : Axis → Int) : Axis → Int := fun b =>
  if q b < 0 then pos2 fc b 0 else if cellsOf X.file b - pos2 fc b 0 < q b then cellsOf X.file b - pos2 fc b 0 else q b

/-- A wave that crosses a layer of conductivity `σ` in matter of index `n` at right angles, is reflected by the metal behind it
and crosses it again: what is left of its amplitude. -/
noncomputable def reflectedPart (eta0 n D : ℝ) (σ : ℝ → ℝ) : ℝ := Real.exp (- 2 * eta0 * n * ∫ x in (0 : ℝ)..D, σ x)

end Vulture.Spec
