import Verif.Model.Basic
import Mathlib.Analysis.SpecialFunctions.Trigonometric.Basic
/-
Specification for C30: vectors, uniform plane waves, arrival order.
-/
namespace Vulture.Spec
open Real

/-- Scalar product. -/
def dot (u v : Axis → ℝ) : ℝ := u .x * v .x + u .y * v .y + u .z * v .z

/-- Vector product. -/
def cross (u v : Axis → ℝ) : Axis → ℝ
  | .x => u .y * v .z - u .z * v .y
  | .y => u .z * v .x - u .x * v .z
  | .z => u .x * v .y - u .y * v .x

/-- Length. -/
noncomputable def norm3 (u : Axis → ℝ) : ℝ := sqrt (dot u u)

/-- The unit vector along the z axis. -/
def zhat : Axis → ℝ
  | .z => 1 | _ => 0

/-- Unit vector of the polar angle `theta` and azimuth `phi` in degrees. -/
noncomputable def direction (theta phi : ℝ) : Axis → ℝ
  | .x => sin (theta * π / 180) * cos (phi * π / 180)
  | .y => sin (theta * π / 180) * sin (phi * π / 180)
  | .z => cos (theta * π / 180)

/-- A uniform plane wave: direction `k`, fields `E` and `H`, in a medium of impedance `eta`. -/
structure UniformWave (k E H : Axis → ℝ) (eta amplitude : ℝ) : Prop where
  unit : norm3 k = 1
  kE : dot k E = 0
  kH : dot k H = 0
  EH : dot E H = 0
  right_handed : ∀ a, cross k E a = eta * H a
  power : ∀ a, cross E H a = amplitude ^ 2 / eta * k a
  amplitudeE : norm3 E = amplitude
  amplitudeH : norm3 H = amplitude / eta

/-- A wave front moving along `k` passes `p` no later than `r`. -/
def NotAfter (k p r : Axis → ℝ) : Prop := dot k p ≤ dot k r

/-- The point lies in the closed box with corners `lo` and `hi`. -/
def InClosedBox (lo hi r : Axis → ℝ) : Prop := ∀ a, lo a ≤ r a ∧ r a ≤ hi a

end Vulture.Spec
