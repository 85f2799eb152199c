import Mathlib.LinearAlgebra.Matrix.Notation
import Mathlib.Data.Real.Basic
import Mathlib.LinearAlgebra.Matrix.DotProduct
/-
Specification for C26 and C42: scattering, impedance and power at a thin sheet with two sides a (low) and b (high).
-/
namespace Vulture.Spec
open Matrix

/-- No incident wave `a` leaves with more power than it brought. -/
def Passive (S : Matrix (Fin 2) (Fin 2) ℝ) : Prop := ∀ a : Fin 2 → ℝ, (S *ᵥ a) ⬝ᵥ (S *ᵥ a) ≤ a ⬝ᵥ a

/-- Waves `a` in and `b = S a` out at ports of impedance `eta0` are the same as voltages `v = Z i`, where
`v = a + b` and `eta0 i = a - b`. -/
def Represents (eta0 : ℝ) (S Z : Matrix (Fin 2) (Fin 2) ℝ) : Prop :=
  ∀ a : Fin 2 → ℝ, a + S *ᵥ a = Z *ᵥ ((1 / eta0) • (a - S *ᵥ a))

/-- Tangential fields on the two sides of a sheet whose normal is the axis `a`; `1`, `2` are the next two axes in
cyclic order. -/
structure SideFields where
  e1a : ℝ
  e1b : ℝ
  e2a : ℝ
  e2b : ℝ
  h1a : ℝ
  h1b : ℝ
  h2a : ℝ
  h2b : ℝ

/-- Net flow of power into the sheet: the normal component of `E × H` on the low side minus that on the high
side. -/
def SideFields.power (f : SideFields) : ℝ :=
  (f.e1a * f.h2a - f.e2a * f.h1a) - (f.e1b * f.h2b - f.e2b * f.h1b)

end Vulture.Spec
