import Verif.Model.Basic
import Mathlib.Analysis.SpecialFunctions.Complex.Circle
/-
Specification for C32 to C35: what the observers should have written.
-/
namespace Vulture.Spec

/-- The steps below `N` in the inclusive window, in order. -/
def stepsIn (start stop N : Nat) : List Nat := (List.range N).filter fun n => start ≤ n ∧ n ≤ stop

/-- Every `step`-th index from the low end of an interval. -/
def Selected (lo hi step i : Int) : Prop := lo ≤ i ∧ i ≤ hi ∧ step ∣ i - lo

open Complex in
/-- Discrete Fourier transform over the listed steps, without the factor `dt`: the sum of `v n exp(-j ω n dt)`. -/
noncomputable def transform (steps : List Nat) (v : Nat → ℝ) (omega dt : ℝ) : ℂ :=
  (steps.map fun n => (v n : ℂ) * exp (-I * (omega * (n * dt) : ℝ))).sum

end Vulture.Spec
