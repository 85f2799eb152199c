import Mathlib.MeasureTheory.Integral.IntervalIntegral.Basic
import Mathlib.Analysis.Complex.Exponential
/-
Specification for C25: what "the response convolved with the piecewise-linear interpolant of the input" means.
Nothing here mentions the filter's recursion.
-/
namespace Vulture.Spec
open MeasureTheory

/-- Input value number `n`, counted so that the value before the first sample is zero: sample `x[k]` is at
time `(k+1) T`. -/
def sampleVal (x : List ℝ) : ℕ → ℝ
  | 0 => 0
  | n + 1 => x.getD n 0

/-- The piecewise-linear interpolant of the input `x` sampled every `T`. -/
noncomputable def interp (T : ℝ) (x : List ℝ) (t : ℝ) : ℝ :=
  let n := ⌊t / T⌋₊
  sampleVal x n + (sampleVal x (n + 1) - sampleVal x n) * (t / T - n)

/-- Impulse response `Re (Σ rₖ exp(pₖ t))` of the strictly proper part of a pole-residue expansion. -/
noncomputable def impulseResponse (terms : List (ℂ × ℂ)) (t : ℝ) : ℝ :=
  ((terms.map fun a => a.2 * Complex.exp (a.1 * t)).sum).re

/-- Exact response at time `t` to the input `u`: direct part plus the convolution integral. -/
noncomputable def response (asymp : ℝ) (terms : List (ℂ × ℂ)) (u : ℝ → ℝ) (t : ℝ) : ℝ :=
  asymp * u t + ∫ τ in (0 : ℝ)..t, impulseResponse terms (t - τ) * u τ

end Vulture.Spec
