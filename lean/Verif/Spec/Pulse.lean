import Mathlib.Analysis.SpecialFunctions.Trigonometric.Basic
/- The shapes of the pulses, written as in the manual or as a standard formula. -/
namespace Vulture.Spec
open Real

/-- Sixth power of half a sine wave of length `2w`, zero elsewhere. -/
noncomputable def sin6 (w t : ℝ) : ℝ := if 0 < t ∧ t < 2 * w then sin (π * t / (2 * w)) ^ 6 else 0

/-- Normal curve with peak one. -/
noncomputable def bell (w t : ℝ) : ℝ := exp (-t ^ 2 / (2 * w ^ 2))

/-- Sine wave of a frequency starting at zero. -/
noncomputable def tone (f t : ℝ) : ℝ := sin (2 * π * f * t)

end Vulture.Spec
