import Verif.Spec.Scale
import Mathlib.Tactic.FieldSimp
import Mathlib.Tactic.LinearCombination
set_option linter.unusedSimpArgs false
set_option linter.unusedVariables false
/- Waveforms and plane waves in another unit of length. -/
namespace Vulture.Scaling
open Spec Setup Waveform

section
variable {r : ℝ}

theorem dflt_mul (hr : 0 < r) (v d : ℝ) : dflt (r * v) (r * d) = r * dflt v d := by
  unfold dflt
  by_cases h : v < 0
  · rw [if_pos h, if_pos (mul_neg_of_pos_of_neg hr h)]
  · rw [if_neg h, if_neg (not_lt.2 (mul_nonneg hr.le (not_lt.1 h)))]

theorem dflt_div (hr : 0 < r) (v d : ℝ) : dflt (v / r) (d / r) = dflt v d / r := by
  have := dflt_mul (inv_pos.2 hr) v d
  rwa [inv_mul_eq_div, inv_mul_eq_div, inv_mul_eq_div] at this

theorem shape_scale (hr : 0 < r) (t : WType) (w f x : ℝ) : shape t (r * w) (f / r) (r * x) = shape t w f x := by
  have h0 : r ≠ 0 := hr.ne'
  have e1 : r * x / (r * w) = x / w := mul_div_mul_left _ _ h0
  have e2 : -(r * x) / (r * w) = -x / w := by rw [← mul_neg, mul_div_mul_left _ _ h0]
  have e3 : 2 * Real.pi * (f / r) * (r * x) = 2 * Real.pi * f * x := by field_simp
  have e4 : ∀ z : ℝ, z / (r * w) * (r * x) = z / w * x := by
    intro z
    by_cases hw : w = 0
    · subst hw; simp
    · field_simp
  have l1 : r * x ≤ 0 ↔ x ≤ 0 := by
    constructor
    · intro h; by_contra q; exact absurd h (not_le.2 (mul_pos hr (not_le.1 q)))
    · intro h; exact mul_nonpos_of_nonneg_of_nonpos hr.le h
  have l2 : ∀ z : ℝ, r * x < z * (r * w) ↔ x < z * w := by
    intro z
    rw [show z * (r * w) = r * (z * w) by ring]
    exact mul_lt_mul_iff_right₀ hr
  cases t <;> simp only [shape, gaussianPulse, differentiatedGaussianPulse, rickerWavelet, modulatedGaussianPulse,
    compactPulse, differentiatedCompactPulse, modulatedCompactPulse, rampedSinusoid, compactPoly, e1, e2, e3, e4, l1, l2]

theorem builtin_scale (hr : 0 < r) (T : ℝ) (w : Wf) (t : ℝ) :
    value (initWaveform (r * T) ⟨w.type, w.size, r * w.delay, r * w.width, w.frequency / r⟩) (r * t) 0 =
      value (initWaveform T w) t 0 := by
  have h0 : r ≠ 0 := hr.ne'
  have d0 : dflt (r * w.delay) 0 = r * dflt w.delay 0 := by have := dflt_mul hr w.delay 0; rwa [mul_zero] at this
  have d1 : ∀ z, dflt (r * w.delay) (z * (r * T)) = r * dflt w.delay (z * T) := by
    intro z; rw [← dflt_mul hr]; congr 1; ring
  have d2 : ∀ z, dflt (r * w.width) (z * (r * T)) = r * dflt w.width (z * T) := by
    intro z; rw [← dflt_mul hr]; congr 1; ring
  have d3 : dflt (w.frequency / r) (5 / 100 / (r * T)) = dflt w.frequency (5 / 100 / T) / r := by
    rw [← dflt_div hr]; congr 1
    by_cases hT : T = 0
    · subst hT; simp
    · field_simp
  have sh : ∀ ty (d w f : ℝ), shape ty (r * w) (f / r) (r * t - 0 - r * d) = shape ty w f (t - 0 - d) := by
    intro ty d w f
    rw [show r * t - 0 - r * d = r * (t - 0 - d) by ring, shape_scale hr]
  have sh0 : ∀ ty (d w : ℝ), shape ty (r * w) 0 (r * t - 0 - r * d) = shape ty w 0 (t - 0 - d) := by
    intro ty d w
    have := sh ty d w 0
    rwa [zero_div] at this
  obtain ⟨ty, sz, de, wi, fr⟩ := w
  cases ty <;> simp only [initWaveform, value, d0, d1, d2, d3, sh, sh0] at *

/-! ### Tables -/

theorem sig_scale (hr : 0 < r) (x : ℕ → ℝ) (i : ℕ) : sig (fun i => r * x i) i = sig x i := by
  unfold sig
  rw [← mul_sub, ← mul_sub, mul_div_mul_left _ _ hr.ne']

theorem div_scale (hr : 0 < r) (a b : ℝ) : a / (r * b) = a / b / r := by
  rw [mul_comm, div_div]

theorem sweep_scale (hr : 0 < r) (x y : ℕ → ℝ) (i : ℕ) :
    sweep (fun i => r * x i) y i = ((sweep x y i).1, (sweep x y i).2 / r ^ 2) := by
  have h0 : r ≠ 0 := hr.ne'
  induction i with
  | zero =>
    simp only [sweep, sub_zero, ← mul_sub, div_scale hr]
    congr 1
    field_simp
  | succ i ih =>
    simp only [sweep, ih, sig_scale hr, ← mul_sub, div_scale hr, ← sub_div]
    congr 1
    field_simp

theorem lastM_scale (hr : 0 < r) (x y : ℕ → ℝ) (n : ℕ) : lastM (fun i => r * x i) y n = lastM x y n / r ^ 2 := by
  have h0 : r ≠ 0 := hr.ne'
  simp only [lastM, zero_sub, sweep_scale hr, ← mul_sub, div_scale hr]
  field_simp

theorem backM_scale (hr : 0 < r) (x y : ℕ → ℝ) (n j : ℕ) : backM (fun i => r * x i) y n j = backM x y n j / r ^ 2 := by
  induction j with
  | zero => exact lastM_scale hr x y n
  | succ j ih =>
    simp only [backM, ih, sweep_scale hr]
    ring

theorem search_scale (hr : 0 < r) (x : ℕ → ℝ) (t : ℝ) (a b : ℕ) : search (fun i => r * x i) (r * t) a b = search x t a b := by
  induction a, b using search.induct x t with
  | case1 a b h q hq ih =>
    rw [search.eq_def, search.eq_def x]
    rw [dif_pos h, dif_pos h]
    simp only
    rw [if_pos (show r * x ((b + a) / 2) > r * t from mul_lt_mul_of_pos_left hq hr), if_pos hq]
    exact ih
  | case2 a b h q hq ih =>
    rw [search.eq_def, search.eq_def x]
    rw [dif_pos h, dif_pos h]
    simp only
    rw [if_neg (show ¬ r * x ((b + a) / 2) > r * t from fun z => hq (lt_of_mul_lt_mul_left z hr.le)), if_neg hq]
    exact ih
  | case3 a b h =>
    rw [search.eq_def, search.eq_def x, dif_neg h, dif_neg h]

theorem table_scale (hr : 0 < r) (x y : ℕ → ℝ) (n : ℕ) (t : ℝ) :
    externalWaveform (fun i => r * x i) y (second (fun i => r * x i) y n) n (r * t) 0 =
      externalWaveform x y (second x y n) n t 0 := by
  have h0 : r ≠ 0 := hr.ne'
  have c1 : ∀ u v : ℝ, r * u < r * v ↔ u < v := fun u v => mul_lt_mul_iff_right₀ hr
  have c2 : ∀ u : ℝ, r * u ≤ 0 ↔ u ≤ 0 := by
    intro u
    constructor
    · intro h; by_contra q; exact absurd h (not_le.2 (mul_pos hr (not_le.1 q)))
    · intro h; exact mul_nonpos_of_nonneg_of_nonpos hr.le h
  have c3 : ∀ u v w z : ℝ, (r * u - r * v) / (r * w - r * z) = (u - v) / (w - z) := by
    intro u v w z; rw [← mul_sub, ← mul_sub, mul_div_mul_left _ _ h0]
  have c4 : ∀ u v : ℝ, r * u - r * v ≤ 0 ↔ u - v ≤ 0 := by
    intro u v; rw [← mul_sub]; exact c2 _
  have hs : second (fun i => r * x i) y n = fun k => second x y n k / r ^ 2 := by
    funext k; exact backM_scale hr x y n _
  unfold externalWaveform evalSpline
  rw [hs]
  simp only [gt_iff_lt, c1, c3, c4, search_scale hr]
  have fin : ∀ (A B m1 m2 u v y1 y2 : ℝ), A * y1 + B * y2 + ((A * A * A - A) * (m1 / r ^ 2) + (B * B * B - B) * (m2 / r ^ 2)) *
      ((r * u - r * v) * (r * u - r * v)) / 6 = A * y1 + B * y2 + ((A * A * A - A) * m1 + (B * B * B - B) * m2) *
      ((u - v) * (u - v)) / 6 := by
    intro A B m1 m2 u v y1 y2
    field_simp
  simp only [fin]

/-- A waveform in the other unit. -/
theorem waveValue_scale (hr : 0 < r) (T : ℝ) (w : Wave) (t : ℝ) :
    waveValue (r * T) (scaleWave r w) (r * t) = waveValue T w t := by
  cases w with
  | builtin w => exact builtin_scale hr T w t
  | table size delay x y n =>
    simp only [waveValue, scaleWave]
    have d0 : dflt (r * delay) 0 = r * dflt delay 0 := by have := dflt_mul hr delay 0; rwa [mul_zero] at this
    rw [d0, ← mul_sub, table_scale hr]

/-! ### Phase velocity -/

open PlaneWave in
theorem testFrequency_scale (hr : 0 < r) (T : ℝ) : testFrequency (r * T) = testFrequency T / r := by
  unfold testFrequency
  rw [div_scale hr]
  ring

open PlaneWave in
theorem newton_scale (hr : 0 < r) (d A : Axis → ℝ) (B q : ℝ) :
    newtonStep (fun a => r * d a) (fun a => r * A a) (B / r) (q / r) = newtonStep d A B q / r := by
  have h0 : r ≠ 0 := hr.ne'
  have e : ∀ a, r * A a * (q / r) = A a * q := by intro a; field_simp
  have e' : ∀ a, 2 * (r * A a) * (q / r) = 2 * A a * q := by intro a; field_simp
  unfold newtonStep
  simp only [e, e', div_scale hr]
  have e3 : ∀ a, r * A a * Real.sin (2 * A a * q) / (r * d a * (r * d a)) = A a * Real.sin (2 * A a * q) / (d a * d a) / r := by
    intro a
    rw [show r * d a * (r * d a) = r * (r * (d a * d a)) by ring, mul_assoc, mul_div_mul_left _ _ h0, div_scale hr]
  simp only [e3]
  have e4 : ∀ a, Real.sin (A a * q) / d a / r * (Real.sin (A a * q) / d a / r) =
      Real.sin (A a * q) / d a * (Real.sin (A a * q) / d a) / r ^ 2 := by intro a; field_simp
  simp only [e4]
  rw [show B / r * (B / r) = B * B / r ^ 2 by field_simp, ← add_div, ← add_div, ← sub_div, ← add_div, ← add_div]
  rw [div_div_div_eq, pow_two, show ∀ u v : ℝ, u * r / (r * r * v) = u / v / r from fun u v => by
    rw [show r * r * v = r * (r * v) by ring, mul_comm u r, mul_div_mul_left _ _ h0, div_scale hr]]

open PlaneWave in
theorem phaseVelocity_scale (hr : 0 < r) (c0 T : ℝ) (d : Axis → ℝ) (th ph : ℝ) :
    phaseVelocity c0 (r * T) (fun a => r * d a) th ph = phaseVelocity c0 T d th ph := by
  have h0 : r ≠ 0 := hr.ne'
  have hA : halfCells (fun a => r * d a) th ph = fun a => r * halfCells d th ph a := by
    funext a; cases a <;> simp only [halfCells] <;> ring
  have hB : halfStep c0 (r * T) = halfStep c0 T / r := by
    unfold halfStep
    rw [testFrequency_scale hr, show (1 : ℝ) / 2 * (testFrequency T / r) * (r * T) = 1 / 2 * testFrequency T * T by field_simp,
      show c0 * (r * T) = r * (c0 * T) by ring, div_scale hr]
  unfold phaseVelocity
  simp only [testFrequency_scale hr, hA, hB]
  have it : ∀ (n : ℕ) (z : ℝ), (fun k => k - newtonStep (fun a => r * d a) (fun a => r * halfCells d th ph a) (halfStep c0 T / r) k)^[n] (z / r) =
      (fun k => k - newtonStep d (halfCells d th ph) (halfStep c0 T) k)^[n] z / r := by
    intro n
    induction n with
    | zero => intro z; rfl
    | succ n ih =>
      intro z
      rw [Function.iterate_succ_apply, Function.iterate_succ_apply, ← ih]
      congr 1
      rw [newton_scale hr]
      ring
  rw [show testFrequency T / r / c0 = testFrequency T / c0 / r by ring, it, div_div_div_cancel_right₀ h0]

end
end Vulture.Scaling
