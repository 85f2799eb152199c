import Verif.Props.C31_Axis
import Mathlib.Analysis.SpecialFunctions.Trigonometric.Deriv
import Mathlib.Analysis.SpecialFunctions.Trigonometric.Bounds
import Mathlib.Analysis.Convex.SpecificFunctions.Deriv
import Mathlib.Analysis.Real.Pi.Bounds
/-
C31, continued: the numerical phase velocity used to correct the auxiliary grid.
-/
set_option linter.unusedSimpArgs false
namespace Vulture.C31
open Vulture Spec PlaneWave Real

/-- The discrete dispersion relation of the mesh for the wave vector `k` times the direction `u`, at the angular
frequency `w`: zero when such a wave exists on the mesh. -/
noncomputable def dispersion (c0 dt w : ℝ) (d u : Axis → ℝ) (k : ℝ) : ℝ :=
  (sin (1 / 2 * d .x * u .x * k) / d .x) ^ 2 + (sin (1 / 2 * d .y * u .y * k) / d .y) ^ 2 +
    (sin (1 / 2 * d .z * u .z * k) / d .z) ^ 2 - (sin (1 / 2 * w * dt) / (c0 * dt)) ^ 2

theorem halfCells_eq (d : Axis → ℝ) (theta phi : ℝ) (a : Axis) :
    halfCells d (π * theta / 180) (π * phi / 180) a = 1 / 2 * d a * kinc theta phi a := by
  have h : ∀ t, π * t / 180 = rad t := fun t => by unfold rad; ring
  cases a <;> simp only [halfCells, kinc, h] <;> ring

/-- The correction is Newton's: the dispersion relation divided by its derivative. -/
theorem newton_correction (c0 dt : ℝ) (d : Axis → ℝ) (theta phi k : ℝ) :
    ∃ D, HasDerivAt (dispersion c0 dt (testFrequency dt) d (kinc theta phi)) D k ∧
      newtonStep d (halfCells d (π * theta / 180) (π * phi / 180)) (halfStep c0 dt) k =
        dispersion c0 dt (testFrequency dt) d (kinc theta phi) k / D := by
  have one : ∀ A e : ℝ, HasDerivAt (fun k => (sin (A * k) / e) ^ 2) (A * sin (2 * A * k) / (e * e)) k := by
    intro A e
    have h1 : HasDerivAt (fun k => A * k) A k := by simpa using (hasDerivAt_id k).const_mul A
    have h2 := ((hasDerivAt_sin (A * k)).comp k h1).div_const e
    have h3 := h2.pow 2
    refine h3.congr_deriv ?_
    rw [mul_assoc 2 A k, sin_two_mul]
    simp only [Function.comp]
    field_simp
    ring
  refine ⟨_, (((one (1 / 2 * d .x * kinc theta phi .x) (d .x)).add (one (1 / 2 * d .y * kinc theta phi .y) (d .y))).add
    (one (1 / 2 * d .z * kinc theta phi .z) (d .z))).sub_const _, ?_⟩
  unfold newtonStep
  simp only [halfCells_eq]
  congr 1
  unfold dispersion halfStep
  ring

/-- A value the iteration does not change is a wave number of the mesh, unless the derivative vanishes. -/
theorem fixed_point (c0 dt : ℝ) (d : Axis → ℝ) (theta phi k : ℝ)
    (h : k - newtonStep d (halfCells d (π * theta / 180) (π * phi / 180)) (halfStep c0 dt) k = k) :
    dispersion c0 dt (testFrequency dt) d (kinc theta phi) k = 0 ∨
      HasDerivAt (dispersion c0 dt (testFrequency dt) d (kinc theta phi)) 0 k := by
  obtain ⟨D, hD, e⟩ := newton_correction c0 dt d theta phi k
  rw [e, sub_eq_self, div_eq_zero_iff] at h
  rcases h with h | rfl
  · exact Or.inl h
  · exact Or.inr hD

/-- On a cubic mesh the iteration is the same for all six directions along the axes. -/
theorem velocity_axis (c0 dt d : ℝ) (theta phi : ℝ) {a : Axis} {σ : ℤ} (hσ : σ = 1 ∨ σ = -1)
    (hk : kinc theta phi a = σ) :
    phaseVelocity c0 dt (fun _ => d) (π * theta / 180) (π * phi / 180) = phaseVelocity c0 dt (fun _ => d) 0 0 := by
  have z := others_zero hσ hk
  have step : newtonStep (fun _ => d) (halfCells (fun _ => d) (π * theta / 180) (π * phi / 180)) (halfStep c0 dt) =
      newtonStep (fun _ => d) (halfCells (fun _ => d) 0 0) (halfStep c0 dt) := by
    funext k
    have e0 : halfCells (fun _ => d) 0 0 = fun | .z => 1 / 2 * d | _ => 0 := by
      funext a; cases a <;> simp [halfCells]
    unfold newtonStep
    simp only [halfCells_eq, e0]
    cases a
    · rw [z .y (by decide), z .z (by decide), hk]
      rcases hσ with rfl | rfl <;> simp [neg_div]
    · rw [z .x (by decide), z .z (by decide), hk]
      rcases hσ with rfl | rfl <;> simp [neg_div]
    · rw [z .x (by decide), z .y (by decide), hk]
      rcases hσ with rfl | rfl <;> simp [neg_div]
  unfold phaseVelocity
  rw [step]

/-- Hence the auxiliary grid uses the coefficients of the mesh itself for a wave along an axis. -/
theorem rel_axis (c0 dt d : ℝ) (theta phi : ℝ) {a : Axis} {σ : ℤ} (hσ : σ = 1 ∨ σ = -1) (hk : kinc theta phi a = σ)
    (h : phaseVelocity c0 dt (fun _ => d) 0 0 ≠ 0) : relPhaseVelocity c0 dt (fun _ => d) theta phi = 1 := by
  unfold relPhaseVelocity
  rw [velocity_axis c0 dt d theta phi hσ hk, div_self h]

/-- A wave with small Courant number: at the frequency the code picks (23 steps per period) no wave exists on a cubic
mesh, in any direction along an axis, if the time step is at most 3/20 of the largest stable one; the iteration then
has nothing to converge to. -/
theorem no_wave_for_small_steps (c0 dt d : ℝ) (hc : 0 < c0) (hd : 0 < d) (hdt : 0 < dt)
    (hcn : dt * (c0 * sqrt 3) ≤ 3 / 20 * d) (theta phi : ℝ) {a : Axis} {σ : ℤ} (hσ : σ = 1 ∨ σ = -1)
    (hk : kinc theta phi a = σ) (k : ℝ) :
    dispersion c0 dt (testFrequency dt) (fun _ => d) (kinc theta phi) k < 0 := by
  have z := others_zero hσ hk
  have s3 : (1.73 : ℝ) < sqrt 3 := by
    rw [show (1.73 : ℝ) = sqrt (1.73 ^ 2) by rw [sqrt_sq (by norm_num)]]
    exact sqrt_lt_sqrt (by norm_num) (by norm_num)
  -- the left side is at most 1/d²
  have e : 1 / 2 * testFrequency dt * dt = π / 23 := by
    unfold testFrequency; field_simp
  have hs : 2 / 23 ≤ sin (π / 23) := by
    have := mul_le_sin (x := π / 23) (by positivity) (by linarith [pi_pos])
    calc (2 : ℝ) / 23 = 2 / π * (π / 23) := by field_simp
      _ ≤ _ := this
  have hB : 1 / d < sin (π / 23) / (c0 * dt) := by
    rw [div_lt_div_iff₀ hd (by positivity)]
    have : c0 * dt * 1.73 < 3 / 20 * d := lt_of_lt_of_le (by nlinarith [mul_pos hc hdt]) hcn
    nlinarith
  have hB2 : (1 / d) ^ 2 < (sin (π / 23) / (c0 * dt)) ^ 2 := by
    have : 0 < 1 / d := by positivity
    nlinarith
  have hle : ∀ x : ℝ, (sin x / d) ^ 2 ≤ (1 / d) ^ 2 := by
    intro x
    rw [div_pow, div_pow]
    exact div_le_div_of_nonneg_right (by rw [one_pow]; exact sin_sq_le_one x) (by positivity)
  unfold dispersion
  rw [e]
  cases a
  · rw [z .y (by decide), z .z (by decide)]
    simp only [mul_zero, zero_mul, sin_zero, zero_div, ne_eq, OfNat.ofNat_ne_zero, not_false_eq_true, zero_pow, add_zero]
    linarith [hle (1 / 2 * d * kinc theta phi .x * k)]
  · rw [z .x (by decide), z .z (by decide)]
    simp only [mul_zero, zero_mul, sin_zero, zero_div, ne_eq, OfNat.ofNat_ne_zero, not_false_eq_true, zero_pow, add_zero,
      zero_add]
    linarith [hle (1 / 2 * d * kinc theta phi .y * k)]
  · rw [z .x (by decide), z .y (by decide)]
    simp only [mul_zero, zero_mul, sin_zero, zero_div, ne_eq, OfNat.ofNat_ne_zero, not_false_eq_true, zero_pow, add_zero,
      zero_add]
    linarith [hle (1 / 2 * d * kinc theta phi .z * k)]

/-! ### Convergence from above for ordinary Courant numbers -/

/-- The cosine lies below its tangents between 0 and π/2. -/
theorem cos_tangent {a b : ℝ} (ha : 0 ≤ a ∧ a ≤ π / 2) (hb : 0 ≤ b ∧ b ≤ π / 2) :
    cos b ≤ cos a - sin a * (b - a) := by
  have hc := strictConcaveOn_cos_Icc.concaveOn
  have ma : a ∈ Set.Icc (-(π / 2)) (π / 2) := ⟨by linarith [pi_pos], ha.2⟩
  have mb : b ∈ Set.Icc (-(π / 2)) (π / 2) := ⟨by linarith [pi_pos], hb.2⟩
  rcases lt_trichotomy a b with h | rfl | h
  · have := hc.slope_le_of_hasDerivAt ma mb h (hasDerivAt_cos a)
    rw [slope_def_field, div_le_iff₀ (by linarith)] at this
    linarith
  · simp
  · have := hc.le_slope_of_hasDerivAt mb ma h (hasDerivAt_cos a)
    rw [slope_def_field, le_div_iff₀ (by linarith)] at this
    linarith

theorem sin_sq_tangent {x y : ℝ} (hx : 0 ≤ x ∧ x ≤ π / 4) (hy : 0 ≤ y ∧ y ≤ π / 4) :
    sin x ^ 2 + sin (2 * x) * (y - x) ≤ sin y ^ 2 := by
  have h := cos_tangent (a := 2 * x) (b := 2 * y) (by constructor <;> linarith) (by constructor <;> linarith)
  have ex := cos_sq_add_sin_sq x; have ey := cos_sq_add_sin_sq y
  rw [cos_two_mul, cos_two_mul] at h
  nlinarith

/-- One iteration, with the angle over half a cell as unknown. -/
noncomputable def angleStep (s x : ℝ) : ℝ := x - (sin x ^ 2 - s ^ 2) / sin (2 * x)

theorem sin_two_pos {x : ℝ} (hx : 0 < x ∧ x ≤ π / 4) : 0 < sin (2 * x) :=
  sin_pos_of_pos_of_lt_pi (by linarith) (by linarith [pi_pos])

theorem angleStep_pos (s : ℝ) {x : ℝ} (hx : 0 < x ∧ x ≤ π / 4) : 0 < angleStep s x := by
  have h2 := sin_two_pos hx
  unfold angleStep
  rw [sub_pos, div_lt_iff₀ h2, sin_two_mul]
  have hs : sin x < x := sin_lt hx.1
  have s0 : 0 < sin x := sin_pos_of_pos_of_lt_pi hx.1 (by linarith [pi_pos])
  have hcs : 1 / 2 < cos x := by
    have : cos (π / 3) < cos x := cos_lt_cos_of_nonneg_of_le_pi hx.1.le (by linarith [pi_pos]) (by linarith [pi_pos])
    rwa [cos_pi_div_three] at this
  nlinarith [sq_nonneg s, mul_pos s0 hx.1]

theorem angleStep_above (s : ℝ) {x : ℝ} (hx : 0 < x ∧ x ≤ π / 4) (hy : angleStep s x ≤ π / 4) :
    s ^ 2 ≤ sin (angleStep s x) ^ 2 := by
  have h2 := sin_two_pos hx
  have t := sin_sq_tangent (x := x) (y := angleStep s x) ⟨hx.1.le, hx.2⟩ ⟨(angleStep_pos s hx).le, hy⟩
  have : sin (2 * x) * (angleStep s x - x) = s ^ 2 - sin x ^ 2 := by
    unfold angleStep; field_simp; ring
  linarith

/-- The iterates decrease and stay above the wave number of the mesh. -/
theorem iterate_above (s : ℝ) {x : ℝ} (hx : 0 < x ∧ x ≤ 1 / 2) (hs : s ^ 2 ≤ x ^ 2) (n : ℕ) :
    0 < (angleStep s)^[n+1] x ∧ (angleStep s)^[n+1] x ≤ π / 4 ∧ s ^ 2 ≤ sin ((angleStep s)^[n+1] x) ^ 2 := by
  have p3 : (3 : ℝ) < π := pi_gt_three
  have hx' : 0 < x ∧ x ≤ π / 4 := ⟨hx.1, by linarith⟩
  induction n with
  | zero =>
    simp only [zero_add, Function.iterate_one]
    have le : angleStep s x ≤ π / 4 := by
      have h2 := sin_two_pos hx'
      have h3 : x ≤ sin (2 * x) := by
        have := mul_le_sin (x := 2 * x) (by linarith) (by linarith)
        refine le_trans ?_ this
        rw [div_mul_eq_mul_div, le_div_iff₀ pi_pos]
        nlinarith [pi_le_four]
      have h4 : x - x ^ 3 / 6 < sin x := sin_gt_sub_cube hx.1
      have h5 : x ^ 2 - sin x ^ 2 ≤ x ^ 4 / 3 := by
        have p : 0 ≤ x - x ^ 3 / 6 := by nlinarith [sq_nonneg x]
        have : (x - x ^ 3 / 6) ^ 2 ≤ sin x ^ 2 := pow_le_pow_left₀ p h4.le 2
        nlinarith [sq_nonneg (x ^ 3)]
      unfold angleStep
      have h6 : -(1 / 4) ≤ (sin x ^ 2 - s ^ 2) / sin (2 * x) := by
        rw [le_div_iff₀ h2]
        have x3 : x ^ 4 ≤ x * (1 / 8) := by
          have : x ^ 3 ≤ (1 / 2) ^ 3 := pow_le_pow_left₀ hx.1.le hx.2 3
          nlinarith [hx.1]
        nlinarith
      linarith
    exact ⟨angleStep_pos s hx', le, angleStep_above s hx' le⟩
  | succ n ih =>
    rw [Function.iterate_succ_apply']
    obtain ⟨i1, i2, i3⟩ := ih
    have h2 := sin_two_pos ⟨i1, i2⟩
    have le : angleStep s ((angleStep s)^[n+1] x) ≤ π / 4 := by
      refine le_trans ?_ i2
      unfold angleStep
      have : 0 ≤ (sin ((angleStep s)^[n+1] x) ^ 2 - s ^ 2) / sin (2 * (angleStep s)^[n+1] x) :=
        div_nonneg (by linarith) h2.le
      unfold angleStep at this
      linarith
    exact ⟨angleStep_pos s ⟨i1, i2⟩, le, angleStep_above s ⟨i1, i2⟩ le⟩

/-- The iteration of the code is that iteration. -/
theorem iterate_code (c0 dt d : ℝ) (hd : 0 < d) (k : ℝ) (n : ℕ) :
    1 / 2 * d * (fun k => k - newtonStep (fun _ => d) (halfCells (fun _ => d) 0 0) (halfStep c0 dt) k)^[n] k =
      (angleStep (halfStep c0 dt * d))^[n] (1 / 2 * d * k) := by
  induction n with
  | zero => rfl
  | succ n ih =>
    rw [Function.iterate_succ_apply', Function.iterate_succ_apply', ← ih]
    generalize (fun k => k - newtonStep (fun _ => d) (halfCells (fun _ => d) 0 0) (halfStep c0 dt) k)^[n] k = q
    unfold angleStep newtonStep
    simp only [halfCells, sin_zero, cos_zero, mul_zero, zero_mul, mul_one, zero_div, zero_add, add_zero]
    rw [show 2 * (1 / 2 * d) * q = 2 * (1 / 2 * d * q) by ring]
    generalize halfStep c0 dt = B
    generalize sin (2 * (1 / 2 * d * q)) = S
    generalize sin (1 / 2 * d * q) = T
    by_cases hS : S = 0
    · simp [hS]
    · field_simp

/-- For a cell at most 7/2 times the distance light travels in a step (Courant numbers from one half up), the phase
velocity the code finds along an axis is positive, and not above that of the mesh: the dispersion relation is not
negative at the wave number it comes from. -/
theorem velocity_found (c0 dt d : ℝ) (hc : 0 < c0) (hdt : 0 < dt) (hd : 0 < d) (hcn : d ≤ 7 / 2 * (c0 * dt)) :
    0 < phaseVelocity c0 dt (fun _ => d) 0 0 ∧ ∃ k, 0 < k ∧ phaseVelocity c0 dt (fun _ => d) 0 0 = testFrequency dt / k ∧
      0 ≤ dispersion c0 dt (testFrequency dt) (fun _ => d) (kinc 0 0) k := by
  have hw : 0 < testFrequency dt := by unfold testFrequency; positivity
  have e : 1 / 2 * testFrequency dt * dt = π / 23 := by unfold testFrequency; field_simp
  set x := 1 / 2 * d * (testFrequency dt / c0) with hx
  set s := halfStep c0 dt * d with hs
  have ex : x = π / 23 * (d / (c0 * dt)) := by
    rw [hx]; unfold testFrequency; field_simp
  have es : s = sin (π / 23) * (d / (c0 * dt)) := by
    rw [hs]; unfold halfStep; rw [e]; ring
  have r0 : 0 < d / (c0 * dt) := by positivity
  have r1 : d / (c0 * dt) ≤ 7 / 2 := by rw [div_le_iff₀ (by positivity)]; exact hcn
  have x0 : 0 < x := by positivity
  have x1 : x ≤ 1 / 2 := by
    rw [ex]
    have := pi_lt_d2
    nlinarith
  have sp : 0 ≤ sin (π / 23) := sin_nonneg_of_nonneg_of_le_pi (by positivity) (by linarith [pi_pos])
  have sx : s ^ 2 ≤ x ^ 2 := by
    refine pow_le_pow_left₀ (by rw [es]; positivity) ?_ 2
    rw [es, ex]
    exact mul_le_mul_of_nonneg_right (sin_le (by positivity)) r0.le
  obtain ⟨k1, -, k3⟩ := iterate_above s ⟨x0, x1⟩ sx 9
  rw [← iterate_code c0 dt d hd] at k1 k3
  set k := (fun k => k - newtonStep (fun _ => d) (halfCells (fun _ => d) 0 0) (halfStep c0 dt) k)^[9+1]
    (testFrequency dt / c0) with hk
  have kp : 0 < k := by
    by_contra h
    have : 1 / 2 * d * k ≤ 0 := mul_nonpos_of_nonneg_of_nonpos (by positivity) (not_lt.1 h)
    linarith
  have v : phaseVelocity c0 dt (fun _ => d) 0 0 = testFrequency dt / k := rfl
  refine ⟨by rw [v]; positivity, k, kp, v, ?_⟩
  unfold dispersion
  have kx : kinc 0 0 .x = 0 := by simp [kinc, rad]
  have ky : kinc 0 0 .y = 0 := by simp [kinc, rad]
  have kz : kinc 0 0 .z = 1 := by simp [kinc, rad]
  rw [kx, ky, kz, e]
  simp only [mul_zero, zero_mul, sin_zero, zero_div, ne_eq, OfNat.ofNat_ne_zero, not_false_eq_true, zero_pow, zero_add,
    mul_one, sub_nonneg]
  rw [div_pow (sin (1 / 2 * d * k)), le_div_iff₀ (by positivity), ← mul_pow]
  refine le_trans (le_of_eq ?_) k3
  rw [hs]; unfold halfStep; rw [e]

/-- The auxiliary grid's coefficients along an axis for such Courant numbers. -/
theorem rel_axis_one (c0 dt d : ℝ) (hc : 0 < c0) (hdt : 0 < dt) (hd : 0 < d) (hcn : d ≤ 7 / 2 * (c0 * dt))
    (theta phi : ℝ) {a : Axis} {σ : ℤ} (hσ : σ = 1 ∨ σ = -1) (hk : kinc theta phi a = σ) :
    relPhaseVelocity c0 dt (fun _ => d) theta phi = 1 :=
  rel_axis c0 dt d theta phi hσ hk (velocity_found c0 dt d hc hdt hd hcn).1.ne'

/-- The bounds are met at the Courant limit of a cubic mesh, and the other theorem's at a tenth of it. -/
example : (1 : ℝ) ≤ 7 / 2 * (1 * (1 / 2)) := by norm_num
example : (1 : ℝ) / 20 * (1 * sqrt 3) ≤ 3 / 20 * 1 := by
  have : sqrt 3 ≤ 2 := by rw [sqrt_le_left (by norm_num)]; norm_num
  linarith

end Vulture.C31
