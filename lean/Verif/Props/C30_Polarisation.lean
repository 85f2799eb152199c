import Verif.Model.PlaneWave
import Verif.Spec.Wave
import Mathlib.Analysis.SpecialFunctions.Trigonometric.Bounds
/-
C30. Plane wave polarisation and origin.
-/
namespace Vulture.C30
open Vulture.Spec Vulture.PlaneWave Real

/-- The electric part of the amplitude vector. -/
noncomputable def E0 (eta0 size theta phi eta : ℝ) : Axis → ℝ := fun a => finc eta0 size theta phi eta
  (match a with | .x => .ex | .y => .ey | .z => .ez)
/-- The magnetic part. -/
noncomputable def H0 (eta0 size theta phi eta : ℝ) : Axis → ℝ := fun a => finc eta0 size theta phi eta
  (match a with | .x => .hx | .y => .hy | .z => .hz)

/-- The wave vector is the unit vector of the two angles of the card. -/
theorem direction_of_angles (theta phi : ℝ) : kinc theta phi = direction theta phi := by
  have h : ∀ t, rad t = t * π / 180 := fun t => by unfold rad; ring
  funext a; cases a <;> simp only [kinc, direction, h]

theorem uniform_wave (eta0 size theta phi eta : ℝ) (h0 : 0 < eta0) (hs : 0 ≤ size) :
    UniformWave (kinc theta phi) (E0 eta0 size theta phi eta) (H0 eta0 size theta phi eta) eta0 size := by
  have a := sin_sq_add_cos_sq (rad theta)
  have b := sin_sq_add_cos_sq (rad phi)
  have c := sin_sq_add_cos_sq (rad eta)
  have hdE : dot (E0 eta0 size theta phi eta) (E0 eta0 size theta phi eta) = size ^ 2 := by
    simp only [dot, E0, finc]
    generalize sin (rad theta) = s at *; generalize cos (rad theta) = d at *
    generalize sin (rad phi) = t at *; generalize cos (rad phi) = e at *
    generalize sin (rad eta) = u at *; generalize cos (rad eta) = f at *
    linear_combination size ^ 2 * (u ^ 2 * d ^ 2 + f ^ 2) * b + size ^ 2 * u ^ 2 * a + size ^ 2 * c
  have hdH : dot (H0 eta0 size theta phi eta) (H0 eta0 size theta phi eta) = (size / eta0) ^ 2 := by
    simp only [dot, H0, finc]
    generalize sin (rad theta) = s at *; generalize cos (rad theta) = d at *
    generalize sin (rad phi) = t at *; generalize cos (rad phi) = e at *
    generalize sin (rad eta) = u at *; generalize cos (rad eta) = f at *
    linear_combination (size / eta0) ^ 2 * (f ^ 2 * d ^ 2 + u ^ 2) * b + (size / eta0) ^ 2 * f ^ 2 * a + (size / eta0) ^ 2 * c
  refine ⟨?_, ?_, ?_, ?_, ?_, ?_, ?_, ?_⟩
  · unfold norm3
    have : dot (kinc theta phi) (kinc theta phi) = 1 := by
      simp only [dot, kinc]; linear_combination sin (rad theta) ^ 2 * b + a
    rw [this, sqrt_one]
  · simp only [dot, kinc, E0, finc]
    linear_combination (-(size * sin (rad eta) * cos (rad theta) * sin (rad theta))) * b
  · simp only [dot, kinc, H0, finc]
    linear_combination (size / eta0 * cos (rad eta) * cos (rad theta) * sin (rad theta)) * b
  · simp only [dot, E0, H0, finc]
    generalize sin (rad theta) = s at *; generalize cos (rad theta) = d at *
    generalize sin (rad phi) = t at *; generalize cos (rad phi) = e at *
    generalize sin (rad eta) = u at *; generalize cos (rad eta) = f at *
    linear_combination size * (size / eta0) * f * u * (1 - d ^ 2) * b - size * (size / eta0) * f * u * a
  · have h2 : eta0 * (size / eta0) = size := by field_simp
    intro ax
    cases ax <;> simp only [cross, kinc, E0, H0, finc] <;> rw [← mul_assoc eta0 (size / eta0), h2] <;>
    generalize sin (rad theta) = s at * <;> generalize cos (rad theta) = d at * <;>
    generalize sin (rad phi) = t at * <;> generalize cos (rad phi) = e at * <;>
    generalize sin (rad eta) = u at * <;> generalize cos (rad eta) = f at *
    · linear_combination size * u * t * a
    · linear_combination -size * u * e * a
    · linear_combination -size * f * s * b
  · have h2 : size ^ 2 / eta0 = size * (size / eta0) := by ring
    intro ax
    cases ax <;> simp only [cross, kinc, E0, H0, finc] <;> rw [h2] <;> generalize size / eta0 = q <;>
    generalize sin (rad theta) = s at * <;> generalize cos (rad theta) = d at * <;>
    generalize sin (rad phi) = t at * <;> generalize cos (rad phi) = e at * <;>
    generalize sin (rad eta) = u at * <;> generalize cos (rad eta) = f at *
    · linear_combination size * q * s * e * c
    · linear_combination size * q * s * t * c
    · linear_combination size * q * d * (u ^ 2 + f ^ 2) * b + size * q * d * c
  · unfold norm3; rw [hdE, sqrt_sq hs]
  · unfold norm3; rw [hdH, sqrt_sq (div_nonneg hs h0.le)]

/-- The polarisation angle is measured from the direction `k × z`. -/
theorem polarisation_angle (eta0 size theta phi eta : ℝ) :
    dot (E0 eta0 size theta phi eta) (cross (kinc theta phi) zhat) = size * cos (eta * π / 180) * sin (theta * π / 180) ∧
    dot (E0 eta0 size theta phi eta) zhat = size * sin (eta * π / 180) * sin (theta * π / 180) := by
  have h : ∀ t, t * π / 180 = rad t := fun t => by unfold rad; ring
  have b := sin_sq_add_cos_sq (rad phi)
  simp only [h, dot, cross, kinc, zhat, E0, finc]
  constructor
  · linear_combination size * cos (rad eta) * sin (rad theta) * b
  · ring

private theorem sgn (t : ℝ) : (0 ≤ t → t ≤ 180 → 0 ≤ sin (rad t)) ∧ (180 ≤ t → t ≤ 360 → sin (rad t) ≤ 0) ∧
    (0 ≤ t → t ≤ 90 → 0 ≤ cos (rad t)) ∧ (90 ≤ t → t ≤ 270 → cos (rad t) ≤ 0) ∧
    (270 ≤ t → t ≤ 360 → 0 ≤ cos (rad t)) := by
  have hp := pi_pos
  unfold rad
  refine ⟨fun h h' => ?_, fun h h' => ?_, fun h h' => ?_, fun h h' => ?_, fun h h' => ?_⟩
  · exact sin_nonneg_of_nonneg_of_le_pi (by positivity) (by nlinarith)
  · have := sin_nonneg_of_nonneg_of_le_pi (x := π / 180 * t - π) (by nlinarith) (by nlinarith)
    rw [sin_sub_pi] at this; linarith
  · exact cos_nonneg_of_neg_pi_div_two_le_of_le (by nlinarith) (by nlinarith)
  · exact cos_nonpos_of_pi_div_two_le_of_le (by nlinarith) (by nlinarith)
  · have := cos_nonneg_of_neg_pi_div_two_le_of_le (x := π / 180 * t - 2 * π) (by nlinarith) (by nlinarith)
    rwa [cos_sub_two_pi] at this

/-- Every accepted card with an azimuth below 360 gets an origin, which is a corner of the box. -/
theorem origin_exists (theta phi eta : ℝ) (h : anglesOk theta phi eta) (hp : phi < 360) :
    ∃ o, originCorner theta phi = some o ∧ ∀ a, (o a).axis = a := by
  obtain ⟨h1, h2, _⟩ := h
  push Not at h1 h2
  unfold originCorner
  split_ifs <;> first
    | exact ⟨_, rfl, fun a => by cases a <;> rfl⟩
    | (exfalso; simp only [not_and, not_le, not_lt, ge_iff_le, gt_iff_lt] at *; grind)

/-- The corner component: low when the wave moves up the axis. -/
theorem corner_sign (theta phi eta : ℝ) (h : anglesOk theta phi eta) (o : Axis → Face)
    (ho : originCorner theta phi = some o) (a : Axis) :
    (o a = a.lo ∧ 0 ≤ kinc theta phi a) ∨ (o a = a.hi ∧ kinc theta phi a ≤ 0) := by
  obtain ⟨h1, h2, _⟩ := h
  push Not at h1 h2
  obtain ⟨st, -, ct, ct', -⟩ := sgn theta
  obtain ⟨sp, sp', cp, cp', cp''⟩ := sgn phi
  have hs := st h1.1 h1.2
  unfold originCorner at ho
  split_ifs at ho with g1 g2 g3 g4 g5 g6 g7 g8 g9 g10 <;>
    (rw [Option.some.injEq] at ho; subst ho) <;> cases a <;> simp only [corner, kinc, Axis.lo, Axis.hi, reduceCtorEq,
      false_and, true_and, or_false, false_or] <;>
    first
    | exact mul_nonneg hs (by first | exact sp (by grind) (by grind) | exact cp (by grind) (by grind) | exact cp'' (by grind) (by grind))
    | exact mul_nonpos_of_nonneg_of_nonpos hs (by first | exact sp' (by grind) (by grind) | exact cp' (by grind) (by grind))
    | exact ct (by grind) (by grind)
    | exact ct' (by grind) (by grind)

/-- The wave reaches the origin corner before any other point of the box: `lines` are the mesh lines (any increasing
positions), the box is in grid indices. -/
theorem reaches_origin_first (c : Cfg) (lines : Axis → ℤ → ℝ) (theta phi eta : ℝ) (h : anglesOk theta phi eta)
    (b : BBox) (q : Axis → ℤ) (hq : ijk0 theta phi b = some q) (r : Axis → ℝ)
    (hr : InClosedBox (nodeLocation c lines fun a => b a.lo) (nodeLocation c lines fun a => b a.hi) r) :
    NotAfter (kinc theta phi) (nodeLocation c lines q) r := by
  unfold ijk0 at hq
  obtain ⟨o, ho, rfl⟩ := Option.map_eq_some_iff.1 hq
  have key : ∀ a, kinc theta phi a * nodeLocation c lines (fun a => b (o a)) a ≤ kinc theta phi a * r a := by
    intro a
    rcases corner_sign theta phi eta h o ho a with ⟨e, g⟩ | ⟨e, g⟩
    · refine mul_le_mul_of_nonneg_left ?_ g
      have := (hr a).1; simpa only [nodeLocation, e] using this
    · refine mul_le_mul_of_nonpos_left ?_ g
      have := (hr a).2; simpa only [nodeLocation, e] using this
  unfold NotAfter dot
  linarith [key .x, key .y, key .z]

/-- The incident field at a point is the field at the origin, later by the travel time from the origin. -/
theorem travelling (F : ℝ) (k r r0 : Axis → ℝ) (v : ℝ) (g : ℝ → ℝ) (t : ℝ) :
    analytic F k r r0 v g t = analytic F k r0 r0 v g (t - dot k (fun a => r a - r0 a) / v) := by
  unfold analytic dot; simp

/-- Nothing is incident at a point of the box before the waveform starts at the origin: if the waveform is zero up to
time `t0` then so is the incident field everywhere in the box, for every component. -/
theorem causal_in_box (c : Cfg) (lines : Axis → ℤ → ℝ) (theta phi eta : ℝ) (h : anglesOk theta phi eta)
    (b : BBox) (q : Axis → ℤ) (hq : ijk0 theta phi b = some q) (r : Axis → ℝ)
    (hr : InClosedBox (nodeLocation c lines fun a => b a.lo) (nodeLocation c lines fun a => b a.hi) r)
    (F v : ℝ) (hv : 0 < v) (g : ℝ → ℝ) (t0 : ℝ) (hg : ∀ t ≤ t0, g t = 0) (t : ℝ) (ht : t ≤ t0) :
    analytic F (kinc theta phi) r (nodeLocation c lines q) v g t = 0 := by
  have := reaches_origin_first c lines theta phi eta h b q hq r hr
  unfold NotAfter dot at this
  unfold analytic
  dsimp only
  rw [hg _ ?_, mul_zero]
  refine (sub_le_self _ (div_nonneg ?_ hv.le)).trans ht
  linarith

/-- The electric and magnetic incident fields at one place and time form a uniform plane wave again, scaled by the
waveform. -/
theorem incident_pair (eta0 size theta phi eta : ℝ) (h0 : 0 < eta0) (hs : 0 ≤ size) (r r0 : Axis → ℝ) (v : ℝ)
    (g : ℝ → ℝ) (t : ℝ) (a : Axis) :
    cross (kinc theta phi) (fun b => analytic (E0 eta0 size theta phi eta b) (kinc theta phi) r r0 v g t) a =
      eta0 * analytic (H0 eta0 size theta phi eta a) (kinc theta phi) r r0 v g t := by
  have := (uniform_wave eta0 size theta phi eta h0 hs).right_handed a
  unfold analytic
  rw [← mul_assoc, ← this]
  cases a <;> simp only [cross] <;> ring

/-- An azimuth of exactly 360 degrees passes the card's checks and then has no origin: the run aborts. -/
theorem azimuth_360_accepted_then_aborts (theta eta : ℝ) (ht : 0 ≤ theta ∧ theta ≤ 180) (he : 0 ≤ eta ∧ eta < 360) :
    anglesOk theta 360 eta ∧ originCorner theta 360 = none := by
  refine ⟨⟨by push Not; exact ht, by norm_num, by push Not; exact he⟩, ?_⟩
  unfold originCorner
  split_ifs <;> first | rfl | (exfalso; grind)

/-- Each character of the mask switches the face in its position. -/
theorem mask_meaning (m : Face → Char) (act : Face → Bool) (h : decodeFaceMask m = some act) (f : Face) :
    (m f = '1' ∧ act f = true) ∨ (m f = '0' ∧ act f = false) := by
  unfold decodeFaceMask at h
  split_ifs at h with g
  rw [Option.some.injEq] at h
  subst h
  have := List.all_eq_true.1 g f (by cases f <;> decide)
  rw [Bool.or_eq_true, beq_iff_eq, beq_iff_eq] at this
  rcases this with e | e <;> simp [e]

/-- A mask with any other character is refused, and every mask of zeros and ones is accepted. -/
theorem mask_total (m : Face → Char) : (decodeFaceMask m).isSome ↔ ∀ f, m f = '0' ∨ m f = '1' := by
  unfold decodeFaceMask
  split_ifs with g
  · simp only [Option.isSome_some, true_iff]
    intro f
    have := List.all_eq_true.1 g f (by cases f <;> decide)
    simpa [Bool.or_eq_true, beq_iff_eq] using this
  · simp only [Option.isSome_none, Bool.false_eq_true, false_iff]
    intro h; apply g
    rw [List.all_eq_true]; intro f _
    simpa [Bool.or_eq_true, beq_iff_eq] using h f

/-- The manual's first row: along x, polarised along y. -/
example (eta0 : ℝ) : kinc 90 0 = (fun | .x => 1 | _ => 0) ∧ E0 eta0 1 90 0 180 = (fun | .y => 1 | _ => 0) := by
  have h1 : rad 90 = π / 2 := by unfold rad; ring
  have h2 : rad 0 = 0 := by unfold rad; ring
  have h3 : rad 180 = π := by unfold rad; ring
  constructor <;> funext a <;> cases a <;> simp [kinc, E0, finc, h1, h2, h3]

/-- A card that is accepted, with an origin away from the low corner. -/
example : anglesOk 120 200 30 ∧ originCorner 120 200 = some (corner .xhi .yhi .zhi) := by
  constructor
  · norm_num [anglesOk]
  · norm_num [originCorner]

end Vulture.C30
