import Verif.Model.Waveform
import Verif.Spec.Pulse
import Mathlib.Analysis.SpecialFunctions.Trigonometric.Deriv
import Mathlib.Analysis.SpecialFunctions.ExpDeriv
import Mathlib.Tactic.FieldSimp
import Mathlib.Tactic.LinearCombination
/- C28: the built-in waveforms. -/
set_option linter.unusedSimpArgs false
namespace Vulture.C28
open Vulture Waveform Spec Real Set

/-- Derivatives on closed pieces. -/
theorem piece {f : ℝ → ℝ} {d t : ℝ} {A : Set ℝ} (hA : IsClosed A) (h : t ∈ A → HasDerivWithinAt f d A t) :
    HasDerivWithinAt f d A t := by
  by_cases ht : t ∈ A
  · exact h ht
  · exact HasFDerivWithinAt.of_notMem_closure (by rwa [hA.closure_eq])

/-! ### Compact pulse -/

theorem compactPoly_eq (t w : ℝ) : compactPoly t w = sin (π * t / (2 * w)) ^ 6 := by
  have e0 : π / w * t = 2 * (π * t / (2 * w)) := by
    rw [mul_div_assoc', mul_div_mul_left _ _ two_ne_zero, div_mul_eq_mul_div]
  have e1 : 2 * π / w * t = 2 * (π / w * t) := by ring
  have e2 : 3 * π / w * t = 3 * (π / w * t) := by ring
  unfold compactPoly
  rw [e1, e2, cos_three_mul, cos_two_mul, e0, cos_two_mul]
  have h : sin (π * t / (2 * w)) ^ 6 = (1 - cos (π * t / (2 * w)) ^ 2) ^ 3 := by rw [← sin_sq]; ring
  rw [h]
  ring

/-- **C28** the compact pulse is the sixth power of a half sine wave. -/
theorem compact_eq (t w : ℝ) : compactPulse t w = sin6 w t := by
  unfold compactPulse sin6
  rw [compactPoly_eq]
  by_cases h1 : t ≤ 0
  · rw [if_pos h1, if_neg (fun h => absurd h.1 (not_lt.2 h1))]
  · rw [if_neg h1]
    exact if_congr ⟨fun h => ⟨not_le.1 h1, h⟩, fun h => h.2⟩ rfl rfl

theorem sin_pow_six (x : ℝ) : 0 ≤ sin x ^ 6 ∧ sin x ^ 6 ≤ 1 := by
  have h1 : sin x ^ 6 = (sin x ^ 2) ^ 3 := by ring
  rw [h1]
  exact ⟨by positivity, pow_le_one₀ (sq_nonneg _) (sin_sq_le_one x)⟩

/-- **C28** range. -/
theorem compact_range (t w : ℝ) : 0 ≤ compactPulse t w ∧ compactPulse t w ≤ 1 := by
  rw [compact_eq]
  unfold sin6
  split
  · exact sin_pow_six _
  · exact ⟨le_refl _, zero_le_one⟩

/-- **C28** support. -/
theorem compact_support (t w : ℝ) (hw : 0 < w) : compactPulse t w ≠ 0 ↔ 0 < t ∧ t < 2 * w := by
  rw [compact_eq]
  unfold sin6
  constructor
  · intro h
    by_contra hn
    exact h (if_neg hn)
  · intro h
    rw [if_pos h]
    have : 0 < sin (π * t / (2 * w)) := by
      apply sin_pos_of_pos_of_lt_pi
      · have := pi_pos; have := h.1; positivity
      · rw [div_lt_iff₀ (by linarith)]
        exact mul_lt_mul_of_pos_left h.2 pi_pos
    positivity

/-- **C28** the peak is one, attained at the width and nowhere else. -/
theorem compact_peak (t w : ℝ) (hw : 0 < w) : compactPulse t w = 1 ↔ t = w := by
  rw [compact_eq]
  unfold sin6
  constructor
  · intro h
    split at h
    · rename_i ht
      have hpos : 0 < sin (π * t / (2 * w)) := by
        apply sin_pos_of_pos_of_lt_pi
        · have := pi_pos; have := ht.1; positivity
        · rw [div_lt_iff₀ (by linarith)]
          exact mul_lt_mul_of_pos_left ht.2 pi_pos
      have h1 : sin (π * t / (2 * w)) = 1 := by
        have := (pow_eq_one_iff_of_nonneg hpos.le (by norm_num : (6 : ℕ) ≠ 0)).1 h
        exact this
      have h2 : cos (π * t / (2 * w)) = 0 := by
        have := sin_sq_add_cos_sq (π * t / (2 * w))
        rw [h1] at this
        have : cos (π * t / (2 * w)) ^ 2 = 0 := by linarith
        exact pow_eq_zero_iff two_ne_zero |>.1 this
      have h3 : π * t / (2 * w) = π / 2 := by
        apply injOn_cos
        · constructor
          · have := pi_pos; have := ht.1; positivity
          · rw [div_le_iff₀ (by linarith)]
            exact (mul_lt_mul_of_pos_left ht.2 pi_pos).le
        · constructor <;> linarith [pi_pos]
        · rw [h2, cos_pi_div_two]
      have hp := pi_ne_zero
      field_simp at h3
      linarith
    · norm_num at h
  · rintro rfl
    rw [if_pos ⟨hw, by linarith⟩]
    have : π * t / (2 * t) = π / 2 := by field_simp
    rw [this, sin_pi_div_two]; norm_num

/-- Derivative of the sine power. -/
theorem hasDerivAt_sin6 (t w : ℝ) : HasDerivAt (fun t => sin (π * t / (2 * w)) ^ 6)
    (π / w * (1 / 32 * (15 * sin (π / w * t) - 12 * sin (2 * π / w * t) + 3 * sin (3 * π / w * t)))) t := by
  have h : HasDerivAt (fun t => compactPoly t w)
      (π / w * (1 / 32 * (15 * sin (π / w * t) - 12 * sin (2 * π / w * t) + 3 * sin (3 * π / w * t)))) t := by
    have c : ∀ k : ℝ, HasDerivAt (fun t => cos (k * t)) (-sin (k * t) * (k * 1)) t := fun k =>
      ((hasDerivAt_id t).const_mul k).cos
    have := ((((c (π / w)).const_mul 15).const_sub 10).add ((c (2 * π / w)).const_mul 6)).sub (c (3 * π / w)) |>.const_mul (1 / 32)
    refine this.congr_deriv ?_
    ring
  have e : (fun t => sin (π * t / (2 * w)) ^ 6) = fun t => compactPoly t w := by
    funext t; rw [compactPoly_eq]
  rw [e]; exact h

/-- **C28** the compact pulse is differentiable everywhere and its derivative is the differentiated pulse times
`π/w` (the manual announces the derivative times `w`: the code's waveform is smaller by the factor `π`). -/
theorem compact_deriv (t w : ℝ) (hw : 0 < w) :
    HasDerivAt (fun t => compactPulse t w) (π / w * differentiatedCompactPulse t w) t := by
  have u : (univ : Set ℝ) = Iic 0 ∪ Icc 0 (2 * w) ∪ Ici (2 * w) := by
    ext x
    simp only [mem_univ, mem_union, mem_Iic, mem_Icc, mem_Ici, true_iff]
    rcases le_total x 0 with h | h
    · exact Or.inl (Or.inl h)
    · rcases le_total x (2 * w) with h' | h'
      · exact Or.inl (Or.inr ⟨h, h'⟩)
      · exact Or.inr h'
  have z0 : sin (π * 0 / (2 * w)) ^ 6 = 0 := by simp
  have z1 : sin (π * (2 * w) / (2 * w)) ^ 6 = 0 := by
    rw [mul_div_assoc, div_self (by linarith), mul_one, sin_pi]; norm_num
  have on : ∀ x ∈ Icc 0 (2 * w), compactPulse x w = sin (π * x / (2 * w)) ^ 6 := by
    intro x hx
    rw [compact_eq]
    unfold sin6
    split
    · rfl
    · rename_i hn
      rcases hx.1.eq_or_lt with h | h
      · rw [← h, z0]
      · rcases hx.2.eq_or_lt with h' | h'
        · rw [h', z1]
        · exact absurd ⟨h, h'⟩ hn
  have lo : ∀ x ∈ Iic (0 : ℝ), compactPulse x w = 0 := fun x hx => if_pos hx
  have hi : ∀ x ∈ Ici (2 * w), compactPulse x w = 0 := by
    intro x hx
    have hx : 2 * w ≤ x := hx
    unfold compactPulse
    rw [if_neg (by linarith), if_neg (by linarith)]
  have d0 : t ≤ 0 → differentiatedCompactPulse t w = 0 := fun h => if_pos h
  have d2 : 2 * w ≤ t → differentiatedCompactPulse t w = 0 := fun h => by
    unfold differentiatedCompactPulse
    rw [if_neg (by linarith), if_neg (by linarith)]
  rw [← hasDerivWithinAt_univ, u]
  refine HasDerivWithinAt.union (HasDerivWithinAt.union (piece isClosed_Iic fun ht => ?_)
    (piece isClosed_Icc fun ht => ?_)) (piece isClosed_Ici fun ht => ?_)
  · rw [d0 ht, mul_zero]
    exact (hasDerivWithinAt_const t _ 0).congr_of_mem lo ht
  · have key : differentiatedCompactPulse t w =
        1 / 32 * (15 * sin (π / w * t) - 12 * sin (2 * π / w * t) + 3 * sin (3 * π / w * t)) := by
      rcases ht.1.eq_or_lt with h | h
      · rw [d0 (by rw [← h]), ← h]; simp
      · rcases ht.2.eq_or_lt with h' | h'
        · rw [d2 (by rw [h']), h']
          have e1 : π / w * (2 * w) = 2 * π := by field_simp
          have e2 : 2 * π / w * (2 * w) = 2 * π + 2 * π := by field_simp; ring
          have e3 : 3 * π / w * (2 * w) = 2 * π + 2 * π + 2 * π := by field_simp; ring
          rw [e1, e2, e3, sin_add_two_pi, sin_add_two_pi, sin_add_two_pi, sin_two_pi]
          norm_num
        · unfold differentiatedCompactPulse
          rw [if_neg (by linarith), if_pos h']
    rw [key]
    exact (hasDerivAt_sin6 t w).hasDerivWithinAt.congr_of_mem on ht
  · rw [d2 ht, mul_zero]
    exact (hasDerivWithinAt_const t _ 0).congr_of_mem hi ht

theorem compact_continuous (w : ℝ) (hw : 0 < w) : Continuous fun t => compactPulse t w :=
  continuous_iff_continuousAt.2 fun t => (compact_deriv t w hw).continuousAt

/-! ### Gaussian pulses -/

theorem gaussian_eq (t w : ℝ) : gaussianPulse t w = bell w t := by
  unfold gaussianPulse bell
  congr 1
  rw [div_pow, ← neg_mul_eq_neg_mul, div_mul_div_comm, one_mul, neg_div]

/-- **C28** range and peak. -/
theorem gaussian_range (t w : ℝ) : 0 < gaussianPulse t w ∧ gaussianPulse t w ≤ 1 := by
  refine ⟨exp_pos _, ?_⟩
  unfold gaussianPulse
  rw [exp_le_one_iff]
  nlinarith [sq_nonneg (t / w)]

theorem gaussian_peak (t w : ℝ) (hw : 0 < w) : gaussianPulse t w = 1 ↔ t = 0 := by
  unfold gaussianPulse
  rw [exp_eq_one_iff]
  constructor
  · intro h
    have : (t / w) ^ 2 = 0 := by linarith
    have := pow_eq_zero_iff two_ne_zero |>.1 this
    rcases div_eq_zero_iff.1 this with h | h
    · exact h
    · linarith
  · rintro rfl; simp

theorem hasDerivAt_gaussian (t w : ℝ) (hw : w ≠ 0) : HasDerivAt (fun t => gaussianPulse t w)
    (differentiatedGaussianPulse t w / w) t := by
  have h1 : HasDerivAt (fun t => -(1 / 2) * (t / w) ^ 2) (-(1 / 2) * (2 * (t / w) ^ 1 * (1 / w))) t :=
    (((hasDerivAt_id t).div_const w).pow 2).const_mul _
  refine h1.exp.congr_deriv ?_
  unfold differentiatedGaussianPulse
  field_simp

/-- **C28** the differentiated pulse is the derivative times the width. -/
theorem diff_gaussian (t w : ℝ) (hw : w ≠ 0) : differentiatedGaussianPulse t w = w * deriv (fun t => gaussianPulse t w) t := by
  rw [(hasDerivAt_gaussian t w hw).deriv]
  field_simp

/-- **C28** the Ricker wavelet is minus the second derivative times the squared width (the manual has the plus sign). -/
theorem ricker (t w : ℝ) (hw : w ≠ 0) :
    rickerWavelet t w = -(w ^ 2 * deriv (deriv fun t => gaussianPulse t w) t) := by
  have e : deriv (fun t => gaussianPulse t w) = fun t => differentiatedGaussianPulse t w / w := by
    funext x; exact (hasDerivAt_gaussian x w hw).deriv
  have h1 : HasDerivAt (fun t : ℝ => -t / w) (-1 / w) t := (hasDerivAt_id t).neg.div_const w
  have h2 : HasDerivAt (fun t => exp (-(1 / 2) * (t / w) ^ 2)) (differentiatedGaussianPulse t w / w) t :=
    hasDerivAt_gaussian t w hw
  have h3 : HasDerivAt (fun t => differentiatedGaussianPulse t w / w)
      ((-1 / w * exp (-(1 / 2) * (t / w) ^ 2) + -t / w * (differentiatedGaussianPulse t w / w)) / w) t :=
    (h1.mul h2).div_const w
  rw [e, h3.deriv]
  unfold rickerWavelet differentiatedGaussianPulse
  field_simp
  ring

/-! ### Sinusoids -/

theorem abs_tone (f t : ℝ) : |tone f t| ≤ 1 := abs_sin_le_one _

/-- **C28** modulated pulses are the pulse times the tone. -/
theorem mod_gaussian (t w f : ℝ) : modulatedGaussianPulse t w f = bell w t * tone f t := by
  rw [← gaussian_eq]; rfl
theorem mod_compact (t w f : ℝ) : modulatedCompactPulse t w f = sin6 w t * tone f t := by
  rw [← compact_eq]; rfl

/-- **C28** after the ramp the ramped sinusoid is the tone; before, it is the tone times the rising half of the
compact pulse. -/
theorem ramped_eq (t w f : ℝ) (hw : 0 < w) : rampedSinusoid t w f = (if t ≤ w then sin6 w t else 1) * tone f t := by
  unfold rampedSinusoid tone
  congr 1
  rw [one_mul]
  by_cases h1 : t ≤ 0
  · rw [if_pos h1, if_pos (h1.trans hw.le)]
    unfold sin6
    rw [if_neg (fun h => absurd h.1 (not_lt.2 h1))]
  · rw [if_neg h1]
    push Not at h1
    rcases lt_trichotomy t w with h | h | h
    · rw [if_pos h, if_pos h.le, compactPoly_eq]
      unfold sin6
      rw [if_pos ⟨h1, by linarith⟩]
    · rw [if_neg (by linarith), if_pos h.le, ← compact_eq, (compact_peak t w hw).2 h]
    · rw [if_neg (by linarith), if_neg (by linarith)]

theorem ramped_bound (t w f : ℝ) (hw : 0 < w) : |rampedSinusoid t w f| ≤ 1 := by
  rw [ramped_eq t w f hw, abs_mul]
  have h : |if t ≤ w then sin6 w t else 1| ≤ 1 := by
    split
    · rw [← compact_eq, abs_of_nonneg (compact_range t w).1]; exact (compact_range t w).2
    · simp
  calc _ ≤ 1 * 1 := mul_le_mul h (abs_tone f t) (abs_nonneg _) zero_le_one
    _ = 1 := one_mul 1

theorem ramped_after (t w f : ℝ) (hw : 0 < w) (ht : w ≤ t) : rampedSinusoid t w f = tone f t := by
  rw [ramped_eq t w f hw]
  rcases ht.eq_or_lt with rfl | h
  · rw [if_pos le_rfl, ← compact_eq, (compact_peak _ _ hw).2 rfl, one_mul]
  · rw [if_neg (by linarith), one_mul]

theorem ramped_continuous (w f : ℝ) (hw : 0 < w) : Continuous fun t => rampedSinusoid t w f := by
  have e : (fun t => rampedSinusoid t w f) = fun t => (if t ≤ w then compactPulse t w else 1) * tone f t := by
    funext t; rw [ramped_eq t w f hw, compact_eq]
  rw [e]
  refine Continuous.mul (Continuous.if_le (compact_continuous w hw) continuous_const continuous_id continuous_const ?_) ?_
  · intro x hx
    exact (compact_peak x w hw).2 hx
  · unfold tone; fun_prop

/-! ### Waveforms of a card -/

/-- **C28** size scales and both delays shift the shape. -/
theorem value_eq (w : Wf) (t delay : ℝ) :
    value w t delay = w.size * shape w.type w.width w.frequency (t - (delay + w.delay)) := by
  unfold value; rw [sub_sub]

/-- What a valid card leaves in the waveform: the numbers given, defaults for the missing ones. -/
theorem init_valid {t : WType} (ht : t ≠ .external) {vals : List ℝ} {w : Wf} (h : parseWF t vals = some w) {dt : ℝ}
    (hdt : 0 < dt) :
    0 ≤ (initWaveform dt w).size ∧ 0 < (initWaveform dt w).width ∧ 0 ≤ (initWaveform dt w).delay ∧
    (∀ s, vals[0]? = some s → (initWaveform dt w).size = s) ∧ (vals[0]? = none → (initWaveform dt w).size = 1) ∧
    (∀ d, vals[1]? = some d → 0 ≤ d → (initWaveform dt w).delay = d) ∧
    (∀ v, vals[2]? = some v → (initWaveform dt w).width = v) ∧
    (initWaveform dt w).type = t := by
  unfold parseWF at h
  split at h
  · cases h
  rename_i hn
  push Not at hn
  obtain ⟨h1, h2, h3⟩ := hn
  cases h
  have s2 : (0 : ℝ) < √2 := by positivity
  have key : ∀ v d, 0 ≤ d → 0 ≤ dflt v d := by
    intro v d hd; unfold dflt; split <;> linarith
  have pos : ∀ d, 0 < d → 0 < dflt (vals[2]?.getD (-1)) d := by
    intro d hd; unfold dflt
    cases hv : vals[2]? with
    | none => simp [hd]
    | some v =>
      have := h2 v hv
      simp only [Option.getD_some]
      split <;> linarith
  have eqs : ∀ d s, vals[0]? = some s → dflt (vals[0]?.getD (-1)) d = s := by
    intro d s hs
    have := h1 s hs
    rw [hs]; unfold dflt; simp only [Option.getD_some]; rw [if_neg (by linarith)]
  have eqw : ∀ d s, vals[2]? = some s → dflt (vals[2]?.getD (-1)) d = s := by
    intro d s hs
    have := h2 s hs
    rw [hs]; unfold dflt; simp only [Option.getD_some]; rw [if_neg (by linarith)]
  have eqd : ∀ d s, vals[1]? = some s → 0 ≤ s → dflt (vals[1]?.getD (-1)) d = s := by
    intro d s hs h0
    rw [hs]; unfold dflt; simp only [Option.getD_some]; rw [if_neg (by linarith)]
  have non : vals[0]? = none → dflt (vals[0]?.getD (-1)) 1 = 1 := by
    intro h; rw [h]; unfold dflt; simp
  cases t <;> first
    | exact absurd rfl ht
    | exact ⟨key _ _ (by norm_num), pos _ (by positivity), key _ _ (by positivity), eqs _, non, eqd _, eqw _, rfl⟩

/-- **C28** for cards: no built-in waveform of these types ever exceeds its size. -/
theorem value_bound {t : WType} (ht : t = .gaussian ∨ t = .narrowGaussian ∨ t = .modGaussian ∨ t = .compact ∨ t = .modCompact ∨ t = .ramped)
    {vals : List ℝ} {w : Wf} (h : parseWF t vals = some w) {dt : ℝ} (hdt : 0 < dt) (time delay : ℝ) :
    |value (initWaveform dt w) time delay| ≤ (initWaveform dt w).size := by
  have hne : t ≠ .external := by rintro rfl; simp at ht
  obtain ⟨h1, h2, -, -, -, -, -, h3⟩ := init_valid hne h hdt
  generalize initWaveform dt w = v at *
  unfold value
  rw [abs_mul, abs_of_nonneg h1]
  have : |shape v.type v.width v.frequency (time - delay - v.delay)| ≤ 1 := by
    generalize time - delay - v.delay = x
    have g : |gaussianPulse x v.width| ≤ 1 := by
      rw [abs_of_nonneg (gaussian_range x v.width).1.le]; exact (gaussian_range x v.width).2
    have c : |compactPulse x v.width| ≤ 1 := by
      rw [abs_of_nonneg (compact_range x v.width).1]; exact (compact_range x v.width).2
    rw [h3]
    rcases ht with rfl | rfl | rfl | rfl | rfl | rfl
    · exact g
    · exact g
    · change |modulatedGaussianPulse x v.width v.frequency| ≤ 1
      rw [mod_gaussian, abs_mul, ← gaussian_eq]
      calc _ ≤ 1 * 1 := mul_le_mul g (abs_tone _ _) (abs_nonneg _) zero_le_one
        _ = 1 := one_mul 1
    · exact c
    · change |modulatedCompactPulse x v.width v.frequency| ≤ 1
      rw [mod_compact, abs_mul, ← compact_eq]
      calc _ ≤ 1 * 1 := mul_le_mul c (abs_tone _ _) (abs_nonneg _) zero_le_one
        _ = 1 := one_mul 1
    · exact ramped_bound _ _ _ h2
  calc _ ≤ v.size * 1 := mul_le_mul_of_nonneg_left this h1
    _ = v.size := mul_one _

/-- **C28** a compact pulse is silent before its delay and from two widths after it on. -/
theorem compact_silent {t : WType} (ht : t = .compact ∨ t = .modCompact ∨ t = .diffCompact) {vals : List ℝ} {w : Wf}
    (h : parseWF t vals = some w) {dt : ℝ} (hdt : 0 < dt) (time delay : ℝ)
    (hout : time - delay ≤ (initWaveform dt w).delay ∨
      (initWaveform dt w).delay + 2 * (initWaveform dt w).width ≤ time - delay) :
    value (initWaveform dt w) time delay = 0 := by
  have hne : t ≠ .external := by rintro rfl; simp at ht
  obtain ⟨h1, h2, -, -, -, -, -, h3⟩ := init_valid hne h hdt
  generalize initWaveform dt w = v at *
  unfold value
  have hx : time - delay - v.delay ≤ 0 ∨ 2 * v.width ≤ time - delay - v.delay := by
    rcases hout with h | h
    · left; linarith
    · right; linarith
  generalize time - delay - v.delay = x at *
  have hc : sin6 v.width x = 0 := by
    unfold sin6
    rw [if_neg]
    rintro ⟨a, b⟩
    rcases hx with h | h <;> linarith
  rw [h3]
  rcases ht with rfl | rfl | rfl
  · change v.size * compactPulse x v.width = 0
    rw [compact_eq, hc, mul_zero]
  · change v.size * modulatedCompactPulse x v.width v.frequency = 0
    rw [mod_compact, hc, zero_mul, mul_zero]
  · change v.size * differentiatedCompactPulse x v.width = 0
    unfold differentiatedCompactPulse
    rcases hx with h | h
    · rw [if_pos h, mul_zero]
    · rw [if_neg (by linarith), if_neg (by linarith), mul_zero]

/-- Finding: the default narrow Gaussian (width `8 dt`, delay `12 dt`; the manual says `2 dt`) is already at
`exp(-9/8)`, nearly a third of its peak, in the first step. -/
theorem narrow_gaussian_truncated (dt : ℝ) (hdt : 0 < dt) :
    ∃ w, parseWF .narrowGaussian [] = some w ∧ value (initWaveform dt w) 0 0 = exp (-(9 / 8)) := by
  refine ⟨⟨.narrowGaussian, -1, -1, -1, -1⟩, by simp [parseWF], ?_⟩
  simp only [initWaveform, value, shape, gaussianPulse, dflt]
  norm_num
  field_simp
  norm_num

/-- Finding: a negative delay on the card is announced as such but replaced by the default. -/
theorem negative_delay_replaced (dt d : ℝ) (hd : d < 0) :
    ∃ w, parseWF .gaussian [1, d] = some w ∧ (initWaveform dt w).delay = 40 * dt := by
  refine ⟨⟨.gaussian, 1, d, -1, -1⟩, by simp [parseWF], ?_⟩
  simp [initWaveform, dflt, hd]

/-- Non-vacuity: a card with all four numbers. -/
example : parseWF .ramped [2, 0, 3, 1] = some ⟨.ramped, 2, 0, 3, 1⟩ := by simp [parseWF]

end Vulture.C28
