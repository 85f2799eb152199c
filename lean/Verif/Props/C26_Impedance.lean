import Mathlib.Tactic.IntervalCases
import Verif.Model.SibcData
import Verif.Spec.Sheet
import Mathlib.Tactic.LinearCombination
import Mathlib.Tactic.FieldSimp
import Mathlib.Tactic.FinCases
import Mathlib.Tactic.NormNum
import Mathlib.LinearAlgebra.Matrix.NonsingularInverse
/- C26: scattering data to impedance matrix, and the passivity check. -/
set_option linter.unusedSimpArgs false
namespace Vulture.C26
open Vulture Spec SibcData Matrix

theorem mv (S : M2) (a : Fin 2 → ℝ) : S *ᵥ a = ![S 0 0 * a 0 + S 0 1 * a 1, S 1 0 * a 0 + S 1 1 * a 1] := by
  ext i; fin_cases i <;> simp [Matrix.mulVec, dotProduct, Fin.sum_univ_two]

theorem dp (a b : Fin 2 → ℝ) : a ⬝ᵥ b = a 0 * b 0 + a 1 * b 1 := by simp [dotProduct, Fin.sum_univ_two]

/-- **C26**, impedance: whenever the conversion is defined it yields the impedance matrix of the same
sheet. -/
theorem impedance_matches (eta0 : ℝ) (he : eta0 ≠ 0) (S : M2) (hd : deltaS S ≠ 0) :
    Represents eta0 S (tportS2Z eta0 S) := by
  have hd' : (1 - S 0 0) * (1 - S 1 1) - S 0 1 * S 1 0 ≠ 0 := hd
  intro a
  ext i
  fin_cases i <;>
  · simp [mv, tportS2Z, deltaS, Matrix.vecHead, Matrix.vecTail]
    generalize hD : (1 - S 0 0) * (1 - S 1 1) - S 0 1 * S 1 0 = D at *
    field_simp
    rw [← hD]
    ring

/-- The same as the matrix equation `Z (I - S) = eta0 (I + S)`. -/
theorem impedance_equation (eta0 : ℝ) (S : M2) (hd : deltaS S ≠ 0) :
    tportS2Z eta0 S * (1 - S) = eta0 • (1 + S) := by
  have hd' : (1 - S 0 0) * (1 - S 1 1) - S 0 1 * S 1 0 ≠ 0 := hd
  ext i j
  fin_cases i <;> fin_cases j <;>
  · simp [Matrix.mul_apply, Fin.sum_univ_two, tportS2Z, deltaS]
    generalize hD : (1 - S 0 0) * (1 - S 1 1) - S 0 1 * S 1 0 = D at *
    field_simp
    rw [← hD]
    ring

/-- The conversion is defined exactly when `I - S` is invertible. -/
theorem defined_iff (S : M2) : deltaS S ≠ 0 ↔ IsUnit (1 - S) := by
  rw [Matrix.isUnit_iff_isUnit_det, isUnit_iff_ne_zero, Matrix.det_fin_two]
  simp [deltaS]

/-- **C26**, energy: the impedance matrix dissipates, for every current, exactly when the scattering matrix is
passive. -/
theorem dissipative_iff (eta0 : ℝ) (he : 0 < eta0) (S : M2) (hd : deltaS S ≠ 0) :
    (∀ i : Fin 2 → ℝ, 0 ≤ i ⬝ᵥ (tportS2Z eta0 S *ᵥ i)) ↔ Passive S := by
  have hr := impedance_matches eta0 he.ne' S hd
  have key : ∀ a : Fin 2 → ℝ, ((1 / eta0) • (a - S *ᵥ a)) ⬝ᵥ (tportS2Z eta0 S *ᵥ ((1 / eta0) • (a - S *ᵥ a))) =
      (1 / eta0) * (a ⬝ᵥ a - (S *ᵥ a) ⬝ᵥ (S *ᵥ a)) := by
    intro a
    rw [← hr a]
    simp only [dp, Pi.smul_apply, Pi.sub_apply, Pi.add_apply, smul_eq_mul]
    ring
  have hp : 0 < 1 / eta0 := by positivity
  constructor
  · intro h a
    have := h ((1 / eta0) • (a - S *ᵥ a))
    rw [key] at this
    have := nonneg_of_mul_nonneg_right this hp
    linarith
  · intro h i
    obtain ⟨a, ha⟩ : ∃ a : Fin 2 → ℝ, (1 / eta0) • (a - S *ᵥ a) = i := by
      refine ⟨![eta0 * ((1 - S 1 1) * i 0 + S 0 1 * i 1) / deltaS S, eta0 * (S 1 0 * i 0 + (1 - S 0 0) * i 1) / deltaS S], ?_⟩
      have hd' : (1 - S 0 0) * (1 - S 1 1) - S 0 1 * S 1 0 ≠ 0 := hd
      ext j
      fin_cases j <;>
      · simp [mv, deltaS, Matrix.vecHead, Matrix.vecTail]
        generalize hD : (1 - S 0 0) * (1 - S 1 1) - S 0 1 * S 1 0 = D at *
        field_simp
        rw [← hD]
        ring
    rw [← ha, key]
    exact mul_nonneg hp.le (by linarith [h a])

/-! ### The passivity check -/

/-- What the check does guarantee: a wave on one side only is not amplified. -/
theorem accepted_one_sided_partial (S : M2) (h : isPassiveS S) (x : ℝ) :
    (S *ᵥ ![x, 0]) ⬝ᵥ (S *ᵥ ![x, 0]) ≤ ![x, 0] ⬝ᵥ ![x, 0] ∧ (S *ᵥ ![0, x]) ⬝ᵥ (S *ᵥ ![0, x]) ≤ ![0, x] ⬝ᵥ ![0, x] := by
  obtain ⟨h1, _, _, h2⟩ := h
  simp only [mv, dp]
  constructor <;> simp <;> nlinarith [sq_nonneg x]

/-- The check is exact for sheets whose columns do not interfere, for instance sheets that only reflect or only
transmit. -/
theorem check_exact_uncoupled_partial (S : M2) (h0 : S 0 0 * S 0 1 = 0) (h1 : S 1 0 * S 1 1 = 0) :
    isPassiveS S ↔ Passive S := by
  constructor
  · rintro ⟨a1, _, _, a2⟩ a
    simp only [mv, dp]
    simp
    have e : (S 0 0 * a 0 + S 0 1 * a 1) * (S 0 0 * a 0 + S 0 1 * a 1) + (S 1 0 * a 0 + S 1 1 * a 1) * (S 1 0 * a 0 + S 1 1 * a 1) =
        (S 0 0 * S 0 0 + S 1 0 * S 1 0) * a 0 ^ 2 + (S 0 1 * S 0 1 + S 1 1 * S 1 1) * a 1 ^ 2 := by
      linear_combination 2 * a 0 * a 1 * h0 + 2 * a 0 * a 1 * h1
    rw [e]
    nlinarith [mul_nonneg a1 (sq_nonneg (a 0)), mul_nonneg a2 (sq_nonneg (a 1))]
  · intro h
    have e0 := h ![1, 0]
    have e1 := h ![0, 1]
    simp only [mv, dp] at e0 e1
    simp at e0 e1
    refine ⟨by linarith, by linarith, by linarith, by linarith⟩

/-- **C26**, finding: the check accepts an active sheet — even a symmetric reciprocal one — whose impedance matrix
then supplies power. -/
theorem active_accepted (eta0 : ℝ) (he : 0 < eta0) :
    ∃ S : M2, isPassiveS S ∧ S 0 0 = S 1 1 ∧ S 0 1 = S 1 0 ∧ ¬ Passive S ∧ deltaS S ≠ 0 ∧
      ∃ i : Fin 2 → ℝ, i ⬝ᵥ (tportS2Z eta0 S *ᵥ i) < 0 := by
  have hp : ¬ Passive (!![7/10, 7/10; 7/10, 7/10] : M2) := by
    intro h
    have := h ![1, 1]
    simp only [mv, dp] at this
    norm_num at this
  have hd : deltaS (!![7/10, 7/10; 7/10, 7/10] : M2) ≠ 0 := by simp [deltaS]; norm_num
  refine ⟨!![7/10, 7/10; 7/10, 7/10], ?_, by simp, by simp, hp, hd, ?_⟩
  · simp [isPassiveS]; norm_num
  · by_contra hc
    push Not at hc
    exact hp ((dissipative_iff eta0 he _ hd).1 hc)

/-- **C26**, finding: the check rejects a passive sheet. -/
theorem passive_rejected : ∃ S : M2, Passive S ∧ ¬ isPassiveS S := by
  refine ⟨!![1/2, -1/2; 0, 0], ?_, ?_⟩
  · intro a
    simp only [mv, dp]
    simp
    nlinarith [sq_nonneg (a 0 + a 1)]
  · rintro ⟨_, h, _, _⟩
    norm_num at h

/-- **C26**, finding: a perfectly reflecting magnetic side passes the check but has no impedance matrix; the
conversion divides by zero. -/
theorem singular_accepted : ∃ S : M2, isPassiveS S ∧ Passive S ∧ deltaS S = 0 := by
  refine ⟨!![1, 0; 0, 1], ?_, ?_, ?_⟩
  · simp [isPassiveS]
  · intro a; simp only [mv, dp]; simp
  · simp [deltaS]

/-! ### The stored boundary -/

open Classical in
/-- **C26**, storage: scattering data that pass give, for each polarisation, the impedance of that polarisation's
data in its own block and no cross coupling. -/
theorem stored_blocks (eta0 : ℝ) (he : eta0 ≠ 0) (STM STE : M2) (hM : deltaS STM ≠ 0) (hE : deltaS STE ≠ 0) (Z : M4)
    (h : initFromS eta0 STM STE = some Z) :
    Represents eta0 STM (Z.submatrix (blockIdx 0) (blockIdx 0)) ∧
    Represents eta0 STE (Z.submatrix (blockIdx 1) (blockIdx 1)) ∧
    Z.submatrix (blockIdx 0) (blockIdx 1) = 0 ∧ Z.submatrix (blockIdx 1) (blockIdx 0) = 0 := by
  unfold initFromS at h
  split at h
  · cases h
  · simp only [Option.some.injEq] at h
    have b00 : Z.submatrix (blockIdx 0) (blockIdx 0) = tportS2Z eta0 STM := by
      rw [← h]; ext i j; fin_cases i <;> fin_cases j <;> simp [blockIdx]
    have b11 : Z.submatrix (blockIdx 1) (blockIdx 1) = tportS2Z eta0 STE := by
      rw [← h]; ext i j; fin_cases i <;> fin_cases j <;> simp [blockIdx]
    refine ⟨?_, ?_, ?_, ?_⟩
    · rw [b00]; exact impedance_matches eta0 he STM hM
    · rw [b11]; exact impedance_matches eta0 he STE hE
    · rw [← h]; ext i j; fin_cases i <;> fin_cases j <;> simp [blockIdx]
    · rw [← h]; ext i j; fin_cases i <;> fin_cases j <;> simp [blockIdx]

/-- The numbers of a card are read row by row, first the TM then the TE parameters; four numbers are used for both;
any other count is no scattering data. -/
theorem parameters_read (l : List ℝ) :
    (∀ A B : M2, parseS l = some (A, B) ↔
      l = [A 0 0, A 0 1, A 1 0, A 1 1, B 0 0, B 0 1, B 1 0, B 1 1] ∨
      A = B ∧ l = [A 0 0, A 0 1, A 1 0, A 1 1]) ∧
    (parseS l = none ↔ l.length ≠ 8 ∧ l.length ≠ 4) := by
  have hm : ∀ (A : M2), A = !![A 0 0, A 0 1; A 1 0, A 1 1] := fun A => by
    ext i j; fin_cases i <;> fin_cases j <;> rfl
  constructor
  · intro A B
    constructor
    · intro h
      unfold parseS at h
      split at h
      · simp only [Option.some.injEq, Prod.mk.injEq] at h
        obtain ⟨rfl, rfl⟩ := h
        left; simp
      · simp only [Option.some.injEq, Prod.mk.injEq] at h
        obtain ⟨rfl, rfl⟩ := h
        right; simp
      · cases h
    · rintro (rfl | ⟨rfl, rfl⟩)
      · simp only [parseS]; rw [← hm A, ← hm B]
      · simp only [parseS]; rw [← hm A]
  · unfold parseS
    split
    · simp
    · simp
    · rename_i h8 h4
      simp only [true_iff]
      constructor
      · intro hl
        match l, hl with
        | [a, b, c, d, e, f, g, h], _ => exact h8 _ _ _ _ _ _ _ _ rfl
      · intro hl
        match l, hl with
        | [a, b, c, d], _ => exact h4 _ _ _ _ rfl

/-- A two-port file is used for both polarisations and couples neither to the other. -/
theorem two_port_file (pr : Nat → Nat → PoleResidue) (I J i j : Nat) (hI : I < 2) (hJ : J < 2) (hi : i < 2)
    (hj : j < 2) : isotropic pr (2 * I + i) (2 * J + j) = if I = J then pr i j else ⟨0, []⟩ := by
  unfold isotropic
  interval_cases I <;> interval_cases J <;> interval_cases i <;> interval_cases j <;> simp

/-- The default data of a card (a perfect conductor on both sides) are stored as zero impedance. -/
theorem pec_default (eta0 : ℝ) : tportS2Z eta0 !![-1, 0; 0, -1] = 0 := by
  ext i j; fin_cases i <;> fin_cases j <;> simp [tportS2Z]

/-- A half-transmitting resistive sheet meets the hypotheses: it passes the check, is passive and has an impedance
matrix. -/
example : isPassiveS (!![-1/2, 1/2; 1/2, -1/2] : M2) ∧ Passive (!![-1/2, 1/2; 1/2, -1/2] : M2) ∧
    deltaS (!![-1/2, 1/2; 1/2, -1/2] : M2) ≠ 0 := by
  refine ⟨?_, ?_, ?_⟩
  · simp [isPassiveS]; norm_num
  · intro a; simp only [mv, dp]; simp; nlinarith [sq_nonneg (a 0 + a 1)]
  · simp [deltaS]; norm_num

end Vulture.C26
