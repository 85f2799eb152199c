import Verif.Model.Media
import Mathlib.Algebra.Order.Field.Basic
import Mathlib.Algebra.Field.Rat
import Mathlib.Tactic.FieldSimp
import Mathlib.Tactic.Ring
import Mathlib.Tactic.LinearCombination
import Mathlib.Tactic.Linarith
import Mathlib.Tactic.Positivity
/-
C14: the update coefficients realise Maxwell's equations in simple media.
-/
namespace Vulture.C14

section algebra
variable {K : Type*} [Field K]

/-- The coefficient formula without poles. -/
def simpleMedium (eps_r sigma mu_r : K) : Medium K := ⟨.simple, eps_r, sigma, mu_r, 0⟩

/-- **C14**, electric: one coefficient update is the centred discretisation
`eps (E' - E) / dt + sigma (E' + E) / 2 = curl H`, and conversely the discretisation determines it. -/
theorem ampere_law (dt eps0 mu0 eps_r sigma mu_r E E' curl : K) (h2 : (2 : K) ≠ 0) (hdt : dt ≠ 0)
    (hden : 2 * eps_r * eps0 + dt * sigma ≠ 0) :
    (E' = (calcCoeff dt eps0 mu0 (simpleMedium eps_r sigma mu_r)).alpha * E +
        (calcCoeff dt eps0 mu0 (simpleMedium eps_r sigma mu_r)).beta * curl) ↔
      eps_r * eps0 * ((E' - E) / dt) + sigma * ((E' + E) / 2) = curl := by
  simp only [calcCoeff, simpleMedium, mul_zero, zero_mul, add_zero]
  have e1 : ∀ N : K, N / (2 * eps_r * eps0 + dt * sigma) * E +
      2 * dt / (2 * eps_r * eps0 + dt * sigma) * curl =
      (N * E + 2 * dt * curl) / (2 * eps_r * eps0 + dt * sigma) := by intro N; ring
  rw [e1, eq_div_iff hden]
  have e2 : eps_r * eps0 * ((E' - E) / dt) + sigma * ((E' + E) / 2) =
      (2 * eps_r * eps0 * (E' - E) + dt * sigma * (E' + E)) / (2 * dt) := by
    field_simp
  rw [e2, div_eq_iff (mul_ne_zero h2 hdt)]
  constructor <;> intro h <;> linear_combination h

/-- **C14**, magnetic: `mu (H' - H) / dt = - curl E`. The code's `curl_E` macros carry the minus sign:
`c` below is the value they return. -/
theorem faraday_law (dt eps0 mu0 eps_r sigma mu_r H H' c : K) (hdt : dt ≠ 0) (hmu : mu_r * mu0 ≠ 0) :
    (H' = H + (calcCoeff dt eps0 mu0 (simpleMedium eps_r sigma mu_r)).gamma * c) ↔
      mu_r * mu0 * ((H' - H) / dt) = c := by
  simp only [calcCoeff, simpleMedium]
  constructor
  · rintro rfl
    rw [add_sub_cancel_left, mul_comm (dt / _) c, mul_div_assoc, div_right_comm, div_self hdt]
    rw [mul_comm, mul_assoc, one_div, inv_mul_cancel₀ hmu, mul_one]
  · intro h
    rw [← h, div_mul_eq_mul_div, mul_comm dt, mul_assoc, div_mul_cancel₀ _ hdt, mul_div_assoc, mul_div_cancel₀ _ hmu]
    ring

/-- The forced media agree with the formula: medium 0 is the formula for free space. -/
theorem free_space_forced (dt eps0 mu0 : K) (h2 : (2 : K) ≠ 0) (he : eps0 ≠ 0) (m : Medium K) :
    mediumCoef dt eps0 mu0 0 m = calcCoeff dt eps0 mu0 (simpleMedium 1 0 1) := by
  simp only [mediumCoef, if_true, calcCoeff, simpleMedium]
  congr 1
  · simp [h2, he]
  · simp; rw [mul_div_mul_left _ _ h2]
  · rw [one_mul]

end algebra

section order
variable {K : Type*} [Field K] [LinearOrder K] [IsStrictOrderedRing K]

/-- **C14**, passivity: every medium the `MT` card accepts (`SIMPLE`) has `|alpha| <= 1`, `beta > 0`,
`gamma > 0`, and a loss-free one has `alpha = 1`. -/
theorem passive (dt eps0 mu0 : K) (hdt : 0 < dt) (he : 0 < eps0) (hm : 0 < mu0) (vals : List K)
    (m : Medium K) (hp : parseMT .simple vals = some m) :
    |(calcCoeff dt eps0 mu0 m).alpha| ≤ 1 ∧ 0 < (calcCoeff dt eps0 mu0 m).beta ∧
    0 < (calcCoeff dt eps0 mu0 m).gamma ∧ (m.sigma = 0 → (calcCoeff dt eps0 mu0 m).alpha = 1) ∧
    (0 < m.sigma → |(calcCoeff dt eps0 mu0 m).alpha| < 1) := by
  simp only [parseMT] at hp
  split at hp
  · cases hp
  rename_i hv
  simp only [Option.some.injEq] at hp
  subst hp
  push Not at hv
  generalize (vals[0]?.getD 1 : K) = e at *
  generalize (vals[1]?.getD 0 : K) = s at *
  generalize (vals[2]?.getD 1 : K) = u at *
  obtain ⟨h1, h2, h3⟩ := hv
  have hA : 0 < 2 * e * eps0 := by positivity
  have hB : 0 ≤ dt * s := by positivity
  have hD : 0 < 2 * e * eps0 + dt * s := by linarith
  simp only [calcCoeff, mul_zero, zero_mul, add_zero]
  refine ⟨?_, by positivity, by positivity, ?_, ?_⟩
  · rw [abs_le, le_div_iff₀ hD, div_le_iff₀ hD]; constructor <;> linarith
  · intro h0; subst h0; simp; exact ⟨by intro h; linarith, he.ne'⟩
  · intro h0
    have hB' : 0 < dt * s := by positivity
    rw [abs_lt, lt_div_iff₀ hD, div_lt_iff₀ hD]; constructor <;> linarith

omit [IsStrictOrderedRing K] in
/-- Cards with unphysical values are rejected. -/
theorem rejects (t : MType) (vals : List K) (ht : t = .simple ∨ t = .debye) :
    parseMT t vals = none ↔ (vals[0]?.getD 1 < 1 ∨ vals[1]?.getD 0 < 0 ∨ vals[2]?.getD 1 < 1) := by
  rcases ht with rfl | rfl <;> simp only [parseMT] <;> split <;> simp_all

end order

/-- Non-vacuity: a lossy card is accepted and its coefficients are not trivial. -/
example : parseMT (K := ℚ) .simple [4, 1/2, 1] = some ⟨.simple, 4, 1/2, 1, 0⟩ ∧
    calcCoeff (K := ℚ) 1 1 1 ⟨.simple, 4, 1/2, 1, 0⟩ = ⟨15/17, 4/17, 1⟩ := by
  constructor <;> decide +kernel

end Vulture.C14
