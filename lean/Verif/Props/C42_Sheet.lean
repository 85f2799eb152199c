import Verif.Props.C26_Impedance
import Mathlib.Analysis.SpecialFunctions.Trigonometric.Basic
/- C42: turning or flipping an impedance sheet. -/
set_option linter.unusedSimpArgs false
namespace Vulture.C42
open Vulture Spec SibcData Matrix

/-- Tangential electric field `(E1a, E1b, E2a, E2b)` and magnetic field, as the arrays `Etan`, `Htan` order them
(src/sibc.c:491-498, 633-653). -/
def eVec (f : SideFields) : Fin 4 → ℝ := ![f.e1a, f.e1b, f.e2a, f.e2b]
def hVec (f : SideFields) : Fin 4 → ℝ := ![f.h1a, f.h1b, f.h2a, f.h2b]

/-- The sheet law the electric update evaluates for an impedance without memory: `Etan = B Z A Htan`. -/
def Sheet (plus : Bool) (ang : ℝ) (Z : M4) (f : SideFields) : Prop :=
  eVec f = (orient plus (Real.cos ang) (Real.sin ang)).2 *ᵥ (Z *ᵥ ((orient plus (Real.cos ang) (Real.sin ang)).1 *ᵥ hVec f))

theorem mv4 (S : M4) (a : Fin 4 → ℝ) : S *ᵥ a = ![S 0 0 * a 0 + S 0 1 * a 1 + S 0 2 * a 2 + S 0 3 * a 3,
    S 1 0 * a 0 + S 1 1 * a 1 + S 1 2 * a 2 + S 1 3 * a 3, S 2 0 * a 0 + S 2 1 * a 1 + S 2 2 * a 2 + S 2 3 * a 3,
    S 3 0 * a 0 + S 3 1 * a 1 + S 3 2 * a 2 + S 3 3 * a 3] := by
  ext i; fin_cases i <;> simp [Matrix.mulVec, dotProduct, Fin.sum_univ_four]

theorem dp4 (a b : Fin 4 → ℝ) : a ⬝ᵥ b = a 0 * b 0 + a 1 * b 1 + a 2 * b 2 + a 3 * b 3 := by
  simp [dotProduct, Fin.sum_univ_four]

/-- **C42**, power: whatever the angle and the orientation, the power flowing into the sheet on the mesh is the power
`E · H` at its ports. -/
theorem power_at_ports (plus : Bool) (ang : ℝ) (f : SideFields) (Eout : Fin 4 → ℝ)
    (hE : eVec f = (orient plus (Real.cos ang) (Real.sin ang)).2 *ᵥ Eout) :
    f.power = Eout ⬝ᵥ ((orient plus (Real.cos ang) (Real.sin ang)).1 *ᵥ hVec f) := by
  have h0 := congrFun hE 0
  have h1 := congrFun hE 1
  have h2 := congrFun hE 2
  have h3 := congrFun hE 3
  cases plus <;>
  · simp [Matrix.vecHead, Matrix.vecTail, mv4, eVec, orient, matLinearComb, Bcp, Bcm, Bsp, Bsm] at h0 h1 h2 h3
    simp [Matrix.vecHead, Matrix.vecTail, mv4, dp4, hVec, orient, matLinearComb, Acp, Acm, Asp, Asm, SideFields.power]
    rw [h0, h1, h2, h3]
    ring

open Classical in
/-- **C42**, passivity: a sheet set up from passive scattering data never supplies power to the mesh, at any angle and
orientation. -/
theorem sheet_passive (eta0 : ℝ) (he : 0 < eta0) (STM STE : M2) (hM : deltaS STM ≠ 0) (hE : deltaS STE ≠ 0)
    (pM : Passive STM) (pE : Passive STE) (Z : M4) (h : initFromS eta0 STM STE = some Z)
    (plus : Bool) (ang : ℝ) (f : SideFields) (hf : Sheet plus ang Z f) : 0 ≤ f.power := by
  rw [power_at_ports plus ang f _ hf]
  generalize (orient plus (Real.cos ang) (Real.sin ang)).1 *ᵥ hVec f = i
  unfold initFromS at h
  split at h
  · cases h
  · simp only [Option.some.injEq] at h
    subst h
    have h1 := (C26.dissipative_iff eta0 he STM hM).2 pM ![i 0, i 1]
    have h2 := (C26.dissipative_iff eta0 he STE hE).2 pE ![i 2, i 3]
    simp only [C26.mv, C26.dp] at h1 h2
    simp at h1 h2
    simp [Matrix.vecHead, Matrix.vecTail, mv4, dp4]
    nlinarith

/-- **C42**, angle: the change of axes keeps the magnitude of the magnetic field. -/
theorem turn_isometry (plus : Bool) (ang : ℝ) (v : Fin 4 → ℝ) :
    ((orient plus (Real.cos ang) (Real.sin ang)).1 *ᵥ v) ⬝ᵥ ((orient plus (Real.cos ang) (Real.sin ang)).1 *ᵥ v) = v ⬝ᵥ v := by
  have hc := Real.sin_sq_add_cos_sq ang
  cases plus <;>
  · simp [Matrix.vecHead, Matrix.vecTail, mv4, dp4, orient, matLinearComb, Acp, Acm, Asp, Asm]
    linear_combination (v 0 ^ 2 + v 1 ^ 2 + v 2 ^ 2 + v 3 ^ 2) * hc

/-- Both polarisations have the same 2x2 impedance and do not couple. -/
def blockDiag (Z W : M2) : M4 := !![Z 0 0, Z 0 1, 0, 0; Z 1 0, Z 1 1, 0, 0; 0, 0, W 0 0, W 0 1; 0, 0, W 1 0, W 1 1]

/-- **C42**, isotropy: for a sheet with equal polarisations the angle does not matter. -/
theorem isotropic_any_angle (plus : Bool) (ang : ℝ) (Z : M2) (f : SideFields) :
    Sheet plus ang (blockDiag Z Z) f ↔ Sheet plus 0 (blockDiag Z Z) f := by
  have hc := Real.sin_sq_add_cos_sq ang
  unfold Sheet
  have key : (orient plus (Real.cos ang) (Real.sin ang)).2 *ᵥ (blockDiag Z Z *ᵥ ((orient plus (Real.cos ang) (Real.sin ang)).1 *ᵥ hVec f)) =
      (orient plus (Real.cos 0) (Real.sin 0)).2 *ᵥ (blockDiag Z Z *ᵥ ((orient plus (Real.cos 0) (Real.sin 0)).1 *ᵥ hVec f)) := by
    cases plus <;>
    · ext i
      fin_cases i <;> simp [Matrix.vecHead, Matrix.vecTail, mv4, orient, matLinearComb, Acp, Acm, Asp, Asm, Bcp, Bcm, Bsp, Bsm, blockDiag, hVec]
      · first | linear_combination (Z 0 0 * f.h2a - Z 0 1 * f.h2b) * hc | linear_combination (Z 1 1 * f.h2a - Z 1 0 * f.h2b) * hc
      · first | linear_combination (Z 1 0 * f.h2a - Z 1 1 * f.h2b) * hc | linear_combination (Z 0 1 * f.h2a - Z 0 0 * f.h2b) * hc
      · first | linear_combination (Z 0 1 * f.h1b - Z 0 0 * f.h1a) * hc | linear_combination (Z 1 0 * f.h1b - Z 1 1 * f.h1a) * hc
      · first | linear_combination (Z 1 1 * f.h1b - Z 1 0 * f.h1a) * hc | linear_combination (Z 0 0 * f.h1b - Z 0 1 * f.h1a) * hc
  rw [key]

/-- **C42**, quarter turn: turning by a right angle exchanges the two polarisations. -/
theorem quarter_turn (plus : Bool) (Z W : M2) (f : SideFields) :
    Sheet plus (Real.pi / 2) (blockDiag Z W) f ↔ Sheet plus 0 (blockDiag W Z) f := by
  unfold Sheet
  have key : (orient plus (Real.cos (Real.pi / 2)) (Real.sin (Real.pi / 2))).2 *ᵥ (blockDiag Z W *ᵥ
      ((orient plus (Real.cos (Real.pi / 2)) (Real.sin (Real.pi / 2))).1 *ᵥ hVec f)) =
      (orient plus (Real.cos 0) (Real.sin 0)).2 *ᵥ (blockDiag W Z *ᵥ ((orient plus (Real.cos 0) (Real.sin 0)).1 *ᵥ hVec f)) := by
    cases plus <;>
    · ext i
      fin_cases i <;> simp [Matrix.vecHead, Matrix.vecTail, mv4, orient, matLinearComb, Acp, Acm, Asp, Asm, Bcp, Bcm, Bsp, Bsm, blockDiag, hVec] <;> ring
  rw [key]

/-- Exchange of the ports on the two sides. -/
def swapSides (Z : M2) : M2 := !![Z 1 1, Z 1 0; Z 0 1, Z 0 0]

/-- **C42**, orientation: the opposite orientation is the sheet with its sides a and b exchanged. -/
theorem flipped (ang : ℝ) (Z W : M2) (f : SideFields) :
    Sheet false ang (blockDiag Z W) f ↔ Sheet true ang (blockDiag (swapSides Z) (swapSides W)) f := by
  unfold Sheet
  have key : (orient false (Real.cos ang) (Real.sin ang)).2 *ᵥ (blockDiag Z W *ᵥ ((orient false (Real.cos ang) (Real.sin ang)).1 *ᵥ hVec f)) =
      (orient true (Real.cos ang) (Real.sin ang)).2 *ᵥ (blockDiag (swapSides Z) (swapSides W) *ᵥ
        ((orient true (Real.cos ang) (Real.sin ang)).1 *ᵥ hVec f)) := by
    ext i
    fin_cases i <;> simp [Matrix.vecHead, Matrix.vecTail, mv4, orient, matLinearComb, Acp, Acm, Asp, Asm, Bcp, Bcm, Bsp, Bsm, blockDiag, swapSides, hVec]
  rw [key]

/-- **C42**, reference position: with orientation +1 and angle zero side a is the low side, the TM electric field lies
along the first tangential axis, and the ports see `+H` on side a and `-H` on side b, as the manual writes. -/
theorem reference (Z W : M2) (f : SideFields) :
    Sheet true 0 (blockDiag Z W) f ↔
      f.e1a = Z 0 0 * f.h2a + Z 0 1 * (-f.h2b) ∧ f.e1b = Z 1 0 * f.h2a + Z 1 1 * (-f.h2b) ∧
      f.e2a = W 0 0 * (-f.h1a) + W 0 1 * f.h1b ∧ f.e2b = W 1 0 * (-f.h1a) + W 1 1 * f.h1b := by
  unfold Sheet
  constructor
  · intro h
    have h0 := congrFun h 0
    have h1 := congrFun h 1
    have h2 := congrFun h 2
    have h3 := congrFun h 3
    simp [Matrix.vecHead, Matrix.vecTail, mv4, eVec, hVec, orient, matLinearComb, Bcp, Bsp, Acp, Asp, blockDiag] at h0 h1 h2 h3
    refine ⟨?_, ?_, ?_, ?_⟩ <;> linarith
  · rintro ⟨h0, h1, h2, h3⟩
    ext i
    fin_cases i <;> simp [Matrix.vecHead, Matrix.vecTail, mv4, eVec, hVec, orient, matLinearComb, Bcp, Bsp, Acp, Asp, blockDiag] <;> linarith

/-- Every magnetic field has an electric field fulfilling the law. -/
theorem sheet_exists (plus : Bool) (ang : ℝ) (Z : M4) (p q r t : ℝ) (hp : p ≠ 0) (ht : t ≠ 0) :
    ∃ f : SideFields, Sheet plus ang Z f ∧ f.h1a ≠ 0 ∧ f.h2b ≠ 0 := by
  refine ⟨⟨((orient plus (Real.cos ang) (Real.sin ang)).2 *ᵥ (Z *ᵥ ((orient plus (Real.cos ang) (Real.sin ang)).1 *ᵥ ![p, q, r, t]))) 0,
    ((orient plus (Real.cos ang) (Real.sin ang)).2 *ᵥ (Z *ᵥ ((orient plus (Real.cos ang) (Real.sin ang)).1 *ᵥ ![p, q, r, t]))) 1,
    ((orient plus (Real.cos ang) (Real.sin ang)).2 *ᵥ (Z *ᵥ ((orient plus (Real.cos ang) (Real.sin ang)).1 *ᵥ ![p, q, r, t]))) 2,
    ((orient plus (Real.cos ang) (Real.sin ang)).2 *ᵥ (Z *ᵥ ((orient plus (Real.cos ang) (Real.sin ang)).1 *ᵥ ![p, q, r, t]))) 3,
    p, q, r, t⟩, ?_, hp, ht⟩
  unfold Sheet
  ext i
  fin_cases i <;> rfl

open Classical in
/-- Non-vacuity of `sheet_passive`: a half-transmitting resistive sheet, with a field on both sides. -/
example : ∃ Z, initFromS 1 (!![-1/2, 1/2; 1/2, -1/2] : M2) !![-1/2, 1/2; 1/2, -1/2] = some Z ∧
    ∃ f : SideFields, Sheet true 1 Z f ∧ f.h1a ≠ 0 ∧ f.h2b ≠ 0 := by
  have hp : isPassiveS (!![-1/2, 1/2; 1/2, -1/2] : M2) := by simp [isPassiveS]; norm_num
  refine ⟨_, by unfold initFromS; rw [if_neg (not_or.2 ⟨not_not.2 hp, not_not.2 hp⟩)], ?_⟩
  exact sheet_exists true 1 _ 1 2 3 4 one_ne_zero (by norm_num)

end Vulture.C42
