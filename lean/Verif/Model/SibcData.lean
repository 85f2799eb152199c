import Mathlib.Data.Real.Sqrt
import Mathlib.LinearAlgebra.Matrix.Notation
import Verif.Model.Filter
/-
Model of the data of an impedance boundary: src/sibc.c:63-109, 126-197, 441-476, 603-613, 787-829.
`real` is modelled by `ℝ`.
-/
namespace Vulture.SibcData

abbrev M2 := Matrix (Fin 2) (Fin 2) ℝ
abbrev M4 := Matrix (Fin 4) (Fin 4) ℝ

/-- `DeltaS` in `tportS2Z`. src/sibc.c:796 -/
def deltaS (S : M2) : ℝ := (1 - S 0 0) * (1 - S 1 1) - S 0 1 * S 1 0

/-- `tportS2Z`. src/sibc.c:790-803 -/
noncomputable def tportS2Z (eta0 : ℝ) (S : M2) : M2 :=
  !![((1 + S 0 0) * (1 - S 1 1) + S 0 1 * S 1 0) / deltaS S * eta0, 2 * S 0 1 * eta0 / deltaS S;
     2 * S 1 0 * eta0 / deltaS S, ((1 - S 0 0) * (1 + S 1 1) + S 0 1 * S 1 0) / deltaS S * eta0]

/-- `isPassiveS`. src/sibc.c:806-823 -/
def isPassiveS (S : M2) : Prop :=
  1 - (S 0 0 * S 0 0 + S 1 0 * S 1 0) ≥ 0 ∧
  S 0 0 * S 0 1 - S 1 0 * S 1 1 ≥ 0 ∧
  S 0 1 * S 0 0 - S 1 1 * S 1 0 ≥ 0 ∧
  1 - (S 0 1 * S 0 1 + S 1 1 * S 1 1) ≥ 0

/-- The scattering parameters of a `BT .. SIBC` card: eight numbers give both polarisations, four give one used
for both; anything else is no scattering data. src/boundary.c:184-204 -/
def parseS : List ℝ → Option (M2 × M2)
  | [a, b, c, d, e, f, g, h] => some (!![a, b; c, d], !![e, f; g, h])
  | [a, b, c, d] => some (!![a, b; c, d], !![a, b; c, d])
  | _ => none

/-- Index of a 2x2 block entry: block `(I,J)`, position `(i,j)`. -/
def blockIdx (I i : Fin 2) : Fin 4 := ⟨2 * I.val + i.val, by omega⟩

/-- `initSibcBoundary` for scattering data: `none` is the fatal passivity message, otherwise the asymptotes of the
16 filters without poles. src/sibc.c:136-156 -/
noncomputable def initFromS (eta0 : ℝ) (STM STE : M2) [Decidable (isPassiveS STM)] [Decidable (isPassiveS STE)] :
    Option M4 :=
  if ¬ isPassiveS STM ∨ ¬ isPassiveS STE then none
  else
    let ZTM := tportS2Z eta0 STM
    let ZTE := tportS2Z eta0 STE
    some !![ZTM 0 0, ZTM 0 1, 0, 0; ZTM 1 0, ZTM 1 1, 0, 0; 0, 0, ZTE 0 0, ZTE 0 1; 0, 0, ZTE 1 0, ZTE 1 1]

/-- `initSibcBoundary` for a 2x2 pole-residue file: copied to both diagonal blocks, zero elsewhere.
src/sibc.c:169-184 -/
noncomputable def isotropic (pr : Nat → Nat → PoleResidue) (p q : Nat) : PoleResidue :=
  if p < 2 ∧ q < 2 then pr p q
  else if 2 ≤ p ∧ 2 ≤ q then pr (p - 2) (q - 2)
  else ⟨0, []⟩

/-- `Acp` .. `Bsm`. src/sibc.c:71-109 -/
def Acp : M4 := !![0, 0, 1, 0; 0, 0, 0, -1; -1, 0, 0, 0; 0, 1, 0, 0]
def Acm : M4 := !![0, 0, 0, -1; 0, 0, 1, 0; 0, 1, 0, 0; -1, 0, 0, 0]
def Asp : M4 := !![-1, 0, 0, 0; 0, 1, 0, 0; 0, 0, -1, 0; 0, 0, 0, 1]
def Asm : M4 := !![0, 1, 0, 0; -1, 0, 0, 0; 0, 0, 0, 1; 0, 0, -1, 0]
def Bcp : M4 := !![1, 0, 0, 0; 0, 1, 0, 0; 0, 0, 1, 0; 0, 0, 0, 1]
def Bcm : M4 := !![0, 1, 0, 0; 1, 0, 0, 0; 0, 0, 0, 1; 0, 0, 1, 0]
def Bsp : M4 := !![0, 0, -1, 0; 0, 0, 0, -1; 1, 0, 0, 0; 0, 1, 0, 0]
def Bsm : M4 := !![0, 0, 0, -1; 0, 0, -1, 0; 0, 1, 0, 0; 1, 0, 0, 0]

/-- `matLinearComb`. src/sibc.c:604-613 -/
def matLinearComb (a : ℝ) (A : M4) (b : ℝ) (B : M4) : M4 := Matrix.of fun p q => a * A p q + b * B p q

/-- The switch on the orientation (`true` = `1`, `false` = `-1`) at the head of the electric update: matrices `A`
and `B`. src/sibc.c:462-476 -/
def orient (plus : Bool) (cosa sina : ℝ) : M4 × M4 :=
  if plus then (matLinearComb cosa Acp sina Asp, matLinearComb cosa Bcp sina Bsp)
  else (matLinearComb cosa Acm sina Asm, matLinearComb cosa Bcm sina Bsm)

end Vulture.SibcData
