import Verif.Lemmas.Pointwise
import Mathlib.Tactic.LinearCombination
import Mathlib.Algebra.Field.Rat
import Mathlib.Tactic.FieldSimp
/-
C15: the magnetic flux out of a cell does not change in time.
-/
namespace Vulture.C15
open Spec
variable {K : Type*} [Field K]

/-- Physical data of a mesh as the magnetic update sees it: cell edge lengths and, per magnetic
sample, the ratio `mu/dt`. -/
structure Geometry (K : Type*) where
  len : Axis → Int → K
  muOverDt : Fc → Int → Int → Int → K

/-- The coefficient arrays hold the reciprocals of these data on the cells `i..`, i.e. `ide = 1/de` and
`gamma = dt/mu` (see C18 and C14 for the set-up code that computes them). -/
structure Realises (C : CRef → K) (g : Geometry K) (i j k : Int) : Prop where
  ide : ∀ a v, (v = coord a (i, j, k)) → C (.ide a v) * g.len a v = 1
  gamma : ∀ fc p q r, C (.gamma fc p q r) * g.muOverDt fc p q r = 1

/-- The six faces of cell `(i,j,k)`: magnetic samples with the sign of the outward normal. -/
def faces (i j k : Int) : List (Int × Fc × Int × Int × Int) :=
  [(-1, .hx, i, j, k), (1, .hx, i+1, j, k), (-1, .hy, i, j, k), (1, .hy, i, j+1, k),
   (-1, .hz, i, j, k), (1, .hz, i, j, k+1)]

/-- Magnetic flux (times `1/dt`) out of cell `(i,j,k)`: sum over its six faces of `mu H` times area. -/
def fluxOut (g : Geometry K) (s : Loc → K) (i j k : Int) : K :=
  (g.muOverDt .hx (i+1) j k * s (.fld .hx (i+1) j k) - g.muOverDt .hx i j k * s (.fld .hx i j k)) *
    (g.len .y j * g.len .z k) +
  (g.muOverDt .hy i (j+1) k * s (.fld .hy i (j+1) k) - g.muOverDt .hy i j k * s (.fld .hy i j k)) *
    (g.len .z k * g.len .x i) +
  (g.muOverDt .hz i j (k+1) * s (.fld .hz i j (k+1)) - g.muOverDt .hz i j k * s (.fld .hz i j k)) *
    (g.len .x i * g.len .y j)

/-- `(i,j,k)` is a cell of the user region. -/
def IsCell (c : Cfg) (i j k : Int) : Prop :=
  (c.gibox .xlo ≤ i ∧ i < c.gibox .xhi) ∧ (c.gibox .ylo ≤ j ∧ j < c.gibox .yhi) ∧
  (c.gibox .zlo ≤ k ∧ k < c.gibox .zhi)

/-- No impedance surface, magnetic source or plane-wave correction acts on a face of the cell. -/
def Undriven (S : Sim) (i j k : Int) : Prop :=
  ∀ f ∈ faces i j k, NoWrite (updateSibcH S.sibc ++ updateSourcesH S.srcs ++ updatePlaneWavesH S.cfg S.pws)
    (.fld f.2.1 f.2.2.1 f.2.2.2.1 f.2.2.2.2)

/-- A magnetic sample on a face of the cell after a whole step. -/
theorem step_value (S : Sim) (hv : ValidCfg S.cfg) (C : CRef → K) {fc : Fc} (hf : fc.isE = false)
    {i j k : Int} (hin : SampleIn S.cfg.gibox fc i j k)
    (hno : NoWrite (updateSibcH S.sibc ++ updateSourcesH S.srcs ++ updatePlaneWavesH S.cfg S.pws)
      (.fld fc i j k)) (s : Loc → K) :
    S.step.run C s (.fld fc i j k) = (faraday fc i j k).eval C (S.stepE.run C s) := by
  unfold Sim.step
  rw [run_append]
  have : S.stepH = (updatePmlHfield S.cfg ++ updateMurHfield S.cfg ++ updateGridHfield S.cfg) ++
      ((updateSibcH S.sibc ++ updateSourcesH S.srcs ++ updatePlaneWavesH S.cfg S.pws) ++
        updateGhostHfield S.cfg) := by simp [Sim.stepH, List.append_assoc]
  rw [this, run_append, NoWrite.run C (hno.append
    (noWrite_ghostH hv (sampleIn_mono (gibox_within hv) hin))), magnetic_value C hv hf hin]

/-- **C15**, one step: whatever the fields, media, boundaries, electric sources, Debye blocks are, the
magnetic flux out of every undriven cell of the user region is the same after the step as before. -/
theorem flux_unchanged (S : Sim) (hv : ValidCfg S.cfg) (C : CRef → K) (g : Geometry K) (i j k : Int)
    (hc : IsCell S.cfg i j k) (hg : Realises C g i j k) (hu : Undriven S i j k) (s : Loc → K) :
    fluxOut g (S.step.run C s) i j k = fluxOut g s i j k := by
  obtain ⟨c1, c2, c3⟩ := hc
  simp only [Undriven, faces, List.forall_mem_cons] at hu
  obtain ⟨u1, u2, u3, u4, u5, u6, -⟩ := hu
  have v1 := step_value S hv C (fc := .hx) rfl ⟨by simp only [pos2]; omega, by simp only [pos2]; omega, by simp only [pos2]; omega⟩ u1 s
  have v2 := step_value S hv C (fc := .hx) rfl ⟨by simp only [pos2]; omega, by simp only [pos2]; omega, by simp only [pos2]; omega⟩ u2 s
  have v3 := step_value S hv C (fc := .hy) rfl ⟨by simp only [pos2]; omega, by simp only [pos2]; omega, by simp only [pos2]; omega⟩ u3 s
  have v4 := step_value S hv C (fc := .hy) rfl ⟨by simp only [pos2]; omega, by simp only [pos2]; omega, by simp only [pos2]; omega⟩ u4 s
  have v5 := step_value S hv C (fc := .hz) rfl ⟨by simp only [pos2]; omega, by simp only [pos2]; omega, by simp only [pos2]; omega⟩ u5 s
  have v6 := step_value S hv C (fc := .hz) rfl ⟨by simp only [pos2]; omega, by simp only [pos2]; omega, by simp only [pos2]; omega⟩ u6 s
  have hH : ∀ {fc : Fc} {a b d : Int}, fc.isE = false → S.stepE.run C s (.fld fc a b d) = s (.fld fc a b d) :=
    fun hf => NoWrite.run C (noH_stepE hf _ _ _ S) s
  simp only [faraday, faradayX, faradayY, faradayZ, curlEx, curlEy, curlEz, EX, EY, EZ, HX, HY, HZ, Expr.eval] at v1 v2 v3 v4 v5 v6
  rw [hH rfl] at v1 v2 v3 v4 v5 v6
  have gx := hg.ide .x i rfl; have gy := hg.ide .y j rfl; have gz := hg.ide .z k rfl
  have m1 := hg.gamma .hx i j k; have m2 := hg.gamma .hx (i+1) j k
  have m3 := hg.gamma .hy i j k; have m4 := hg.gamma .hy i (j+1) k
  have m5 := hg.gamma .hz i j k; have m6 := hg.gamma .hz i j (k+1)
  unfold fluxOut
  rw [v1, v2, v3, v4, v5, v6]
  generalize S.stepE.run C s = e
  generalize C (.ide .x i) = ix at *
  generalize C (.ide .y j) = iy at *
  generalize C (.ide .z k) = iz at *
  generalize g.len .x i = dx at *
  generalize g.len .y j = dy at *
  generalize g.len .z k = dz at *
  have x0 : dx ≠ 0 := fun h => by rw [h] at gx; simp at gx
  have y0 : dy ≠ 0 := fun h => by rw [h] at gy; simp at gy
  have z0 : dz ≠ 0 := fun h => by rw [h] at gz; simp at gz
  have ex : ix = 1 / dx := by rw [eq_div_iff x0]; exact gx
  have ey : iy = 1 / dy := by rw [eq_div_iff y0]; exact gy
  have ez : iz = 1 / dz := by rw [eq_div_iff z0]; exact gz
  have dist : ∀ m γ h q : K, γ * m = 1 → m * (h + γ * q) = m * h + q := by
    intro m γ h q e; linear_combination q * e
  rw [dist _ _ _ _ m1, dist _ _ _ _ m2, dist _ _ _ _ m3, dist _ _ _ _ m4, dist _ _ _ _ m5, dist _ _ _ _ m6,
    ex, ey, ez]
  field_simp
  ring

/-- **C15**: in a run of any length from any initial fields with any excitation history, the flux out of
an undriven cell keeps its initial value. -/
theorem flux_constant (S : Sim) (hv : ValidCfg S.cfg) (C : CRef → K) (g : Geometry K) (i j k : Int)
    (hc : IsCell S.cfg i j k) (hg : Realises C g i j k) (hu : Undriven S i j k)
    (u : Nat → Loc → K) (s0 : Loc → K) (n : Nat) :
    fluxOut g (S.state C u s0 n) i j k = fluxOut g s0 i j k := by
  induction n with
  | zero => rfl
  | succ n ih =>
    rw [← ih]
    simp only [Sim.state]
    rw [flux_unchanged S hv C g i j k hc hg hu]
    simp [fluxOut, setInputs, Loc.isInput]

/-- From the cleared grid no magnetic charge ever appears. -/
theorem no_magnetic_charge (S : Sim) (hv : ValidCfg S.cfg) (C : CRef → K) (g : Geometry K) (i j k : Int)
    (hc : IsCell S.cfg i j k) (hg : Realises C g i j k) (hu : Undriven S i j k)
    (u : Nat → Loc → K) (n : Nat) : fluxOut g (S.state C u (fun _ => 0) n) i j k = 0 := by
  rw [flux_constant S hv C g i j k hc hg hu]; simp [fluxOut]

/-- A model with electric sources only has no driven cell at all. -/
theorem undriven_of_electric (S : Sim) (h1 : S.sibc = []) (h2 : S.pws = [])
    (h3 : ∀ s ∈ S.srcs, s.kind = .efield ∨ s.kind = .ecurr) (i j k : Int) : Undriven S i j k := by
  intro f _
  rw [h1, h2]
  refine NoWrite.append (NoWrite.append ?_ ?_) ?_
  · exact fun b hb => by simp [updateSibcH] at hb
  · refine NoWrite.flatMap fun x hx => ?_
    have hm : x.1 ∈ S.srcs := by
      obtain ⟨_, _, h⟩ := List.mem_zipIdx hx
      rw [h]; exact List.getElem_mem _
    rw [if_neg]
    · exact NoWrite.nil
    · rcases h3 _ hm with h | h <;> simp [h]
  · exact fun b hb => by simp [updatePlaneWavesH] at hb

/-- Non-vacuity: a 2x1x1 non-uniform mesh with a Mur face, a PML face, two media and a source; the
fields around the cell are not zero. -/
def demo : Sim :=
  { cfg := ⟨fun a => if a = .x then 2 else 1, fun f => if f = .xlo then .mur else if f = .yhi then .pml else .pmc,
      fun f => if f = .yhi then 1 else 0⟩
    debye := [], sibc := [], pws := []
    srcs := [⟨.ecurr, .ey, mkBox 2 2 1 2 1 1⟩] }
def demoC : CRef → ℚ
  | .ide _ v => 1 / (v + 1)
  | .gamma _ p _ _ => if p = 1 then 1/2 else 1
  | _ => 1/2
def demoG : Geometry ℚ := ⟨fun _ v => v + 1, fun _ p _ _ => if p = 1 then 2 else 1⟩
example (n : Nat) : fluxOut demoG (demo.state demoC (fun _ _ => 1) (fun _ => 0) n) 1 1 1 = 0 := by
  refine no_magnetic_charge demo ⟨by decide, by decide, by decide, by decide⟩ demoC demoG 1 1 1 (by unfold IsCell; decide)
    ⟨?_, ?_⟩ (undriven_of_electric demo rfl rfl (by decide) 1 1 1) _ n
  · rintro a v rfl; cases a <;> norm_num [demoC, demoG, coord]
  · intro fc p q r; simp only [demoC, demoG]; split <;> norm_num
example : demo.state demoC (fun _ _ => 1) (fun _ => 0) 2 (.fld .hz 1 1 1) ≠ 0 := by decide +kernel

end Vulture.C15
