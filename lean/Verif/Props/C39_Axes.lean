import Verif.Lemmas.TurnWaves
import Verif.Props.C07_Extents
/-
C39  No axis is preferred: an experiment whose axes are renamed x → y → z → x gives the same fields
with the renamed components at the renamed points, in every step.
Holds for every mesh, boundary types (absorbing layers of different depth included, although the
corners belong to the slabs in the order x, y, z), media, dispersive blocks, sources and plane waves
whose box lies in a lossless medium. It does not hold for impedance sheets
(`sheets_prefer_an_axis`), nor for plane waves whose box cuts a lossy medium
(`lossy_waves_prefer_an_axis`).
-/
set_option linter.unusedSimpArgs false
set_option linter.unusedVariables false
namespace Vulture.C39
open Spec

variable {K : Type*} [CommRing K] {C C' : CRef → K}

/-- The surfaces of the box of every plane wave lie where the field keeps its value from step to step
(no loss). -/
def LosslessAt (C : CRef → K) (S : Sim) : Prop :=
  ∀ w ∈ S.pws, ∀ (f : Face) (fc : Fc) (i j k : Int), w.active f = true →
    InLim (w.flim S.cfg f fc) i j k → C (.alpha fc i j k) = 1

theorem turned_step (S : Sim) (h : ValidCfg S.cfg) (hs : S.sibc = []) (hC : ∀ r, C' (turnRef r) = C r)
    (hα : LosslessAt C S) : Turned S.cfg C C' S.step S.turn.step := by
  unfold Sim.step Sim.stepE Sim.stepH
  rw [hs]
  refine Phase.append ?_ ?_
  · exact (((((((phase_pmlE h hC).append (phase_murE h hC)).append (phase_gridE h hC)).append
      (phase_debye h hC _)).append Phase.nil).append (phase_srcE h hC _)).append
      (phase_pwE h hC _ hα)).append (phase_ghostE h)
  · exact ((((((phase_pmlH h hC).append (phase_murH h hC)).append (phase_gridH h hC)).append
      Phase.nil).append (phase_srcH h hC _)).append (phase_pwH h hC _)).append (phase_ghostH h)

theorem turned_states (S : Sim) (h : ValidCfg S.cfg) (hs : S.sibc = [])
    (hC : ∀ r, C' (turnRef r) = C r) (hα : LosslessAt C S) {u u' : Nat → Loc → K}
    (hu : ∀ n l, l.isInput = true → u' n (turnInput l) = u n l) {s s' : Loc → K}
    (h0 : Match (Exists S.cfg) (turnLoc S.cfg) s s') (n : Nat) :
    Match (Exists S.cfg) (turnLoc S.cfg) (S.state C u s n) (S.turn.state C' u' s' n) := by
  induction n with
  | zero => exact h0
  | succ n ih =>
    refine turned_step S h hs hC hα _ _ ?_
    intro l hl
    have hi : (turnLoc S.cfg l).isInput = l.isInput := by
      cases l <;> rfl
    unfold setInputs
    rw [hi]
    by_cases hin : l.isInput = true
    · rw [if_pos hin, if_pos hin]
      have e : turnLoc S.cfg l = turnInput l := by
        cases l <;> simp [Loc.isInput] at hin <;> rfl
      rw [e]
      exact hu n l hin
    · rw [if_neg hin, if_neg hin]
      exact ih l hl

/-- **C39 (partial).** Starting from zero fields, the renamed experiment computes in every step the
renamed fields, at every grid point. Missing: impedance sheets, and plane waves in lossy media, where
the statement is false. -/
theorem no_preferred_axis_partial (S : Sim) (h : ValidCfg S.cfg) (hs : S.sibc = [])
    (hC : ∀ r, C' (turnRef r) = C r) (hα : LosslessAt C S) (u u' : Nat → Loc → K)
    (hu : ∀ n l, l.isInput = true → u' n (turnInput l) = u n l)
    (n : Nat) (fc : Fc) (i j k : Int) :
    S.turn.state C' u' (fun _ => 0) n (.fld fc.next k i j) =
      S.state C u (fun _ => 0) n (.fld fc i j k) :=
  turned_states S h hs hC hα hu (fun _ _ => rfl) n (.fld fc i j k) trivial

/-- The renamed coefficients and excitations always exist: they are the values of the original at the
name that is turned into the given one. -/
theorem renamed_exist (C : CRef → K) (u : Nat → Loc → K) :
    (∃ C' : CRef → K, ∀ r, C' (turnRef r) = C r) ∧
    ∃ u' : Nat → Loc → K, ∀ n l, u' n (turnInput l) = u n l := by
  have ha : ∀ a b : Axis, a.next = b.next → a = b := by intro a b; cases a <;> cases b <;> simp [Axis.next]
  have hr : Function.Injective turnRef := by
    intro r r' e
    cases r <;> cases r' <;> simp only [turnRef, CRef.alpha.injEq, CRef.beta.injEq, CRef.gamma.injEq,
      CRef.ide.injEq, CRef.idh.injEq, CRef.ad.injEq, CRef.bd.injEq, CRef.ibd.injEq, CRef.ah.injEq,
      CRef.bh.injEq, CRef.ibh.injEq, CRef.zeta.injEq, CRef.auxW.injEq, reduceCtorEq] at e ⊢ <;>
      first
      | exact e
      | exact ⟨Fc.next_inj e.1, e.2.2.1, e.2.2.2, e.2.1⟩
      | exact ⟨ha _ _ e.1, e.2⟩
      | exact Face.next_inj e
      | exact ⟨e.1, e.2.1, Fc.next_inj e.2.2.1, e.2.2.2.2.1, e.2.2.2.2.2, e.2.2.2.1⟩
  have hl : Function.Injective turnInput := by
    intro l l' e
    cases l <;> cases l' <;> simp only [turnInput, Loc.inc.injEq, reduceCtorEq] at e ⊢ <;>
      first
      | exact e
      | exact ⟨e.1, e.2.1, Fc.next_inj e.2.2.1, e.2.2.2.2.1, e.2.2.2.2.2, e.2.2.2.1⟩
  haveI : Nonempty CRef := ⟨.half⟩
  haveI : Nonempty Loc := ⟨.wav 0⟩
  refine ⟨⟨fun r => C (Function.invFun turnRef r), fun r => ?_⟩,
    ⟨fun n l => u n (Function.invFun turnInput l), fun n l => ?_⟩⟩
  · exact congrArg C (Function.leftInverse_invFun hr r)
  · exact congrArg (u n) (Function.leftInverse_invFun hl l)

/-- Turning three times gives the original mesh. -/
theorem three_turns (c : Cfg) : c.turn.turn.turn = c := by
  obtain ⟨n, bt, ly⟩ := c
  simp only [Cfg.turn, Cfg.mk.injEq]
  refine ⟨?_, ?_, ?_⟩ <;> funext a <;> cases a <;> rfl

/-! ### Where it fails -/

/-- A turned impedance sheet. -/
def turnSheet (s : SibcSurf) : SibcSurf := ⟨s.normal.next, fun f => s.gbbox f.prev, s.numPoles⟩

/-- **Finding.** Impedance sheets prefer an axis: a sheet of one face normal to x and the same sheet
turned to be normal to y, with the same constant coefficients (so that renaming them changes nothing)
and the same surface fields, change the magnetic sample beyond the edge in opposite directions. -/
theorem sheets_prefer_an_axis :
    let sheet : SibcSurf := ⟨.x, mkBox 2 2 2 3 2 3, fun _ _ => 0⟩
    let C : CRef → Rat := fun r => if r = .half then 1/2 else 1
    let s : Loc → Rat := fun | .et .. => 1 | _ => 0
    (∀ r, C (turnRef r) = C r) ∧ (∀ c l, s (turnLoc c l) = s l) ∧
    (updateSibcH [sheet]).run C s (.fld .hx 2 3 2) = -1 ∧
    (updateSibcH [turnSheet sheet]).run C s (.fld .hy 2 2 3) = 1 := by
  refine ⟨?_, ?_, ?_, ?_⟩
  · intro r; cases r <;> simp [turnRef]
  · intro c l; cases l <;> rfl
  · decide +kernel
  · decide +kernel

/-- **Finding.** The order in which the faces of a plane wave are corrected matters when the box cuts
a lossy medium (the loss factor is applied once per face): at the edge common to the low faces of x
and y the correction is 1, at the same edge of the turned experiment it is -1. -/
theorem lossy_waves_prefer_an_axis :
    let w : PW := ⟨mkBox 3 5 3 5 3 5, fun f => f == .xlo || f == .ylo, none⟩
    let c : Cfg := ⟨fun _ => 8, fun _ => .pec, fun _ => 0⟩
    let C : CRef → Int := fun | .alpha .. => 2 | _ => 1
    let s : Loc → Int := fun | .inc .. => 1 | _ => 0
    (∀ r, C (turnRef r) = C r) ∧ (∀ c l, s (turnLoc c l) = s l) ∧
    (updatePlaneWavesE c [w]).run C s (.fld .ez 3 3 3) = 1 ∧
    (updatePlaneWavesE c.turn [w.turn]).run C s (.fld .ex 3 3 3) = -1 := by
  refine ⟨?_, ?_, ?_, ?_⟩
  · intro r; cases r <;> rfl
  · intro c l; cases l <;> rfl
  · decide +kernel
  · decide +kernel

/-! ### A case that meets the hypotheses -/

/-- A mesh with layers of different depth, a Mur face, a periodic pair, a source and a plane wave. -/
def sampleS : Sim where
  cfg := ⟨fun | .x => 7 | .y => 5 | .z => 6,
    fun | .xlo => .pml | .xhi => .mur | .ylo => .periodic | .yhi => .periodic | .zlo => .pml | .zhi => .pmc,
    fun | .xlo => 3 | .zlo => 2 | _ => 0⟩
  debye := [⟨fun _ f => mkBox 5 6 2 3 4 5 f, 2⟩]
  sibc := []
  srcs := [⟨.ecurr, .ez, mkBox 6 6 2 2 4 5⟩]
  pws := [⟨mkBox 5 8 2 4 4 6, fun _ => true, none⟩]

example : ValidCfg sampleS.cfg ∧ sampleS.sibc = [] ∧
    LosslessAt (fun _ => (1 : Int)) sampleS ∧ sampleS.turn.cfg.n .x = 6 ∧
    sampleS.turn.cfg.layers .ylo = 3 ∧ sampleS.turn.cfg.bt .yhi = .mur := by
  refine ⟨⟨?_, ?_, ?_, ?_⟩, rfl, fun _ _ _ _ _ _ _ _ _ => rfl, rfl, rfl, rfl⟩ <;>
    simp only [sampleS] <;> decide

end Vulture.C39
