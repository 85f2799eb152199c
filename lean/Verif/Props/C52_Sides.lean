import Verif.Lemmas.MirrorPW
import Verif.Props.C07_Extents
/-
C52  No side is preferred: an experiment seen in a mirror perpendicular to an axis gives the mirrored
fields in every step, although the updates run from the low side to the high side, the low faces are
treated before the high ones, and a sample halfway between nodes carries the index of the lower node.
Holds for every mesh (at least two cells between opposite Mur faces), boundary types and layers, media,
dispersive blocks, sources and plane waves. It does not hold for one cell between two Mur faces
(`one_cell_between_mur_faces`).
-/
set_option linter.unusedSimpArgs false
set_option linter.unusedVariables false
namespace Vulture.C52
open Spec

variable {K : Type*} [CommRing K] {C C' : CRef → K} {a : Axis}

/-- Two cells between opposite Mur faces; no plane-wave box without thickness along the axis. -/
structure Regular (S : Sim) (a : Axis) : Prop where
  mur : S.cfg.bt a.lo = .mur → S.cfg.bt a.hi = .mur → 2 ≤ S.cfg.n a
  box : ∀ w ∈ S.pws, w.gbbox a.lo < w.gbbox a.hi

theorem mirrored_step (S : Sim) (h : ValidCfg S.cfg) (hs : S.sibc = []) (hr : Regular S a)
    (hC : ∀ r, C' (mirrorRef S.cfg a r) = refSign a r * C r) :
    Mirrored S.cfg a S.debye S.srcs C C' S.step (S.mirror a).step := by
  unfold Sim.step Sim.stepE Sim.stepH
  rw [hs]
  refine SPhase.append ?_ ?_
  · exact (((((((mirror_pmlE h hC).append (mirror_murE h hC hr.mur)).append (mirror_gridE h hC)).append
      (mirror_debye hC)).append SPhase.nil).append (mirror_srcE hC)).append
      (mirror_pwE hC _ hr.box)).append (mirror_ghostE h)
  · exact ((((((mirror_pmlH h hC).append (mirror_murH h hC)).append (mirror_gridH h hC)).append
      SPhase.nil).append (mirror_srcH hC)).append (mirror_pwH hC _ hr.box)).append (mirror_ghostH h)

theorem mirrored_states (S : Sim) (h : ValidCfg S.cfg) (hs : S.sibc = []) (hr : Regular S a)
    (hC : ∀ r, C' (mirrorRef S.cfg a r) = refSign a r * C r) {u u' : Nat → Loc → K}
    (hu : ∀ n l, l.isInput = true → u' n (mirrorInput S.cfg a l) = inputSign S a l * u n l) {s s' : Loc → K}
    (h0 : SMatch (MV S.cfg a S.debye) (mLoc S.cfg a S.debye) (mSign a S.srcs) s s') (n : Nat) :
    SMatch (MV S.cfg a S.debye) (mLoc S.cfg a S.debye) (mSign a S.srcs)
      (S.state C u s n) ((S.mirror a).state C' u' s' n) := by
  induction n with
  | zero => exact h0
  | succ n ih =>
    refine mirrored_step S h hs hr hC _ _ ?_
    intro l hl
    have hi : (mLoc S.cfg a S.debye l).isInput = l.isInput := by
      cases l <;> rfl
    unfold setInputs
    rw [hi]
    by_cases hin : l.isInput = true
    · rw [if_pos hin, if_pos hin]
      have e : mLoc S.cfg a S.debye l = mirrorInput S.cfg a l := by
        cases l <;> simp [Loc.isInput] at hin <;> rfl
      have e' : (mSign a S.srcs l : K) = inputSign S a l := by
        cases l <;> simp [Loc.isInput] at hin <;> rfl
      rw [e, e']
      exact hu n l hin
    · rw [if_neg hin, if_neg hin]
      exact ih l hl

/-- **C52.** Starting from zero fields, the mirrored experiment computes in every step the mirrored
fields, at every sample of the mesh. -/
theorem no_preferred_side_partial (S : Sim) (h : ValidCfg S.cfg) (hs : S.sibc = []) (hr : Regular S a)
    (hC : ∀ r, C' (mirrorRef S.cfg a r) = refSign a r * C r) (u u' : Nat → Loc → K)
    (hu : ∀ n l, l.isInput = true → u' n (mirrorInput S.cfg a l) = inputSign S a l * u n l)
    (n : Nat) (fc : Fc) (i j k : Int) (hin : InMesh S.cfg a fc (coord a (i, j, k))) :
    (S.mirror a).state C' u' (fun _ => 0) n
        (.fld fc (image S.cfg a fc .x i) (image S.cfg a fc .y j) (image S.cfg a fc .z k)) =
      parity a fc * S.state C u (fun _ => 0) n (.fld fc i j k) := by
  refine mirrored_states S h hs hr hC hu (fun _ _ => by simp) n (.fld fc i j k) ?_
  unfold InMesh at hin
  show InRange S.cfg a fc _
  unfold InRange
  split at hin <;> simp_all <;> omega

/-- The mirrored sample lies in the mesh, and mirroring twice leads back. -/
theorem image_inMesh (c : Cfg) (a : Axis) (fc : Fc) (i : Int) (h : InMesh c a fc i) :
    InMesh c a fc (image c a fc a i) ∧ image c a fc a (image c a fc a i) = i := by
  refine ⟨?_, image_image c a fc a i⟩
  unfold InMesh image nodeImage cellImage span at *
  cases hn : onNodes fc a <;> simp [hn] at h ⊢ <;> omega

/-- The mirrored coefficients and excitations always exist. -/
theorem mirrored_exist (S : Sim) (a : Axis) (C : CRef → K) (u : Nat → Loc → K) :
    (∃ C' : CRef → K, ∀ r, C' (mirrorRef S.cfg a r) = refSign a r * C r) ∧
    ∃ u' : Nat → Loc → K, ∀ n l, u' n (mirrorInput S.cfg a l) = inputSign S a l * u n l := by
  have n2 : ∀ b i, nodeImage S.cfg a b (nodeImage S.cfg a b i) = i := by
    intro b i; unfold nodeImage; split <;> omega
  have c2 : ∀ b i, cellImage S.cfg a b (cellImage S.cfg a b i) = i := by
    intro b i; unfold cellImage; split <;> omega
  refine ⟨⟨fun r => refSign a r * C (mirrorRef S.cfg a r), fun r => ?_⟩,
    ⟨fun n l => inputSign S a l * u n (mirrorInput S.cfg a l), fun n l => ?_⟩⟩
  · have e1 : mirrorRef S.cfg a (mirrorRef S.cfg a r) = r := by
      cases r <;> simp [mirrorRef, image_image, n2, c2]
    have e2 : (refSign a (mirrorRef S.cfg a r) : K) = refSign a r := by cases r <;> rfl
    dsimp only
    rw [e1, e2]
  · have e1 : mirrorInput S.cfg a (mirrorInput S.cfg a l) = l := by
      cases l <;> simp [mirrorInput, image_image]
    have e2 : (inputSign S a (mirrorInput S.cfg a l) : K) = inputSign S a l := by cases l <;> rfl
    dsimp only
    rw [e1, e2]

/-- Mirroring twice gives the original mesh. -/
theorem two_mirrors (c : Cfg) (a : Axis) : (c.mirror a).mirror a = c := by
  obtain ⟨n, bt, ly⟩ := c
  simp [Cfg.mirror]

/-! ### Where it fails -/

/-- **Finding.** One cell between two Mur faces: the low face is updated first and the high face then
uses the new value of the low one, so a field equal on both sides is different on the two sides after
one step, although the experiment (mesh, constant coefficients, initial field) is its own image. -/
theorem one_cell_between_mur_faces :
    let c : Cfg := ⟨fun a => if a = .x then 1 else 2, fun f => if f.axis = .x then .mur else .pec, fun _ => 0⟩
    let C : CRef → Int := fun _ => 2
    let s : Loc → Int := fun | .fld .ey .. => 1 | _ => 0
    ValidCfg c ∧ c.mirror .x = c ∧ (∀ fc i j k, s (.fld fc i j k) = parity .x fc * s (.fld fc i j k)) ∧
    image c .x .ey .x 1 = 2 ∧
    (updateMurEfield c).run C s (.fld .ey 1 2 2) ≠ (updateMurEfield c).run C s (.fld .ey 2 2 2) := by
  refine ⟨⟨by decide, by decide, by decide, by decide⟩, ?_, ?_, ?_, ?_⟩
  · simp only [Cfg.mirror, Cfg.mk.injEq, true_and]
    refine ⟨?_, trivial⟩
    funext f; cases f <;> rfl
  · intro fc i j k; cases fc <;> simp [parity, onNodes]
  · decide +kernel
  · decide +kernel

/-- **Finding.** Impedance sheets normal to y prefer a side: with the surface field on the low side of
the sheet the magnetic sample beyond the edge changes, with the same field on the high side (the
mirrored experiment) it does not. -/
theorem sheets_prefer_a_side :
    let sheet : SibcSurf := ⟨.y, mkBox 2 3 2 2 2 3, fun _ _ => 0⟩
    let C : CRef → Int := fun _ => 1
    let s (m : Nat) : Loc → Int := fun | .et _ m' .. => if m' = m then 1 else 0 | _ => 0
    (updateSibcH [sheet]).run C (s 0) (.fld .hy 2 2 3) = 1 ∧
    (updateSibcH [sheet]).run C (s 1) (.fld .hy 2 2 3) = 0 := by
  constructor <;> decide +kernel

/-! ### A case that meets the hypotheses -/

/-- Layers of different depth, a Mur face, a periodic pair, dispersion, a source and a plane wave. -/
def sampleS : Sim where
  cfg := ⟨fun | .x => 7 | .y => 5 | .z => 6,
    fun | .xlo => .pml | .xhi => .mur | .ylo => .periodic | .yhi => .periodic | .zlo => .pml | .zhi => .pmc,
    fun | .xlo => 3 | .zlo => 2 | _ => 0⟩
  debye := [⟨fun _ f => mkBox 5 6 2 3 4 5 f, 2⟩]
  sibc := []
  srcs := [⟨.ecurr, .ez, mkBox 6 6 2 2 4 5⟩]
  pws := [⟨mkBox 5 8 2 4 4 6, fun _ => true, some ⟨9, 6, fun _ i j k => i⟩⟩]

example : ValidCfg sampleS.cfg ∧ sampleS.sibc = [] ∧ Regular sampleS .x ∧
    (sampleS.mirror .x).cfg.layers .xhi = 3 ∧ (sampleS.mirror .x).cfg.bt .xlo = .mur ∧
    image sampleS.cfg .x .ez .x 6 = 6 ∧ image sampleS.cfg .x .hz .x 5 = 6 ∧
    InMesh sampleS.cfg .x .hz 5 := by
  refine ⟨⟨?_, ?_, ?_, ?_⟩, rfl, ⟨?_, ?_⟩, rfl, rfl, ?_, ?_, ?_⟩ <;> try (simp only [sampleS]; decide)
  unfold InMesh; simp only [sampleS]; decide

end Vulture.C52
