import Verif.Props.C24_Debye
import Verif.Props.C27_Step
import Verif.Props.C27_Tags
import Verif.Props.C64_Material
import Verif.Props.C65_SheetLaw
import Verif.Props.C71_Beam
import Verif.Spec.Maxwell
import Mathlib.Tactic.LinearCombination
/- C72: the fields of a run satisfy Maxwell's difference equations with the lengths, materials and currents of its mesh file. -/
set_option linter.unusedSimpArgs false
set_option linter.unusedVariables false
set_option linter.unusedSectionVars false
namespace Vulture.C72
open Vulture Spec Setup Deck CavityLemmas

/-! ### Several sources on one sample -/

section sum
variable (C : CRef → ℝ) {fc : Fc} {i j l : Int}

/-- The source acts on the electric (magnetic) sample. -/
def HitsE (x : Src) (fc : Fc) (i j l : Int) : Prop := C27.ActsE x ∧ x.field = fc ∧ InLim (x.flim fc) i j l
def HitsH (x : Src) (fc : Fc) (i j l : Int) : Prop := C27.ActsH x ∧ x.field = fc ∧ InLim (x.flim fc) i j l

def srcProgE (y : Src × Nat) : Prog :=
  if (y.1.kind = .efield ∨ y.1.kind = .ecurr) ∧ y.1.field.isE = true then loopOver (y.1.flim y.1.field) (srcEBlock y.2 y.1) else []
def srcProgH (y : Src × Nat) : Prog :=
  if (y.1.kind = .hfield ∨ y.1.kind = .hcurr) ∧ y.1.field.isE = false then loopOver (y.1.flim y.1.field) (srcHBlock y.2 y.1) else []

theorem srcProgE_input (y : Src × Nat) (n : Nat) (h : Bool) : NoWrite (srcProgE y) (.src h n) := by
  unfold srcProgE
  split
  · refine NoWrite.loop fun i' j' k' _ hw => ?_
    rw [C27.writes_srcE, List.mem_singleton] at hw
    cases hw
  · exact NoWrite.nil
theorem srcProgH_input (y : Src × Nat) (n : Nat) (h : Bool) : NoWrite (srcProgH y) (.src h n) := by
  unfold srcProgH
  split
  · refine NoWrite.loop fun i' j' k' _ hw => ?_
    rw [C27.writes_srcH, List.mem_singleton] at hw
    cases hw
  · exact NoWrite.nil

open Classical in
theorem oneE (y : Src × Nat) (hy : HitsE y.1 fc i j l → y.1.kind = .ecurr ∧ C (.soft y.2) = 1) (s : Loc → ℝ) :
    Prog.run C (srcProgE y) s (.fld fc i j l) =
      s (.fld fc i j l) - C (.beta fc i j l) * (if HitsE y.1 fc i j l then s (.src false y.2) else 0) := by
  by_cases hh : HitsE y.1 fc i j l
  · obtain ⟨hk, hs⟩ := hy hh
    obtain ⟨ha, rfl, hi⟩ := hh
    rw [if_pos ⟨ha, rfl, hi⟩]
    have ha' := ha
    unfold C27.ActsE at ha'
    unfold srcProgE
    rw [if_pos ha']
    let T : Set Loc := fun m => m = .fld y.1.field i j l ∨ m = .src false y.2
    have hr : ∀ m ∈ (srcEBlock y.2 y.1 i j l).reads, m ∈ T := by
      intro m hm
      rw [C27.reads_srcE] at hm
      simp only [List.mem_cons, List.not_mem_nil, or_false] at hm
      exact hm
    rw [run_loop_sole C hi (S := T) ?_ hr s _ (Or.inl rfl) (by rw [C27.writes_srcE]; simp)]
    · simp only [srcEBlock, hk, Block.exec, Expr.eval, List.find?_cons, decide_true, if_true, hs]
      ring
    · intro i' j' k' hne m hm hw
      rw [C27.writes_srcE, List.mem_singleton] at hw
      subst hw
      rcases hm with h | h
      · simp only [Loc.fld.injEq] at h
        obtain ⟨_, rfl, rfl, rfl⟩ := h
        exact hne rfl
      · cases h
  · rw [if_neg hh, mul_zero, sub_zero]
    refine NoWrite.run C ?_ s
    unfold srcProgE
    split
    · rename_i ha
      refine NoWrite.loop fun i' j' k' hi' hw => hh ?_
      rw [C27.writes_srcE, List.mem_singleton] at hw
      simp only [Loc.fld.injEq] at hw
      obtain ⟨h1, rfl, rfl, rfl⟩ := hw
      exact ⟨ha, h1.symm, by rw [h1]; exact hi'⟩
    · exact NoWrite.nil

open Classical in
theorem oneH (y : Src × Nat) (hy : HitsH y.1 fc i j l → y.1.kind = .hcurr ∧ C (.soft y.2) = 1) (s : Loc → ℝ) :
    Prog.run C (srcProgH y) s (.fld fc i j l) =
      s (.fld fc i j l) - C (.gamma fc i j l) * (if HitsH y.1 fc i j l then s (.src true y.2) else 0) := by
  by_cases hh : HitsH y.1 fc i j l
  · obtain ⟨hk, hs⟩ := hy hh
    obtain ⟨ha, rfl, hi⟩ := hh
    rw [if_pos ⟨ha, rfl, hi⟩]
    have ha' := ha
    unfold C27.ActsH at ha'
    unfold srcProgH
    rw [if_pos ha']
    let T : Set Loc := fun m => m = .fld y.1.field i j l ∨ m = .src true y.2
    have hr : ∀ m ∈ (srcHBlock y.2 y.1 i j l).reads, m ∈ T := by
      intro m hm
      rw [C27.reads_srcH] at hm
      simp only [List.mem_cons, List.not_mem_nil, or_false] at hm
      exact hm
    rw [run_loop_sole C hi (S := T) ?_ hr s _ (Or.inl rfl) (by rw [C27.writes_srcH]; simp)]
    · simp only [srcHBlock, hk, Block.exec, Expr.eval, List.find?_cons, decide_true, if_true, hs]
      ring
    · intro i' j' k' hne m hm hw
      rw [C27.writes_srcH, List.mem_singleton] at hw
      subst hw
      rcases hm with h | h
      · simp only [Loc.fld.injEq] at h
        obtain ⟨_, rfl, rfl, rfl⟩ := h
        exact hne rfl
      · cases h
  · rw [if_neg hh, mul_zero, sub_zero]
    refine NoWrite.run C ?_ s
    unfold srcProgH
    split
    · rename_i ha
      refine NoWrite.loop fun i' j' k' hi' hw => hh ?_
      rw [C27.writes_srcH, List.mem_singleton] at hw
      simp only [Loc.fld.injEq] at hw
      obtain ⟨h1, rfl, rfl, rfl⟩ := hw
      exact ⟨ha, h1.symm, by rw [h1]; exact hi'⟩
    · exact NoWrite.nil

open Classical in
theorem sumE : ∀ (r : List (Src × Nat)) (s : Loc → ℝ)
    (hy : ∀ y ∈ r, HitsE y.1 fc i j l → y.1.kind = .ecurr ∧ C (.soft y.2) = 1),
    Prog.run C (r.flatMap srcProgE) s (.fld fc i j l) = s (.fld fc i j l) -
      C (.beta fc i j l) * (r.map fun y => if HitsE y.1 fc i j l then s (.src false y.2) else 0).sum
  | [], s, _ => by simp [Prog.run]
  | y :: r, s, hy => by
    rw [List.flatMap_cons, run_append, sumE r _ fun z hz => hy z (List.mem_cons_of_mem _ hz), oneE C y (hy y (by simp)),
      List.map_cons, List.sum_cons]
    have e' : (r.map fun z => if HitsE z.1 fc i j l then Prog.run C (srcProgE y) s (.src false z.2) else 0) =
        r.map fun z => if HitsE z.1 fc i j l then s (.src false z.2) else 0 := by
      refine List.map_congr_left fun z _ => ?_
      rw [NoWrite.run C (srcProgE_input y _ _)]
    rw [e']
    ring

open Classical in
theorem sumH : ∀ (r : List (Src × Nat)) (s : Loc → ℝ)
    (hy : ∀ y ∈ r, HitsH y.1 fc i j l → y.1.kind = .hcurr ∧ C (.soft y.2) = 1),
    Prog.run C (r.flatMap srcProgH) s (.fld fc i j l) = s (.fld fc i j l) -
      C (.gamma fc i j l) * (r.map fun y => if HitsH y.1 fc i j l then s (.src true y.2) else 0).sum
  | [], s, _ => by simp [Prog.run]
  | y :: r, s, hy => by
    rw [List.flatMap_cons, run_append, sumH r _ fun z hz => hy z (List.mem_cons_of_mem _ hz), oneH C y (hy y (by simp)),
      List.map_cons, List.sum_cons]
    have e' : (r.map fun z => if HitsH z.1 fc i j l then Prog.run C (srcProgH y) s (.src true z.2) else 0) =
        r.map fun z => if HitsH z.1 fc i j l then s (.src true z.2) else 0 := by
      refine List.map_congr_left fun z _ => ?_
      rw [NoWrite.run C (srcProgH_input y _ _)]
    rw [e']
    ring

end sum

/-! ### One step at one sample -/

section step
variable (C : CRef → ℝ) {S : Sim} {a : Axis} {q : Axis → Int}

open Classical in
/-- Impressed current densities of the sources of a run at a sample. -/
noncomputable def drivenE (S : Sim) (fc : Fc) (q : Axis → Int) (s : Loc → ℝ) : ℝ :=
  (S.srcs.zipIdx.map fun y => if HitsE y.1 fc (q .x) (q .y) (q .z) then s (.src false y.2) else 0).sum
open Classical in
noncomputable def drivenH (S : Sim) (fc : Fc) (q : Axis → Int) (s : Loc → ℝ) : ℝ :=
  (S.srcs.zipIdx.map fun y => if HitsH y.1 fc (q .x) (q .y) (q .z) then s (.src true y.2) else 0).sum

open Classical in
theorem stepE_value (hv : ValidCfg S.cfg) (hg : InLim (S.cfg.gfilim a.e) (q .x) (q .y) (q .z))
    (hi : SampleIn S.cfg.gibox a.e (q .x) (q .y) (q .z))
    (nd : NoWrite (updateDebye S.debye) (.fld a.e (q .x) (q .y) (q .z)))
    (ns : NoWrite (updateSibcE S.sibc) (.fld a.e (q .x) (q .y) (q .z)))
    (np : NoWrite (updatePlaneWavesE S.cfg S.pws) (.fld a.e (q .x) (q .y) (q .z)))
    (hc : ∀ y ∈ S.srcs.zipIdx, HitsE y.1 a.e (q .x) (q .y) (q .z) → y.1.kind = .ecurr ∧ C (.soft y.2) = 1) (s : Loc → ℝ) :
    at3 (S.step.run C s) a.e q = C (.alpha a.e (q .x) (q .y) (q .z)) * at3 s a.e q +
      C (.beta a.e (q .x) (q .y) (q .z)) * (curlOfH (fun c n => (C (.idh c n))⁻¹) s a q - drivenE S a.e q s) := by
  have e : S.step = (updatePmlEfield S.cfg ++ updateMurEfield S.cfg ++ updateGridEfield S.cfg) ++
      ((updateDebye S.debye ++ updateSibcE S.sibc) ++ (S.srcs.zipIdx.flatMap srcProgE ++ (updatePlaneWavesE S.cfg S.pws ++
        updateGhostEfield S.cfg ++ S.stepH))) := by
    have e0 : updateSourcesE S.srcs = S.srcs.zipIdx.flatMap srcProgE := rfl
    simp only [Sim.step, Sim.stepE, List.append_assoc, e0]
  have h1 : NoWrite (updatePlaneWavesE S.cfg S.pws ++ updateGhostEfield S.cfg ++ S.stepH)
      (.fld a.e (q .x) (q .y) (q .z)) := (np.append
        (noWrite_ghostE hv (sampleIn_mono (gibox_within hv) hi))).append
        (noE_stepH (axis_e_isE a) _ _ _ S)
  have h2 := nd.append ns
  have ki : ∀ n, (Loc.src false n).kind ∉ [LKind.fld, .pml, .et, .filt, .dj, .dl] := fun n => by
    change LKind.input ∉ _; decide
  have h3 : ∀ n, NoWrite (updateDebye S.debye ++ updateSibcE S.sibc) (.src false n) := fun n =>
    (((wo_debye S.debye).mono (by decide)).noWrite (ki n)).append (((wo_sibcE S.sibc).mono (by decide)).noWrite (ki n))
  have h4 : ∀ n, NoWrite (updatePmlEfield S.cfg ++ updateMurEfield S.cfg ++ updateGridEfield S.cfg) (.src false n) := fun n =>
    ((((wo_pmlE S.cfg).mono (by decide)).noWrite (ki n)).append
    (((wo_murE S.cfg).mono (by decide)).noWrite (ki n))).append (((wo_gridE S.cfg).mono (by decide)).noWrite (ki n))
  have hE := electric_value C hv (axis_e_isE a) hg s
  have e2 : (ampere a.e (q .x) (q .y) (q .z)).eval C s = C (.alpha a.e (q .x) (q .y) (q .z)) * at3 s a.e q +
      C (.beta a.e (q .x) (q .y) (q .z)) * curlOfH (fun c n => (C (.idh c n))⁻¹) s a q := by
    cases a <;> simp [ampere, ampereX, ampereY, ampereZ, Axis.e, Expr.eval, curlOfH, at3, back, Axis.next, Axis.h,
      curlHx, curlHy, curlHz, EX, EY, EZ, HX, HY, HZ] <;> (left; ring)
  have key := fun t => sumE C (fc := a.e) (i := q .x) (j := q .y) (l := q .z) S.srcs.zipIdx t hc
  unfold at3 at *
  rw [e, run_append, run_append, run_append, NoWrite.run C h1, key, NoWrite.run C h2, hE, e2]
  have e4 : (S.srcs.zipIdx.map fun y => if HitsE y.1 a.e (q .x) (q .y) (q .z) then
      Prog.run C (updateDebye S.debye ++ updateSibcE S.sibc) (Prog.run C (updatePmlEfield S.cfg ++ updateMurEfield S.cfg ++ updateGridEfield S.cfg) s)
        (.src false y.2) else 0).sum = drivenE S a.e q s := by
    unfold drivenE
    congr 1
    refine List.map_congr_left fun z _ => ?_
    rw [NoWrite.run C (h3 _), NoWrite.run C (h4 _)]
  rw [e4]
  ring

open Classical in
theorem stepH_value (hv : ValidCfg S.cfg) (hi : SampleIn S.cfg.gibox a.h (q .x) (q .y) (q .z))
    (ns : NoWrite (updateSibcH S.sibc) (.fld a.h (q .x) (q .y) (q .z)))
    (np : NoWrite (updatePlaneWavesH S.cfg S.pws) (.fld a.h (q .x) (q .y) (q .z)))
    (hc : ∀ y ∈ S.srcs.zipIdx, HitsH y.1 a.h (q .x) (q .y) (q .z) → y.1.kind = .hcurr ∧ C (.soft y.2) = 1) (s : Loc → ℝ) :
    at3 (S.step.run C s) a.h q = at3 s a.h q -
      C (.gamma a.h (q .x) (q .y) (q .z)) * (curlOfE (fun c n => (C (.ide c n))⁻¹) (S.step.run C s) a q + drivenH S a.h q s) := by
  have e : S.step = S.stepE ++ ((updatePmlHfield S.cfg ++ updateMurHfield S.cfg ++ updateGridHfield S.cfg) ++
      (updateSibcH S.sibc ++ (S.srcs.zipIdx.flatMap srcProgH ++ (updatePlaneWavesH S.cfg S.pws ++
        updateGhostHfield S.cfg)))) := by
    have e0 : updateSourcesH S.srcs = S.srcs.zipIdx.flatMap srcProgH := rfl
    simp only [Sim.step, Sim.stepH, List.append_assoc, e0]
  have hE : ∀ fc i j k, fc.isE = true → S.step.run C s (.fld fc i j k) = S.stepE.run C s (.fld fc i j k) := by
    intro fc i j k hf
    rw [Sim.step, run_append, NoWrite.run C (noE_stepH hf i j k S)]
  have h1 : NoWrite (updatePlaneWavesH S.cfg S.pws ++ updateGhostHfield S.cfg)
      (.fld a.h (q .x) (q .y) (q .z)) := np.append
        (noWrite_ghostH hv (sampleIn_mono (gibox_within hv) hi))
  have ki : ∀ n, (Loc.src true n).kind ∉ [LKind.fld, .pml] := fun n => by change LKind.input ∉ _; decide
  have hu := fun n t => NoWrite.run C (C27.stepE_keeps_input S (l := .src true n) rfl) t
  have h3 : ∀ n, NoWrite (updateSibcH S.sibc) (.src true n) := fun n => ((wo_sibcH S.sibc).mono (by decide)).noWrite (ki n)
  have h4 : ∀ n, NoWrite (updatePmlHfield S.cfg ++ updateMurHfield S.cfg ++ updateGridHfield S.cfg) (.src true n) := fun n =>
    ((((wo_pmlH S.cfg).mono (by decide)).noWrite (ki n)).append
    (((wo_murH S.cfg).mono (by decide)).noWrite (ki n))).append (((wo_gridH S.cfg).mono (by decide)).noWrite (ki n))
  have hF := magnetic_value C hv (axis_h_isE a) hi (S.stepE.run C s)
  have hH := NoWrite.run C (noH_stepE (axis_h_isE a) (q .x) (q .y) (q .z) S) s
  have ee : curlOfE (fun c n => (C (.ide c n))⁻¹) (S.step.run C s) a q =
      curlOfE (fun c n => (C (.ide c n))⁻¹) (S.stepE.run C s) a q := by
    unfold curlOfE at3
    dsimp only
    rw [hE _ _ _ _ (axis_e_isE _), hE _ _ _ _ (axis_e_isE _), hE _ _ _ _ (axis_e_isE _), hE _ _ _ _ (axis_e_isE _)]
  have e2 : (faraday a.h (q .x) (q .y) (q .z)).eval C (S.stepE.run C s) = at3 s a.h q -
      C (.gamma a.h (q .x) (q .y) (q .z)) * curlOfE (fun c n => (C (.ide c n))⁻¹) (S.stepE.run C s) a q := by
    unfold at3 at *
    cases a <;> simp [Axis.h] at hH <;> simp [faraday, faradayX, faradayY, faradayZ, Axis.h, Expr.eval, curlOfE, at3, ahead, Axis.next,
      Axis.e, curlEx, curlEy, curlEz, EX, EY, EZ, HX, HY, HZ, hH] <;> ring
  have key := fun t => sumH C (fc := a.h) (i := q .x) (j := q .y) (l := q .z) S.srcs.zipIdx t hc
  rw [ee]
  unfold at3 at *
  rw [e, run_append, run_append, run_append, run_append, NoWrite.run C h1, key, NoWrite.run C ns, hF, e2]
  have e4 : (S.srcs.zipIdx.map fun y => if HitsH y.1 a.h (q .x) (q .y) (q .z) then
      Prog.run C (updateSibcH S.sibc) (Prog.run C (updatePmlHfield S.cfg ++ updateMurHfield S.cfg ++ updateGridHfield S.cfg)
        (Prog.run C S.stepE s)) (.src true y.2) else 0).sum = drivenH S a.h q s := by
    unfold drivenH
    congr 1
    refine List.map_congr_left fun z _ => ?_
    rw [NoWrite.run C (h3 _), NoWrite.run C (h4 _), hu]
  rw [e4]
  ring

end step

end Vulture.C72
