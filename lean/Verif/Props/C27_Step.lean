import Verif.Lemmas.Sole
import Verif.Lemmas.Inputs
import Verif.Model.Media
import Verif.Props.C24_Debye
import Verif.Spec.Drive
/- C27, second part: what an excitation does to the samples it drives. -/
set_option linter.unusedSimpArgs false
namespace Vulture.C27
open Vulture Spec C10

section run
variable {K : Type*} [CommRing K] (C : CRef → K)

/-- The source acts on the electric (magnetic) sample. -/
def ActsE (x : Src) : Prop := (x.kind = .efield ∨ x.kind = .ecurr) ∧ x.field.isE = true
def ActsH (x : Src) : Prop := (x.kind = .hfield ∨ x.kind = .hcurr) ∧ x.field.isE = false

theorem writes_srcE {n : Nat} {x : Src} {i j k : Int} : (srcEBlock n x i j k).writes = [.fld x.field i j k] := by
  unfold srcEBlock; split <;> rfl
theorem writes_srcH {n : Nat} {x : Src} {i j k : Int} : (srcHBlock n x i j k).writes = [.fld x.field i j k] := by
  unfold srcHBlock; split <;> rfl
theorem reads_srcE {n : Nat} {x : Src} {i j k : Int} :
    (srcEBlock n x i j k).reads = [.fld x.field i j k, .src false n] := by
  unfold srcEBlock; split <;> rfl
theorem reads_srcH {n : Nat} {x : Src} {i j k : Int} :
    (srcHBlock n x i j k).reads = [.fld x.field i j k, .src true n] := by
  unfold srcHBlock; split <;> rfl

/-- Only source `n` acts on the sample: its value is the one the source's body assigns. -/
theorem srcE_run {l : List Src} {n : Nat} {x : Src} (hx : l[n]? = some x) (ha : ActsE x) {i j k : Int}
    (hi : InLim (x.flim x.field) i j k)
    (only : ∀ n' x', l[n']? = some x' → ActsE x' → x'.field = x.field → InLim (x'.flim x'.field) i j k → n' = n)
    (s : Loc → K) :
    Prog.run C (updateSourcesE l) s (.fld x.field i j k) = (srcEBlock n x i j k).exec C s (.fld x.field i j k) := by
  have hm : (x, n) ∈ l.zipIdx := List.mem_zipIdx_iff_getElem?.2 hx
  let T : Set Loc := fun l => l = .fld x.field i j k ∨ l = .src false n
  obtain ⟨s1, a1, r1⟩ := run_flatMap_sole C (f := fun y : Src × Nat =>
      if (y.1.kind = .efield ∨ y.1.kind = .ecurr) ∧ y.1.field.isE = true then
        loopOver (y.1.flim y.1.field) (srcEBlock y.2 y.1) else []) hm (C24.nodup_zipIdx l) (S := T) (by
      rintro ⟨x', n'⟩ hx' hne m hm
      dsimp only
      split
      · rename_i hact
        refine NoWrite.loop fun i' j' k' hi' hw => hne ?_
        rw [writes_srcE, List.mem_singleton] at hw
        subst hw
        have hx' := List.mem_zipIdx_iff_getElem?.1 hx'
        simp only at hx'
        rcases hm with h | h
        · simp only [Loc.fld.injEq] at h
          obtain ⟨h1, rfl, rfl, rfl⟩ := h
          have := only n' x' hx' hact h1 hi'
          subst this
          rw [hx] at hx'
          cases hx'
          rfl
        · cases h
      · exact NoWrite.nil) s
  have hT : Loc.fld x.field i j k ∈ T := Or.inl rfl
  unfold updateSourcesE
  rw [r1 _ hT]
  have ha' := ha
  unfold ActsE at ha'
  dsimp only
  rw [if_pos ha']
  have hr : ∀ l ∈ (srcEBlock n x i j k).reads, l ∈ T := by
    intro l hl
    rw [reads_srcE] at hl
    simp only [List.mem_cons, List.not_mem_nil, or_false] at hl
    exact hl
  rw [run_loop_sole C hi (S := T) ?_ hr s1 _ hT (by rw [writes_srcE]; simp)]
  · exact exec_congr C (fun m hm => a1 m (hr m hm)) (by rw [writes_srcE]; simp)
  · intro i' j' k' hne m hm hw
    rw [writes_srcE, List.mem_singleton] at hw
    subst hw
    rcases hm with h | h
    · simp only [Loc.fld.injEq] at h
      obtain ⟨_, rfl, rfl, rfl⟩ := h
      exact hne rfl
    · cases h

theorem srcH_run {l : List Src} {n : Nat} {x : Src} (hx : l[n]? = some x) (ha : ActsH x) {i j k : Int}
    (hi : InLim (x.flim x.field) i j k)
    (only : ∀ n' x', l[n']? = some x' → ActsH x' → x'.field = x.field → InLim (x'.flim x'.field) i j k → n' = n)
    (s : Loc → K) :
    Prog.run C (updateSourcesH l) s (.fld x.field i j k) = (srcHBlock n x i j k).exec C s (.fld x.field i j k) := by
  have hm : (x, n) ∈ l.zipIdx := List.mem_zipIdx_iff_getElem?.2 hx
  let T : Set Loc := fun l => l = .fld x.field i j k ∨ l = .src true n
  obtain ⟨s1, a1, r1⟩ := run_flatMap_sole C (f := fun y : Src × Nat =>
      if (y.1.kind = .hfield ∨ y.1.kind = .hcurr) ∧ y.1.field.isE = false then
        loopOver (y.1.flim y.1.field) (srcHBlock y.2 y.1) else []) hm (C24.nodup_zipIdx l) (S := T) (by
      rintro ⟨x', n'⟩ hx' hne m hm
      dsimp only
      split
      · rename_i hact
        refine NoWrite.loop fun i' j' k' hi' hw => hne ?_
        rw [writes_srcH, List.mem_singleton] at hw
        subst hw
        have hx' := List.mem_zipIdx_iff_getElem?.1 hx'
        simp only at hx'
        rcases hm with h | h
        · simp only [Loc.fld.injEq] at h
          obtain ⟨h1, rfl, rfl, rfl⟩ := h
          have := only n' x' hx' hact h1 hi'
          subst this
          rw [hx] at hx'
          cases hx'
          rfl
        · cases h
      · exact NoWrite.nil) s
  have hT : Loc.fld x.field i j k ∈ T := Or.inl rfl
  unfold updateSourcesH
  rw [r1 _ hT]
  have ha' := ha
  unfold ActsH at ha'
  dsimp only
  rw [if_pos ha']
  have hr : ∀ l ∈ (srcHBlock n x i j k).reads, l ∈ T := by
    intro l hl
    rw [reads_srcH] at hl
    simp only [List.mem_cons, List.not_mem_nil, or_false] at hl
    exact hl
  rw [run_loop_sole C hi (S := T) ?_ hr s1 _ hT (by rw [writes_srcH]; simp)]
  · exact exec_congr C (fun m hm => a1 m (hr m hm)) (by rw [writes_srcH]; simp)
  · intro i' j' k' hne m hm hw
    rw [writes_srcH, List.mem_singleton] at hw
    subst hw
    rcases hm with h | h
    · simp only [Loc.fld.injEq] at h
      obtain ⟨_, rfl, rfl, rfl⟩ := h
      exact hne rfl
    · cases h

end run

/-- The electric half step does not write the values of the excitations. -/
theorem stepE_keeps_input (S : Sim) {l : Loc} (hl : l.kind = .input) : NoWrite S.stepE l := by
  have k : l.kind ∉ [LKind.fld, .pml, .et, .filt, .dj, .dl, .aux] := by rw [hl]; decide
  refine NoWrite.append (NoWrite.append (NoWrite.append (NoWrite.append (NoWrite.append (NoWrite.append (NoWrite.append
    ?_ ?_) ?_) ?_) ?_) ?_) ?_) ?_
  · exact ((wo_pmlE S.cfg).mono (by decide)).noWrite k
  · exact ((wo_murE S.cfg).mono (by decide)).noWrite k
  · exact ((wo_gridE S.cfg).mono (by decide)).noWrite k
  · exact ((wo_debye S.debye).mono (by decide)).noWrite k
  · exact ((wo_sibcE S.sibc).mono (by decide)).noWrite k
  · exact ((wo_srcE S.srcs).mono (by decide)).noWrite k
  · exact ((wo_pwE S.cfg S.pws).mono (by decide)).noWrite k
  · exact ((wo_ghost S.cfg ghostEcomps).mono (by decide)).noWrite k

/-! ### Electric samples -/

/-- Sample `q` of component `a` is driven by source number `n` and by no other, is advanced by the main grid update,
and neither a dispersive block, an impedance surface nor an incident wave acts on it. -/
structure DrivenE (S : Sim) (n : Nat) (x : Src) (a : Axis) (q : Axis → Int) : Prop where
  cfg : ValidCfg S.cfg
  src : S.srcs[n]? = some x
  field : x.field = a.e
  kind : x.kind = .efield ∨ x.kind = .ecurr
  inSrc : InLim (x.flim a.e) (q .x) (q .y) (q .z)
  inGrid : InLim (S.cfg.gfilim a.e) (q .x) (q .y) (q .z)
  inside : SampleIn S.cfg.gibox a.e (q .x) (q .y) (q .z)
  only : ∀ n' x', S.srcs[n']? = some x' → ActsE x' → x'.field = a.e → InLim (x'.flim a.e) (q .x) (q .y) (q .z) → n' = n
  noDebye : NoWrite (updateDebye S.debye) (.fld a.e (q .x) (q .y) (q .z))
  noSibc : NoWrite (updateSibcE S.sibc) (.fld a.e (q .x) (q .y) (q .z))
  noPw : NoWrite (updatePlaneWavesE S.cfg S.pws) (.fld a.e (q .x) (q .y) (q .z))

section E
variable {S : Sim} {n : Nat} {x : Src} {a : Axis} {q : Axis → Int} (hd : DrivenE S n x a q) (C : CRef → ℝ)
include hd

/-- New value: the grid update followed by the source. -/
theorem drivenE_value (s : Loc → ℝ) : at3 (S.step.run C s) a.e q =
    let E := C (.alpha a.e (q .x) (q .y) (q .z)) * at3 s a.e q +
      C (.beta a.e (q .x) (q .y) (q .z)) * curlOfH (fun c n => (C (.idh c n))⁻¹) s a q
    if x.kind = .efield then C (.soft n) * E + s (.src false n)
    else C (.soft n) * E - C (.beta a.e (q .x) (q .y) (q .z)) * s (.src false n) := by
  have e : S.step = (updatePmlEfield S.cfg ++ updateMurEfield S.cfg ++ updateGridEfield S.cfg) ++
      ((updateDebye S.debye ++ updateSibcE S.sibc) ++ (updateSourcesE S.srcs ++ (updatePlaneWavesE S.cfg S.pws ++
        updateGhostEfield S.cfg ++ S.stepH))) := by
    simp only [Sim.step, Sim.stepE, List.append_assoc]
  have h1 : NoWrite (updatePlaneWavesE S.cfg S.pws ++ updateGhostEfield S.cfg ++ S.stepH)
      (.fld a.e (q .x) (q .y) (q .z)) := (hd.noPw.append
        (noWrite_ghostE hd.cfg (sampleIn_mono (gibox_within hd.cfg) hd.inside))).append
        (noE_stepH (axis_e_isE a) _ _ _ S)
  have h2 := hd.noDebye.append hd.noSibc
  have ki : (Loc.src false n).kind ∉ [LKind.fld, .pml, .et, .filt, .dj, .dl] := by
    change LKind.input ∉ _; decide
  have h3 : NoWrite (updateDebye S.debye ++ updateSibcE S.sibc) (.src false n) :=
    (((wo_debye S.debye).mono (by decide)).noWrite ki).append (((wo_sibcE S.sibc).mono (by decide)).noWrite ki)
  have h4 : NoWrite (updatePmlEfield S.cfg ++ updateMurEfield S.cfg ++ updateGridEfield S.cfg) (.src false n) :=
    ((((wo_pmlE S.cfg).mono (by decide)).noWrite ki).append
    (((wo_murE S.cfg).mono (by decide)).noWrite ki)).append (((wo_gridE S.cfg).mono (by decide)).noWrite ki)
  have hact : ActsE x := ⟨hd.kind, by rw [hd.field]; exact axis_e_isE a⟩
  have hE := electric_value C hd.cfg (axis_e_isE a) hd.inGrid s
  have e2 : (ampere a.e (q .x) (q .y) (q .z)).eval C s = C (.alpha a.e (q .x) (q .y) (q .z)) * at3 s a.e q +
      C (.beta a.e (q .x) (q .y) (q .z)) * curlOfH (fun c n => (C (.idh c n))⁻¹) s a q := by
    cases a <;> simp [ampere, ampereX, ampereY, ampereZ, Axis.e, Expr.eval, curlOfH, at3, back, Axis.next, Axis.h,
      curlHx, curlHy, curlHz, EX, EY, EZ, HX, HY, HZ] <;> (left; ring)
  have key := fun t => srcE_run C hd.src hact (i := q .x) (j := q .y) (k := q .z) (by rw [hd.field]; exact hd.inSrc)
    (fun n' x' h h' h'' h4 => hd.only n' x' h h' (h''.trans hd.field) (by rw [h'', hd.field] at h4; exact h4)) t
  rw [hd.field] at key
  unfold at3 at *
  rw [e, run_append, run_append, run_append, NoWrite.run C h1, key]
  rcases hd.kind with hk | hk <;>
    simp only [srcEBlock, hk, hd.field, Block.exec, Expr.eval, NoWrite.run C h2, NoWrite.run C h3, NoWrite.run C h4, hE,
      e2, List.find?_cons, decide_true, if_true, reduceCtorEq, if_false]

/-- **C27** soft current source in a medium with permittivity `eps_r eps0` and conductivity `sigma`: the sample obeys
Ampere's law with the source's waveform value as impressed current density. -/
theorem driven_ampere {dt eps0 mu0 : ℝ} {m : Medium ℝ} {h : Axis → Int → ℝ} (hk : x.kind = .ecurr)
    (soft : C (.soft n) = 1) (alpha : C (.alpha a.e (q .x) (q .y) (q .z)) = (calcCoeff dt eps0 mu0 m).alpha)
    (beta : C (.beta a.e (q .x) (q .y) (q .z)) = (calcCoeff dt eps0 mu0 m).beta) (hs : m.sum = 0)
    (edges : ∀ (c : Axis) (n : Int), C (.idh c n) = 1 / h c n) (hdt : dt ≠ 0)
    (den : 2 * m.eps_r * eps0 + dt * m.sigma ≠ 0) (s : Loc → ℝ) :
    AmpereWithCurrent dt (m.eps_r * eps0) m.sigma (at3 s a.e q) (at3 (S.step.run C s) a.e q) (curlOfH h s a q)
      (s (.src false n)) := by
  have e := drivenE_value hd C s
  have hh : (fun c n => (C (.idh c n))⁻¹) = h := by funext c n; rw [edges]; simp
  rw [alpha, beta, soft, hh, hk] at e
  simp only [calcCoeff, hs, reduceCtorEq, if_false, mul_zero, zero_mul, add_zero] at e
  generalize at3 (S.step.run C s) a.e q = E' at *
  generalize at3 s a.e q = E at *
  generalize curlOfH h s a q = c at *
  generalize s (.src false n) = J at *
  have e5 : E' * (2 * m.eps_r * eps0 + dt * m.sigma) =
      (2 * m.eps_r * eps0 - dt * m.sigma) * E + 2 * dt * (c - J) := by
    rw [e]
    generalize 2 * m.eps_r * eps0 + dt * m.sigma = D0 at *
    field_simp
    ring
  unfold AmpereWithCurrent
  field_simp
  linear_combination e5

/-- **C27** hard field source: the sample has exactly the waveform value, whatever the fields around it. -/
theorem hard_field (hk : x.kind = .efield) (soft : C (.soft n) = 0) (s : Loc → ℝ) :
    at3 (S.step.run C s) a.e q = s (.src false n) := by
  rw [drivenE_value hd C s, soft, hk]
  simp

/-- Soft field source: the waveform value is added to the value the sample would have had. -/
theorem soft_field (hk : x.kind = .efield) (soft : C (.soft n) = 1) (s : Loc → ℝ) :
    at3 (S.step.run C s) a.e q = C (.alpha a.e (q .x) (q .y) (q .z)) * at3 s a.e q +
      C (.beta a.e (q .x) (q .y) (q .z)) * curlOfH (fun c n => (C (.idh c n))⁻¹) s a q + s (.src false n) := by
  rw [drivenE_value hd C s, soft, hk]
  simp

/-- Hard current source: the field is replaced by a multiple of the current; the fields around the sample have no
influence. -/
theorem hard_current (hk : x.kind = .ecurr) (soft : C (.soft n) = 0) (s : Loc → ℝ) :
    at3 (S.step.run C s) a.e q = -(C (.beta a.e (q .x) (q .y) (q .z)) * s (.src false n)) := by
  rw [drivenE_value hd C s, soft, hk]
  simp

end E

/-! ### Magnetic samples -/

/-- The same for a magnetic sample. -/
structure DrivenH (S : Sim) (n : Nat) (x : Src) (a : Axis) (q : Axis → Int) : Prop where
  cfg : ValidCfg S.cfg
  src : S.srcs[n]? = some x
  field : x.field = a.h
  kind : x.kind = .hfield ∨ x.kind = .hcurr
  inSrc : InLim (x.flim a.h) (q .x) (q .y) (q .z)
  inside : SampleIn S.cfg.gibox a.h (q .x) (q .y) (q .z)
  only : ∀ n' x', S.srcs[n']? = some x' → ActsH x' → x'.field = a.h → InLim (x'.flim a.h) (q .x) (q .y) (q .z) → n' = n
  noSibc : NoWrite (updateSibcH S.sibc) (.fld a.h (q .x) (q .y) (q .z))
  noPw : NoWrite (updatePlaneWavesH S.cfg S.pws) (.fld a.h (q .x) (q .y) (q .z))

section H
variable {S : Sim} {n : Nat} {x : Src} {a : Axis} {q : Axis → Int} (hd : DrivenH S n x a q) (C : CRef → ℝ)
include hd

theorem drivenH_value (s : Loc → ℝ) :
    at3 (S.step.run C s) a.h q =
    let H := at3 s a.h q -
      C (.gamma a.h (q .x) (q .y) (q .z)) * curlOfE (fun c n => (C (.ide c n))⁻¹) (S.step.run C s) a q
    if x.kind = .hfield then C (.soft n) * H + s (.src true n)
    else C (.soft n) * H - C (.gamma a.h (q .x) (q .y) (q .z)) * s (.src true n) := by
  have e : S.step = S.stepE ++ ((updatePmlHfield S.cfg ++ updateMurHfield S.cfg ++ updateGridHfield S.cfg) ++
      (updateSibcH S.sibc ++ (updateSourcesH S.srcs ++ (updatePlaneWavesH S.cfg S.pws ++
        updateGhostHfield S.cfg)))) := by
    simp only [Sim.step, Sim.stepH, List.append_assoc]
  have hE : ∀ fc i j k, fc.isE = true → S.step.run C s (.fld fc i j k) = S.stepE.run C s (.fld fc i j k) := by
    intro fc i j k hf
    rw [Sim.step, run_append, NoWrite.run C (noE_stepH hf i j k S)]
  have h1 : NoWrite (updatePlaneWavesH S.cfg S.pws ++ updateGhostHfield S.cfg)
      (.fld a.h (q .x) (q .y) (q .z)) := hd.noPw.append
        (noWrite_ghostH hd.cfg (sampleIn_mono (gibox_within hd.cfg) hd.inside))
  have ki : (Loc.src true n).kind ∉ [LKind.fld, .pml] := by change LKind.input ∉ _; decide
  have hu := fun t => NoWrite.run C (stepE_keeps_input S (l := .src true n) rfl) t
  have h3 : NoWrite (updateSibcH S.sibc) (.src true n) := ((wo_sibcH S.sibc).mono (by decide)).noWrite ki
  have h4 : NoWrite (updatePmlHfield S.cfg ++ updateMurHfield S.cfg ++ updateGridHfield S.cfg) (.src true n) :=
    ((((wo_pmlH S.cfg).mono (by decide)).noWrite ki).append
    (((wo_murH S.cfg).mono (by decide)).noWrite ki)).append (((wo_gridH S.cfg).mono (by decide)).noWrite ki)
  have hact : ActsH x := ⟨hd.kind, by rw [hd.field]; exact axis_h_isE a⟩
  have hF := magnetic_value C hd.cfg (axis_h_isE a) hd.inside (S.stepE.run C s)
  have hH := NoWrite.run C (noH_stepE (axis_h_isE a) (q .x) (q .y) (q .z) S) s
  have ee : curlOfE (fun c n => (C (.ide c n))⁻¹) (S.step.run C s) a q =
      curlOfE (fun c n => (C (.ide c n))⁻¹) (S.stepE.run C s) a q := by
    unfold curlOfE at3
    dsimp only
    rw [hE _ _ _ _ (axis_e_isE _), hE _ _ _ _ (axis_e_isE _), hE _ _ _ _ (axis_e_isE _), hE _ _ _ _ (axis_e_isE _)]
  have e2 : (faraday a.h (q .x) (q .y) (q .z)).eval C (S.stepE.run C s) = at3 s a.h q -
      C (.gamma a.h (q .x) (q .y) (q .z)) * curlOfE (fun c n => (C (.ide c n))⁻¹) (S.stepE.run C s) a q := by
    unfold at3 at *
    cases a <;> simp [Axis.h] at hH <;> simp [faraday, faradayX, faradayY, faradayZ, Axis.h, Expr.eval, curlOfE, at3, ahead, Axis.next,
      Axis.e, curlEx, curlEy, curlEz, EX, EY, EZ, HX, HY, HZ, hH] <;> ring
  have key := fun t => srcH_run C hd.src hact (i := q .x) (j := q .y) (k := q .z) (by rw [hd.field]; exact hd.inSrc)
    (fun n' x' h h' h'' h4 => hd.only n' x' h h' (h''.trans hd.field) (by rw [h'', hd.field] at h4; exact h4)) t
  rw [hd.field] at key
  rw [ee]
  unfold at3 at *
  rw [e, run_append, run_append, run_append, run_append, NoWrite.run C h1, key]
  rcases hd.kind with hk | hk <;>
    simp only [srcHBlock, hk, hd.field, Block.exec, Expr.eval, NoWrite.run C hd.noSibc, NoWrite.run C h3,
      NoWrite.run C h4, hF, e2, hu, List.find?_cons, decide_true, if_true, reduceCtorEq, if_false]

/-- **C27** soft magnetic current source: Faraday's law with the waveform value as impressed magnetic current
density. -/
theorem driven_faraday {dt eps0 mu0 : ℝ} {m : Medium ℝ} {h : Axis → Int → ℝ} (hk : x.kind = .hcurr)
    (soft : C (.soft n) = 1) (gamma : C (.gamma a.h (q .x) (q .y) (q .z)) = (calcCoeff dt eps0 mu0 m).gamma)
    (edges : ∀ (c : Axis) (n : Int), C (.ide c n) = 1 / h c n) (hdt : dt ≠ 0) (hmu : m.mu_r * mu0 ≠ 0)
    (s : Loc → ℝ) :
    FaradayWithCurrent dt (m.mu_r * mu0) (at3 s a.h q) (at3 (S.step.run C s) a.h q)
      (curlOfE h (S.step.run C s) a q) (s (.src true n)) := by
  have e := drivenH_value hd C s
  have hh : (fun c n => (C (.ide c n))⁻¹) = h := by funext c n; rw [edges]; simp
  rw [gamma, soft, hh, hk] at e
  simp only [calcCoeff, reduceCtorEq, if_false] at e
  unfold FaradayWithCurrent
  rw [e]
  generalize m.mu_r * mu0 = mu at *
  generalize curlOfE h (S.step.run C s) a q = c at *
  field_simp
  ring

/-- **C27** hard magnetic field source. -/
theorem hard_magnetic_field (hk : x.kind = .hfield) (soft : C (.soft n) = 0) (s : Loc → ℝ) :
    at3 (S.step.run C s) a.h q = s (.src true n) := by
  rw [drivenH_value hd C s, soft, hk]
  simp

end H

end Vulture.C27
