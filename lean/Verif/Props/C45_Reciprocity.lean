import Verif.Lemmas.Reaction
import Verif.Spec.Reaction
import Verif.Props.C17_Setup
import Verif.Props.C27_Amplitude
import Mathlib.Tactic.Tauto
/-
C45: reciprocity. In a closed box with any mesh and any (lossy) isotropic media, the reaction of the fields of one
experiment with the currents of another is the same as the other way round; exchanging source and observer leaves the
recorded signal unchanged.
-/
set_option linter.unusedSimpArgs false
set_option linter.unusedVariables false
namespace Vulture.C45
open Spec Energy C17 Finset

/-! ### What a list of current sources does -/

section
variable (C : CRef → ℝ)

open Classical in
theorem one_srcE {x : Src} {n : ℕ} (hk : x.kind = .ecurr) (hs : C (.soft n) = 1) (fc : Fc) (i j k : Int)
    (s : Loc → ℝ) :
    Prog.run C (loopOver (x.flim x.field) (srcEBlock n x)) s (.fld fc i j k) =
      s (.fld fc i j k) - C (.beta fc i j k) *
        (if x.field = fc ∧ SampleIn x.gbbox fc i j k then s (.src false n) else 0) := by
  by_cases h : x.field = fc ∧ SampleIn x.gbbox fc i j k
  · rw [if_pos h]
    obtain ⟨rfl, hin⟩ := h
    have hi : InLim (x.flim x.field) i j k :=
      (C27.driven_iff x x.field (fun | .x => i | .y => j | .z => k)).2 hin
    let T : Set Loc := fun l => l = .fld x.field i j k ∨ l = .src false n
    rw [run_loop_sole C hi (S := T) ?_ ?_ s _ (Or.inl rfl) (by rw [C27.writes_srcE]; simp)]
    · simp [srcEBlock, hk, Block.exec, Expr.eval, hs]
    · intro i' j' k' hne m hm hw
      rw [C27.writes_srcE, List.mem_singleton] at hw
      subst hw
      rcases hm with h | h
      · simp only [Loc.fld.injEq] at h
        obtain ⟨_, rfl, rfl, rfl⟩ := h
        exact hne rfl
      · cases h
    · intro l hl
      rw [C27.reads_srcE] at hl
      simp only [List.mem_cons, List.not_mem_nil, or_false] at hl
      exact hl
  · rw [if_neg h, mul_zero, sub_zero]
    refine NoWrite.run C (NoWrite.loop fun i' j' k' hi' hw => h ?_) s
    rw [C27.writes_srcE, List.mem_singleton, Loc.fld.injEq] at hw
    obtain ⟨h1, rfl, rfl, rfl⟩ := hw
    subst h1
    exact ⟨rfl, (C27.driven_iff x x.field (fun | .x => i | .y => j | .z => k)).1 hi'⟩

open Classical in
theorem one_srcH {x : Src} {n : ℕ} (hk : x.kind = .hcurr) (hs : C (.soft n) = 1) (fc : Fc) (i j k : Int)
    (s : Loc → ℝ) :
    Prog.run C (loopOver (x.flim x.field) (srcHBlock n x)) s (.fld fc i j k) =
      s (.fld fc i j k) - C (.gamma fc i j k) *
        (if x.field = fc ∧ SampleIn x.gbbox fc i j k then s (.src true n) else 0) := by
  by_cases h : x.field = fc ∧ SampleIn x.gbbox fc i j k
  · rw [if_pos h]
    obtain ⟨rfl, hin⟩ := h
    have hi : InLim (x.flim x.field) i j k :=
      (C27.driven_iff x x.field (fun | .x => i | .y => j | .z => k)).2 hin
    let T : Set Loc := fun l => l = .fld x.field i j k ∨ l = .src true n
    rw [run_loop_sole C hi (S := T) ?_ ?_ s _ (Or.inl rfl) (by rw [C27.writes_srcH]; simp)]
    · simp [srcHBlock, hk, Block.exec, Expr.eval, hs]
    · intro i' j' k' hne m hm hw
      rw [C27.writes_srcH, List.mem_singleton] at hw
      subst hw
      rcases hm with h | h
      · simp only [Loc.fld.injEq] at h
        obtain ⟨_, rfl, rfl, rfl⟩ := h
        exact hne rfl
      · cases h
    · intro l hl
      rw [C27.reads_srcH] at hl
      simp only [List.mem_cons, List.not_mem_nil, or_false] at hl
      exact hl
  · rw [if_neg h, mul_zero, sub_zero]
    refine NoWrite.run C (NoWrite.loop fun i' j' k' hi' hw => h ?_) s
    rw [C27.writes_srcH, List.mem_singleton, Loc.fld.injEq] at hw
    obtain ⟨h1, rfl, rfl, rfl⟩ := hw
    subst h1
    exact ⟨rfl, (C27.driven_iff x x.field (fun | .x => i | .y => j | .z => k)).1 hi'⟩


/-- A list of soft current sources subtracts `beta` times the total impressed current density. -/
theorem all_srcE {l : List Src} (hl : CurrentsOnly l) (hs : ∀ n, n < l.length → C (.soft n) = 1) {fc : Fc}
    (hf : fc.isE = true) (i j k : Int) (s : Loc → ℝ) :
    Prog.run C (updateSourcesE l) s (.fld fc i j k) =
      s (.fld fc i j k) - C (.beta fc i j k) * currentE l (fun n => s (.src false n)) fc i j k := by
  classical
  unfold updateSourcesE currentE
  have key : ∀ (L : List (Src × ℕ)) (hL : ∀ x ∈ L, (x.1.kind = .ecurr ∧ x.1.field.isE = true ∨ x.1.kind = .hcurr ∧ x.1.field.isE = false) ∧ C (.soft x.2) = 1)
      (s : Loc → ℝ),
      Prog.run C (L.flatMap fun x => if (x.1.kind = .efield ∨ x.1.kind = .ecurr) ∧ x.1.field.isE = true then
        loopOver (x.1.flim x.1.field) (srcEBlock x.2 x.1) else []) s (.fld fc i j k) =
      s (.fld fc i j k) - C (.beta fc i j k) * (L.map fun x =>
        if x.1.kind = .ecurr ∧ x.1.field = fc ∧ SampleIn x.1.gbbox fc i j k then s (.src false x.2) else 0).sum := by
    intro L
    induction L with
    | nil => intro _ s; simp [Prog.run]
    | cons x L ih =>
      intro hL s
      rw [List.flatMap_cons, run_append, ih (fun y hy => hL y (List.mem_cons_of_mem _ hy))]
      obtain ⟨hx, hsx⟩ := hL x (List.mem_cons_self ..)
      rw [List.map_cons, List.sum_cons]
      rcases hx with ⟨hk, hE⟩ | ⟨hk, hE⟩
      · rw [if_pos ⟨Or.inr hk, hE⟩, one_srcE C hk hsx]
        have : ∀ n, Prog.run C (loopOver (x.1.flim x.1.field) (srcEBlock x.2 x.1)) s (.src false n) = s (.src false n) := by
          intro n
          refine NoWrite.run C (NoWrite.loop fun i' j' k' _ hw => ?_) s
          rw [C27.writes_srcE, List.mem_singleton] at hw
          cases hw
        simp only [this, hk, true_and]
        ring
      · rw [if_neg (by simp [hE])]
        simp [Prog.run, hk]
  convert key l.zipIdx ?_ s
  rintro ⟨x, n⟩ hx
  have hx' := List.mem_zipIdx_iff_getElem?.1 hx
  exact ⟨hl x (List.mem_of_getElem? hx'), hs n ((List.getElem?_eq_some_iff.1 hx').1)⟩

/-- A list of soft current sources subtracts `gamma` times the total impressed current density. -/
theorem all_srcH {l : List Src} (hl : CurrentsOnly l) (hs : ∀ n, n < l.length → C (.soft n) = 1) {fc : Fc}
    (hf : fc.isE = false) (i j k : Int) (s : Loc → ℝ) :
    Prog.run C (updateSourcesH l) s (.fld fc i j k) =
      s (.fld fc i j k) - C (.gamma fc i j k) * currentH l (fun n => s (.src true n)) fc i j k := by
  classical
  unfold updateSourcesH currentH
  have key : ∀ (L : List (Src × ℕ)) (hL : ∀ x ∈ L, (x.1.kind = .ecurr ∧ x.1.field.isE = true ∨ x.1.kind = .hcurr ∧ x.1.field.isE = false) ∧ C (.soft x.2) = 1)
      (s : Loc → ℝ),
      Prog.run C (L.flatMap fun x => if (x.1.kind = .hfield ∨ x.1.kind = .hcurr) ∧ x.1.field.isE = false then
        loopOver (x.1.flim x.1.field) (srcHBlock x.2 x.1) else []) s (.fld fc i j k) =
      s (.fld fc i j k) - C (.gamma fc i j k) * (L.map fun x =>
        if x.1.kind = .hcurr ∧ x.1.field = fc ∧ SampleIn x.1.gbbox fc i j k then s (.src true x.2) else 0).sum := by
    intro L
    induction L with
    | nil => intro _ s; simp [Prog.run]
    | cons x L ih =>
      intro hL s
      rw [List.flatMap_cons, run_append, ih (fun y hy => hL y (List.mem_cons_of_mem _ hy))]
      obtain ⟨hx, hsx⟩ := hL x (List.mem_cons_self ..)
      rw [List.map_cons, List.sum_cons]
      rcases hx.symm with ⟨hk, hE⟩ | ⟨hk, hE⟩
      · rw [if_pos ⟨Or.inr hk, hE⟩, one_srcH C hk hsx]
        have : ∀ n, Prog.run C (loopOver (x.1.flim x.1.field) (srcHBlock x.2 x.1)) s (.src true n) = s (.src true n) := by
          intro n
          refine NoWrite.run C (NoWrite.loop fun i' j' k' _ hw => ?_) s
          rw [C27.writes_srcH, List.mem_singleton] at hw
          cases hw
        simp only [this, hk, true_and]
        ring
      · rw [if_neg (by simp [hE])]
        simp [Prog.run, hk]
  convert key l.zipIdx ?_ s
  rintro ⟨x, n⟩ hx
  have hx' := List.mem_zipIdx_iff_getElem?.1 hx
  exact ⟨hl x (List.mem_of_getElem? hx'), hs n ((List.getElem?_eq_some_iff.1 hx').1)⟩
end

/-! ### One driven step -/

section
variable {S : Sim} {C : CRef → ℝ} {g : Filling} (hc : Closed S C g) {l : List Src} (hl : CurrentsOnly l)
  (hs : ∀ n, n < l.length → C (.soft n) = 1)
include hc hl hs

local notation "B" => S.cfg.gibox

theorem stepE_driven {fc : Fc} (hf : fc.isE = true) {i j k : Int} (hi : SampleIn B fc i j k) (s : Loc → ℝ) :
    (driven S l).step.run C s (.fld fc i j k) = (ampere fc i j k).eval C s -
      C (.beta fc i j k) * currentE l (fun n => s (.src false n)) fc i j k := by
  unfold Sim.step
  rw [run_append, NoWrite.run C (noE_stepH hf i j k (driven S l))]
  have e : (driven S l).stepE = (updatePmlEfield S.cfg ++ updateMurEfield S.cfg ++ updateGridEfield S.cfg) ++
      (updateSourcesE l ++ updateGhostEfield S.cfg) := by
    simp [driven, Sim.stepE, hc.debye, hc.sibc, hc.pws, updateDebye, updateSibcE, updatePlaneWavesE]
  have coreE := ((inputSafe_pmlE S.cfg).append (inputSafe_murE S.cfg)).append (inputSafe_gridE S.cfg)
  rw [e, run_append, run_append, NoWrite.run C (noWrite_ghostE hc.cfg (sampleIn_mono (gibox_within hc.cfg) hi)),
    all_srcE C hl hs hf, electric_value C hc.cfg hf]
  · have : ∀ n, Prog.run C (updatePmlEfield S.cfg ++ updateMurEfield S.cfg ++ updateGridEfield S.cfg) s (.src false n) =
      s (.src false n) := fun n => NoWrite.run C (coreE _ rfl) s
    simp only [this]
  · obtain ⟨h1, h2, h3⟩ := hi
    cases fc <;> simp only [pos2] at h1 h2 h3 <;>
      simp [InLim, Cfg.gfilim, setFieldLimits, Face.isLo, fieldIsInBoundary, hc.pec] <;> omega

theorem stepH_driven {fc : Fc} (hf : fc.isE = false) {i j k : Int} (hi : SampleIn B fc i j k) (s : Loc → ℝ) :
    (driven S l).step.run C s (.fld fc i j k) = (faraday fc i j k).eval C ((driven S l).stepE.run C s) -
      C (.gamma fc i j k) * currentH l (fun n => s (.src true n)) fc i j k := by
  unfold Sim.step
  rw [run_append]
  have e : (driven S l).stepH = (updatePmlHfield S.cfg ++ updateMurHfield S.cfg ++ updateGridHfield S.cfg) ++
      (updateSourcesH l ++ updateGhostHfield S.cfg) := by
    simp [driven, Sim.stepH, hc.sibc, hc.pws, updateSibcH, updatePlaneWavesH]
  have coreH := ((inputSafe_pmlH S.cfg).append (inputSafe_murH S.cfg)).append (inputSafe_gridH S.cfg)
  rw [e, run_append, run_append, NoWrite.run C (noWrite_ghostH hc.cfg (sampleIn_mono (gibox_within hc.cfg) hi)),
    all_srcH C hl hs hf, magnetic_value C hc.cfg hf hi]
  have h1 : ∀ n, Prog.run C (updatePmlHfield S.cfg ++ updateMurHfield S.cfg ++ updateGridHfield S.cfg)
      ((driven S l).stepE.run C s) (.src true n) = s (.src true n) := fun n => by
    rw [NoWrite.run C (coreH _ rfl), NoWrite.run C (C27.stepE_keeps_input (driven S l) rfl)]
  simp only [h1]

theorem free_driven {s : Loc → ℝ} (h : FieldFree C B s) : FieldFree C B ((driven S l).step.run C s) := by
  intro fc i j k hf hi hb
  have hE : fc.isE = true := by rcases hf with rfl | rfl | rfl <;> rfl
  rw [stepE_driven hc hl hs hE hi]
  have := h fc i j k hf hi hb
  rcases hf with rfl | rfl | rfl <;>
    simp [ampere, ampereX, ampereY, ampereZ, Expr.eval, EX, EY, EZ, hb, this]

theorem free_run (u : ℕ → Loc → ℝ) (n : ℕ) : FieldFree C B ((driven S l).state C u (fun _ => 0) n) := by
  induction n with
  | zero => intro _ _ _ _ _ _ _; rfl
  | succ n ih => exact free_driven hc hl hs (s := setInputs (u n) ((driven S l).state C u (fun _ => 0) n)) ih

/-- The law of one electric sample, tested with a field that vanishes in the conductors. -/
theorem tested_law {fc : Fc} (hf : fc.isE = true) {i j k : Int} (hi : SampleIn B fc i j k) {p e e' q jc : ℝ}
    (hp : C (.beta fc i j k) = 0 → p = 0)
    (he : e' = C (.alpha fc i j k) * e + C (.beta fc i j k) * (q - jc)) :
    Tested g.dt (g.eps fc i j k) (g.sigma fc i j k) p e e' q jc := by
  unfold Tested
  by_cases hb : C (.beta fc i j k) = 0
  · rw [hp hb]; ring
  · rcases hc.electric fc i j k hf hi with h0 | ⟨ha, hbb⟩
    · exact absurd h0 hb
    · have : (2 * g.eps fc i j k + g.dt * g.sigma fc i j k) * e' =
            (2 * g.eps fc i j k - g.dt * g.sigma fc i j k) * e + 2 * g.dt * (q - jc) := by
          rw [he]; linear_combination e * ha + (q - jc) * hbb
      linear_combination (p/2) * this

end

section
variable {S : Sim} {C : CRef → ℝ} {g : Filling} (hc : Closed S C g) (m : Axis → ℝ) (hm : ∀ a, 0 < m a)
  (hge : ∀ a i, S.cfg.gibox a.lo ≤ i → i < S.cfg.gibox a.hi → m a ≤ g.de a i)
  {l : List Src} (hl : CurrentsOnly l) (hs : ∀ n, n < l.length → C (.soft n) = 1)

local notation "X" => axisOf hc Axis.x (m Axis.x) (hm Axis.x) (hge Axis.x)
local notation "Y" => axisOf hc Axis.y (m Axis.y) (hm Axis.y) (hge Axis.y)
local notation "Z" => axisOf hc Axis.z (m Axis.z) (hm Axis.z) (hge Axis.z)
local notation "B" => S.cfg.gibox

include hl hs in
/-- Ampere's law of a whole step, tested with the electric field of a state `t`. -/
theorem electric_tested (s t : Loc → ℝ) (ht : FieldFree C B t) :
    let P := vE B t
    let E := vE B s
    let E' := vE B ((driven S l).step.run C s)
    let J := mE B (currentE l fun n => s (.src false n))
    dotE X Y Z (wmul (mE B g.eps) P) E' - dotE X Y Z (wmul (mE B g.eps) P) E +
      (g.dt / 2 * dotE X Y Z (wmul (mE B g.sigma) P) E' + g.dt / 2 * dotE X Y Z (wmul (mE B g.sigma) P) E) =
    g.dt * (dotH X Y Z (curlE X Y Z P) (vH B s) - dotE X Y Z P J) := by
  have hx := hi_eq hc .x; have hy := hi_eq hc .y; have hz := hi_eq hc .z
  simp only [Axis.lo, Axis.hi] at hx hy hz
  refine tested_sum X Y Z g.dt (mE B g.eps) (mE B g.sigma) (vE B t) (vE B s) _ (vH B s) _ (fieldFree_walls hc ht) ?_ ?_ ?_
  · intro a b c h1 h2 h3
    have hin : SampleIn B .ex (B .xlo + a) (B .ylo + (b+1:ℕ)) (B .zlo + (c+1:ℕ)) := by
      refine ⟨?_, ?_, ?_⟩ <;> simp only [pos2] <;> push_cast <;> omega
    refine tested_law hc hl hs rfl hin (ht .ex _ _ _ (by simp) hin) ?_
    have hv := stepE_driven hc hl hs rfl hin s
    have i1 := hc.idh .y (B .ylo + (b+1:ℕ)) (by simp only [Axis.lo]; push_cast; omega) (by simp only [Axis.hi]; push_cast; omega)
    have i2 := hc.idh .z (B .zlo + (c+1:ℕ)) (by simp only [Axis.lo]; push_cast; omega) (by simp only [Axis.hi]; push_cast; omega)
    simp only [vE, hv, ampere, ampereX, curlHx, Expr.eval, EX, HY, HZ, i1, i2]
    simp only [vH, mE, curlH, axisOf, Axis.lo, Nat.cast_add, Nat.cast_one, ← add_assoc, add_sub_cancel_right]
    ring
  · intro a b c h1 h2 h3
    have hin : SampleIn B .ey (B .xlo + (a+1:ℕ)) (B .ylo + b) (B .zlo + (c+1:ℕ)) := by
      refine ⟨?_, ?_, ?_⟩ <;> simp only [pos2] <;> push_cast <;> omega
    refine tested_law hc hl hs rfl hin (ht .ey _ _ _ (by simp) hin) ?_
    have hv := stepE_driven hc hl hs rfl hin s
    have i1 := hc.idh .x (B .xlo + (a+1:ℕ)) (by simp only [Axis.lo]; push_cast; omega) (by simp only [Axis.hi]; push_cast; omega)
    have i2 := hc.idh .z (B .zlo + (c+1:ℕ)) (by simp only [Axis.lo]; push_cast; omega) (by simp only [Axis.hi]; push_cast; omega)
    simp only [vE, hv, ampere, ampereY, curlHy, Expr.eval, EY, HX, HZ, i1, i2]
    simp only [vH, mE, curlH, axisOf, Axis.lo, Nat.cast_add, Nat.cast_one, ← add_assoc, add_sub_cancel_right]
    ring
  · intro a b c h1 h2 h3
    have hin : SampleIn B .ez (B .xlo + (a+1:ℕ)) (B .ylo + (b+1:ℕ)) (B .zlo + c) := by
      refine ⟨?_, ?_, ?_⟩ <;> simp only [pos2] <;> push_cast <;> omega
    refine tested_law hc hl hs rfl hin (ht .ez _ _ _ (by simp) hin) ?_
    have hv := stepE_driven hc hl hs rfl hin s
    have i1 := hc.idh .x (B .xlo + (a+1:ℕ)) (by simp only [Axis.lo]; push_cast; omega) (by simp only [Axis.hi]; push_cast; omega)
    have i2 := hc.idh .y (B .ylo + (b+1:ℕ)) (by simp only [Axis.lo]; push_cast; omega) (by simp only [Axis.hi]; push_cast; omega)
    simp only [vE, hv, ampere, ampereZ, curlHz, Expr.eval, EZ, HX, HY, i1, i2]
    simp only [vH, mE, curlH, axisOf, Axis.lo, Nat.cast_add, Nat.cast_one, ← add_assoc, add_sub_cancel_right]
    ring

include hl hs in
/-- Faraday's law of a whole step, tested with the magnetic field of a state `t`. -/
theorem magnetic_tested (s t : Loc → ℝ) :
    let Q := vH B t
    let H := vH B s
    let H' := vH B ((driven S l).step.run C s)
    let E' := vE B ((driven S l).step.run C s)
    let M := mH B (currentH l fun n => s (.src true n))
    dotH X Y Z (wmul (mH B g.mu) H') Q - dotH X Y Z (wmul (mH B g.mu) H) Q =
      - g.dt * (dotH X Y Z (curlE X Y Z E') Q + dotH X Y Z M Q) := by
  have hx := hi_eq hc .x; have hy := hi_eq hc .y; have hz := hi_eq hc .z
  simp only [Axis.lo, Axis.hi] at hx hy hz
  have keepE : ∀ fc i j k, fc.isE = true →
      (driven S l).stepE.run C s (.fld fc i j k) = (driven S l).step.run C s (.fld fc i j k) := by
    intro fc i j k hf
    unfold Sim.step
    rw [run_append, NoWrite.run C (noE_stepH hf i j k (driven S l))]
  have keepH : ∀ fc i j k, fc.isE = false → (driven S l).stepE.run C s (.fld fc i j k) = s (.fld fc i j k) :=
    fun fc i j k hf => NoWrite.run C (noH_stepE hf i j k (driven S l)) s
  refine tested_mag X Y Z g.dt _ _ _ _ _ _ ?_ ?_ ?_
  · intro a b c h1 h2 h3
    have hin : SampleIn B .hx (B .xlo + a) (B .ylo + b) (B .zlo + c) := by
      refine ⟨?_, ?_, ?_⟩ <;> simp only [pos2] <;> omega
    have hv := stepH_driven hc hl hs rfl hin s
    have hg := hc.magnetic .hx _ _ _ rfl hin
    have i1 := hc.ide .y (B .ylo + b) (by simp [Axis.lo]) (by simp only [Axis.hi]; omega)
    have i2 := hc.ide .z (B .zlo + c) (by simp [Axis.lo]) (by simp only [Axis.hi]; omega)
    simp only [faraday, faradayX, curlEx, Expr.eval, EX, EY, EZ, HX, keepH .hx _ _ _ rfl, keepE .ey _ _ _ rfl,
      keepE .ez _ _ _ rfl, i1, i2] at hv
    simp only [vH, vE, mH, curlE, axisOf, Axis.lo, hv, Nat.cast_add, Nat.cast_one, ← add_assoc]
    linear_combination (1 / g.de .z (B .zlo + c) * ((driven S l).step.run C s (.fld .ey (B .xlo + a) (B .ylo + b) (B .zlo + c + 1)) -
      (driven S l).step.run C s (.fld .ey (B .xlo + a) (B .ylo + b) (B .zlo + c))) +
      1 / g.de .y (B .ylo + b) * ((driven S l).step.run C s (.fld .ez (B .xlo + a) (B .ylo + b) (B .zlo + c)) -
      (driven S l).step.run C s (.fld .ez (B .xlo + a) (B .ylo + b + 1) (B .zlo + c))) -
      currentH l (fun n => s (.src true n)) .hx (B .xlo + a) (B .ylo + b) (B .zlo + c)) * hg
  · intro a b c h1 h2 h3
    have hin : SampleIn B .hy (B .xlo + a) (B .ylo + b) (B .zlo + c) := by
      refine ⟨?_, ?_, ?_⟩ <;> simp only [pos2] <;> omega
    have hv := stepH_driven hc hl hs rfl hin s
    have hg := hc.magnetic .hy _ _ _ rfl hin
    have i1 := hc.ide .x (B .xlo + a) (by simp [Axis.lo]) (by simp only [Axis.hi]; omega)
    have i2 := hc.ide .z (B .zlo + c) (by simp [Axis.lo]) (by simp only [Axis.hi]; omega)
    simp only [faraday, faradayY, curlEy, Expr.eval, EX, EY, EZ, HY, keepH .hy _ _ _ rfl, keepE .ex _ _ _ rfl,
      keepE .ez _ _ _ rfl, i1, i2] at hv
    simp only [vH, vE, mH, curlE, axisOf, Axis.lo, hv, Nat.cast_add, Nat.cast_one, ← add_assoc]
    linear_combination (1 / g.de .x (B .xlo + a) * ((driven S l).step.run C s (.fld .ez (B .xlo + a + 1) (B .ylo + b) (B .zlo + c)) -
      (driven S l).step.run C s (.fld .ez (B .xlo + a) (B .ylo + b) (B .zlo + c))) +
      1 / g.de .z (B .zlo + c) * ((driven S l).step.run C s (.fld .ex (B .xlo + a) (B .ylo + b) (B .zlo + c)) -
      (driven S l).step.run C s (.fld .ex (B .xlo + a) (B .ylo + b) (B .zlo + c + 1))) -
      currentH l (fun n => s (.src true n)) .hy (B .xlo + a) (B .ylo + b) (B .zlo + c)) * hg
  · intro a b c h1 h2 h3
    have hin : SampleIn B .hz (B .xlo + a) (B .ylo + b) (B .zlo + c) := by
      refine ⟨?_, ?_, ?_⟩ <;> simp only [pos2] <;> omega
    have hv := stepH_driven hc hl hs rfl hin s
    have hg := hc.magnetic .hz _ _ _ rfl hin
    have i1 := hc.ide .x (B .xlo + a) (by simp [Axis.lo]) (by simp only [Axis.hi]; omega)
    have i2 := hc.ide .y (B .ylo + b) (by simp [Axis.lo]) (by simp only [Axis.hi]; omega)
    simp only [faraday, faradayZ, curlEz, Expr.eval, EX, EY, EZ, HZ, keepH .hz _ _ _ rfl, keepE .ex _ _ _ rfl,
      keepE .ey _ _ _ rfl, i1, i2] at hv
    simp only [vH, vE, mH, curlE, axisOf, Axis.lo, hv, Nat.cast_add, Nat.cast_one, ← add_assoc]
    linear_combination (1 / g.de .y (B .ylo + b) * ((driven S l).step.run C s (.fld .ex (B .xlo + a) (B .ylo + b + 1) (B .zlo + c)) -
      (driven S l).step.run C s (.fld .ex (B .xlo + a) (B .ylo + b) (B .zlo + c))) +
      1 / g.de .x (B .xlo + a) * ((driven S l).step.run C s (.fld .ey (B .xlo + a) (B .ylo + b) (B .zlo + c)) -
      (driven S l).step.run C s (.fld .ey (B .xlo + a + 1) (B .ylo + b) (B .zlo + c))) -
      currentH l (fun n => s (.src true n)) .hz (B .xlo + a) (B .ylo + b) (B .zlo + c)) * hg

end

/-! ### Reciprocity -/

section
variable {S : Sim} {C : CRef → ℝ} {g : Filling}

local notation "B" => S.cfg.gibox

/-- **C45.** Two experiments in the same closed box, with current sources `l1`, `l2` (any number, any boxes, electric
or magnetic) and drive values `u1`, `u2`, both starting from zero fields. For every time `N+1` the convolved reactions
agree: `<E2,J1> + <H1,M2> = <E1,J2> + <H2,M1>`. -/
theorem reciprocity (hc : Closed S C g) (hdt : g.dt ≠ 0) (l1 l2 : List Src) (k1 : CurrentsOnly l1)
    (k2 : CurrentsOnly l2) (s1 : ∀ n, n < l1.length → C (.soft n) = 1) (s2 : ∀ n, n < l2.length → C (.soft n) = 1)
    (u1 u2 : ℕ → Loc → ℝ) (N : ℕ) :
    let F1 := (driven S l1).state C u1 fun _ => 0
    let F2 := (driven S l2).state C u2 fun _ => 0
    let J1 := fun n => currentE l1 fun q => u1 n (.src false q)
    let J2 := fun n => currentE l2 fun q => u2 n (.src false q)
    let M1 := fun n => currentH l1 fun q => u1 n (.src true q)
    let M2 := fun n => currentH l2 fun q => u2 n (.src true q)
    ∑ p ∈ antidiagonal (N+1), reactionE g B (F2 p.1) (J1 p.2) + ∑ p ∈ antidiagonal N, reactionH g B (F1 p.2) (M2 p.1) =
    ∑ p ∈ antidiagonal (N+1), reactionE g B (F1 p.2) (J2 p.1) + ∑ p ∈ antidiagonal N, reactionH g B (F2 p.1) (M1 p.2) := by
  intro F1 F2 J1 J2 M1 M2
  obtain ⟨m, hm, hge⟩ := exists_min hc
  let X := axisOf hc Axis.x (m Axis.x) (hm Axis.x) (hge Axis.x)
  let Y := axisOf hc Axis.y (m Axis.y) (hm Axis.y) (hge Axis.y)
  let Z := axisOf hc Axis.z (m Axis.z) (hm Axis.z) (hge Axis.z)
  have f1 := free_run hc k1 s1 u1
  have f2 := free_run hc k2 s2 u2
  have st1 : ∀ n, F1 (n+1) = (driven S l1).step.run C (setInputs (u1 n) (F1 n)) := fun n => rfl
  have st2 : ∀ n, F2 (n+1) = (driven S l2).step.run C (setInputs (u2 n) (F2 n)) := fun n => rfl
  have rE : ∀ (s : Loc → ℝ) J, reactionE g B s J = dotE X Y Z (vE B s) (mE B J) := by
    intro s J
    have := sumE_eq hc m hm hge (fun _ _ _ _ => 1) (fun fc i j k => s (.fld fc i j k)) J
    unfold reactionE
    simp only [one_mul] at this
    rw [this]
    unfold dotE wmul mE vE
    simp only [one_mul]
    rfl
  have rH : ∀ (s : Loc → ℝ) M, reactionH g B s M = dotH X Y Z (vH B s) (mH B M) := by
    intro s M
    have := sumH_eq hc m hm hge (fun _ _ _ _ => 1) (fun fc i j k => s (.fld fc i j k)) M
    unfold reactionH
    simp only [one_mul] at this
    rw [this]
    unfold dotH wmul mH vH
    simp only [one_mul]
    rfl
  simp only [rE, rH]
  have zE : ∀ (w P : V3), dotE X Y Z (wmul w ⟨fun _ _ _ => 0, fun _ _ _ => 0, fun _ _ _ => 0⟩) P = 0 := by
    intro w P; simp [dotE, wmul, sum3]
  have zH : ∀ (w P : V3), dotH X Y Z (wmul w ⟨fun _ _ _ => 0, fun _ _ _ => 0, fun _ _ _ => 0⟩) P = 0 := by
    intro w P; simp [dotH, wmul, sum3]
  have zc : ∀ (P : V3), dotH X Y Z (curlE X Y Z ⟨fun _ _ _ => 0, fun _ _ _ => 0, fun _ _ _ => 0⟩) P = 0 := by
    intro P; simp [dotH, curlE, sum3]
  have F10 : vE B (F1 0) = ⟨fun _ _ _ => 0, fun _ _ _ => 0, fun _ _ _ => 0⟩ := rfl
  have F20 : vE B (F2 0) = ⟨fun _ _ _ => 0, fun _ _ _ => 0, fun _ _ _ => 0⟩ := rfl
  have H10 : vH B (F1 0) = ⟨fun _ _ _ => 0, fun _ _ _ => 0, fun _ _ _ => 0⟩ := rfl
  have H20 : vH B (F2 0) = ⟨fun _ _ _ => 0, fun _ _ _ => 0, fun _ _ _ => 0⟩ := rfl
  refine ladder hdt
    (a := fun n m => dotE X Y Z (wmul (mE B g.eps) (vE B (F2 n))) (vE B (F1 m)))
    (s := fun n m => g.dt / 2 * dotE X Y Z (wmul (mE B g.sigma) (vE B (F2 n))) (vE B (F1 m)))
    (h := fun n m => dotH X Y Z (wmul (mH B g.mu) (vH B (F2 n))) (vH B (F1 m)))
    (c1 := fun n m => dotH X Y Z (curlE X Y Z (vE B (F2 n))) (vH B (F1 m)))
    (c2 := fun n m => dotH X Y Z (curlE X Y Z (vE B (F1 m))) (vH B (F2 n)))
    (j1 := fun n m => dotE X Y Z (vE B (F2 n)) (mE B (J1 m)))
    (j2 := fun n m => dotE X Y Z (vE B (F1 m)) (mE B (J2 n)))
    (k1 := fun n m => dotH X Y Z (vH B (F2 n)) (mH B (M1 m)))
    (k2 := fun n m => dotH X Y Z (vH B (F1 m)) (mH B (M2 n)))
    ?_ ?_ ?_ ?_ ?_ ?_ ?_ ?_ ?_ ?_ ?_ ?_ N
  · intro n q
    exact electric_tested hc m hm hge k1 s1 (setInputs (u1 q) (F1 q)) (F2 n) (f2 n)
  · intro n q
    have := electric_tested hc m hm hge k2 s2 (setInputs (u2 n) (F2 n)) (F1 q) (f1 q)
    rw [dotE_weight X Y Z _ (vE B (F2 (n+1))), dotE_weight X Y Z _ (vE B (F2 n)),
      dotE_weight X Y Z _ (vE B (F2 (n+1))), dotE_weight X Y Z _ (vE B (F2 n))]
    exact this
  · intro n q
    have := magnetic_tested hc m hm hge k2 s2 (setInputs (u2 n) (F2 n)) (F1 q)
    rw [dotH_comm X Y Z (vH B (F1 q)) (mH B (M2 n))]
    exact this
  · intro n q
    have := magnetic_tested hc m hm hge k1 s1 (setInputs (u1 q) (F1 q)) (F2 n)
    rw [dotH_comm X Y Z (vH B (F2 n)) (mH B (M1 q)), dotH_weight X Y Z _ (vH B (F2 n)),
      dotH_weight X Y Z _ (vH B (F2 n))]
    exact this
  · intro q; rw [F20]; exact zE _ _
  · intro n; rw [dotE_weight, F10]; exact zE _ _
  · intro q; rw [F20, zE]; simp
  · intro n; rw [dotE_weight, F10, zE]; simp
  · intro q; rw [H20]; exact zH _ _
  · intro n; rw [dotH_weight, H10]; exact zH _ _
  · intro q; rw [F20]; exact zc _
  · intro n; rw [F10]; exact zc _

/-! ### Energy supplied by the sources -/

/-- **C46.** Whatever the mesh, the media and the currents, the energy gained in a step is the work done by the
impressed currents (against the mean field of the step) minus the ohmic heat. -/
theorem energy_supplied (hc : Closed S C g) (l : List Src) (hl : CurrentsOnly l)
    (hs : ∀ n, n < l.length → C (.soft n) = 1) (u : ℕ → Loc → ℝ) (n : ℕ) :
    let F := (driven S l).state C u fun _ => 0
    let J := fun n => currentE l fun q => u n (.src false q)
    let M := fun n => currentH l fun q => u n (.src true q)
    leapEnergy g B (F (n+1)) (F (n+2)) = leapEnergy g B (F n) (F (n+1)) - heat g B (F (n+1)) (F (n+2)) -
      g.dt * ((reactionE g B (F (n+1)) (J (n+1)) + reactionE g B (F (n+2)) (J (n+1))) / 2 +
        (reactionH g B (F (n+1)) (M n) + reactionH g B (F (n+1)) (M (n+1))) / 2) := by
  intro F J M
  obtain ⟨m, hm, hge⟩ := exists_min hc
  let X := axisOf hc Axis.x (m Axis.x) (hm Axis.x) (hge Axis.x)
  let Y := axisOf hc Axis.y (m Axis.y) (hm Axis.y) (hge Axis.y)
  let Z := axisOf hc Axis.z (m Axis.z) (hm Axis.z) (hge Axis.z)
  have ff := free_run hc hl hs u
  have rE : ∀ (s : Loc → ℝ) J, reactionE g B s J = dotE X Y Z (vE B s) (mE B J) := by
    intro s J
    have := sumE_eq hc m hm hge (fun _ _ _ _ => 1) (fun fc i j k => s (.fld fc i j k)) J
    unfold reactionE
    simp only [one_mul] at this
    rw [this]
    unfold dotE wmul mE vE
    simp only [one_mul]
    rfl
  have rH : ∀ (s : Loc → ℝ) M, reactionH g B s M = dotH X Y Z (vH B s) (mH B M) := by
    intro s M
    have := sumH_eq hc m hm hge (fun _ _ _ _ => 1) (fun fc i j k => s (.fld fc i j k)) M
    unfold reactionH
    simp only [one_mul] at this
    rw [this]
    unfold dotH wmul mH vH
    simp only [one_mul]
    rfl
  have lE : ∀ s s' : Loc → ℝ, leapEnergy g B s s' =
      1 / 2 * dotE X Y Z (wmul (mE B g.eps) (vE B s')) (vE B s') + 1 / 2 * dotH X Y Z (wmul (mH B g.mu) (vH B s)) (vH B s') := by
    intro s s'
    have e1 := sumE_eq hc m hm hge g.eps (fun fc i j k => s' (.fld fc i j k)) (fun fc i j k => s' (.fld fc i j k))
    have e2 := sumH_eq hc m hm hge g.mu (fun fc i j k => s (.fld fc i j k)) (fun fc i j k => s' (.fld fc i j k))
    unfold leapEnergy
    simp only [pow_two]
    rw [e1, e2]
    rfl
  have lH : ∀ s s' : Loc → ℝ, 2 * heat g B s s' = g.dt / 2 *
      (dotE X Y Z (wmul (mE B g.sigma) (vE B s)) (vE B s) + dotE X Y Z (wmul (mE B g.sigma) (vE B s)) (vE B s') +
        (dotE X Y Z (wmul (mE B g.sigma) (vE B s')) (vE B s) + dotE X Y Z (wmul (mE B g.sigma) (vE B s')) (vE B s'))) := by
    intro s s'
    have e : ∀ a b : Loc → ℝ, dotE X Y Z (wmul (mE B g.sigma) (vE B a)) (vE B b) =
        sumE B (fun fc i j k => g.sigma fc i j k * g.vol fc i j k * (a (.fld fc i j k) * b (.fld fc i j k))) :=
      fun a b => (sumE_eq hc m hm hge g.sigma (fun fc i j k => a (.fld fc i j k)) (fun fc i j k => b (.fld fc i j k))).symm
    rw [e, e, e, e]
    unfold heat sumE boxSum
    have z : ∀ (p q r : Finset Int) (f1 f2 f3 f4 f5 : Int → Int → Int → ℝ),
        (∀ i j k, 4 * f5 i j k = f1 i j k + f2 i j k + (f3 i j k + f4 i j k)) →
        ∑ i ∈ p, ∑ j ∈ q, ∑ k ∈ r, f1 i j k + ∑ i ∈ p, ∑ j ∈ q, ∑ k ∈ r, f2 i j k +
        (∑ i ∈ p, ∑ j ∈ q, ∑ k ∈ r, f3 i j k + ∑ i ∈ p, ∑ j ∈ q, ∑ k ∈ r, f4 i j k) =
        4 * ∑ i ∈ p, ∑ j ∈ q, ∑ k ∈ r, f5 i j k := by
      intro p q r f1 f2 f3 f4 f5 h
      simp only [mul_sum, h, sum_add_distrib]
    have zx := z (Icc (B .xlo) (B .xhi - pos2 .ex .x 0)) (Icc (B .ylo) (B .yhi - pos2 .ex .y 0)) (Icc (B .zlo) (B .zhi - pos2 .ex .z 0))
      (fun i j k => g.sigma .ex i j k * g.vol .ex i j k * (s (.fld .ex i j k) * s (.fld .ex i j k)))
      (fun i j k => g.sigma .ex i j k * g.vol .ex i j k * (s (.fld .ex i j k) * s' (.fld .ex i j k)))
      (fun i j k => g.sigma .ex i j k * g.vol .ex i j k * (s' (.fld .ex i j k) * s (.fld .ex i j k)))
      (fun i j k => g.sigma .ex i j k * g.vol .ex i j k * (s' (.fld .ex i j k) * s' (.fld .ex i j k)))
      (fun i j k => g.sigma .ex i j k * g.vol .ex i j k * ((s (.fld .ex i j k) + s' (.fld .ex i j k)) / 2) ^ 2)
      (fun i j k => by ring)
    have zy := z (Icc (B .xlo) (B .xhi - pos2 .ey .x 0)) (Icc (B .ylo) (B .yhi - pos2 .ey .y 0)) (Icc (B .zlo) (B .zhi - pos2 .ey .z 0))
      (fun i j k => g.sigma .ey i j k * g.vol .ey i j k * (s (.fld .ey i j k) * s (.fld .ey i j k)))
      (fun i j k => g.sigma .ey i j k * g.vol .ey i j k * (s (.fld .ey i j k) * s' (.fld .ey i j k)))
      (fun i j k => g.sigma .ey i j k * g.vol .ey i j k * (s' (.fld .ey i j k) * s (.fld .ey i j k)))
      (fun i j k => g.sigma .ey i j k * g.vol .ey i j k * (s' (.fld .ey i j k) * s' (.fld .ey i j k)))
      (fun i j k => g.sigma .ey i j k * g.vol .ey i j k * ((s (.fld .ey i j k) + s' (.fld .ey i j k)) / 2) ^ 2)
      (fun i j k => by ring)
    have zz := z (Icc (B .xlo) (B .xhi - pos2 .ez .x 0)) (Icc (B .ylo) (B .yhi - pos2 .ez .y 0)) (Icc (B .zlo) (B .zhi - pos2 .ez .z 0))
      (fun i j k => g.sigma .ez i j k * g.vol .ez i j k * (s (.fld .ez i j k) * s (.fld .ez i j k)))
      (fun i j k => g.sigma .ez i j k * g.vol .ez i j k * (s (.fld .ez i j k) * s' (.fld .ez i j k)))
      (fun i j k => g.sigma .ez i j k * g.vol .ez i j k * (s' (.fld .ez i j k) * s (.fld .ez i j k)))
      (fun i j k => g.sigma .ez i j k * g.vol .ez i j k * (s' (.fld .ez i j k) * s' (.fld .ez i j k)))
      (fun i j k => g.sigma .ez i j k * g.vol .ez i j k * ((s (.fld .ez i j k) + s' (.fld .ez i j k)) / 2) ^ 2)
      (fun i j k => by ring)
    linear_combination -g.dt / 2 * (zx + zy + zz)
  have hh := lH (F (n+1)) (F (n+2))
  rw [lE, lE, rE, rE, rH, rH]
  have t1 := electric_tested hc m hm hge hl hs (setInputs (u (n+1)) (F (n+1))) (F (n+1)) (ff (n+1))
  have t2 := electric_tested hc m hm hge hl hs (setInputs (u (n+1)) (F (n+1))) (F (n+2)) (ff (n+2))
  have t3 := magnetic_tested hc m hm hge hl hs (setInputs (u n) (F n)) (F (n+1))
  have t4 := magnetic_tested hc m hm hge hl hs (setInputs (u (n+1)) (F (n+1))) (F (n+1))
  change dotE X Y Z (wmul (mE B g.eps) (vE B (F (n+1)))) (vE B (F (n+2))) - dotE X Y Z (wmul (mE B g.eps) (vE B (F (n+1)))) (vE B (F (n+1))) +
    (g.dt / 2 * dotE X Y Z (wmul (mE B g.sigma) (vE B (F (n+1)))) (vE B (F (n+2))) +
     g.dt / 2 * dotE X Y Z (wmul (mE B g.sigma) (vE B (F (n+1)))) (vE B (F (n+1)))) =
    g.dt * (dotH X Y Z (curlE X Y Z (vE B (F (n+1)))) (vH B (F (n+1))) - dotE X Y Z (vE B (F (n+1))) (mE B (J (n+1)))) at t1
  change dotE X Y Z (wmul (mE B g.eps) (vE B (F (n+2)))) (vE B (F (n+2))) - dotE X Y Z (wmul (mE B g.eps) (vE B (F (n+2)))) (vE B (F (n+1))) +
    (g.dt / 2 * dotE X Y Z (wmul (mE B g.sigma) (vE B (F (n+2)))) (vE B (F (n+2))) +
     g.dt / 2 * dotE X Y Z (wmul (mE B g.sigma) (vE B (F (n+2)))) (vE B (F (n+1)))) =
    g.dt * (dotH X Y Z (curlE X Y Z (vE B (F (n+2)))) (vH B (F (n+1))) - dotE X Y Z (vE B (F (n+2))) (mE B (J (n+1)))) at t2
  change dotH X Y Z (wmul (mH B g.mu) (vH B (F (n+1)))) (vH B (F (n+1))) - dotH X Y Z (wmul (mH B g.mu) (vH B (F n))) (vH B (F (n+1))) =
    - g.dt * (dotH X Y Z (curlE X Y Z (vE B (F (n+1)))) (vH B (F (n+1))) + dotH X Y Z (mH B (M n)) (vH B (F (n+1)))) at t3
  change dotH X Y Z (wmul (mH B g.mu) (vH B (F (n+2)))) (vH B (F (n+1))) - dotH X Y Z (wmul (mH B g.mu) (vH B (F (n+1)))) (vH B (F (n+1))) =
    - g.dt * (dotH X Y Z (curlE X Y Z (vE B (F (n+2)))) (vH B (F (n+1))) + dotH X Y Z (mH B (M (n+1))) (vH B (F (n+1)))) at t4
  rw [dotE_weight X Y Z (mE B g.eps) (vE B (F (n+2))) (vE B (F (n+1))), dotE_weight X Y Z (mE B g.sigma) (vE B (F (n+2))) (vE B (F (n+1)))] at t2
  rw [dotE_weight X Y Z (mE B g.sigma) (vE B (F (n+2))) (vE B (F (n+1)))] at hh
  rw [dotH_weight X Y Z _ (vH B (F (n+2))) (vH B (F (n+1))), dotH_comm X Y Z (mH B (M (n+1)))] at t4
  rw [dotH_comm X Y Z (mH B (M n))] at t3
  linear_combination (1/2) * (t1 + t2 + t3 + t4 + hh)

/-! ### Exchanging source and observer -/

theorem currentE_edge {b : BBox} {x : Src} {fc : Fc} {i j k : Int} (h : OnEdge b x fc i j k) (v : ℕ → ℝ)
    (fc' : Fc) (i' j' k' : Int) :
    currentE [x] v fc' i' j' k' = if fc' = fc ∧ i' = i ∧ j' = j ∧ k' = k then v 0 else 0 := by
  unfold currentE
  simp only [List.zipIdx_cons, List.zipIdx_nil, List.map_cons, List.map_nil, List.sum_cons, List.sum_nil, add_zero]
  refine if_congr ?_ rfl rfl
  rw [h.field]
  constructor
  · rintro ⟨_, rfl, h3⟩; exact ⟨rfl, (h.only _ _ _).1 h3⟩
  · rintro ⟨rfl, h3⟩; exact ⟨h.kind, rfl, (h.only _ _ _).2 h3⟩

theorem boxSum_single {b : BBox} {fc : Fc} {i j k : Int} (h : SampleIn b fc i j k) (v : ℝ) :
    boxSum b fc (fun i' j' k' => if i' = i ∧ j' = j ∧ k' = k then v else 0) = v := by
  obtain ⟨h1, h2, h3⟩ := h
  unfold boxSum
  have m1 : i ∈ Icc (b .xlo) (b .xhi - pos2 fc .x 0) := by
    rw [mem_Icc]; cases fc <;> simp only [pos2] at * <;> omega
  have m2 : j ∈ Icc (b .ylo) (b .yhi - pos2 fc .y 0) := by
    rw [mem_Icc]; cases fc <;> simp only [pos2] at * <;> omega
  have m3 : k ∈ Icc (b .zlo) (b .zhi - pos2 fc .z 0) := by
    rw [mem_Icc]; cases fc <;> simp only [pos2] at * <;> omega
  rw [sum_eq_single i, sum_eq_single j, sum_eq_single k]
  · simp
  · intro k' _ hk; exact if_neg (by tauto)
  · intro hk; exact absurd m3 hk
  · intro j' _ hj; exact sum_eq_zero fun k' _ => if_neg (by tauto)
  · intro hj; exact absurd m2 hj
  · intro i' _ hi; exact sum_eq_zero fun j' _ => sum_eq_zero fun k' _ => if_neg (by tauto)
  · intro hi; exact absurd m1 hi

theorem boxSum_zero (b : BBox) (fc : Fc) : boxSum b fc (fun _ _ _ => 0) = 0 := by simp [boxSum]

theorem reaction_edge {b : BBox} {x : Src} {fc : Fc} {i j k : Int} (h : OnEdge b x fc i j k) (v : ℕ → ℝ)
    (s : Loc → ℝ) : reactionE g b s (currentE [x] v) = g.vol fc i j k * (s (.fld fc i j k) * v 0) := by
  have e : (fun fc' i' j' k' => g.vol fc' i' j' k' * (s (.fld fc' i' j' k') * currentE [x] v fc' i' j' k')) =
      fun fc' i' j' k' => if fc' = fc then (if i' = i ∧ j' = j ∧ k' = k then g.vol fc i j k * (s (.fld fc i j k) * v 0) else 0) else 0 := by
    funext fc' i' j' k'
    rw [currentE_edge h]
    by_cases h1 : fc' = fc
    · by_cases h2 : i' = i ∧ j' = j ∧ k' = k
      · obtain ⟨rfl, rfl, rfl⟩ := h2; subst h1; simp
      · rw [if_neg (by tauto), if_pos h1, if_neg h2]; ring
    · rw [if_neg (by tauto), if_neg h1]; ring
  unfold reactionE
  rw [e]
  unfold sumE
  have hb := boxSum_single h.inside (g.vol fc i j k * (s (.fld fc i j k) * v 0))
  have hE := h.electric
  cases fc <;> simp [Fc.isE] at hE <;> simp [boxSum_zero, hb]

theorem vol_edge {fc : Fc} (h : fc.isE = true) (i j k : Int) :
    g.vol fc i j k = g.edgeLength fc i j k * g.dualArea fc i j k := by
  cases fc <;> simp [Fc.isE] at h <;>
    simp [Filling.vol, Filling.len, Filling.edgeLength, Filling.dualArea, pos2] <;> ring

/-- **C45.** Exchange of source and observer: the same current, first through one edge and then through another,
gives the same voltage along the other edge, in every step. -/
theorem exchange (hc : Closed S C g) (hdt : g.dt ≠ 0) (hs : C (.soft 0) = 1) {x1 x2 : Src} {fc1 fc2 : Fc}
    {i1 j1 k1 i2 j2 k2 : Int} (h1 : OnEdge B x1 fc1 i1 j1 k1) (h2 : OnEdge B x2 fc2 i2 j2 k2)
    (I : ℕ → ℝ) (hI : ∃ n, I n ≠ 0) (u1 u2 : ℕ → Loc → ℝ)
    (d1 : ∀ n, u1 n (.src false 0) * g.dualArea fc1 i1 j1 k1 = I n)
    (d2 : ∀ n, u2 n (.src false 0) * g.dualArea fc2 i2 j2 k2 = I n) (n : ℕ) :
    (driven S [x1]).state C u1 (fun _ => 0) n (.fld fc2 i2 j2 k2) * g.edgeLength fc2 i2 j2 k2 =
    (driven S [x2]).state C u2 (fun _ => 0) n (.fld fc1 i1 j1 k1) * g.edgeLength fc1 i1 j1 k1 := by
  have c1 : CurrentsOnly [x1] := by
    intro x hx; rw [List.mem_singleton] at hx; subst hx
    exact Or.inl ⟨h1.kind, by rw [h1.field]; exact h1.electric⟩
  have c2 : CurrentsOnly [x2] := by
    intro x hx; rw [List.mem_singleton] at hx; subst hx
    exact Or.inl ⟨h2.kind, by rw [h2.field]; exact h2.electric⟩
  have hs' : ∀ x : Src, ∀ n, n < [x].length → C (.soft n) = 1 := by
    intro x n hn
    have : n = 0 := by simpa using hn
    rw [this]; exact hs
  have noM : ∀ {x : Src}, x.kind = .ecurr → ∀ (v : ℕ → ℝ) fc i j k, currentH [x] v fc i j k = 0 := by
    intro x hx v fc i j k
    simp [currentH, hx]
  have zH : ∀ {x : Src}, x.kind = .ecurr → ∀ (v : ℕ → ℝ) (s : Loc → ℝ), reactionH g B s (currentH [x] v) = 0 := by
    intro x hx v s
    unfold reactionH sumH
    simp [noM hx, boxSum_zero]
  have key := cancel (w := I)
    (x := fun n => (driven S [x1]).state C u1 (fun _ => 0) n (.fld fc2 i2 j2 k2) * g.edgeLength fc2 i2 j2 k2)
    (y := fun n => (driven S [x2]).state C u2 (fun _ => 0) n (.fld fc1 i1 j1 k1) * g.edgeLength fc1 i1 j1 k1) hI ?_
  · exact congrFun key n
  · intro N
    cases N with
    | zero => simp [Sim.state]
    | succ N =>
      have r := reciprocity hc hdt [x1] [x2] c1 c2 (hs' x1) (hs' x2) u1 u2 N
      simp only [zH h1.kind, zH h2.kind, sum_const_zero, add_zero] at r
      simp only [reaction_edge h1, reaction_edge h2, vol_edge h1.electric, vol_edge h2.electric] at r
      rw [← Finset.Nat.sum_antidiagonal_swap] at r
      have q1 : ∑ p ∈ antidiagonal (N+1), I p.1 * ((driven S [x1]).state C u1 (fun _ => 0) p.2 (.fld fc2 i2 j2 k2) * g.edgeLength fc2 i2 j2 k2) =
          ∑ p ∈ antidiagonal (N+1), g.edgeLength fc2 i2 j2 k2 * g.dualArea fc2 i2 j2 k2 *
            ((driven S [x1]).state C u1 (fun _ => 0) p.2 (.fld fc2 i2 j2 k2) * u2 p.1 (.src false 0)) :=
        sum_congr rfl fun p _ => by rw [← d2]; ring
      have q2 : ∑ p ∈ antidiagonal (N+1), I p.1 * ((driven S [x2]).state C u2 (fun _ => 0) p.2 (.fld fc1 i1 j1 k1) * g.edgeLength fc1 i1 j1 k1) =
          ∑ p ∈ antidiagonal (N+1), g.edgeLength fc1 i1 j1 k1 * g.dualArea fc1 i1 j1 k1 *
            ((driven S [x2]).state C u2 (fun _ => 0) p.2 (.fld fc1 i1 j1 k1) * u1 p.1 (.src false 0)) :=
        sum_congr rfl fun p _ => by rw [← d1]; ring
      rw [q1, q2]
      simpa using r.symm

end

/-! ### A concrete pair of experiments -/

/-- A current along z on one edge and a current along x on another, in the 3 by 2 by 2 box of C17. -/
def exOne : Src := ⟨.ecurr, .ez, mkBox (C17.exCfg.gibox .xlo + 1) (C17.exCfg.gibox .xlo + 1) (C17.exCfg.gibox .ylo + 1)
  (C17.exCfg.gibox .ylo + 1) (C17.exCfg.gibox .zlo) (C17.exCfg.gibox .zlo + 1)⟩
def exTwo : Src := ⟨.ecurr, .ex, mkBox (C17.exCfg.gibox .xlo + 2) (C17.exCfg.gibox .xlo + 3) (C17.exCfg.gibox .ylo + 1)
  (C17.exCfg.gibox .ylo + 1) (C17.exCfg.gibox .zlo + 1) (C17.exCfg.gibox .zlo + 1)⟩

example : OnEdge C17.exSim.cfg.gibox exOne .ez (C17.exCfg.gibox .xlo + 1) (C17.exCfg.gibox .ylo + 1) (C17.exCfg.gibox .zlo) where
  kind := rfl
  field := rfl
  electric := rfl
  inside := by unfold SampleIn; decide
  only i j k := by unfold SampleIn exOne; simp only [pos2, mkBox]; omega
example : OnEdge C17.exSim.cfg.gibox exTwo .ex (C17.exCfg.gibox .xlo + 2) (C17.exCfg.gibox .ylo + 1) (C17.exCfg.gibox .zlo + 1) where
  kind := rfl
  field := rfl
  electric := rfl
  inside := by unfold SampleIn; decide
  only i j k := by unfold SampleIn exTwo; simp only [pos2, mkBox]; omega
example : CurrentsOnly [exOne, exTwo] := by intro x hx; simp [exOne, exTwo] at hx; rcases hx with rfl | rfl <;> simp [Fc.isE]

/-- The same coefficients with every source soft. -/
def soften (C : CRef → ℝ) : CRef → ℝ
  | .soft _ => 1
  | r => C r

theorem closed_soften {S : Sim} {C : CRef → ℝ} {g : Filling} (h : Closed S C g) : Closed S (soften C) g :=
  ⟨h.cfg, h.pec, h.debye, h.sibc, h.srcs, h.pws, h.de_pos, h.dh_pos, h.dh_mean, h.ide, h.idh, h.wall, h.electric, h.magnetic⟩

end Vulture.C45
