import Verif.Lemmas.Unbounded
import Verif.Spec.Walls
import Verif.Props.C45_Reciprocity
import Verif.Props.C21_Ghosts
/-
C49: outer walls are mirrors. A run in a box with conducting, magnetic and periodic walls is the run in unbounded space filled
with the images of the box and its sources.
-/
set_option linter.unusedSimpArgs false
set_option linter.unusedVariables false
namespace Vulture.C49
open Spec Unbounded

section
variable {S : Sim} {C : CRef → ℝ} {X : Space} {o : Axis → Int} (hc : CutOut S C X o)
include hc

theorem stepE_box {fc : Fc} (hf : fc.isE = true) {i j k : Int} (hi : SampleIn S.cfg.gibox fc i j k) (s : Loc → ℝ) :
    S.step.run C s (.fld fc i j k) = (ampere fc i j k).eval C s -
      C (.beta fc i j k) * currentE S.srcs (fun n => s (.src false n)) fc i j k := by
  unfold Sim.step
  rw [run_append, NoWrite.run C (noE_stepH hf i j k S)]
  have e : S.stepE = (updatePmlEfield S.cfg ++ updateMurEfield S.cfg ++ updateGridEfield S.cfg) ++
      (updateSourcesE S.srcs ++ updateGhostEfield S.cfg) := by
    simp [Sim.stepE, hc.debye, hc.sibc, hc.pws, updateDebye, updateSibcE, updatePlaneWavesE]
  have coreE := ((inputSafe_pmlE S.cfg).append (inputSafe_murE S.cfg)).append (inputSafe_gridE S.cfg)
  rw [e, run_append, run_append, NoWrite.run C (noWrite_ghostE hc.cfg (sampleIn_mono (gibox_within hc.cfg) hi)),
    C45.all_srcE C hc.currents hc.soft hf, electric_value C hc.cfg hf]
  · have : ∀ n, Prog.run C (updatePmlEfield S.cfg ++ updateMurEfield S.cfg ++ updateGridEfield S.cfg) s (.src false n) =
      s (.src false n) := fun n => NoWrite.run C (coreE _ rfl) s
    simp only [this]
  · obtain ⟨h1, h2, h3⟩ := hi
    have hm : ∀ f, S.cfg.bt f ≠ .mur ∧ S.cfg.bt f ≠ .pml := by
      intro f; rcases hc.walls f with e | e | e <;> rw [e] <;> decide
    cases fc <;> simp only [pos2] at h1 h2 h3 <;>
      simp [InLim, Cfg.gfilim, setFieldLimits, Face.isLo, fieldIsInBoundary, hm] <;> omega

theorem stepH_box {fc : Fc} (hf : fc.isE = false) {i j k : Int} (hi : SampleIn S.cfg.gibox fc i j k) (s : Loc → ℝ) :
    S.step.run C s (.fld fc i j k) = (faraday fc i j k).eval C (S.stepE.run C s) -
      C (.gamma fc i j k) * currentH S.srcs (fun n => s (.src true n)) fc i j k := by
  unfold Sim.step
  rw [run_append]
  have e : S.stepH = (updatePmlHfield S.cfg ++ updateMurHfield S.cfg ++ updateGridHfield S.cfg) ++
      (updateSourcesH S.srcs ++ updateGhostHfield S.cfg) := by
    simp [Sim.stepH, hc.sibc, hc.pws, updateSibcH, updatePlaneWavesH]
  have coreH := ((inputSafe_pmlH S.cfg).append (inputSafe_murH S.cfg)).append (inputSafe_gridH S.cfg)
  rw [e, run_append, run_append, NoWrite.run C (noWrite_ghostH hc.cfg (sampleIn_mono (gibox_within hc.cfg) hi)),
    C45.all_srcH C hc.currents hc.soft hf, magnetic_value C hc.cfg hf hi]
  have h1 : ∀ n, Prog.run C (updatePmlHfield S.cfg ++ updateMurHfield S.cfg ++ updateGridHfield S.cfg)
      (S.stepE.run C s) (.src true n) = s (.src true n) := fun n => by
    rw [NoWrite.run C (coreH _ rfl), NoWrite.run C (C27.stepE_keeps_input S rfl)]
  simp only [h1]

theorem no_layers (f : Face) : S.cfg.gobox f = S.cfg.gibox f := by
  have h := hc.cfg.other f (by rcases hc.walls f with e | e | e <;> rw [e] <;> decide)
  have := C07.inner_offset S.cfg f.axis
  cases f <;> simp only [Face.axis, Axis.lo, Axis.hi] at this <;> omega

/-- The model's fields agree with the fields of space on the samples of the box. -/
def Agree (S : Sim) (o : Axis → Int) (s : Loc → ℝ) (F : Field) : Prop :=
  (∀ a q, InE S.cfg a q → at3 s a.e q = F.E a (into o q)) ∧ ∀ a q, InH S.cfg a q → at3 s a.h q = F.H a (into o q)

/-- Magnetic samples half a cell outside a wall. -/
theorem ghost_agrees {s : Loc → ℝ} {F : Field} (hg : C21.WallGhosts S.cfg s) (h : Agree S o s F)
    (hm : ∀ f w, wallOf (S.cfg.bt f) = some w → SymmetricH w f.axis (S.cfg.gibox f + o f.axis) F.H)
    (hr : ∀ f, S.cfg.bt f = .periodic → Repeats f.axis (S.cfg.n f.axis) F.H)
    (a : Axis) (q : Axis → Int) (f : Face) (hq : HalfOutside S.cfg.gibox f a.h q)
    (hin : ∀ b, b ≠ f.axis → 2 * S.cfg.gibox b.lo ≤ pos2 a.h b (q b) ∧ pos2 a.h b (q b) ≤ 2 * S.cfg.gibox b.hi) :
    at3 s a.h q = F.H a (into o q) := by
  have gb : S.cfg.gobox = S.cfg.gibox := funext (no_layers hc)
  have hd : ∀ b, S.cfg.gibox b.lo + 1 ≤ S.cfg.gibox b.hi ∧ S.cfg.gibox b.hi - S.cfg.gibox b.lo = S.cfg.n b := fun b =>
    ⟨(cfg_facts hc.cfg b).2.2.1, (C07.inner_offset S.cfg b).2.2.1⟩
  have hext : OnExtendedGrid S.cfg.gobox f q := by
    intro b hb
    have := hin b hb
    rw [gb]
    cases a <;> cases b <;> simp only [pos2, Axis.h] at this ⊢ <;> omega
  have had : a ≠ f.axis := by
    rintro rfl
    unfold HalfOutside place at hq
    cases f <;> simp [pos2, Face.axis, Face.isLo, Axis.h] at hq <;> omega
  have hq' : HalfOutside S.cfg.gobox f a.h q := by rw [gb]; exact hq
  have half : ∀ i, pos2 a.h f.axis i = 2 * i + 1 := by
    intro i; cases a <;> cases f <;> first | exact absurd rfl had | rfl
  have inH : ∀ r : Axis → Int, (∀ b, 2 * S.cfg.gibox b.lo ≤ pos2 a.h b (r b) ∧ pos2 a.h b (r b) ≤ 2 * S.cfg.gibox b.hi) →
      InH S.cfg a r := fun r h => ⟨h .x, h .y, h .z⟩
  have hqf : q f.axis = if f.isLo then S.cfg.gibox f - 1 else S.cfg.gibox f := by
    unfold HalfOutside place at hq
    rw [half] at hq
    split at hq <;> rename_i hl <;> simp only [hl] <;> simp <;> omega
  have hface : (f.isLo = true ∧ S.cfg.gibox f = S.cfg.gibox f.axis.lo) ∨ (f.isLo = false ∧ S.cfg.gibox f = S.cfg.gibox f.axis.hi) := by
    cases f <;> simp [Face.isLo, Face.axis, Axis.lo, Axis.hi]
  have hdf := hd f.axis
  -- the image in a mirror
  have hmirror : ∀ w, wallOf (S.cfg.bt f) = some w → at3 s a.h (mirror true f.axis (S.cfg.gibox f) q) = w.signH f.axis a * F.H a (into o q) ∧
      MirrorImage S.cfg.gobox f a.h q (mirror true f.axis (S.cfg.gibox f) q) := by
    intro w hw
    have h1 : InH S.cfg a (mirror true f.axis (S.cfg.gibox f) q) := by
      refine inH _ fun b => ?_
      by_cases hb : b = f.axis
      · subst hb
        rw [half, mirror_self]
        simp only [mirrorIndex, if_true]
        rcases hface with ⟨e1, e2⟩ | ⟨e1, e2⟩ <;> rw [e1] at hqf <;> simp at hqf <;> omega
      · rw [mirror_ne hb]; exact hin b hb
    refine ⟨?_, ?_, fun b hb => ?_⟩
    · rw [h.2 a _ h1]
      have e1 := hm f w hw a (into o q)
      have e2 : imageH f.axis (S.cfg.gibox f + o f.axis) a (into o q) = into o (mirror true f.axis (S.cfg.gibox f) q) := by
        funext b
        simp only [imageH, mirror, into, had, ne_eq, not_false_eq_true, decide_true, mirrorIndex, if_true]
        split
        · rename_i hb; subst hb; omega
        · rfl
      rw [e2] at e1
      exact e1
    · unfold place
      rw [half, half, mirror_self, gb]
      simp only [mirrorIndex, if_true]; omega
    · unfold place; rw [mirror_ne hb]
  rcases hc.walls f with e | e | e
  · obtain ⟨h1, h2⟩ := hmirror .electric (by rw [e]; rfl)
    have := hg.pec f e a.h q _ hq' hext h2
    change at3 s a.h q = at3 s a.h _ at this
    rw [this, h1]; simp [Wall.signH, had]
  · obtain ⟨h1, h2⟩ := hmirror .magnetic (by rw [e]; rfl)
    have := hg.pmc f e a.h q _ hq' hext h2
    change at3 s a.h q = - at3 s a.h _ at this
    rw [this, h1]; simp [Wall.signH, had]
  · have key : ∀ N : Int, (N = S.cfg.n f.axis ∧ f.isLo = true ∨ N = - S.cfg.n f.axis ∧ f.isLo = false) →
        at3 s a.h q = at3 s a.h (shifted f.axis N q) ∧ InH S.cfg a (shifted f.axis N q) := by
      intro N hN
      have := hg.periodic f e a.h q (shifted f.axis N q) hq' hext ⟨?_, fun b hb => ?_⟩
      · refine ⟨this, inH _ fun b => ?_⟩
        by_cases hb : b = f.axis
        · subst hb
          rw [half]
          simp only [shifted, if_true]
          rcases hface with ⟨e1, e2⟩ | ⟨e1, e2⟩ <;> rw [e1] at hqf hN <;> simp at hqf hN <;> omega
        · simp only [shifted, if_neg hb]; exact hin b hb
      · unfold place
        rw [half, half, gb]
        simp only [shifted, if_true]
        rcases hN with ⟨e1, e2⟩ | ⟨e1, e2⟩ <;> rw [e2] <;> simp <;> omega
      · unfold place; simp only [shifted, if_neg hb]
    have hrep := hr f e a
    cases hl : f.isLo
    · obtain ⟨h1, h2⟩ := key (- S.cfg.n f.axis) (Or.inr ⟨rfl, hl⟩)
      rw [h1, h.2 a _ h2, ← hrep]
      congr 1
      funext b; simp only [shifted, into]; split <;> omega
    · obtain ⟨h1, h2⟩ := key (S.cfg.n f.axis) (Or.inl ⟨rfl, hl⟩)
      rw [h1, h.2 a _ h2, ← hrep (into o q)]
      congr 1
      funext b; simp only [shifted, into]; split <;> omega

/-- Tangential electric fields of symmetric fields vanish on conducting walls. -/
theorem odd_zero {F : Field} (hm : ∀ f w, wallOf (S.cfg.bt f) = some w → SymmetricE w f.axis (S.cfg.gibox f + o f.axis) F.E)
    {a : Axis} {q : Axis → Int} (h : OnConductor S.cfg a q) : F.E a (into o q) = 0 := by
  obtain ⟨f, hf, ha, hq⟩ := h
  have e1 := hm f .electric (by rw [hf]; rfl) a (into o q)
  have e2 : imageE f.axis (S.cfg.gibox f + o f.axis) a (into o q) = into o q := by
    funext b
    simp only [imageE, mirror, into, ha.symm, decide_false, mirrorIndex, Bool.false_eq_true, if_false]
    split
    · rename_i hb; subst hb; omega
    · rfl
  rw [e2] at e1
  simp only [Wall.signE, if_neg ha.symm] at e1
  linarith

/-- Ampere's law of the program at a sample of the box. -/
theorem ampere_box (s : Loc → ℝ) {a : Axis} {q : Axis → Int} (hq : InE S.cfg a q) :
    (ampere a.e (q .x) (q .y) (q .z)).eval C s = coef C .alpha a.e q * at3 s a.e q +
      coef C .beta a.e q * curlH (fun b i => X.dh b (i + o b)) (fun b q => at3 s b.h q) a q := by
  obtain ⟨⟨h1, h2⟩, ⟨h3, h4⟩, h5, h6⟩ := hq
  cases a <;> simp only [Axis.e, pos2] at h1 h2 h3 h4 h5 h6
  · have e1 := hc.idh .y (q .y) (by simp only [Axis.lo]; omega) (by simp only [Axis.hi]; omega)
    have e2 := hc.idh .z (q .z) (by simp only [Axis.lo]; omega) (by simp only [Axis.hi]; omega)
    simp [ampere, ampereX, Expr.eval, curlHx, EX, HY, HZ, coef, at3, curlH, Axis.next, Axis.e, Axis.h, back, e1, e2]
    first | ring1 | (left; ring1) | (right; ring1)
  · have e1 := hc.idh .z (q .z) (by simp only [Axis.lo]; omega) (by simp only [Axis.hi]; omega)
    have e2 := hc.idh .x (q .x) (by simp only [Axis.lo]; omega) (by simp only [Axis.hi]; omega)
    simp [ampere, ampereY, Expr.eval, curlHy, EY, HX, HZ, coef, at3, curlH, Axis.next, Axis.e, Axis.h, back, e1, e2]
    first | ring1 | (left; ring1) | (right; ring1)
  · have e1 := hc.idh .x (q .x) (by simp only [Axis.lo]; omega) (by simp only [Axis.hi]; omega)
    have e2 := hc.idh .y (q .y) (by simp only [Axis.lo]; omega) (by simp only [Axis.hi]; omega)
    simp [ampere, ampereZ, Expr.eval, curlHz, EZ, HX, HY, coef, at3, curlH, Axis.next, Axis.e, Axis.h, back, e1, e2]
    first | ring1 | (left; ring1) | (right; ring1)

/-- Faraday's law of the program at a sample of the box. -/
theorem faraday_box (s : Loc → ℝ) {a : Axis} {q : Axis → Int} (hq : InH S.cfg a q) :
    (faraday a.h (q .x) (q .y) (q .z)).eval C s = at3 s a.h q -
      coef C .gamma a.h q * curlE (fun b i => X.de b (i + o b)) (fun b q => at3 s b.e q) a q := by
  obtain ⟨⟨h1, h2⟩, ⟨h3, h4⟩, h5, h6⟩ := hq
  cases a <;> simp only [Axis.h, pos2] at h1 h2 h3 h4 h5 h6
  · have e1 := hc.ide .y (q .y) (by simp only [Axis.lo]; omega) (by simp only [Axis.hi]; omega)
    have e2 := hc.ide .z (q .z) (by simp only [Axis.lo]; omega) (by simp only [Axis.hi]; omega)
    simp [faraday, faradayX, Expr.eval, curlEx, HX, EY, EZ, coef, at3, curlE, Axis.next, Axis.e, Axis.h, ahead, e1, e2]
    first | ring1 | (left; ring1) | (right; ring1)
  · have e1 := hc.ide .z (q .z) (by simp only [Axis.lo]; omega) (by simp only [Axis.hi]; omega)
    have e2 := hc.ide .x (q .x) (by simp only [Axis.lo]; omega) (by simp only [Axis.hi]; omega)
    simp [faraday, faradayY, Expr.eval, curlEy, HY, EX, EZ, coef, at3, curlE, Axis.next, Axis.e, Axis.h, ahead, e1, e2]
    first | ring1 | (left; ring1) | (right; ring1)
  · have e1 := hc.ide .x (q .x) (by simp only [Axis.lo]; omega) (by simp only [Axis.hi]; omega)
    have e2 := hc.ide .y (q .y) (by simp only [Axis.lo]; omega) (by simp only [Axis.hi]; omega)
    simp [faraday, faradayZ, Expr.eval, curlEz, HZ, EX, EY, coef, at3, curlE, Axis.next, Axis.e, Axis.h, ahead, e1, e2]
    first | ring1 | (left; ring1) | (right; ring1)

omit hc in
theorem into_back (o q : Axis → Int) (b : Axis) : into o (back q b) = back (into o q) b := by
  funext x; simp only [into, back]; split <;> omega
omit hc in
theorem into_ahead (o q : Axis → Int) (b : Axis) : into o (ahead q b) = ahead (into o q) b := by
  funext x; simp only [into, ahead]; split <;> omega

/-- The four magnetic samples around an electric sample of the box. -/
theorem around_agrees {s : Loc → ℝ} {F : Field} (hg : C21.WallGhosts S.cfg s) (h : Agree S o s F)
    (hm : ∀ f w, wallOf (S.cfg.bt f) = some w → SymmetricH w f.axis (S.cfg.gibox f + o f.axis) F.H)
    (hr : ∀ f, S.cfg.bt f = .periodic → Repeats f.axis (S.cfg.n f.axis) F.H)
    {a b c : Axis} (hab : b ≠ a) (hbc : c ≠ b) (hac : c ≠ a) {q : Axis → Int} (hq : InE S.cfg a q) :
    at3 s c.h q = F.H c (into o q) ∧ at3 s c.h (back q b) = F.H c (back (into o q) b) := by
  have pe : ∀ x, 2 * S.cfg.gibox x.lo ≤ pos2 a.e x (q x) ∧ pos2 a.e x (q x) ≤ 2 * S.cfg.gibox x.hi := by
    obtain ⟨h1, h2, h3⟩ := hq
    intro x; cases x; exacts [h1, h2, h3]
  have p1 : ∀ i, pos2 c.h c i = 2 * i ∧ pos2 c.h a i = 2 * i + 1 ∧ pos2 c.h b i = 2 * i + 1 ∧ pos2 a.e a i = 2 * i + 1 ∧
      pos2 a.e b i = 2 * i ∧ pos2 a.e c i = 2 * i := by
    intro i
    cases a <;> cases b <;> cases c <;> first | exact absurd rfl hab | exact absurd rfl hbc | exact absurd rfl hac | simp [pos2, Axis.e, Axis.h]
  have p2 : ∀ x, x = a ∨ x = b ∨ x = c := by
    intro x; cases a <;> cases b <;> cases c <;> first | exact absurd rfl hab | exact absurd rfl hbc | exact absurd rfl hac | (cases x <;> simp)
  have qa := pe a; have qb := pe b; have qc := pe c
  simp only [p1] at qa qb qc
  have lo : b.lo.axis = b ∧ b.lo.isLo = true := by cases b <;> exact ⟨rfl, rfl⟩
  have hi : b.hi.axis = b ∧ b.hi.isLo = false := by cases b <;> exact ⟨rfl, rfl⟩
  constructor
  · by_cases e : q b = S.cfg.gibox b.hi
    · refine ghost_agrees hc hg h hm hr c q b.hi ?_ fun x hx => ?_
      · unfold HalfOutside place; rw [hi.1, hi.2, (p1 _).2.2.1]; simp; omega
      · rw [hi.1] at hx
        rcases p2 x with rfl | rfl | rfl
        · rw [(p1 _).2.1]; omega
        · exact absurd rfl hx
        · rw [(p1 _).1]; omega
    · refine h.2 c q ?_
      have : ∀ x, 2 * S.cfg.gibox x.lo ≤ pos2 c.h x (q x) ∧ pos2 c.h x (q x) ≤ 2 * S.cfg.gibox x.hi := by
        intro x
        rcases p2 x with rfl | rfl | rfl
        · rw [(p1 _).2.1]; omega
        · rw [(p1 _).2.2.1]; omega
        · rw [(p1 _).1]; omega
      exact ⟨this .x, this .y, this .z⟩
  · rw [← into_back]
    have kb : back q b b = q b - 1 := by simp [back]
    have ka : back q b a = q a := by simp [back, hab.symm]
    have kc : back q b c = q c := by simp [back, hbc]
    by_cases e : q b = S.cfg.gibox b.lo
    · refine ghost_agrees hc hg h hm hr c (back q b) b.lo ?_ fun x hx => ?_
      · unfold HalfOutside place; rw [lo.1, lo.2, (p1 _).2.2.1, kb]; simp; omega
      · rw [lo.1] at hx
        rcases p2 x with rfl | rfl | rfl
        · rw [(p1 _).2.1, ka]; omega
        · exact absurd rfl hx
        · rw [(p1 _).1, kc]; omega
    · refine h.2 c _ ?_
      have : ∀ x, 2 * S.cfg.gibox x.lo ≤ pos2 c.h x (back q b x) ∧ pos2 c.h x (back q b x) ≤ 2 * S.cfg.gibox x.hi := by
        intro x
        rcases p2 x with rfl | rfl | rfl
        · rw [(p1 _).2.1, ka]; omega
        · rw [(p1 _).2.2.1, kb]; omega
        · rw [(p1 _).1, kc]; omega
      exact ⟨this .x, this .y, this .z⟩

/-- One step. -/
theorem step_agrees {s : Loc → ℝ} {F : Field} {J M : Comp} (hg : C21.WallGhosts S.cfg s) (h : Agree S o s F)
    (mE : ∀ f w, wallOf (S.cfg.bt f) = some w → SymmetricE w f.axis (S.cfg.gibox f + o f.axis) F.E)
    (mH : ∀ f w, wallOf (S.cfg.bt f) = some w → SymmetricH w f.axis (S.cfg.gibox f + o f.axis) F.H)
    (mE' : ∀ f w, wallOf (S.cfg.bt f) = some w → SymmetricE w f.axis (S.cfg.gibox f + o f.axis) (X.step J M F).E)
    (hr : ∀ f, S.cfg.bt f = .periodic → Repeats f.axis (S.cfg.n f.axis) F.H)
    (hJ : ∀ a q, InE S.cfg a q → ¬ OnConductor S.cfg a q →
      J a (into o q) = currentE S.srcs (fun m => s (.src false m)) a.e (q .x) (q .y) (q .z))
    (hM : ∀ a q, InH S.cfg a q →
      M a (into o q) = currentH S.srcs (fun m => s (.src true m)) a.h (q .x) (q .y) (q .z)) :
    Agree S o (S.step.run C s) (X.step J M F) := by
  have n1 : ∀ a : Axis, a.next ≠ a := by decide
  have n2 : ∀ a : Axis, a.next.next ≠ a := by decide
  have n3 : ∀ a : Axis, a.next.next ≠ a.next := by decide
  have isE : ∀ a : Axis, a.e.isE = true := by decide
  have isH : ∀ a : Axis, a.h.isE = false := by decide
  have hE : ∀ a q, InE S.cfg a q → at3 (S.step.run C s) a.e q = (X.step J M F).E a (into o q) := by
    intro a q hq
    have e1 := stepE_box hc (isE a) hq s
    rw [ampere_box hc s hq] at e1
    by_cases hw : OnConductor S.cfg a q
    · rw [odd_zero hc mE' hw]
      refine e1.trans ?_
      have b0 := hc.metal a q hq hw
      have b1 : C (.beta a.e (q .x) (q .y) (q .z)) = 0 := b0
      rw [b0, b1, h.1 a q hq, odd_zero hc mE hw]
      ring
    · refine e1.trans ?_
      have b1 : C (.beta a.e (q .x) (q .y) (q .z)) = X.beta a (into o q) := hc.beta a q hq hw
      rw [hc.alpha a q hq hw, hc.beta a q hq hw, b1, h.1 a q hq, ← hJ a q hq hw]
      have r1 := around_agrees hc hg h mH hr (n1 a) (n3 a) (n2 a) hq
      have r2 := around_agrees hc hg h mH hr (n2 a) (n3 a).symm (n1 a) hq
      have ec : curlH (fun b i => X.dh b (i + o b)) (fun b q => at3 s b.h q) a q = curlH X.dh F.H a (into o q) := by
        simp only [curlH, r1.1, r1.2, r2.1, r2.2]
        rfl
      rw [ec]
      simp only [Space.step, Space.electric]
      ring
  refine ⟨hE, fun a q hq => ?_⟩
  have e1 := stepH_box hc (isH a) hq s
  rw [faraday_box hc _ hq] at e1
  refine e1.trans ?_
  have keepH : at3 (S.stepE.run C s) a.h q = at3 s a.h q := by
    unfold at3
    exact NoWrite.run C (noH_stepE (isH a) _ _ _ S) s
  have keepE : ∀ (b : Axis) (r : Axis → Int), at3 (S.step.run C s) b.e r = at3 (S.stepE.run C s) b.e r := by
    intro b r
    unfold at3 Sim.step
    rw [run_append, NoWrite.run C (noE_stepH (isE b) _ _ _ S)]
  have g1 : C (.gamma a.h (q .x) (q .y) (q .z)) = X.gamma a (into o q) := hc.gamma a q hq
  rw [keepH, h.2 a q hq, hc.gamma a q hq, g1, ← hM a q hq]
  have pe : ∀ x, 2 * S.cfg.gibox x.lo ≤ pos2 a.h x (q x) ∧ pos2 a.h x (q x) ≤ 2 * S.cfg.gibox x.hi := by
    obtain ⟨h1, h2, h3⟩ := hq
    intro x; cases x; exacts [h1, h2, h3]
  have inE : ∀ b c : Axis, b ≠ a → c ≠ a → c ≠ b → InE S.cfg c q ∧ InE S.cfg c (ahead q b) := by
    intro b c hb hc' hcb
    have qa := pe a; have qb := pe b; have qc := pe c
    have p1 : ∀ i, pos2 c.e c i = 2 * i + 1 ∧ pos2 c.e a i = 2 * i ∧ pos2 c.e b i = 2 * i ∧ pos2 a.h a i = 2 * i ∧
        pos2 a.h b i = 2 * i + 1 ∧ pos2 a.h c i = 2 * i + 1 := by
      intro i
      cases a <;> cases b <;> cases c <;> first | exact absurd rfl hb | exact absurd rfl hc' | exact absurd rfl hcb | simp [pos2, Axis.e, Axis.h]
    have p2 : ∀ x, x = a ∨ x = b ∨ x = c := by
      intro x; cases a <;> cases b <;> cases c <;> first | exact absurd rfl hb | exact absurd rfl hc' | exact absurd rfl hcb | (cases x <;> simp)
    simp only [p1] at qa qb qc
    have kb : ahead q b b = q b + 1 := by simp [ahead]
    have ka : ahead q b a = q a := by simp [ahead, hb.symm]
    have kc : ahead q b c = q c := by simp [ahead, hcb]
    constructor
    · have : ∀ x, 2 * S.cfg.gibox x.lo ≤ pos2 c.e x (q x) ∧ pos2 c.e x (q x) ≤ 2 * S.cfg.gibox x.hi := by
        intro x
        rcases p2 x with rfl | rfl | rfl
        · rw [(p1 _).2.1]; omega
        · rw [(p1 _).2.2.1]; omega
        · rw [(p1 _).1]; omega
      exact ⟨this .x, this .y, this .z⟩
    · have : ∀ x, 2 * S.cfg.gibox x.lo ≤ pos2 c.e x (ahead q b x) ∧ pos2 c.e x (ahead q b x) ≤ 2 * S.cfg.gibox x.hi := by
        intro x
        rcases p2 x with rfl | rfl | rfl
        · rw [(p1 _).2.1, ka]; omega
        · rw [(p1 _).2.2.1, kb]; omega
        · rw [(p1 _).1, kc]; omega
      exact ⟨this .x, this .y, this .z⟩
  have i1 := inE a.next a.next.next (n1 a) (n2 a) (n3 a)
  have i2 := inE a.next.next a.next (n2 a) (n1 a) (n3 a).symm
  have ec : curlE (fun b i => X.de b (i + o b)) (fun b q => at3 (S.stepE.run C s) b.e q) a q =
      curlE X.de (X.step J M F).E a (into o q) := by
    simp only [curlE, ← keepE, hE _ _ i1.1, hE _ _ i1.2, hE _ _ i2.1, hE _ _ i2.2, into_ahead]
    rfl
  rw [ec]
  simp only [Space.step]
  ring

/-- **C49.** The run of a model with conducting, magnetic and periodic walls is, on every sample of its box and in every step,
the run in the unbounded space it is cut out of, with the currents of its sources and all their images and repetitions. -/
theorem walls_are_mirrors {u : Nat → Loc → ℝ} {J M : Nat → Comp} (hi : Impressed S o u J M) (n : Nat) (a : Axis)
    (q : Axis → Int) :
    (InE S.cfg a q → at3 (S.state C u (fun _ => 0) n) a.e q = (X.run J M n).E a (into o q)) ∧
    (InH S.cfg a q → at3 (S.state C u (fun _ => 0) n) a.h q = (X.run J M n).H a (into o q)) := by
  suffices H : Agree S o (S.state C u (fun _ => 0) n) (X.run J M n) from ⟨H.1 a q, H.2 a q⟩
  clear a q
  have sym : ∀ n f w, wallOf (S.cfg.bt f) = some w →
      SymmetricE w f.axis (S.cfg.gibox f + o f.axis) (X.run J M n).E ∧
      SymmetricH w f.axis (S.cfg.gibox f + o f.axis) (X.run J M n).H := fun n f w hw =>
    run_symmetric (hc.mirrors f w hw) (hi.imagesE f w hw) (hi.imagesH f w hw) n
  induction n with
  | zero => exact ⟨fun _ _ _ => rfl, fun _ _ _ => rfl⟩
  | succ n ih =>
    have keep : ∀ fc i j k, setInputs (u n) (S.state C u (fun _ => 0) n) (.fld fc i j k) =
        S.state C u (fun _ => 0) n (.fld fc i j k) := fun _ _ _ _ => rfl
    have hg := C21.ghosts_always C S hc.cfg u n
    refine step_agrees hc (s := setInputs (u n) (S.state C u (fun _ => 0) n)) ⟨hg.pmc, hg.pec, hg.periodic⟩ ih
      (fun f w hw => (sym n f w hw).1) (fun f w hw => (sym n f w hw).2) (fun f w hw => (sym (n + 1) f w hw).1)
      (fun f hf => (run_repeats (hc.repeats f hf) (hi.repeatsE f hf) (hi.repeatsH f hf) n).2)
      (fun a q h1 h2 => hi.electric n a q h1 h2) (fun a q h1 => hi.magnetic n a q h1)

end

end Vulture.C49
