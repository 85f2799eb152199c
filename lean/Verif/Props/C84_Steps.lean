import Verif.Props.C83_Layers
import Verif.Spec.Plates
/- C84, first part: steps with soft sources as sums, samples around a sample, and what is outside a side with layers beyond other sides. -/
set_option linter.unusedSimpArgs false
set_option linter.unusedVariables false
set_option linter.unusedSectionVars false
namespace Vulture.C84
open Vulture Spec Setup CavityLemmas Scaling C72

section
variable {k : Consts} {J : Junk} {X : Experiment} {R : Setup.Run} {a b c : Axis} {f : Face} {q r : Axis → Int}

/-- A step of an electric sample with soft sources. -/
theorem electric_soft (h : setup k J X = some R) (ho : OrdinaryBlocks X.file.cards)
    (hi : SampleInMesh X a.e q) (hm : ¬ OnMurSide X a.e q)
    (hd : ∀ x ∈ X.file.cards, ∀ e s u poles, ¬ DebyeCard X a.e q x e s u poles)
    (hs : ClearOfSheets X a.e q) (hw : ClearOfWaves X a.e q) (hov : ∀ x ∈ X.file.cards, ¬ Overwrites x a.e q) (n : ℕ) :
    value R (n + 1) a.e q = R.coefs (.alpha a.e (grid R.cfg q .x) (grid R.cfg q .y) (grid R.cfg q .z)) * value R n a.e q +
      R.coefs (.beta a.e (grid R.cfg q .x) (grid R.cfg q .y) (grid R.cfg q .z)) *
        (rotH X (value R n) a q - sourceCurrent X R.dt (n * R.dt) a.e q) + sourceField X R.dt (n * R.dt) a.e q := by
  obtain ⟨hv, -, -, -, -, -, -, pws, -, eS⟩ := run_parts h
  have ecfg : R.sim.cfg = R.cfg := by rw [eS]
  have hE := electric_value R.coefs (c := R.sim.cfg) (by rw [ecfg]; exact hv) (axis_e_isE a) (i := grid R.cfg q .x) (j := grid R.cfg q .y) (k := grid R.cfg q .z)
    (by rw [ecfg]; exact in_limits h hi hm) (setInputs (R.drive n) (R.fields n))
  have e2 : (Vulture.ampere a.e (grid R.cfg q .x) (grid R.cfg q .y) (grid R.cfg q .z)).eval R.coefs (setInputs (R.drive n) (R.fields n)) =
      R.coefs (.alpha a.e (grid R.cfg q .x) (grid R.cfg q .y) (grid R.cfg q .z)) * at3 (setInputs (R.drive n) (R.fields n)) a.e (grid R.cfg q) +
      R.coefs (.beta a.e (grid R.cfg q .x) (grid R.cfg q .y) (grid R.cfg q .z)) * curlOfH (fun c n => (R.coefs (.idh c n))⁻¹) (setInputs (R.drive n) (R.fields n)) a (grid R.cfg q) := by
    cases a <;> simp [Vulture.ampere, ampereX, ampereY, ampereZ, Axis.e, Expr.eval, curlOfH, at3, back, Axis.next, Axis.h,
      curlHx, curlHy, curlHz, EX, EY, EZ, HX, HY, HZ] <;> (left; ring)
  have base : Prog.run R.coefs (updatePmlEfield R.sim.cfg ++ updateMurEfield R.sim.cfg ++ updateGridEfield R.sim.cfg ++ updateDebye R.sim.debye ++ updateSibcE R.sim.sibc)
        (setInputs (R.drive n) (R.fields n)) (.fld a.e (grid R.cfg q .x) (grid R.cfg q .y) (grid R.cfg q .z)) =
      R.coefs (.alpha a.e (grid R.cfg q .x) (grid R.cfg q .y) (grid R.cfg q .z)) * value R n a.e q +
      R.coefs (.beta a.e (grid R.cfg q .x) (grid R.cfg q .y) (grid R.cfg q .z)) * rotH X (value R n) a q := by
    rw [List.append_assoc, run_append, NoWrite.run R.coefs ((clear_debye h ho hd).append (clear_sheets h hs).1), hE, e2, rotH_eq h hi n]
    rfl
  rw [C76.electric_fold h ho hi hw n, C76.fold_soft _ hov, base]
  unfold sourceCurrent sourceField
  ring

/-- A step of a magnetic sample with soft sources. -/
theorem magnetic_soft (h : setup k J X = some R) (ho : OrdinaryBlocks X.file.cards)
    (hi : SampleInMesh X a.h q) (hs : ClearOfSheets X a.h q) (hw : ClearOfWaves X a.h q) (hov : ∀ x ∈ X.file.cards, ¬ Overwrites x a.h q) (n : ℕ) :
    value R (n + 1) a.h q = value R n a.h q - R.coefs (.gamma a.h (grid R.cfg q .x) (grid R.cfg q .y) (grid R.cfg q .z)) *
        (rotE X (value R (n + 1)) a q + sourceCurrent X R.dt ((n + 1 / 2) * R.dt) a.h q) + sourceField X R.dt ((n + 1 / 2) * R.dt) a.h q := by
  obtain ⟨hv, -, -, -, -, -, -, pws, -, eS⟩ := run_parts h
  have ecfg : R.sim.cfg = R.cfg := by rw [eS]
  have hE : ∀ fc i j k, fc.isE = true → R.sim.step.run R.coefs (setInputs (R.drive n) (R.fields n)) (.fld fc i j k) =
      R.sim.stepE.run R.coefs (setInputs (R.drive n) (R.fields n)) (.fld fc i j k) := by
    intro fc i j k hf
    rw [Sim.step, run_append, NoWrite.run R.coefs (noE_stepH hf i j k R.sim)]
  have hF := magnetic_value R.coefs (c := R.sim.cfg) (by rw [ecfg]; exact hv) (axis_h_isE a) (i := grid R.cfg q .x) (j := grid R.cfg q .y) (k := grid R.cfg q .z)
    (by rw [ecfg]; exact in_mesh h hi) (R.sim.stepE.run R.coefs (setInputs (R.drive n) (R.fields n)))
  have hH := NoWrite.run R.coefs (noH_stepE (axis_h_isE a) (grid R.cfg q .x) (grid R.cfg q .y) (grid R.cfg q .z) R.sim) (setInputs (R.drive n) (R.fields n))
  have ee : curlOfE (fun c n => (R.coefs (.ide c n))⁻¹) (R.sim.step.run R.coefs (setInputs (R.drive n) (R.fields n))) a (grid R.cfg q) =
      curlOfE (fun c n => (R.coefs (.ide c n))⁻¹) (R.sim.stepE.run R.coefs (setInputs (R.drive n) (R.fields n))) a (grid R.cfg q) := by
    unfold curlOfE at3
    dsimp only
    rw [hE _ _ _ _ (axis_e_isE _), hE _ _ _ _ (axis_e_isE _), hE _ _ _ _ (axis_e_isE _), hE _ _ _ _ (axis_e_isE _)]
  have e2 : (Vulture.faraday a.h (grid R.cfg q .x) (grid R.cfg q .y) (grid R.cfg q .z)).eval R.coefs (R.sim.stepE.run R.coefs (setInputs (R.drive n) (R.fields n))) =
      at3 (setInputs (R.drive n) (R.fields n)) a.h (grid R.cfg q) - R.coefs (.gamma a.h (grid R.cfg q .x) (grid R.cfg q .y) (grid R.cfg q .z)) *
        curlOfE (fun c n => (R.coefs (.ide c n))⁻¹) (R.sim.stepE.run R.coefs (setInputs (R.drive n) (R.fields n))) a (grid R.cfg q) := by
    unfold at3 at *
    generalize Prog.run R.coefs R.sim.stepE (setInputs (R.drive n) (R.fields n)) = s' at *
    generalize setInputs (R.drive n) (R.fields n) = s'' at *
    generalize grid R.cfg q = g at *
    cases a <;> simp [Axis.h] at hH <;> simp [Vulture.faraday, faradayX, faradayY, faradayZ, Axis.h, Expr.eval, curlOfE, at3, ahead, Axis.next,
      Axis.e, curlEx, curlEy, curlEz, EX, EY, EZ, HX, HY, HZ, hH] <;> ring
  have base : Prog.run R.coefs (R.sim.stepE ++ (updatePmlHfield R.sim.cfg ++ updateMurHfield R.sim.cfg ++ updateGridHfield R.sim.cfg ++ updateSibcH R.sim.sibc))
        (setInputs (R.drive n) (R.fields n)) (.fld a.h (grid R.cfg q .x) (grid R.cfg q .y) (grid R.cfg q .z)) =
      value R n a.h q - R.coefs (.gamma a.h (grid R.cfg q .x) (grid R.cfg q .y) (grid R.cfg q .z)) * rotE X (value R (n + 1)) a q := by
    rw [run_append, run_append, NoWrite.run R.coefs (clear_sheets h hs).2, hF, e2, ← rotE_eq h hi (n + 1), fields_succ, ee]
    rfl
  rw [C76.magnetic_fold h ho hi hw n, C76.fold_soft _ hov, base]
  unfold sourceCurrent sourceField
  ring

/-! ### Curls with any order of the axes -/

theorem rotH_turn (F : Fc → (Axis → Int) → ℝ) (hab : a ≠ b) (hbc : b ≠ c) (hac : a ≠ c) (q : Axis → Int) :
    rotH X F a q = handed a b * ((F c.h q - F c.h (back q b)) / middleDistance X b (q b) - (F b.h q - F b.h (back q c)) / middleDistance X c (q c)) := by
  unfold rotH handed
  cases a <;> cases b <;> first | exact absurd rfl hab | (cases c <;> first | exact absurd rfl hac | exact absurd rfl hbc | (simp [Axis.next]))

theorem rotE_turn (F : Fc → (Axis → Int) → ℝ) (hab : a ≠ b) (hbc : b ≠ c) (hac : a ≠ c) (q : Axis → Int) :
    rotE X F a q = handed a b * ((F c.e (ahead q b) - F c.e q) / cellLength X b (q b) - (F b.e (ahead q c) - F b.e q) / cellLength X c (q c)) := by
  unfold rotE handed
  cases a <;> cases b <;> first | exact absurd rfl hab | (cases c <;> first | exact absurd rfl hac | exact absurd rfl hbc | (simp [Axis.next]))

theorem handed_swap (hab : a ≠ b) (hbc : b ≠ c) (hac : a ≠ c) : handed c b = - handed a b := by
  unfold handed
  cases a <;> cases b <;> first | exact absurd rfl hab | (cases c <;> first | exact absurd rfl hac | exact absurd rfl hbc | (simp [Axis.next]))

theorem handed_sq (a b : Axis) : handed a b * handed a b = 1 := by unfold handed; split_ifs <;> norm_num

/-! ### Samples around a sample -/

theorem grid_iff {fc : Fc} : OnGridBox X fc q ↔ ∀ b, 2 * gridBox X b.lo ≤ pos2 fc b (q b) ∧ pos2 fc b (q b) ≤ 2 * gridBox X b.hi := by
  constructor
  · rintro ⟨h1, h2, h3⟩ b
    cases b
    · exact h1
    · exact h2
    · exact h3
  · intro h; exact ⟨h .x, h .y, h .z⟩

theorem plane_iff {B : BBox} {fc : Fc} : OnPlane B f fc (q .x) (q .y) (q .z) ↔ pos2 fc f.axis (q f.axis) = 2 * B f := by
  unfold OnPlane samplePos
  cases f <;> exact Iff.rfl

theorem grid_le (h : setup k J X = some R) (b : Axis) : gridBox X b.lo ≤ 0 ∧ cellsOf X.file b ≤ gridBox X b.hi ∧ 1 ≤ cellsOf X.file b := by
  obtain ⟨hv, hn, hb, -⟩ := run_parts h
  have l1 := C83.layers_eq h b.lo
  have l2 := C83.layers_eq h b.hi
  have g1 := C07.layers_nonneg hv b.lo
  have g2 := C07.layers_nonneg hv b.hi
  have c1 : 1 ≤ cellsOf X.file b := by rw [← hn]; exact hv.cells b
  refine ⟨?_, ?_, c1⟩
  · unfold gridBox
    rw [C81.mesh_lo, (C81.lo_axis b).2.2.1]
    split_ifs at l1 ⊢ <;> simp_all
  · unfold gridBox
    rw [C81.mesh_hi, (C81.lo_axis b).2.2.2]
    split_ifs at l2 ⊢ <;> simp_all

theorem mesh_grid (h : setup k J X = some R) {fc : Fc} (hq : SampleInMesh X fc q) : OnGridBox X fc q := by
  rw [grid_iff]
  have := C81.in_iff.1 hq
  intro b
  have g := grid_le h b
  have := this b
  omega

/-- The magnetic samples around an electric one are in the grid, or half a cell outside it. -/
theorem around (hq : OnGridBox X a.e q) (hab : a ≠ b) (hbc : b ≠ c) (hac : a ≠ c) :
    (OnGridBox X b.h q ∨ (q c = gridBox X c.hi ∧ HalfOutside (gridBox X) c.hi b.h q)) ∧
    (OnGridBox X b.h (back q c) ∨ (q c = gridBox X c.lo ∧ HalfOutside (gridBox X) c.lo b.h (back q c))) := by
  rw [grid_iff] at hq
  have ha := hq a; have hb := hq b; have hc := hq c
  have al := C81.lo_axis c
  rw [C81.pos2_e] at ha hb hc
  rw [if_pos rfl] at ha
  rw [if_neg (Ne.symm hab)] at hb
  rw [if_neg (Ne.symm hac)] at hc
  have cov : ∀ d : Axis, d = a ∨ d = b ∨ d = c := by
    intro d; cases a <;> cases b <;> first | exact absurd rfl hab | (cases c <;> first | exact absurd rfl hac | exact absurd rfl hbc | (cases d <;> decide))
  constructor
  · by_cases e : q c = gridBox X c.hi
    · right
      refine ⟨e, ?_⟩
      unfold HalfOutside Spec.place
      rw [al.2.1, al.2.2.2, C81.pos2_h, if_neg (Ne.symm hbc), e]
      simp
    · left
      rw [grid_iff]
      intro d
      rw [C81.pos2_h]
      rcases cov d with rfl | rfl | rfl
      · rw [if_neg hab]; omega
      · rw [if_pos rfl]; omega
      · rw [if_neg (Ne.symm hbc)]; omega
  · have bc : back q c c = q c - 1 := by unfold back; rw [if_pos rfl]
    have bo : ∀ d, d ≠ c → back q c d = q d := by intro d hd; unfold back; rw [if_neg hd]
    by_cases e : q c = gridBox X c.lo
    · right
      refine ⟨e, ?_⟩
      unfold HalfOutside Spec.place
      rw [al.1, al.2.2.1, C81.pos2_h, if_neg (Ne.symm hbc), bc, e]
      simp; ring
    · left
      rw [grid_iff]
      intro d
      rw [C81.pos2_h]
      rcases cov d with rfl | rfl | rfl
      · rw [if_neg hab, bo _ hac]; omega
      · rw [if_pos rfl, bo _ hbc]; omega
      · rw [if_neg (Ne.symm hbc), bc]; omega

/-- The electric samples around a magnetic one are in the grid. -/
theorem around_h (hq : OnGridBox X a.h q) (hab : a ≠ b) (hbc : b ≠ c) (hac : a ≠ c) : OnGridBox X b.e q ∧ OnGridBox X b.e (ahead q c) := by
  rw [grid_iff] at hq
  have ha := hq a; have hb := hq b; have hc := hq c
  rw [C81.pos2_h] at ha hb hc
  rw [if_pos rfl] at ha
  rw [if_neg (Ne.symm hab)] at hb
  rw [if_neg (Ne.symm hac)] at hc
  have cov : ∀ d : Axis, d = a ∨ d = b ∨ d = c := by
    intro d; cases a <;> cases b <;> first | exact absurd rfl hab | (cases c <;> first | exact absurd rfl hac | exact absurd rfl hbc | (cases d <;> decide))
  constructor
  · rw [grid_iff]
    intro d
    rw [C81.pos2_e]
    rcases cov d with rfl | rfl | rfl
    · rw [if_neg hab]; omega
    · rw [if_pos rfl]; omega
    · rw [if_neg (Ne.symm hbc)]; omega
  · have bc : ahead q c c = q c + 1 := by unfold ahead; rw [if_pos rfl]
    have bo : ∀ d, d ≠ c → ahead q c d = q d := by intro d hd; unfold ahead; rw [if_neg hd]
    rw [grid_iff]
    intro d
    rw [C81.pos2_e]
    rcases cov d with rfl | rfl | rfl
    · rw [if_neg hab, bo _ hac]; omega
    · rw [if_pos rfl, bo _ hbc]; omega
    · rw [if_neg (Ne.symm hbc), bc]; omega

/-! ### Outside the sides -/

/-- Where the field outside a side is taken from, along the axis of the side. -/
def imageAt (X : Experiment) (f : Face) : Int :=
  if X.file.bt f = .periodic then (if f.isLo then gridBox X f.axis.hi - 1 else gridBox X f.axis.lo) else (if f.isLo then gridBox X f else gridBox X f - 1)
noncomputable def imageSign (X : Experiment) (f : Face) : ℝ := if X.file.bt f = .pmc then -1 else 1

theorem put_same (q : Axis → Int) (c : Axis) (v : Int) : C81.put q c v c = v := by unfold C81.put; simp
theorem put_other (q : Axis → Int) {c d : Axis} (hd : d ≠ c) (v : Int) : C81.put q c v d = q d := by unfold C81.put; simp [hd]

/-- A magnetic sample half a cell outside a conducting, magnetic or periodic side carries the field of its image. -/
theorem ghost (h : setup k J X = some R) (hf : X.file.bt f = .pec ∨ X.file.bt f = .pmc ∨ X.file.bt f = .periodic) {fc : Fc}
    (hq : HalfOutside (gridBox X) f fc q)
    (hx : ∀ d, d ≠ f.axis → gridBox X d.lo - 1 ≤ q d ∧ q d ≤ gridBox X d.hi) (n : ℕ) :
    value R n fc q = imageSign X f * value R n fc (C81.put q f.axis (imageAt X f)) := by
  obtain ⟨hv, hn, hb, -⟩ := run_parts h
  have os := C83.outer_side h
  have half : pos2 fc f.axis (q f.axis) = 2 * q f.axis + 1 := by
    unfold HalfOutside Spec.place at hq
    cases fc <;> cases f <;> simp only [Face.axis, Face.isLo, pos2, if_true] at hq ⊢ <;> (try simp only [Bool.false_eq_true, if_false] at hq) <;> omega
  have half' : ∀ v, pos2 fc f.axis v = 2 * v + 1 := by
    intro v
    cases fc <;> cases f <;> simp only [Face.axis, pos2] at half ⊢ <;> omega
  have H1 : HalfOutside R.cfg.gobox f fc (grid R.cfg q) := by
    unfold HalfOutside Spec.place at *
    rw [C81.pos2_grid, os f, hq]
    split_ifs <;> ring
  have H2 : OnExtendedGrid R.cfg.gobox f (grid R.cfg q) := by
    intro d hd
    have := hx d hd
    have e1 := os d.lo
    have e2 := os d.hi
    rw [(C81.lo_axis d).1] at e1
    rw [(C81.lo_axis d).2.1] at e2
    unfold grid
    omega
  have oth : ∀ a, a ≠ f.axis → Spec.place fc (grid R.cfg (C81.put q f.axis (imageAt X f))) a = Spec.place fc (grid R.cfg q) a := by
    intro d hd
    unfold Spec.place grid
    rw [put_other _ hd]
  have own : Spec.place fc (grid R.cfg (C81.put q f.axis (imageAt X f))) f.axis = 2 * imageAt X f + 1 + 2 * R.cfg.gibox f.axis.lo := by
    unfold Spec.place
    rw [C81.pos2_grid, put_same, half']
  have own0 : Spec.place fc (grid R.cfg q) f.axis = (if f.isLo then 2 * gridBox X f - 1 else 2 * gridBox X f + 1) + 2 * R.cfg.gibox f.axis.lo := by
    have e : Spec.place fc (grid R.cfg q) f.axis = pos2 fc f.axis (grid R.cfg q f.axis) := rfl
    rw [e, C81.pos2_grid, show pos2 fc f.axis (q f.axis) = _ from hq]
  have mir : X.file.bt f ≠ .periodic → MirrorImage R.cfg.gobox f fc (grid R.cfg q) (grid R.cfg (C81.put q f.axis (imageAt X f))) := by
    intro hne
    refine ⟨?_, oth⟩
    rw [own, own0, os f]
    unfold imageAt
    rw [if_neg hne]
    split_ifs <;> ring
  have per : X.file.bt f = .periodic → PeriodImage R.cfg.gobox f fc (grid R.cfg q) (grid R.cfg (C81.put q f.axis (imageAt X f))) := by
    intro hp
    refine ⟨?_, oth⟩
    have e1 := os f.axis.lo
    have e2 := os f.axis.hi
    rw [(C81.lo_axis f.axis).1] at e1
    rw [(C81.lo_axis f.axis).2.1] at e2
    rw [own, own0, e1, e2]
    unfold imageAt
    rw [if_pos hp]
    cases f <;> simp only [Face.isLo, Face.axis, Axis.lo, Axis.hi, if_true] <;> simp <;> ring
  have v : ∀ p : Axis → Int, value R n fc p = C21.val (R.fields n) fc (grid R.cfg p) := fun p => rfl
  unfold imageSign
  rcases hf with hf | hf | hf
  · rw [if_neg (by rw [hf]; decide), one_mul, v, v]
    exact (C81.ghosts h n).pec f (by rw [hb]; exact hf) fc _ _ H1 H2 (mir (by rw [hf]; decide))
  · rw [if_pos hf, v, v, neg_one_mul]
    exact (C81.ghosts h n).pmc f (by rw [hb]; exact hf) fc _ _ H1 H2 (mir (by rw [hf]; decide))
  · rw [if_neg (by rw [hf]; decide), one_mul, v, v]
    exact (C81.ghosts h n).periodic f (by rw [hb]; exact hf) fc _ _ H1 H2 (per hf)

end
end Vulture.C84
