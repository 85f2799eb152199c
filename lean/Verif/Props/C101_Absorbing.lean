import Verif.Props.C101_FarSide
/-
C101, absorbing sides: the samples half a cell outside a MUR side are never written.
-/
set_option linter.unusedSimpArgs false
set_option linter.unusedSectionVars false
set_option linter.unusedVariables false
namespace Vulture.C101
open Vulture.Spec Vulture.Setup Vulture.Deck Vulture.C21

section
variable {K : Type*} [CommRing K] {C : CRef → K} {c : Cfg} {d : Axis}

/-- The samples half a cell outside the far side of the grid along `d`. -/
def Beyond (c : Cfg) (d : Axis) : Loc → Prop
  | .fld fc i j k => fieldIsInBoundary fc d.hi = false ∧ coord d (i, j, k) = c.gobox d.hi
  | _ => False

theorem in_boundary (fc : Fc) (d : Axis) : fieldIsInBoundary fc d.hi = false ↔ HalfWay fc d := by
  cases fc <;> cases d <;> simp [HalfWay, fieldIsInBoundary, pos2, Axis.hi]

/-- No loop over the samples of a box comes there. -/
theorem not_beyond (hv : ValidCfg c) {b : BBox} (hb : Within b c.gobox) {incl : Face → Bool} {fc : Fc} {i j k : Int}
    (hi : InLim (setFieldLimits b incl fc) i j k) : ¬ Beyond c d (.fld fc i j k) := by
  have L := lim_facts hv b hb incl fc hi
  have w := hb d
  rintro ⟨h1, h2⟩
  cases d <;> simp only [Axis.hi, coord] at h1 h2 w <;> simp only [h1, forall_true_left] at L <;> omega

theorem loop_clear (hv : ValidCfg c) {b : BBox} (hb : Within b c.gobox) {incl : Face → Bool} {fc : Fc}
    {body : Int → Int → Int → Block}
    (h : ∀ i j k, ∀ a ∈ body i j k, a.tgt = .fld fc i j k ∨ a.tgt.kind ≠ .fld) :
    Keeps C (Beyond c d) (loopOver (setFieldLimits b incl fc) body) := by
  apply Keeps.loop
  intro i j k hi a ha hz
  rcases h i j k a ha with e | e
  · rw [e] at hz; exact absurd hz (not_beyond hv hb hi)
  · exfalso; revert e hz; cases a.tgt <;> simp [Beyond, Loc.kind]

theorem clear_grid (hv : ValidCfg c) : Keeps C (Beyond c d) (updateGridEfield c) ∧ Keeps C (Beyond c d) (updateGridHfield c) := by
  constructor <;>
  · refine Keeps.append (Keeps.append ?_ ?_) ?_ <;>
    · refine loop_clear hv (gibox_within hv) fun i j k a ha => .inl ?_
      simp only [List.mem_singleton] at ha
      subst ha; rfl

theorem clear_pmlE (hv : ValidCfg c) : Keeps C (Beyond c d) (updatePmlEfield c) := by
  refine Keeps.flatMap fun r _ => ?_
  unfold pmlRegionE
  split
  · refine Keeps.append (Keeps.append ?_ ?_) ?_ <;>
    · refine loop_clear hv (pbox_within hv r) fun i j k a ha => ?_
      simp only [pmlExBlock, pmlEyBlock, pmlEzBlock, List.mem_cons, List.not_mem_nil, or_false] at ha
      rcases ha with rfl | rfl | rfl <;> simp [EX, EY, EZ, PPr, Pr, Loc.kind]
  · exact Keeps.nil

theorem clear_pmlH (hv : ValidCfg c) : Keeps C (Beyond c d) (updatePmlHfield c) := by
  refine Keeps.flatMap fun r _ => ?_
  unfold pmlRegionH
  split
  · refine Keeps.append (Keeps.append ?_ ?_) ?_ <;>
    · refine loop_clear hv (pbox_within hv r) fun i j k a ha => ?_
      simp only [pmlHxBlock, pmlHyBlock, pmlHzBlock, List.mem_cons, List.not_mem_nil, or_false] at ha
      rcases ha with rfl | rfl <;> simp [HX, HY, HZ, Br, Loc.kind]
  · exact Keeps.nil

theorem clear_mur (hv : ValidCfg c) : Keeps C (Beyond c d) (updateMurEfield c) ∧ Keeps C (Beyond c d) (updateMurHfield c) := by
  constructor
  · refine Keeps.flatMap fun f _ => ?_
    split
    · refine Keeps.flatMap fun fc _ => loop_clear hv (face_within hv f) fun i j k a ha => .inl ?_
      simp only [murE, List.mem_singleton] at ha
      subst ha; rfl
    · exact Keeps.nil
  · refine Keeps.flatMap fun f _ => ?_
    split
    · refine loop_clear hv (face_within hv f) fun i j k a ha => .inl ?_
      simp only [List.mem_singleton] at ha
      subst ha; rfl
    · exact Keeps.nil

theorem clear_debye {S : Sim} (h : ValidSim S) : Keeps C (Beyond S.cfg d) (updateDebye S.debye) := by
  refine Keeps.flatMap fun x hx => Keeps.flatMap fun fc _ => ?_
  obtain ⟨b, mask, hb, hf⟩ := h.debye _ (C08.zipIdx_mem hx)
  have e : x.1.flim fc = setFieldLimits b mask fc := by rw [hf]
  rw [e]
  refine loop_clear h.cfg (C08.within_trans hb (gibox_within h.cfg)) fun i j k a ha => ?_
  simp only [debyeBlock, List.mem_cons, List.mem_flatMap, List.not_mem_nil, or_false] at ha
  rcases ha with rfl | rfl | ⟨p, _, rfl | rfl⟩ <;> simp [Loc.kind]

theorem clear_sources {S : Sim} (h : ValidSim S) :
    Keeps C (Beyond S.cfg d) (updateSourcesE S.srcs) ∧ Keeps C (Beyond S.cfg d) (updateSourcesH S.srcs) := by
  constructor
  · refine Keeps.flatMap fun x hx => ?_
    split
    · refine loop_clear h.cfg (C08.within_trans (h.srcs _ (C08.zipIdx_mem hx)) (gibox_within h.cfg)) fun i j k a ha => .inl ?_
      unfold srcEBlock at ha
      dsimp only at ha
      split at ha <;> (rw [List.mem_singleton] at ha; subst ha; rfl)
    · exact Keeps.nil
  · refine Keeps.flatMap fun x hx => ?_
    split
    · refine loop_clear h.cfg (C08.within_trans (h.srcs _ (C08.zipIdx_mem hx)) (gibox_within h.cfg)) fun i j k a ha => .inl ?_
      unfold srcHBlock at ha
      dsimp only at ha
      split at ha <;> (rw [List.mem_singleton] at ha; subst ha; rfl)
    · exact Keeps.nil

/-- The ghosts of the other sides take their values there from there. -/
theorem clear_ghosts (hv : ValidCfg c) (hd : c.bt d.hi = .mur) (comps : Face → List Fc) :
    Keeps C (Beyond c d) (Face.all.flatMap fun f => ghostFace c (comps f) f) := by
  refine Keeps.flatMap fun f _ => ?_
  by_cases ha : Active c f
  · rw [face_eq ha]
    intro b hb a hab hz
    obtain ⟨t, ht, hb⟩ := List.mem_flatMap.1 hb
    obtain ⟨fc, hfc, rfl⟩ := List.mem_map.1 hb
    simp only [List.mem_singleton] at hab
    subst hab
    obtain ⟨i, j, k⟩ := t
    obtain ⟨h1, h2⟩ := hz
    have o := mem_face.1 ht
    have g := cfg_facts hv d
    have hne : f.axis ≠ d := by
      intro e
      have : f = d.lo ∨ f = d.hi := by subst e; cases f <;> simp [Face.axis, Axis.lo, Axis.hi]
      rcases this with rfl | rfl
      · have e1 := o.1
        rw [e, h2] at e1
        unfold ghostTarget at e1
        have : d.lo.isLo = true := by cases d <;> rfl
        rw [if_pos this] at e1
        omega
      · exact ha.2 hd
    have key : Beyond c d (fldAt fc (setAx f.axis (ghostSource c f) (i, j, k))) := by
      refine ⟨h1, ?_⟩
      have := coord_setAx (a := d) (b := f.axis) (v := ghostSource c f) (t := (i, j, k))
      rw [if_neg (by first | exact hne | exact fun h => hne h.symm)] at this
      exact this.trans h2
    cases hh : decide (c.bt f = .pmc) <;> simpa [ghostVal, Expr.ZeroOn] using key
  · have : ghostFace c (comps f) f = [] := by
      unfold Active at ha
      unfold ghostFace
      cases hb : c.bt f <;> simp_all
    rw [this]; exact Keeps.nil

theorem clear_step {S : Sim} (h : ValidSim S) (hs : S.sibc = []) (hw : S.pws = []) (hd : S.cfg.bt d.hi = .mur) :
    Keeps C (Beyond S.cfg d) S.step := by
  have hv := h.cfg
  refine Keeps.append ?_ ?_
  · unfold Sim.stepE
    rw [hs, hw]
    refine Keeps.append (Keeps.append (Keeps.append (Keeps.append (Keeps.append (Keeps.append (Keeps.append (clear_pmlE hv) (clear_mur hv).1)
      (clear_grid hv).1) (clear_debye h)) Keeps.nil) (clear_sources h).1) Keeps.nil) (clear_ghosts hv hd _)
  · unfold Sim.stepH
    rw [hs, hw]
    refine Keeps.append (Keeps.append (Keeps.append (Keeps.append (Keeps.append (Keeps.append (clear_pmlH hv) (clear_mur hv).2)
      (clear_grid hv).2) Keeps.nil) (clear_sources h).2) Keeps.nil) (clear_ghosts hv hd _)

theorem beyond_zero {S : Sim} (h : ValidSim S) (hs : S.sibc = []) (hw : S.pws = []) (hd : S.cfg.bt d.hi = .mur) (u : ℕ → Loc → K) :
    ∀ n l, Beyond S.cfg d l → S.state C u (fun _ => 0) n l = 0
  | 0, _, _ => rfl
  | n + 1, l, hl => by
    refine (clear_step h hs hw hd).run (s := setInputs (u n) (S.state C u (fun _ => 0) n)) (fun l hl => ?_) l hl
    have : l.isInput = false := by revert hl; cases l <;> simp [Beyond, Loc.isInput]
    unfold setInputs
    rw [this]
    exact beyond_zero h hs hw hd u n l hl

end

section
variable {k : Consts} {J : Junk} {X : Experiment} {R : Setup.Run} {Q : Request} {fs : List (String × Contents)}
  {c : OPCard} {d : Axis}

/-- Without sheets and plane waves the samples half a cell outside a `MUR` far side are zero at every step. -/
theorem outside_mur (h : setup k J X = some R) (hz : ThirdSidesOrdered X.file.cards) (hs : ∀ n pr, Deck.Card.bt n (.sibc pr) ∉ X.file.cards)
    (hw : ∀ c t, Deck.Card.pw c t ∉ X.file.cards) (hf : X.file.bt d.hi = .mur) {fc : Fc} (hh : HalfWay fc d)
    {q : Axis → Int} (hq : q d = cellsOf X.file d) (n : ℕ) : value R n fc q = 0 := by
  obtain ⟨s, hst, hc, hS, -⟩ := Scaling.setup_parts h
  have hv : ValidSim R.sim := C47.accepted_file_valid hS hz
  obtain ⟨-, hn, hb, -, -, -, hst', pws, hpw, eS⟩ := CavityLemmas.run_parts h
  have ecfg : R.sim.cfg = R.cfg := by rw [eS]
  have e1 : R.sim.sibc = [] := by
    by_contra hne
    obtain ⟨w, hw⟩ := List.exists_mem_of_ne_nil _ hne
    obtain ⟨c, -, ⟨pr, hp, -⟩, -⟩ := (C47.no_other_items hS).2 w hw
    exact hs _ _ hp
  have e2 : R.sim.pws = [] := by
    have : R.state.pws = [] := by
      rw [C71.pws_stored hst', List.filterMap_eq_nil_iff]
      intro x hx
      cases x with
      | pw q t => exact absurd hx (hw q t)
      | _ => rfl
    rw [this] at hpw
    rw [eS]
    simpa using hpw.symm
  have hm : R.sim.cfg.bt d.hi = .mur := by rw [ecfg, hb]; exact hf
  refine beyond_zero (C := R.coefs) hv e1 e2 hm R.drive n _ ⟨(in_boundary fc d).2 hh, ?_⟩
  rw [ecfg]
  have g := C81.no_layers h (f := d.hi) (by rw [hf]; decide)
  have b := C81.box_side h d.hi
  have ax : d.hi.axis = d := by cases d <;> rfl
  rw [g, b, ax, mesh_hi, ← hq]
  cases d <;> rfl

/-- **C101.** On an absorbing far side, without sheets and plane waves: zero in every line. -/
theorem absorbing (h : Leaves k J X Q fs) (hz : ThirdSidesOrdered X.file.cards) (hs : ∀ n pr, Deck.Card.bt n (.sibc pr) ∉ X.file.cards)
    (hw : ∀ c t, Deck.Card.pw c t ∉ X.file.cards) (hf : X.file.bt d.hi = .mur) (hc : TimeProbe X c)
    (hd : c.bbox d.lo = cellsOf X.file d) :
    ∃ at1 l, ("eh_" ++ c.name ++ "_td.asc", Contents.time at1 l) ∈ fs ∧
      ∀ i fc, sixComponents[i]? = some fc → HalfWay fc d → ∀ x ∈ column i l, x = 0 := by
  obtain ⟨R, hR⟩ := C61.setup_of_leaves h
  obtain ⟨a1, a2, l, l', h1, h2, h3⟩ := columns (d := d) h hR hc hc 0 (fun fc q hh => by
    rw [zero_mul]
    exact outside_mur hR hz hs hw hf hh hd q)
  refine ⟨a1, l, h1, fun i fc hi hh x hx => ?_⟩
  rw [h3 i fc hi hh] at hx
  obtain ⟨y, -, rfl⟩ := List.mem_map.1 hx
  ring

end

/-! ### A case -/

/-- The box of `farBox` with an absorbing side behind the probe. -/
noncomputable def openBox (d : ℝ) : Experiment :=
  { farBox d with file := { (farBox d).file with bt := fun f => if f = .xhi then .mur else .pec } }

theorem open_setup (k : Consts) (J : Junk) (d : ℝ) : ∃ R, setup k J (openBox d) = some R := by
  have hc : ∃ c, initExternalSurfaceParameters (openBox d).file.cells (openBox d).file.bt (openBox d).file.layers = some c := by
    have : (initExternalSurfaceParameters (openBox 1).file.cells (openBox 1).file.bt (openBox 1).file.layers).isSome = true := by decide +kernel
    exact Option.isSome_iff_exists.1 this
  obtain ⟨c, hc⟩ := hc
  obtain ⟨s, hs, -⟩ := far_stored false
  obtain ⟨s', hs', hw⟩ := far_stored (gridType k J (openBox d) c == .cubic)
  have hS : ∃ S, (fileOf k J (openBox d) c).sim (Setup.de k J (openBox d) c) (Setup.dh k J (openBox d) c) = some S := by
    have ef : (fileOf k J (openBox d) c).stored = some s' := hs'
    have ec : initExternalSurfaceParameters (fileOf k J (openBox d) c).cells (fileOf k J (openBox d) c).bt
      (fileOf k J (openBox d) c).layers = some c := hc
    simp only [File.sim, ef, ec, hw, Option.bind_some, List.mapM_nil, Option.pure_def]
    exact ⟨_, rfl⟩
  obtain ⟨S, hS⟩ := hS
  have hs2 : (openBox d).file.stored = some s := hs
  exact ⟨_, Scaling.setup_of hc hs2 hS⟩

/-- Its run ends, and the columns of `ex`, `hy` and `hz` of the probe on the wall hold only zeros. -/
example (k : Consts) (J : Junk) (d : ℝ) : ∃ fs, Leaves k J (openBox d) ⟨100, none, none⟩ fs ∧
    ∃ at1 l, ("eh_wall_td.asc", Contents.time at1 l) ∈ fs ∧
      (∀ x ∈ column 0 l, x = 0) ∧ (∀ x ∈ column 4 l, x = 0) ∧ (∀ x ∈ column 5 l, x = 0) := by
  obtain ⟨R, hR⟩ := open_setup k J d
  obtain ⟨fs, h⟩ := C61.run_leaves (Q := ⟨100, none, none⟩) hR
    ⟨by decide, by simp, by simp⟩ (by decide) (by
      intro c hc hb a
      rw [C61.mem_probes] at hc
      simp only [openBox, farBox, farCards, List.mem_cons, List.not_mem_nil, or_false, reduceCtorEq, Deck.Card.op.injEq, false_or, or_false] at hc
      rcases hc with rfl | rfl <;> simp at hb) (by intro _ e; simp [waveNames, openBox, farBox, farCards, waveOf] at e)
  refine ⟨fs, h, ?_⟩
  obtain ⟨a1, l, h1, h3⟩ := absorbing (d := .x)
    (c := ⟨8, mkBox 6 6 2 2 1 1, "wall", true, true, 1, 1, 1, "", false⟩) h
    (by
      intro c hc b hb
      simp only [openBox, farBox, farCards, List.mem_cons, List.not_mem_nil, or_false] at hc
      rcases hc with rfl | rfl | rfl | rfl <;> simp [boxOf] at hb <;> subst hb <;> decide)
    (by intro n pr hm; simp [openBox, farBox, farCards] at hm) (by intro n pr hm; simp [openBox, farBox, farCards] at hm) (by rfl)
    ⟨List.mem_cons_of_mem _ List.mem_cons_self, rfl, rfl⟩ rfl
  exact ⟨a1, l, h1, h3 0 .ex rfl rfl, h3 4 .hy rfl rfl, h3 5 .hz rfl rfl⟩

end Vulture.C101
