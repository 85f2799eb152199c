import Verif.Props.C73_Rooms
import Verif.Props.C21_Ghosts
import Verif.Props.C22_Mur
import Verif.Props.C75_Circuit
import Verif.Props.C72_Bench
import Verif.Spec.Sides
/- C81: the sides of the mesh obey the law of their boundary type. -/
set_option linter.unusedSimpArgs false
set_option linter.unusedVariables false
set_option linter.unusedSectionVars false
namespace Vulture.C81
open Vulture Spec Setup CavityLemmas Scaling C72

section
variable {k : Consts} {J : Junk} {X : Experiment} {R : Setup.Run} {a : Axis} {f : Face} {q r : Axis → Int}

/-! ### From mesh coordinates to the grid -/

theorem box_side (h : setup k J X = some R) (f : Face) : R.cfg.gibox f = meshBox X f + R.cfg.gibox f.axis.lo := by
  have := congrFun (mesh_place h) f
  rw [← this]
  cases f <;> rfl

theorem no_layers (h : setup k J X = some R) (hf : X.file.bt f ≠ .pml) : R.cfg.gobox f = R.cfg.gibox f := by
  obtain ⟨hv, hn, hb, -⟩ := run_parts h
  have l0 := hv.other f (by rw [hb]; exact hf)
  have := C07.inner_offset R.cfg f.axis
  cases f <;> simp only [Face.axis, Axis.lo, Axis.hi] at this l0 ⊢ <;> omega

theorem plane_place (h : setup k J X = some R) {fc : Fc} : OnPlane R.cfg.gibox f fc (grid R.cfg q .x) (grid R.cfg q .y) (grid R.cfg q .z) ↔
    OnPlane (meshBox X) f fc (q .x) (q .y) (q .z) := by
  have e := box_side h f
  unfold OnPlane samplePos grid
  rw [e]
  cases f <;> cases fc <;> simp only [Face.axis, pos2, Axis.lo] <;> omega

theorem out_place (h : setup k J X = some R) (hf : X.file.bt f ≠ .pml) {fc : Fc} (hq : HalfOutside (meshBox X) f fc q) :
    HalfOutside R.cfg.gobox f fc (grid R.cfg q) := by
  have e := box_side h f
  have g := no_layers h hf
  unfold HalfOutside Spec.place at *
  rw [g, e]
  have : pos2 fc f.axis (grid R.cfg q f.axis) = pos2 fc f.axis (q f.axis) + 2 * R.cfg.gibox f.axis.lo := by
    unfold grid
    cases fc <;> cases f <;> simp only [Face.axis, pos2] <;> ring
  rw [this, hq]
  split_ifs <;> ring

theorem ext_place (h : setup k J X = some R) (hq : OnExtendedGrid (meshBox X) f q) : OnExtendedGrid R.cfg.gobox f (grid R.cfg q) := by
  obtain ⟨hv, hn, hb, -⟩ := run_parts h
  intro b hbf
  obtain ⟨h1, h2⟩ := hq b hbf
  have e1 := box_side h b.lo
  have e2 := box_side h b.hi
  have o := C07.inner_offset R.cfg b
  have l1 := C07.layers_nonneg hv b.lo
  have l2 := C07.layers_nonneg hv b.hi
  have x1 : b.lo.axis = b := by cases b <;> rfl
  have x2 : b.hi.axis = b := by cases b <;> rfl
  rw [x1] at e1
  rw [x2] at e2
  unfold grid
  constructor <;> omega

theorem pos2_grid (c : Cfg) (fc : Fc) (b : Axis) : pos2 fc b (grid c q b) = pos2 fc b (q b) + 2 * c.gibox b.lo := by
  unfold grid
  cases fc <;> cases b <;> simp only [pos2] <;> ring

theorem mirror_place (h : setup k J X = some R) (hf : X.file.bt f ≠ .pml) {fc : Fc} (hq : MirrorImage (meshBox X) f fc q r) :
    MirrorImage R.cfg.gobox f fc (grid R.cfg q) (grid R.cfg r) := by
  have e := box_side h f
  have g := no_layers h hf
  obtain ⟨h1, h2⟩ := hq
  unfold Spec.place at h1 h2
  refine ⟨?_, fun b hb => ?_⟩
  · unfold Spec.place
    rw [pos2_grid, pos2_grid, g, e]
    linarith
  · unfold Spec.place
    rw [pos2_grid, pos2_grid, h2 b hb]

theorem period_place (h : setup k J X = some R) (hf : X.file.bt f = .periodic) {fc : Fc} (hq : PeriodImage (meshBox X) f fc q r) :
    PeriodImage R.cfg.gobox f fc (grid R.cfg q) (grid R.cfg r) := by
  obtain ⟨hv, hn, hb, -⟩ := run_parts h
  have ho := hv.paired f (by rw [hb]; exact hf)
  rw [hb] at ho
  have g : R.cfg.gobox f.axis.hi - R.cfg.gobox f.axis.lo = meshBox X f.axis.hi - meshBox X f.axis.lo := by
    have e1 := box_side h f.axis.lo
    have e2 := box_side h f.axis.hi
    have g1 := no_layers (f := f) h (by rw [hf]; decide)
    have g2 := no_layers (f := f.opposite) h (by rw [ho]; decide)
    cases f <;> simp only [Face.axis, Axis.lo, Axis.hi, Face.opposite] at * <;> omega
  obtain ⟨h1, h2⟩ := hq
  unfold Spec.place at h1 h2
  refine ⟨?_, fun b hb => ?_⟩
  · unfold Spec.place
    rw [pos2_grid, pos2_grid, g, h1]
    ring
  · unfold Spec.place
    rw [pos2_grid, pos2_grid, h2 b hb]

theorem ghosts (h : setup k J X = some R) (n : ℕ) : C21.WallGhosts R.cfg (R.fields n) := by
  obtain ⟨hv, hn, hb, -, -, -, -, pws, -, eS⟩ := run_parts h
  have ecfg : R.sim.cfg = R.cfg := by rw [eS]
  have := C21.ghosts_always R.coefs R.sim (by rw [ecfg]; exact hv) R.drive n
  rw [ecfg] at this
  exact this

/-! ### Magnetic, conducting and periodic sides -/

/-- C81: outside a `PMC` side the fields are minus their mirror images. -/
theorem magnetic_side (h : setup k J X = some R) (hf : X.file.bt f = .pmc) {fc : Fc} (hq : HalfOutside (meshBox X) f fc q)
    (he : OnExtendedGrid (meshBox X) f q) (hr : MirrorImage (meshBox X) f fc q r) (n : ℕ) : value R n fc q = - value R n fc r := by
  obtain ⟨hv, hn, hb, -⟩ := run_parts h
  have np : X.file.bt f ≠ .pml := by rw [hf]; decide
  exact (ghosts h n).pmc f (by rw [hb]; exact hf) fc _ _ (out_place h np hq) (ext_place h he) (mirror_place h np hr)

/-- C81: outside a `PEC` side they are their mirror images. -/
theorem conducting_side_image (h : setup k J X = some R) (hf : X.file.bt f = .pec) {fc : Fc} (hq : HalfOutside (meshBox X) f fc q)
    (he : OnExtendedGrid (meshBox X) f q) (hr : MirrorImage (meshBox X) f fc q r) (n : ℕ) : value R n fc q = value R n fc r := by
  obtain ⟨hv, hn, hb, -⟩ := run_parts h
  have np : X.file.bt f ≠ .pml := by rw [hf]; decide
  exact (ghosts h n).pec f (by rw [hb]; exact hf) fc _ _ (out_place h np hq) (ext_place h he) (mirror_place h np hr)

/-- C81: outside a `PERIODIC` side they are the fields one period away. -/
theorem periodic_side (h : setup k J X = some R) (hf : X.file.bt f = .periodic) {fc : Fc} (hq : HalfOutside (meshBox X) f fc q)
    (he : OnExtendedGrid (meshBox X) f q) (hr : PeriodImage (meshBox X) f fc q r) (n : ℕ) : value R n fc q = value R n fc r := by
  obtain ⟨hv, hn, hb, -⟩ := run_parts h
  have np : X.file.bt f ≠ .pml := by rw [hf]; decide
  exact (ghosts h n).periodic f (by rw [hb]; exact hf) fc _ _ (out_place h np hq) (ext_place h he) (period_place h hf hr)

/-- C81: in a `PEC` side there is no tangential electric field (unless a lumped source bridges it). -/
theorem conducting_side (h : setup k J X = some R) (ho : OrdinaryBlocks X.file.cards) (hf : X.file.bt f = .pec)
    (hp : OnPlane (meshBox X) f a.e (q .x) (q .y) (q .z)) (hq : OrdinaryE X a q)
    (hl : ∀ x ∈ X.file.cards, ∀ s, ¬ ResistorOf X a.e (q .x) (q .y) (q .z) x s) (n : ℕ) : value R n a.e q = 0 :=
  C73.metal_zero h ho hq (.side hl ⟨f, hf, hp⟩) n

/-! ### MUR sides -/

theorem undisturbed (h : setup k J X = some R) (ho : OrdinaryBlocks X.file.cards) (hu : Undisturbed X a q) :
    NoWrite (C22.extrasE R.sim) (.fld a.e (grid R.cfg q .x) (grid R.cfg q .y) (grid R.cfg q .z)) := by
  obtain ⟨u1, u2, u3, u4⟩ := hu
  exact (((clear_debye h ho u1).append (clear_sheets h u2).1).append (no_source h ho u4)).append (clear_waves h u3).1

theorem mur_sample (h : setup k J X = some R) (hq : InMurSide X f a q) : C22.MurSample R.cfg f a.e (grid R.cfg q) := by
  obtain ⟨hv, hn, hb, -⟩ := run_parts h
  refine ⟨by rw [hb]; exact hq.mur, by cases a <;> rfl, in_mesh h hq.inMesh, (plane_place h).2 hq.onSide, fun g hg hp => ?_, ?_⟩
  · by_contra hne
    exact hq.noOther g hne (by rw [← hb]; exact hg) ((plane_place h).1 hp)
  · rw [hn, hb]
    exact hq.thick

theorem neighbour (c : Cfg) (f : Face) (q : Axis → Int) : C22.Neighbour f (grid c q) (grid c (inwards f q)) := by
  refine ⟨?_, fun b hb => ?_⟩
  · unfold grid inwards
    rw [if_pos rfl]
    ring
  · unfold grid inwards
    rw [if_neg hb]

theorem zeta (h : setup k J X = some R) (hf : X.file.bt f = .mur) :
    R.coefs (.zeta f) = (k.c0 * R.dt - sideCell X f) / (k.c0 * R.dt + sideCell X f) := by
  obtain ⟨hv, hn, hb, hdt, hC, -⟩ := run_parts h
  have z := C22.zeta_value hv X.lines k.big J.edges k.c0 R.dt (f := f) (by rw [hb]; exact hf)
  have e : R.coefs (.zeta f) = murZeta k.c0 R.dt R.cfg (fun a => (initCellEdges R.cfg a (X.lines a) k.big (J.edges a)).de) f := by
    rw [hC, hdt]; rfl
  rw [e, z]
  have s : C22.faceCell R.cfg X.lines f = sideCell X f := by
    have c1 := hv.cells f.axis
    unfold C22.faceCell sideCell cellLength
    rw [hn] at c1 ⊢
    dsimp only
    split_ifs
    · rw [show max 0 (min (cellsOf X.file f.axis - 1) 0) = 0 by omega]; norm_num
    · rw [show max 0 (min (cellsOf X.file f.axis - 1) (cellsOf X.file f.axis - 1)) = cellsOf X.file f.axis - 1 by omega, sub_add_cancel]
  rw [s]

/-- C81: in a `MUR` side the field obeys the equation of waves that leave the mesh. -/
theorem mur_side (h : setup k J X = some R) (ho : OrdinaryBlocks X.file.cards) (hc : 0 < k.c0) (hT : 0 < R.dt) (hd : 0 < sideCell X f)
    (hq : InMurSide X f a q) (hu : Undisturbed X a q) (hu' : Undisturbed X a (inwards f q)) (n : ℕ) :
    LeavingWave k.c0 R.dt (sideCell X f) (value R n a.e q) (value R (n + 1) a.e q)
      (value R n a.e (inwards f q)) (value R (n + 1) a.e (inwards f q)) := by
  obtain ⟨hv, hn, hb, hdt, hC, -, -, pws, -, eS⟩ := run_parts h
  have ecfg : R.sim.cfg = R.cfg := by rw [eS]
  have key := C22.one_way R.coefs R.sim (by rw [ecfg]; exact hv) (f := f) (fc := a.e) (q := grid R.cfg q) (p := grid R.cfg (inwards f q))
    (by rw [ecfg]; exact mur_sample h hq) (neighbour _ _ _) (undisturbed h ho hu) (undisturbed h ho hu')
    (mul_pos hc hT) hd (zeta h hq.mur) (setInputs (R.drive n) (R.fields n))
  have v : ∀ p : Axis → Int, value R (n + 1) a.e p = C22.val (R.sim.stepE.run R.coefs (setInputs (R.drive n) (R.fields n))) a.e (grid R.cfg p) := by
    intro p
    show R.fields (n + 1) (.fld a.e (grid R.cfg p .x) (grid R.cfg p .y) (grid R.cfg p .z)) = _
    rw [fields_succ]
    unfold Sim.step
    rw [run_append, run_not_written R.coefs (noE_stepH (by cases a <;> rfl) _ _ _ R.sim)]
    rfl
  unfold LeavingWave
  rw [v, v]
  exact key

/-- C81: when a wave needs exactly one step for the cell next to the side, the side takes over the value of its neighbour, so
waves of any shape leave without reflection. -/
theorem mur_side_matched (h : setup k J X = some R) (ho : OrdinaryBlocks X.file.cards) (hc : 0 < k.c0) (hT : 0 < R.dt)
    (hd : sideCell X f = k.c0 * R.dt) (hq : InMurSide X f a q) (hu : Undisturbed X a q) (hu' : Undisturbed X a (inwards f q)) (n : ℕ) :
    value R (n + 1) a.e q = value R n a.e (inwards f q) := by
  have p := mul_pos hc hT
  have := mur_side h ho hc hT (by rw [hd]; exact p) hq hu hu' n
  unfold LeavingWave at this
  rw [hd] at this
  have h1 := hc.ne'
  have h2 := hT.ne'
  field_simp at this
  linarith

/-- C81: where two `MUR` sides meet there is no field along the edge. -/
theorem mur_edge (h : setup k J X = some R) (ho : OrdinaryBlocks X.file.cards) (hq : OnMurEdges X a q) (hu : Undisturbed X a q) (n : ℕ) :
    value R n a.e q = 0 := by
  obtain ⟨hv, hn, hb, hdt, hC, -, -, pws, -, eS⟩ := run_parts h
  have ecfg : R.sim.cfg = R.cfg := by rw [eS]
  obtain ⟨hi, f, g, hfg, hf, hg, pf, pg⟩ := hq
  have hin := in_mesh h hi
  have edge : OnMurEdge R.cfg a.e (grid R.cfg q .x) (grid R.cfg q .y) (grid R.cfg q .z) := by
    have on : ∀ f : Face, OnPlane (meshBox X) f a.e (q .x) (q .y) (q .z) →
        SampleIn (getFaceOfBoundingBox R.cfg.gibox f) a.e (grid R.cfg q .x) (grid R.cfg q .y) (grid R.cfg q .z) := by
      intro f pf
      have pf := (plane_place h).2 pf
      unfold OnPlane samplePos at pf
      unfold SampleIn at hin ⊢
      cases f <;> simp only [Face.axis, getFaceOfBoundingBox, mkBox] at pf ⊢ <;> omega
    exact ⟨hin, f, g, hfg, by rw [hb]; exact hf, by rw [hb]; exact hg, on f pf, on g pg⟩
  have nw : NoWrite (C22.coreE R.cfg) (.fld a.e (grid R.cfg q .x) (grid R.cfg q .y) (grid R.cfg q .z)) := by
    apply noWrite_of_count
    rw [C09.electric_exactly_once hv a.e (by cases a <;> decide)]
    exact if_neg fun hh => hh.2 edge
  induction n with
  | zero => rfl
  | succ n ih =>
    show R.fields (n + 1) (.fld a.e (grid R.cfg q .x) (grid R.cfg q .y) (grid R.cfg q .z)) = _
    rw [fields_succ]
    unfold Sim.step
    rw [run_append, run_not_written R.coefs (noE_stepH (by cases a <;> rfl) _ _ _ R.sim)]
    have e := C22.stepE_core R.coefs R.sim (by rw [ecfg]; exact hv) (fc := a.e) (grid R.cfg q) (by rw [ecfg]; exact hin) (undisturbed h ho hu)
      (setInputs (R.drive n) (R.fields n))
    rw [ecfg] at e
    refine Eq.trans e ?_
    unfold C22.val
    rw [NoWrite.run R.coefs nw]
    exact ih

/-! ### The two ends of a periodic axis -/

theorem pos2_h (d b : Axis) (i : Int) : pos2 d.h b i = if b = d then 2 * i else 2 * i + 1 := by cases d <;> cases b <;> rfl
theorem pos2_e (d b : Axis) (i : Int) : pos2 d.e b i = if b = d then 2 * i + 1 else 2 * i := by cases d <;> cases b <;> rfl
theorem mesh_lo (b : Axis) : meshBox X b.lo = 0 := by cases b <;> rfl
theorem mesh_hi (b : Axis) : meshBox X b.hi = cellsOf X.file b := by cases b <;> rfl

theorem in_iff {fc : Fc} : SampleIn (meshBox X) fc (q .x) (q .y) (q .z) ↔
    ∀ b, 0 ≤ pos2 fc b (q b) ∧ pos2 fc b (q b) ≤ 2 * cellsOf X.file b := by
  constructor
  · intro h b
    obtain ⟨h1, h2, h3⟩ := h
    cases b <;> simp only [meshBox, mkBox, cellsOf] at * <;> omega
  · intro h
    have hx := h .x; have hy := h .y; have hz := h .z
    simp only [cellsOf] at hx hy hz
    refine ⟨?_, ?_, ?_⟩ <;> simp only [meshBox, mkBox] <;> omega

theorem opposite_moved (d : Axis) (q : Axis → Int) : opposite X d q = moved q (fun b => if b = d then cellsOf X.file d else 0) := by
  funext b
  unfold opposite moved
  dsimp only
  split_ifs <;> ring

theorem opposite_back {d e : Axis} (q : Axis → Int) : opposite X d (back q e) = back (opposite X d q) e := by
  funext b
  unfold opposite back
  dsimp only
  split_ifs <;> ring
theorem opposite_ahead {d e : Axis} (q : Axis → Int) : opposite X d (ahead q e) = ahead (opposite X d q) e := by
  funext b
  unfold opposite ahead
  dsimp only
  split_ifs <;> ring

/-- The sample of index `v` along one axis. -/
def put (q : Axis → Int) (e : Axis) (v : Int) : Axis → Int := fun b => if b = e then v else q b

theorem opposite_put {d e : Axis} (hed : e ≠ d) (q : Axis → Int) (v : Int) : opposite X d (put q e v) = put (opposite X d q) e v := by
  funext b
  unfold opposite put
  dsimp only
  split_ifs with h1 h2
  · exact absurd (h2.symm.trans h1) hed
  all_goals rfl

theorem lo_axis (e : Axis) : e.lo.axis = e ∧ e.hi.axis = e ∧ e.lo.isLo = true ∧ e.hi.isLo = false := by cases e <;> decide

/-- The normal magnetic field half a cell outside the other sides is that of a sample in the mesh, with the same sign in both
planes. -/
theorem normal_outside (h : setup k J X = some R) {d e : Axis} (hed : e ≠ d) (n : ℕ)
    (hw : ∀ f, f.axis ≠ d → X.file.bt f = .pec ∨ X.file.bt f = .pmc ∨ X.file.bt f = .periodic)
    (ih : ∀ q, q d = 0 → SampleIn (meshBox X) d.h (q .x) (q .y) (q .z) → value R n d.h q = value R n d.h (opposite X d q))
    (h0 : q d = 0) (hr : ∀ b, b ≠ d → b ≠ e → 0 ≤ q b ∧ q b < cellsOf X.file b) (he : -1 ≤ q e ∧ q e ≤ cellsOf X.file e) :
    value R n d.h q = value R n d.h (opposite X d q) := by
  obtain ⟨hv, hn, hb, -⟩ := run_parts h
  have pos : ∀ b, 1 ≤ cellsOf X.file b := by intro b; rw [← hn]; exact hv.cells b
  have inm : ∀ v, 0 ≤ v → v < cellsOf X.file e → SampleIn (meshBox X) d.h (put q e v .x) (put q e v .y) (put q e v .z) := by
    intro v v0 v1
    rw [in_iff]
    intro b
    rw [pos2_h]
    unfold put
    by_cases b1 : b = d
    · subst b1
      rw [if_pos rfl, if_neg (Ne.symm hed), h0]
      have := pos b
      omega
    · rw [if_neg b1]
      by_cases b2 : b = e
      · subst b2; rw [if_pos rfl]; omega
      · rw [if_neg b2]
        have := hr b b1 b2
        omega
  have put0 : ∀ v, put q e v d = 0 := by intro v; unfold put; rw [if_neg (Ne.symm hed), h0]
  obtain ⟨l1, l2, l3, l4⟩ := lo_axis e
  have ext : ∀ (f : Face), f.axis = e → ∀ p : Axis → Int, (∀ b, b ≠ e → p b = q b ∨ (b = d ∧ p b = cellsOf X.file d)) → OnExtendedGrid (meshBox X) f p := by
    intro f hf p hp b hbf
    rw [hf] at hbf
    rw [mesh_lo, mesh_hi]
    have pb := pos b
    rcases hp b hbf with e1 | ⟨e1, e2⟩
    · rw [e1]
      by_cases b1 : b = d
      · subst b1; rw [h0]; omega
      · have := hr b b1 hbf; omega
    · subst e1; rw [e2]; omega
  have oppq : ∀ b, b ≠ e → opposite X d q b = q b ∨ (b = d ∧ opposite X d q b = cellsOf X.file d) := by
    intro b _
    unfold opposite
    by_cases b1 : b = d
    · subst b1; rw [if_pos rfl, h0]; exact Or.inr ⟨rfl, by ring⟩
    · rw [if_neg b1]; exact Or.inl rfl
  have oppe : opposite X d q e = q e := by unfold opposite; rw [if_neg hed]
  have half : ∀ (p : Axis → Int), p e = q e → (q e = -1 → HalfOutside (meshBox X) e.lo d.h p) ∧ (q e = cellsOf X.file e → HalfOutside (meshBox X) e.hi d.h p) := by
    intro p hp
    unfold HalfOutside Spec.place
    rw [l1, l2, l3, l4, pos2_h, if_neg hed, mesh_lo, mesh_hi, hp]
    refine ⟨fun hh => ?_, fun hh => ?_⟩ <;> rw [hh] <;> simp
  have mir : ∀ (p : Axis → Int), p e = q e → (q e = -1 → MirrorImage (meshBox X) e.lo d.h p (put p e 0)) ∧
      (q e = cellsOf X.file e → MirrorImage (meshBox X) e.hi d.h p (put p e (cellsOf X.file e - 1))) := by
    intro p hp
    unfold MirrorImage Spec.place
    simp only [pos2_h]
    rw [l1, l2, if_neg hed, if_neg hed, mesh_lo, mesh_hi, hp]
    refine ⟨fun hh => ⟨?_, fun b hb => ?_⟩, fun hh => ⟨?_, fun b hb => ?_⟩⟩
    · rw [hh]; simp only [put, hed, reduceIte, Bool.false_eq_true]; ring
    · unfold put; rw [if_neg hb]
    · rw [hh]; simp only [put, hed, reduceIte, Bool.false_eq_true]; ring
    · unfold put; rw [if_neg hb]
  have per : ∀ (p : Axis → Int), p e = q e → (q e = -1 → PeriodImage (meshBox X) e.lo d.h p (put p e (cellsOf X.file e - 1))) ∧
      (q e = cellsOf X.file e → PeriodImage (meshBox X) e.hi d.h p (put p e 0)) := by
    intro p hp
    unfold PeriodImage Spec.place
    simp only [pos2_h]
    rw [l1, l2, l3, l4, if_neg hed, if_neg hed, mesh_lo, mesh_hi, hp]
    refine ⟨fun hh => ⟨?_, fun b hb => ?_⟩, fun hh => ⟨?_, fun b hb => ?_⟩⟩
    · rw [hh]; simp only [put, hed, reduceIte, Bool.false_eq_true]; ring
    · unfold put; rw [if_neg hb]
    · rw [hh]; simp only [put, hed, reduceIte, Bool.false_eq_true]; ring
    · unfold put; rw [if_neg hb]
  have pe := pos e
  rcases lt_trichotomy (q e) 0 with c1 | c1 | c1
  · have c : q e = -1 := by omega
    rcases hw e.lo (by rw [l1]; exact hed) with w | w | w
    · rw [conducting_side_image h w ((half q rfl).1 c) (ext e.lo l1 q fun b _ => Or.inl rfl) ((mir q rfl).1 c) n,
        conducting_side_image h w ((half _ oppe).1 c) (ext e.lo l1 _ oppq) ((mir _ oppe).1 c) n, ← opposite_put hed]
      exact ih _ (put0 _) (inm 0 le_rfl (by omega))
    · rw [magnetic_side h w ((half q rfl).1 c) (ext e.lo l1 q fun b _ => Or.inl rfl) ((mir q rfl).1 c) n,
        magnetic_side h w ((half _ oppe).1 c) (ext e.lo l1 _ oppq) ((mir _ oppe).1 c) n, ← opposite_put hed]
      rw [ih _ (put0 _) (inm 0 le_rfl (by omega))]
    · rw [periodic_side h w ((half q rfl).1 c) (ext e.lo l1 q fun b _ => Or.inl rfl) ((per q rfl).1 c) n,
        periodic_side h w ((half _ oppe).1 c) (ext e.lo l1 _ oppq) ((per _ oppe).1 c) n, ← opposite_put hed]
      exact ih _ (put0 _) (inm _ (by omega) (by omega))
  · have : put q e (q e) = q := by funext b; unfold put; split_ifs with hh <;> simp [hh]
    rw [← this]
    exact ih _ (put0 _) (inm _ (by omega) (by omega))
  · by_cases c2 : q e < cellsOf X.file e
    · have : put q e (q e) = q := by funext b; unfold put; split_ifs with hh <;> simp [hh]
      rw [← this]
      exact ih _ (put0 _) (inm _ (by omega) (by omega))
    · have c : q e = cellsOf X.file e := by omega
      rcases hw e.hi (by rw [l2]; exact hed) with w | w | w
      · rw [conducting_side_image h w ((half q rfl).2 c) (ext e.hi l2 q fun b _ => Or.inl rfl) ((mir q rfl).2 c) n,
          conducting_side_image h w ((half _ oppe).2 c) (ext e.hi l2 _ oppq) ((mir _ oppe).2 c) n, ← opposite_put hed]
        exact ih _ (put0 _) (inm _ (by omega) (by omega))
      · rw [magnetic_side h w ((half q rfl).2 c) (ext e.hi l2 q fun b _ => Or.inl rfl) ((mir q rfl).2 c) n,
          magnetic_side h w ((half _ oppe).2 c) (ext e.hi l2 _ oppq) ((mir _ oppe).2 c) n, ← opposite_put hed]
        rw [ih _ (put0 _) (inm _ (by omega) (by omega))]
      · rw [periodic_side h w ((half q rfl).2 c) (ext e.hi l2 q fun b _ => Or.inl rfl) ((per q rfl).2 c) n,
          periodic_side h w ((half _ oppe).2 c) (ext e.hi l2 _ oppq) ((per _ oppe).2 c) n, ← opposite_put hed]
        exact ih _ (put0 _) (inm 0 le_rfl (by omega))

/-- The magnetic field along the planes, half a cell on either side of them. -/
theorem along_outside (h : setup k J X = some R) {d e : Axis} (hed : e ≠ d) (n : ℕ) (hp : X.file.bt d.lo = .periodic)
    (h0 : q d = 0) (hr : ∀ b, b ≠ d → 0 ≤ q b ∧ q b ≤ cellsOf X.file b) :
    value R n e.h q = value R n e.h (opposite X d q) ∧ value R n e.h (back q d) = value R n e.h (back (opposite X d q) d) := by
  obtain ⟨hv, hn, hb, -⟩ := run_parts h
  have pos : ∀ b, 1 ≤ cellsOf X.file b := by intro b; rw [← hn]; exact hv.cells b
  have hp' : X.file.bt d.hi = .periodic := by
    have := hv.paired d.lo (by rw [hb]; exact hp)
    rw [hb] at this
    cases d <;> exact this
  obtain ⟨l1, l2, l3, l4⟩ := lo_axis d
  have ext : ∀ (f : Face), f.axis = d → ∀ p : Axis → Int, (∀ b, b ≠ d → p b = q b) → OnExtendedGrid (meshBox X) f p := by
    intro f hf p hp b hbf
    rw [hf] at hbf
    rw [mesh_lo, mesh_hi, hp b hbf]
    have := hr b hbf
    omega
  constructor
  · refine (periodic_side h hp' ?_ (ext d.hi l2 _ fun b hb => ?_) ?_ n).symm
    · unfold HalfOutside Spec.place opposite
      rw [l2, l4, pos2_h, if_neg (Ne.symm hed), mesh_hi, if_pos rfl, h0, if_neg (by decide)]
      ring
    · unfold opposite; rw [if_neg hb]
    · unfold PeriodImage Spec.place opposite
      simp only [pos2_h]
      rw [l2, l4, if_neg (Ne.symm hed), if_neg (Ne.symm hed), mesh_hi, mesh_lo, if_pos rfl]
      refine ⟨by simp only [reduceIte, Bool.false_eq_true]; ring, fun b hb => ?_⟩
      rw [if_neg hb]
  · refine periodic_side h hp ?_ (ext d.lo l1 _ fun b hb => ?_) ?_ n
    · unfold HalfOutside Spec.place back
      rw [l1, l3, pos2_h, if_neg (Ne.symm hed), mesh_lo, if_pos rfl, h0, if_pos rfl]
      ring
    · unfold back; rw [if_neg hb]
    · unfold PeriodImage Spec.place back opposite
      simp only [pos2_h]
      rw [l1, l3, if_neg (Ne.symm hed), if_neg (Ne.symm hed), mesh_hi, mesh_lo, if_pos rfl, if_pos rfl]
      refine ⟨by simp only [reduceIte]; ring, fun b hb => ?_⟩
      rw [if_neg hb, if_neg hb, if_neg hb]

/-- C81: the fields in the two end planes of a periodic axis are the same at all times: the electric field along the planes
and the magnetic field across them. -/
theorem periodic_ends (h : setup k J X = some R) (ho : OrdinaryBlocks X.file.cards) {d : Axis} (hs : SameEnds X R.dt d) (n : ℕ) :
    (∀ a q, a ≠ d → q d = 0 → SampleIn (meshBox X) a.e (q .x) (q .y) (q .z) → value R n a.e q = value R n a.e (opposite X d q)) ∧
    ∀ q, q d = 0 → SampleIn (meshBox X) d.h (q .x) (q .y) (q .z) → value R n d.h q = value R n d.h (opposite X d q) := by
  obtain ⟨hv, hn, hb, -⟩ := run_parts h
  have pos : ∀ b, 1 ≤ cellsOf X.file b := by intro b; rw [← hn]; exact hv.cells b
  have md : middleDistance X d 0 = middleDistance X d (cellsOf X.file d) := by
    have := pos d
    have c := hs.cells
    unfold middleDistance cellLength at *
    dsimp only at c ⊢
    rw [show max 0 (min (cellsOf X.file d - 1) (0 - 1)) = 0 by omega, show max 0 (min (cellsOf X.file d - 1) 0) = 0 by omega,
      show max 0 (min (cellsOf X.file d - 1) (cellsOf X.file d - 1)) = cellsOf X.file d - 1 by omega,
      show max 0 (min (cellsOf X.file d - 1) (cellsOf X.file d)) = cellsOf X.file d - 1 by omega] at *
    rw [c]
  induction n with
  | zero => exact ⟨fun _ _ _ _ _ => rfl, fun _ _ _ => rfl⟩
  | succ n ih =>
    have E : ∀ a q, a ≠ d → q d = 0 → SampleIn (meshBox X) a.e (q .x) (q .y) (q .z) →
        value R (n + 1) a.e q = value R (n + 1) a.e (opposite X d q) := by
      intro a q had h0 hi
      obtain ⟨o1, o2, hsay⟩ := hs.electric a q had h0 hi
      have hi2 := o2.1
      have em := opposite_moved (X := X) d q
      obtain ⟨c1, c2, -⟩ := C73.same_coefs h h ho ho rfl hi (em ▸ hi2) hsay
      have cur := hsay.2 (n * R.dt)
      rw [← em] at c1 c2 cur
      have rng : ∀ b, (b ≠ a → 0 ≤ q b ∧ q b ≤ cellsOf X.file b) ∧ (b = a → 0 ≤ q b ∧ q b < cellsOf X.file b) := by
        intro b
        have := in_iff.1 hi b
        rw [pos2_e] at this
        constructor
        · intro hba; rw [if_neg hba] at this; omega
        · intro hba; rw [if_pos hba] at this; omega
      have rall : ∀ b, 0 ≤ q b ∧ q b ≤ cellsOf X.file b := by
        intro b
        by_cases hba : b = a
        · have := (rng b).2 hba; omega
        · exact (rng b).1 hba
      have nrm : ∀ e, e ≠ d → e ≠ a → value R n d.h q = value R n d.h (opposite X d q) ∧
          value R n d.h (back q e) = value R n d.h (back (opposite X d q) e) := by
        intro e hed hea
        have only : ∀ b, b ≠ d → b ≠ e → b = a := by
          intro b b1 b2
          cases b <;> cases d <;> cases e <;> cases a <;> simp_all
        refine ⟨normal_outside h hed n hs.others ih.2 h0 (fun b b1 b2 => (rng b).2 (only b b1 b2)) ?_, ?_⟩
        · have := rall e; omega
        · rw [← opposite_back]
          refine normal_outside h hed n hs.others ih.2 ?_ (fun b b1 b2 => ?_) ?_
          · unfold back; rw [if_neg (Ne.symm hed)]; exact h0
          · unfold back; rw [if_neg b2]; exact (rng b).2 (only b b1 b2)
          · unfold back; rw [if_pos rfl]; have := rall e; omega
      have alo : ∀ e, e ≠ d → value R n e.h q = value R n e.h (opposite X d q) ∧
          value R n e.h (back q d) = value R n e.h (back (opposite X d q) d) := fun e hed =>
        along_outside h hed n hs.periodic h0 fun b _ => rall b
      have dist : ∀ b, middleDistance X b (q b) = middleDistance X b (opposite X d q b) := by
        intro b
        unfold opposite
        by_cases b1 : b = d
        · subst b1; rw [if_pos rfl, h0, zero_add, md]
        · rw [if_neg b1]
      have rot : rotH X (value R n) a q = rotH X (value R n) a (opposite X d q) := by
        unfold rotH
        dsimp only
        rw [← dist, ← dist]
        rcases (show a.next = d ∨ a.next.next = d by cases a <;> cases d <;> simp_all [Axis.next]) with e | e
        · have hed : a.next.next ≠ d := by cases a <;> cases d <;> simp_all [Axis.next]
          have hea : a.next.next ≠ a := by cases a <;> decide
          rw [e] at hed hea ⊢
          rw [(alo d.next hed).1, (alo d.next hed).2, (nrm d.next hed hea).1, (nrm d.next hed hea).2]
        · have hed : a.next ≠ d := by cases a <;> cases d <;> simp_all [Axis.next]
          have hea : a.next ≠ a := by cases a <;> decide
          rw [e, (alo a.next hed).1, (alo a.next hed).2, (nrm a.next hed hea).1, (nrm a.next hed hea).2]
      obtain ⟨i1, i2, i3, i4, i5, i6⟩ := o1
      obtain ⟨j1, j2, j3, j4, j5, j6⟩ := o2
      rw [electric_step h ho i1 i2 i3 i4 i5 i6 n, electric_step h ho j1 j2 j3 j4 j5 j6 n, c1, c2, cur, rot, ih.1 a q had h0 hi]
    refine ⟨E, ?_⟩
    intro q h0 hi
    obtain ⟨o1, o2, hsay⟩ := hs.magnetic q h0 hi
    have hi2 := o2.1
    have em := opposite_moved (X := X) d q
    obtain ⟨-, -, c3⟩ := C73.same_coefs h h ho ho rfl hi (em ▸ hi2) hsay
    have cur := hsay.2 ((n + 1 / 2) * R.dt)
    rw [← em] at c3 cur
    have rng : ∀ b, b ≠ d → 0 ≤ q b ∧ q b < cellsOf X.file b := by
      intro b hbd
      have := in_iff.1 hi b
      rw [pos2_h, if_neg hbd] at this
      omega
    have el : ∀ b c, b ≠ d → c ≠ d → b ≠ c → value R (n + 1) b.e q = value R (n + 1) b.e (opposite X d q) ∧
        value R (n + 1) b.e (ahead q c) = value R (n + 1) b.e (ahead (opposite X d q) c) := by
      intro b c hbd hcd hbc
      have inn : ∀ p : Axis → Int, p d = 0 → (∀ x, x ≠ d → x ≠ c → p x = q x) → (p c = q c ∨ p c = q c + 1) →
          SampleIn (meshBox X) b.e (p .x) (p .y) (p .z) := by
        intro p p0 p1 p2
        rw [in_iff]
        intro x
        rw [pos2_e]
        by_cases x1 : x = d
        · subst x1
          rw [if_neg (Ne.symm hbd), p0]
          have := pos x
          omega
        · by_cases x2 : x = c
          · subst x2
            rw [if_neg (Ne.symm hbc)]
            have := rng x x1
            omega
          · have := rng x x1
            rw [p1 x x1 x2]
            split_ifs <;> omega
      refine ⟨E b q hbd h0 (inn q h0 (fun _ _ _ => rfl) (Or.inl rfl)), ?_⟩
      rw [← opposite_ahead]
      have a0 : ahead q c d = 0 := by unfold ahead; rw [if_neg (Ne.symm hcd), h0]
      refine E b _ hbd a0 (inn _ a0 (fun x x1 x2 => ?_) (Or.inr ?_))
      · unfold ahead; rw [if_neg x2]
      · unfold ahead; rw [if_pos rfl]
    have rot : rotE X (value R (n + 1)) d q = rotE X (value R (n + 1)) d (opposite X d q) := by
      have n1 : d.next ≠ d := by cases d <;> decide
      have n2 : d.next.next ≠ d := by cases d <;> decide
      have n3 : d.next ≠ d.next.next := by cases d <;> decide
      unfold rotE
      dsimp only
      rw [(el d.next.next d.next n2 n1 (Ne.symm n3)).1, (el d.next.next d.next n2 n1 (Ne.symm n3)).2,
        (el d.next d.next.next n1 n2 n3).1, (el d.next d.next.next n1 n2 n3).2]
      have o1 : opposite X d q d.next = q d.next := by unfold opposite; rw [if_neg n1]
      have o2 : opposite X d q d.next.next = q d.next.next := by unfold opposite; rw [if_neg n2]
      rw [o1, o2]
    obtain ⟨i1, i2, i3, i4⟩ := o1
    obtain ⟨j1, j2, j3, j4⟩ := o2
    rw [magnetic_step h ho i1 i2 i3 i4 n, magnetic_step h ho j1 j2 j3 j4 n, c3, cur, rot, ih.2 q h0 hi]

end

/-! ### Rooms with other walls -/

open C73 C75

theorem hall_setup (k : Consts) (J : Junk) {wall : BType} (hw : wall = .mur ∨ wall = .pmc ∨ wall = .periodic) :
    ∃ R, setup k J (room 8 wall 4) = some R := by
  have hl : Source.lookup ['J', 'Z'] = some ⟨.ecurrDens, .z, none, .ez, true⟩ := by decide +kernel
  obtain ⟨s, hs, hp⟩ : ∃ s, (room 8 wall 4).file.stored = some s ∧ s.pws = [] := by
    have e : (room 8 wall 4).file.stored = Deck.read (Deck.State.init (mkBox 0 8 0 8 0 8)) (roomCards 4) := rfl
    rw [e, roomCards]
    rw [C47.read_cons, C47.card_wf (by rfl), Option.bind_some]
    rw [C47.read_cons]
    simp only [Deck.State.card, hl]
    rw [if_pos (by decide +kernel)]; exact ⟨_, rfl, rfl⟩
  obtain ⟨cf, hc⟩ : ∃ cf, initExternalSurfaceParameters (room 8 wall 4).file.cells (room 8 wall 4).file.bt (room 8 wall 4).file.layers = some cf := by
    refine Option.isSome_iff_exists.1 ?_
    show (initExternalSurfaceParameters (fun a => match a with | .x => 8 | .y => 8 | .z => 8) (fun _ => wall) (fun _ => 6)).isSome = true
    rcases hw with rfl | rfl | rfl <;> decide +kernel
  have hS : ∃ S, (Setup.fileOf k J (room 8 wall 4) cf).sim (Setup.de k J (room 8 wall 4) cf) (Setup.dh k J (room 8 wall 4) cf) = some S := by
    unfold Deck.File.sim
    have a1 : (Setup.fileOf k J (room 8 wall 4) cf).stored = some s := hs
    have a2 : initExternalSurfaceParameters (Setup.fileOf k J (room 8 wall 4) cf).cells (Setup.fileOf k J (room 8 wall 4) cf).bt (Setup.fileOf k J (room 8 wall 4) cf).layers = some cf := hc
    rw [a1, Option.bind_some, a2, Option.bind_some, hp]
    exact ⟨_, rfl⟩
  obtain ⟨S, hS⟩ := hS
  exact ⟨_, Scaling.setup_of hc hs hS⟩

theorem hall_source {wall : BType} {fc : Fc} {q : Axis → Int} (h : fc ≠ .ez ∨ ∃ a, q a < 4 ∨ 4 < q a) : NoSource (room 8 wall 4) fc q := by
  intro m b nm tag w size delay r hx t ht hs hc hb
  rcases room_cards hx with h' | h'
  · cases h'
  · injection h' with _ h2 _ h4
    have e : t = jz := C27.spell_injective ht jz_valid (by rw [hs, h4]; rfl)
    subst e
    have hc' : fc = .ez := hc.symm
    subst hc'
    rw [h2] at hb
    obtain ⟨b1, b2, b3⟩ := hb
    simp only [mkBox, pos2] at b1 b2 b3
    rcases h with h | ⟨a, h⟩
    · exact h rfl
    · cases a <;> omega

theorem hall_quiet {wall : BType} {a : Axis} {q : Axis → Int} (h : a ≠ .z ∨ ∃ a, q a < 4 ∨ 4 < q a) : Undisturbed (room 8 wall 4) a q :=
  ⟨room_debye, room_sheets, room_waves, hall_source (h.imp_left fun ha => by cases a <;> first | decide | exact absurd rfl ha)⟩

theorem hall_vacuum {wall : BType} (hw : wall ≠ .pec) {fc : Fc} {q : Axis → Int} : MadeOf (room 8 wall 4) fc (q .x) (q .y) (q .z) .vacuum := by
  refine .vacuum ?_ ?_ ?_ ?_ ?_
  · rintro x hx s ⟨_, b, n, tag, w, size, delay, r, d, rfl, ht, -⟩
    rcases room_cards hx with h | h
    · cases h
    · injection h with _ _ _ h4
      rw [h4] at ht
      simp [lumpedAxis] at ht
  · rintro ⟨f, hf, -⟩; exact hw hf
  · rintro x hx s ⟨_, _, rfl, -⟩; rcases room_cards hx with h | h <;> cases h
  · rintro x hx s ⟨_, rfl, -⟩; rcases room_cards hx with h | h <;> cases h
  · rintro x hx s ⟨_, _, _, rfl, -⟩; rcases room_cards hx with h | h <;> cases h

/-- A room with `MUR` walls: the side `x = 8` lets waves out, and the edge `x = y = 8` carries no field. -/
example (k : Consts) (hk : Physical k) (hb : 1 < k.big) (J : Junk) : ∃ R, setup k J (room 8 .mur 4) = some R ∧ ∀ n,
    LeavingWave k.c0 R.dt 1 (value R n .ez (there 8 4 4)) (value R (n + 1) .ez (there 8 4 4))
      (value R n .ez (there 7 4 4)) (value R (n + 1) .ez (there 7 4 4)) ∧ value R n .ez (there 8 8 4) = 0 := by
  obtain ⟨R, hR⟩ := hall_setup k J (Or.inl rfl)
  have hT : 0 < R.dt := C64.step_positive hk hR (by show (0 : ℝ) < 0.5; norm_num)
    (by intro a m _ _; show ((m : Int) : ℝ) < ((m + 1 : Int) : ℝ); push_cast; linarith) (by
    intro a m _ _
    show ((m + 1 : Int) : ℝ) - ((m : Int) : ℝ) < k.big
    push_cast; linarith)
  refine ⟨R, hR, fun n => ⟨?_, ?_⟩⟩
  · have c : sideCell (room 8 .mur 4) .xhi = 1 := unit_cell rfl _ _
    have i : inwards .xhi (there 8 4 4) = there 7 4 4 := by funext b; cases b <;> rfl
    have := mur_side (a := .z) (f := .xhi) (q := there 8 4 4) hR room_blocks hk.c0 hT (by rw [c]; exact one_pos) ⟨rfl, ?_, ?_, ?_, ?_⟩
      (hall_quiet (Or.inr ⟨.x, Or.inr (by decide)⟩)) (hall_quiet (Or.inr ⟨.x, Or.inr (by decide)⟩)) n
    · rw [c, i] at this; exact this
    · simp [SampleIn, pos2, meshBox, mkBox, room, there, Axis.e]
    · simp [OnPlane, samplePos, pos2, meshBox, mkBox, room, there, Axis.e, Face.axis]
    · intro g hg _
      cases g <;> first | exact absurd rfl hg | simp [OnPlane, samplePos, pos2, meshBox, mkBox, room, there, Axis.e, Face.axis]
    · left; show (2 : Int) ≤ 8; decide
  · refine mur_edge (a := .z) hR room_blocks ⟨?_, .xhi, .yhi, by decide, rfl, rfl, ?_, ?_⟩ (hall_quiet (Or.inr ⟨.x, Or.inr (by decide)⟩)) n
    · simp [SampleIn, pos2, meshBox, mkBox, room, there, Axis.e]
    · simp [OnPlane, samplePos, pos2, meshBox, mkBox, room, there, Axis.e, Face.axis]
    · simp [OnPlane, samplePos, pos2, meshBox, mkBox, room, there, Axis.e, Face.axis]

/-- A room with magnetic walls. -/
example (k : Consts) (J : Junk) : ∃ R, setup k J (room 8 .pmc 4) = some R ∧ ∀ n, value R n .hy (there (-1) 4 4) = - value R n .hy (there 0 4 4) := by
  obtain ⟨R, hR⟩ := hall_setup k J (Or.inr (Or.inl rfl))
  refine ⟨R, hR, fun n => magnetic_side (f := .xlo) hR rfl ?_ ?_ ?_ n⟩
  · simp [HalfOutside, Spec.place, pos2, meshBox, mkBox, room, there, Face.axis, Face.isLo]
  · intro b hb
    cases b <;> first | exact absurd rfl hb | simp [meshBox, mkBox, room, there, Axis.lo, Axis.hi]
  · refine ⟨by simp [Spec.place, pos2, meshBox, mkBox, room, there, Face.axis], fun b hb => ?_⟩
    cases b <;> first | exact absurd rfl hb | rfl

/-- A room that repeats: its ends carry the same fields. -/
example (k : Consts) (J : Junk) : ∃ R, setup k J (room 8 .periodic 4) = some R ∧ ∀ n,
    value R n .ez (there 0 4 4) = value R n .ez (there 8 4 4) ∧ value R n .hx (there 0 4 4) = value R n .hx (there 8 4 4) := by
  obtain ⟨R, hR⟩ := hall_setup k J (Or.inr (Or.inr rfl))
  have mur : ∀ fc q, ¬ OnMurSide (room 8 .periodic 4) fc q := by rintro fc q ⟨f, hf, -⟩; cases hf
  have inn : ∀ fc (q : Axis → Int), q .x = 0 → SampleIn (meshBox (room 8 .periodic 4)) fc (q .x) (q .y) (q .z) → (∀ i, pos2 fc .x i = 2 * i) →
      SampleIn (meshBox (room 8 .periodic 4)) fc (opposite (room 8 .periodic 4) .x q .x) (opposite (room 8 .periodic 4) .x q .y) (opposite (room 8 .periodic 4) .x q .z) := by
    intro fc q h0 ⟨h1, h2, h3⟩ hx
    have ox : opposite (room 8 .periodic 4) .x q .x = 8 := by
      show q .x + 8 = 8; omega
    refine ⟨?_, h2, h3⟩
    rw [hx, ox]
    simp [meshBox, mkBox, room]
  have say : ∀ fc (q : Axis → Int), q .x = 0 → SaySame (room 8 .periodic 4) (room 8 .periodic 4) (fun b => if b = .x then 8 else 0) R.dt fc q := by
    intro fc q h0
    refine ⟨fun s => ⟨fun hs => ?_, fun hs => ?_⟩, fun t => ?_⟩
    · rw [C64.made_unique hR room_blocks hs (hall_vacuum (by decide))]; exact hall_vacuum (by decide)
    · rw [C64.made_unique hR room_blocks hs (hall_vacuum (q := moved q fun b => if b = Axis.x then 8 else 0) (by decide))]; exact hall_vacuum (by decide)
    · rw [no_current (hall_source (Or.inr ⟨.x, Or.inl (by omega)⟩)), no_current (hall_source (Or.inr ⟨.x, Or.inr ?_⟩))]
      show 4 < q .x + 8
      omega
  have ends : SameEnds (room 8 .periodic 4) R.dt .x := by
    refine ⟨rfl, fun f _ => Or.inr (Or.inr rfl), by rw [unit_cell rfl, unit_cell rfl], fun a q ha h0 hi => ⟨?_, ?_, ?_⟩, fun q h0 hi => ⟨?_, ?_, ?_⟩⟩
    · exact ⟨hi, mur _ _, room_debye, room_sheets, room_waves, room_currents⟩
    · refine ⟨inn _ q h0 hi fun i => ?_, mur _ _, room_debye, room_sheets, room_waves, room_currents⟩
      cases a <;> first | exact absurd rfl ha | rfl
    · exact say _ q h0
    · exact ⟨hi, room_sheets, room_waves, room_currents⟩
    · exact ⟨inn _ q h0 hi fun i => rfl, room_sheets, room_waves, room_currents⟩
    · exact say _ q h0
  refine ⟨R, hR, fun n => ?_⟩
  have o : opposite (room 8 .periodic 4) .x (there 0 4 4) = there 8 4 4 := by funext b; cases b <;> rfl
  have := periodic_ends hR room_blocks ends n
  rw [← o]
  refine ⟨this.1 .z _ (by decide) rfl ?_, this.2 _ rfl ?_⟩
  · simp [SampleIn, pos2, meshBox, mkBox, room, there, Axis.e]
  · simp [SampleIn, pos2, meshBox, mkBox, room, there, Axis.h]

end Vulture.C81
