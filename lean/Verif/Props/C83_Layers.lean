import Verif.Props.C81_Sides
import Verif.Props.C23_Update
import Verif.Props.C40_LayerMedia
import Verif.Props.C76_Held
import Verif.Props.C13_Walls
import Verif.Spec.Layers
import Mathlib.Analysis.SpecialFunctions.Integrals.Basic
/- C83: the absorbing layers of a run obey the stretched Maxwell equations with the profile of the mesh file. -/
set_option linter.unusedSimpArgs false
set_option linter.unusedVariables false
set_option linter.unusedSectionVars false
namespace Vulture.C83
open Vulture Spec Setup CavityLemmas Scaling C72

section
variable {k : Consts} {J : Junk} {X : Experiment} {R : Setup.Run} {a : Axis} {f : Face} {q r : Axis → Int}

theorem layers_eq (h : setup k J X = some R) (f : Face) : R.cfg.layers f = if X.file.bt f = .pml then X.file.layers f else 0 := by
  obtain ⟨s, -, hc, -⟩ := setup_parts h
  unfold initExternalSurfaceParameters at hc
  split_ifs at hc with hn
  simp only [Option.some.injEq] at hc
  rw [← hc]
  dsimp only
  have ha : (surfaceLayers (X.file.bt f) (X.file.layers f)).isNone = false := by
    by_contra hh
    refine hn (List.any_eq_true.2 ⟨f, by cases f <;> simp [Face.all], ?_⟩)
    rw [Bool.not_eq_false] at hh
    rw [hh]; rfl
  revert ha
  unfold surfaceLayers
  cases hb : X.file.bt f <;> simp
  split_ifs <;> simp
  omega

theorem outer_side (h : setup k J X = some R) (f : Face) : R.cfg.gobox f = gridBox X f + R.cfg.gibox f.axis.lo := by
  have e := C81.box_side h f
  have l := layers_eq h f
  have o := C07.inner_offset R.cfg f.axis
  unfold gridBox
  split_ifs at l ⊢ with h1 h2 <;> cases f <;> simp [Face.axis, Axis.lo, Axis.hi, Face.isLo] at * <;> omega

theorem in_outer (h : setup k J X = some R) {fc : Fc} (hi : SampleIn (gridBox X) fc (q .x) (q .y) (q .z)) :
    SampleIn R.cfg.gobox fc (grid R.cfg q .x) (grid R.cfg q .y) (grid R.cfg q .z) := by
  obtain ⟨h1, h2, h3⟩ := hi
  have e := fun f => outer_side h f
  have p := fun b => C81.pos2_grid (q := q) R.cfg fc b
  refine ⟨?_, ?_, ?_⟩
  · rw [p, e .xlo, e .xhi]; simp only [Face.axis, Axis.lo]; omega
  · rw [p, e .ylo, e .yhi]; simp only [Face.axis, Axis.lo]; omega
  · rw [p, e .zlo, e .zhi]; simp only [Face.axis, Axis.lo]; omega

theorem not_in_mesh (h : setup k J X = some R) {fc : Fc} (hi : ¬ SampleIn (meshBox X) fc (q .x) (q .y) (q .z)) :
    ¬ SampleIn R.cfg.gibox fc (grid R.cfg q .x) (grid R.cfg q .y) (grid R.cfg q .z) := by
  intro hh
  refine hi ?_
  have := (C71.in_box_place R.cfg (meshBox X) (fc := fc) (i := q .x) (j := q .y) (l := q .z)).1
  rw [mesh_place h] at this
  exact this hh

/-- Every sample of the layers belongs to one of the six regions. -/
theorem region {c : Cfg} (hv : ValidCfg c) {fc : Fc} {i j l : Int} (ho : SampleIn c.gobox fc i j l) (hi : ¬ SampleIn c.gibox fc i j l) :
    ∃ r, c.bt r = .pml ∧ InLim (c.fplim r fc) i j l := by
  have fx := cfg_facts hv .x; have fy := cfg_facts hv .y; have fz := cfg_facts hv .z
  have ox := C07.inner_offset c .x; have oy := C07.inner_offset c .y; have oz := C07.inner_offset c .z
  have pm : ∀ f, c.layers f ≠ 0 → c.bt f = .pml := fun f hf => by
    by_contra hne; exact hf (hv.other f hne)
  simp only [Axis.lo, Axis.hi] at fx fy fz ox oy oz
  obtain ⟨⟨x1, x2⟩, ⟨y1, y2⟩, z1, z2⟩ := ho
  have lim : ∀ r, SampleIn (c.pbox r) fc i j l → (∀ f, OnPlane (c.pbox r) f fc i j l → pmlInclude r f = true) → InLim (c.fplim r fc) i j l :=
    fun r h1 h2 => (C19.inLim_iff_contains _ _ _ _ _ _).2 ⟨h1, h2⟩
  by_cases c1 : pos2 fc .x i < 2 * c.gibox .xlo
  · refine ⟨.xlo, pm _ (by omega), lim _ ⟨?_, ?_, ?_⟩ fun f hf => ?_⟩
    · simp only [Cfg.pbox, mkBox]; omega
    · simp only [Cfg.pbox, mkBox]; omega
    · simp only [Cfg.pbox, mkBox]; omega
    · cases f <;> first | rfl | (exfalso; simp only [OnPlane, samplePos, Face.axis, Cfg.pbox, mkBox] at hf; omega)
  by_cases c2 : 2 * c.gibox .xhi < pos2 fc .x i
  · refine ⟨.xhi, pm _ (by omega), lim _ ⟨?_, ?_, ?_⟩ fun f hf => ?_⟩
    · simp only [Cfg.pbox, mkBox]; omega
    · simp only [Cfg.pbox, mkBox]; omega
    · simp only [Cfg.pbox, mkBox]; omega
    · cases f <;> first | rfl | (exfalso; simp only [OnPlane, samplePos, Face.axis, Cfg.pbox, mkBox] at hf; omega)
  by_cases c3 : pos2 fc .y j < 2 * c.gibox .ylo
  · refine ⟨.ylo, pm _ (by omega), lim _ ⟨?_, ?_, ?_⟩ fun f hf => ?_⟩
    · simp only [Cfg.pbox, mkBox]; omega
    · simp only [Cfg.pbox, mkBox]; omega
    · simp only [Cfg.pbox, mkBox]; omega
    · cases f <;> first | rfl | (exfalso; simp only [OnPlane, samplePos, Face.axis, Cfg.pbox, mkBox] at hf; omega)
  by_cases c4 : 2 * c.gibox .yhi < pos2 fc .y j
  · refine ⟨.yhi, pm _ (by omega), lim _ ⟨?_, ?_, ?_⟩ fun f hf => ?_⟩
    · simp only [Cfg.pbox, mkBox]; omega
    · simp only [Cfg.pbox, mkBox]; omega
    · simp only [Cfg.pbox, mkBox]; omega
    · cases f <;> first | rfl | (exfalso; simp only [OnPlane, samplePos, Face.axis, Cfg.pbox, mkBox] at hf; omega)
  by_cases c5 : pos2 fc .z l < 2 * c.gibox .zlo
  · refine ⟨.zlo, pm _ (by omega), lim _ ⟨?_, ?_, ?_⟩ fun f hf => ?_⟩
    · simp only [Cfg.pbox, mkBox]; omega
    · simp only [Cfg.pbox, mkBox]; omega
    · simp only [Cfg.pbox, mkBox]; omega
    · cases f <;> first | rfl | (exfalso; simp only [OnPlane, samplePos, Face.axis, Cfg.pbox, mkBox] at hf; omega)
  by_cases c6 : 2 * c.gibox .zhi < pos2 fc .z l
  · refine ⟨.zhi, pm _ (by omega), lim _ ⟨?_, ?_, ?_⟩ fun f hf => ?_⟩
    · simp only [Cfg.pbox, mkBox]; omega
    · simp only [Cfg.pbox, mkBox]; omega
    · simp only [Cfg.pbox, mkBox]; omega
    · cases f <;> first | rfl | (exfalso; simp only [OnPlane, samplePos, Face.axis, Cfg.pbox, mkBox] at hf; omega)
  exact absurd ⟨⟨by omega, by omega⟩, ⟨by omega, by omega⟩, by omega, by omega⟩ hi

/-! ### Materials -/

theorem continued_eq (h : setup k J X = some R) (fc : Fc) (b : Axis) :
    C40.srcIdx R.cfg fc b (grid R.cfg q b) = grid R.cfg (continued X fc q) b := by
  obtain ⟨hv, hn, hb, -⟩ := run_parts h
  have o := (C07.inner_offset R.cfg b).2.2.1
  rw [hn] at o
  unfold C40.srcIdx grid continued
  have n : pmlCopyPlane R.cfg b.lo fc = R.cfg.gibox b.lo + pos2 fc b 0 ∧ pmlCopyPlane R.cfg b.hi fc = R.cfg.gibox b.hi - pos2 fc b 0 := by
    cases b <;> cases fc <;> simp [pmlCopyPlane, fieldIsInBoundary, pos2, Face.isLo, Axis.lo, Axis.hi]
  rw [n.1, n.2]
  split_ifs <;> omega

theorem in_layers (h : setup k J X = some R) {fc : Fc} (hq : InLayer X fc q) :
    InLayers R.cfg fc (grid R.cfg q .x) (grid R.cfg q .y) (grid R.cfg q .z) := by
  obtain ⟨hv, hn, hb, -⟩ := run_parts h
  refine ⟨in_outer h hq.inside, fun f hf => ?_⟩
  rw [hb] at hf
  have := hq.front f hf
  unfold OnPlane at this
  rw [outer_side h f]
  intro hh
  refine this ?_
  have p := fun b => C81.pos2_grid (q := q) R.cfg fc b
  cases f <;> simp only [samplePos, Face.axis, Axis.lo] at * <;> rw [p] at hh <;> simp only [Axis.lo] at hh <;> omega

theorem continued_in (h : setup k J X = some R) (h2 : ∀ b, X.file.bt b.lo = .pml → 2 ≤ cellsOf X.file b) {fc : Fc}
    (hi : SampleIn (gridBox X) fc (q .x) (q .y) (q .z)) :
    SampleIn (meshBox X) fc (continued X fc q .x) (continued X fc q .y) (continued X fc q .z) := by
  obtain ⟨hv, hn, hb, -⟩ := run_parts h
  have e : ∀ b, 0 ≤ pos2 fc b (continued X fc q b) ∧ pos2 fc b (continued X fc q b) ≤ 2 * cellsOf X.file b := by
    intro b
    have c1 : 1 ≤ cellsOf X.file b := by rw [← hn]; exact hv.cells b
    have c2 : q b < 0 → 2 ≤ cellsOf X.file b := by
      intro hlt
      refine h2 b ?_
      by_contra hne
      have g : gridBox X b.lo = 0 := by unfold gridBox; rw [if_neg hne]; cases b <;> rfl
      have p : pos2 fc b (q b) ≤ 2 * q b + 1 := by cases b <;> cases fc <;> simp [pos2]
      have l : 2 * gridBox X b.lo ≤ pos2 fc b (q b) := by
        obtain ⟨r1, r2, r3⟩ := hi
        cases b <;> first | exact r1.1 | exact r2.1 | exact r3.1
      omega
    unfold continued
    cases b <;> cases fc <;> simp only [pos2] at * <;> split_ifs <;> omega
  exact C81.in_iff.2 e

/-- Without a lumped source the coefficients of a sample are those before lumped sources are set. -/
theorem no_resistor (h : setup k J X = some R) (ho : OrdinaryBlocks X.file.cards) {fc : Fc}
    (hr : ∀ x ∈ X.file.cards, ∀ s, ¬ ResistorOf X fc (q .x) (q .y) (q .z) x s) :
    let S := medSetup k J X R.cfg R.state
    mediaArrays R.cfg S J.med fc (grid R.cfg q .x) (grid R.cfg q .y) (grid R.cfg q .z) =
      pmlCopy R.cfg (applyFills (initMediaFill R.cfg S :: (blockFills R.cfg S ++ lineFills R.cfg S ++ surfaceFills R.cfg S ++
        externalFills R.cfg S)) J.med) fc (grid R.cfg q .x) (grid R.cfg q .y) (grid R.cfg q .z) := by
  intro S
  obtain ⟨hv, hn, hb, hdt, hC, -, hst, -⟩ := run_parts h
  obtain ⟨l1, l2, l3, l4⟩ := C64.read_lists _ (C47.stored_parts hst).2 fun c hc => (ho c hc).2
  simp only [Deck.State.init, List.nil_append] at l1 l2 l3 l4
  have f4 : resistFills R.cfg (medSetup k J X R.cfg R.state) =
      X.file.cards.filterMap (C64.resFill k J X R.cfg (Setup.dt k J X R.cfg)) := by
    simp only [resistFills, medSetup]
    rw [l4, List.filterMap_filterMap, List.map_filterMap]
    rfl
  have hl := C64.lastWins_pick (C19.last_wins (resistFills R.cfg S) (pmlCopy R.cfg (applyFills (initMediaFill R.cfg S ::
    (blockFills R.cfg S ++ lineFills R.cfg S ++ surfaceFills R.cfg S ++ externalFills R.cfg S)) J.med)) fc
      (grid R.cfg q .x) (grid R.cfg q .y) (grid R.cfg q .z))
  rw [show resistFills R.cfg S = _ from f4] at hl
  rcases C64.resistor_group (fc := fc) (i := q .x) (j := q .y) (l := q .z) h with ⟨x, s, a1, a2, a3⟩ | ⟨nr, a3⟩
  · exact absurd a2 (hr x (C64.last_mem a1).1 s)
  · rw [show C64.pick fc (grid R.cfg q .x) (grid R.cfg q .y) (grid R.cfg q .z) _ = none from a3, ← f4] at hl
    exact hl

/-- A sample of the layers has the coefficients of the material that continues there. -/
theorem layer_coef (h : setup k J X = some R) (ho : OrdinaryBlocks X.file.cards) (h2 : ∀ b, X.file.bt b.lo = .pml → 2 ≤ cellsOf X.file b) {fc : Fc}
    (hq : InLayer X fc q) (hr : ∀ x ∈ X.file.cards, ∀ s, ¬ ResistorOf X fc (continued X fc q .x) (continued X fc q .y) (continued X fc q .z) x s)
    (ref : Fc → Int → Int → Int → CRef) (href : ref = .alpha ∨ ref = .beta ∨ ref = .gamma) :
    R.coefs (ref fc (grid R.cfg q .x) (grid R.cfg q .y) (grid R.cfg q .z)) =
      R.coefs (ref fc (grid R.cfg (continued X fc q) .x) (grid R.cfg (continued X fc q) .y) (grid R.cfg (continued X fc q) .z)) := by
  obtain ⟨hv, hn, hb, hdt, hC, -, hst, -⟩ := run_parts h
  have nq : ∀ x ∈ X.file.cards, ∀ s, ¬ ResistorOf X fc (q .x) (q .y) (q .z) x s := by
    rintro x hx s ⟨_, b, _, _, _, _, _, _, _, rfl, -, hc, -⟩
    exact hq.outside (C76.box_in_mesh h hx hc.1)
  have e1 := no_resistor h ho nq
  have e2 := no_resistor h ho hr
  have m := C40.layer_media hv (by intro b hp; rw [hn]; exact h2 b (by rw [← hb]; exact hp)) (applyFills (initMediaFill R.cfg (medSetup k J X R.cfg R.state) ::
    (blockFills R.cfg (medSetup k J X R.cfg R.state) ++ lineFills R.cfg (medSetup k J X R.cfg R.state) ++
      surfaceFills R.cfg (medSetup k J X R.cfg R.state) ++ externalFills R.cfg (medSetup k J X R.cfg R.state))) J.med) fc _ _ _ (in_layers h hq)
  rw [continued_eq h, continued_eq h, continued_eq h] at m
  have inn := C19.pmlCopy_apply hv (applyFills (initMediaFill R.cfg (medSetup k J X R.cfg R.state) ::
    (blockFills R.cfg (medSetup k J X R.cfg R.state) ++ lineFills R.cfg (medSetup k J X R.cfg R.state) ++
      surfaceFills R.cfg (medSetup k J X R.cfg R.state) ++ externalFills R.cfg (medSetup k J X R.cfg R.state))) J.med) fc
      (grid R.cfg (continued X fc q) .x, grid R.cfg (continued X fc q) .y, grid R.cfg (continued X fc q) .z)
  have hin := in_mesh h (continued_in h h2 hq.inside)
  simp only [C19.pull_inner hv fc _ _ _ _ hin] at inn
  have key : mediaArrays R.cfg (medSetup k J X R.cfg R.state) J.med fc (grid R.cfg q .x) (grid R.cfg q .y) (grid R.cfg q .z) =
      mediaArrays R.cfg (medSetup k J X R.cfg R.state) J.med fc (grid R.cfg (continued X fc q) .x) (grid R.cfg (continued X fc q) .y)
        (grid R.cfg (continued X fc q) .z) := by
    rw [e1, e2, m, inn]
  rw [hC]
  rcases href with rfl | rfl | rfl
  · exact congrArg Coef.alpha key
  · exact congrArg Coef.beta key
  · exact congrArg Coef.gamma key

/-! ### Grading -/

theorem side_cell (h : setup k J X = some R) (f : Face) : C22.faceCell R.cfg X.lines f = sideCell X f := by
  obtain ⟨hv, hn, hb, hdt, hC, -⟩ := run_parts h
  have c1 := hv.cells f.axis
  unfold C22.faceCell sideCell cellLength
  rw [hn] at c1 ⊢
  dsimp only
  split_ifs
  · rw [show max 0 (min (cellsOf X.file f.axis - 1) 0) = 0 by omega]; norm_num
  · rw [show max 0 (min (cellsOf X.file f.axis - 1) (cellsOf X.file f.axis - 1)) = cellsOf X.file f.axis - 1 by omega, sub_add_cancel]

/-- The stored values of one place belong to conductivity `σ` and stretching `κ`. -/
def Belongs (T eps0 σ κ : ℝ) (c : PmlCoef) : Prop := C23.Consistent c ∧ c.g = T / (2 * eps0) * σ ∧ c.k = κ

theorem belongs_unity (T eps0 : ℝ) : Belongs T eps0 0 1 C23.unity := ⟨C23.consistent_unity, by simp [C23.unity], rfl⟩

theorem sane (hk : Physical k) (h : setup k J X = some R) (hT : 0 < R.dt) (hg : GoodLayers k X) (hf : X.file.bt f = .pml) :
    C23.Sane R.dt k.eps0 k.eta0 (X.par f) (R.cfg.layers f) (sideCell X f) := by
  obtain ⟨hv, hn, hb, hdt, hC, -⟩ := run_parts h
  have he0 : 0 < k.eps0 := by rw [hk.eps0]; have := hk.c0; have := hk.mu0; positivity
  obtain ⟨g1, g2, g3⟩ := hg
  obtain ⟨p1, p2, p3, p4⟩ := g3 f hf
  exact ⟨hT.le, he0, g1, p2, p3, p4, hv.pml f (by rw [hb]; exact hf), g2 _ _⟩

/-- The grading at depth `x` (a fraction of the thickness) is the profile of the specification. -/
theorem graded_belongs (hk : Physical k) (h : setup k J X = some R) (hT : 0 < R.dt) (hg : GoodLayers k X) (hf : X.file.bt f = .pml)
    {x : ℝ} (hx : 0 ≤ x) : Belongs R.dt k.eps0 (profileSigma k.eta0 (X.par f) (layerThickness X f) (sideCell X f) (x * layerThickness X f))
      (profileKappa (X.par f) (layerThickness X f) (x * layerThickness X f))
      (C23.graded R.dt k.eps0 k.eta0 (X.par f) (R.cfg.layers f) (sideCell X f) x) := by
  have sn := sane hk h hT hg hf
  have l := layers_eq h f
  rw [if_pos hf] at l
  have hD : layerThickness X f ≠ 0 := by
    unfold layerThickness
    rw [← l]
    have := sn.layers
    have c := sn.cell.ne'
    have : (R.cfg.layers f : ℝ) ≠ 0 := by exact_mod_cast (by omega)
    positivity
  refine ⟨C23.consistent_graded sn hx, ?_, ?_⟩
  · unfold C23.graded pmlCoef C23.loss profileSigma
    dsimp only
    rw [mul_div_cancel_right₀ _ hD]
    have : C23.sigmaMax k.eta0 (X.par f) (R.cfg.layers f) (sideCell X f) = topConductivity k.eta0 (X.par f) (layerThickness X f) (sideCell X f) := by
      unfold C23.sigmaMax topConductivity layerThickness
      rw [l]
    rw [this]
  · unfold C23.graded pmlCoef C23.stretch profileKappa
    dsimp only
    rw [mul_div_cancel_right₀ _ hD]

theorem graded_zero (hk : Physical k) (h : setup k J X = some R) (hT : 0 < R.dt) (hg : GoodLayers k X) (hf : X.file.bt f = .pml) :
    Belongs R.dt k.eps0 0 1 (C23.graded R.dt k.eps0 k.eta0 (X.par f) (R.cfg.layers f) (sideCell X f) 0) := by
  have b := graded_belongs hk h hT hg hf (x := 0) le_rfl
  have p := (hg.2.2 f hf).1
  have e1 : profileSigma k.eta0 (X.par f) (layerThickness X f) (sideCell X f) (0 * layerThickness X f) = 0 := by
    unfold profileSigma; rw [zero_mul, zero_div, zero_pow (by omega), mul_zero]
  have e2 : profileKappa (X.par f) (layerThickness X f) (0 * layerThickness X f) = 1 := by
    unfold profileKappa; rw [zero_mul, zero_div, zero_pow (by omega), mul_zero, add_zero]
  rwa [e1, e2] at b

open Classical in
/-- The stored grading along axis `b` at the place of a sample is that of the specification. `half`: the sample lies half-way
between nodes. -/
theorem grade (hk : Physical k) (h : setup k J X = some R) (hT : 0 < R.dt) (hg : GoodLayers k X) {fc : Fc}
    (hi : SampleIn (gridBox X) fc (q .x) (q .y) (q .z)) (b : Axis) :
    Belongs R.dt k.eps0 (sigmaAt k X fc q b) (kappaAt X fc q b)
      (if pos2 fc b 0 = 0 then (Setup.pml k J X R.cfg b).node (grid R.cfg q b) else (Setup.pml k J X R.cfg b).half (grid R.cfg q b)) := by
  obtain ⟨hv, hn, hb, hdt, hC, -⟩ := run_parts h
  have lo1 : b.lo.isLo = true ∧ b.lo.axis = b := by cases b <;> decide
  have hi1 : b.hi.isLo = false ∧ b.hi.axis = b := by cases b <;> decide
  have cell := fun f : Face => hg.2.1 f.axis (if f.isLo then 0 else cellsOf X.file f.axis - 1)
  have cpos : ∀ f, 0 < sideCell X f := cell
  obtain ⟨g1, g2, g3, g4, g5⟩ := C23.grading R.dt k.eps0 k.eta0 hv b X.lines k.big (J.edges b) X.par (J.pml b)
    (by rw [side_cell h]; exact (cpos _).ne') (by rw [side_cell h]; exact (cpos _).ne')
  have eA : Setup.pml k J X R.cfg b = setPmlParameters R.dt k.eps0 k.eta0 R.cfg b (initCellEdges R.cfg b (X.lines b) k.big (J.edges b)).de
      (initCellEdges R.cfg b (X.lines b) k.big (J.edges b)).dh X.par (J.pml b) := by rw [hdt]; rfl
  rw [← eA] at g1 g2 g3 g4 g5
  rw [side_cell h] at g1 g4 g5
  have off := C07.inner_offset R.cfg b
  rw [hn] at off
  have fx := cfg_facts hv b
  have hio := in_outer h hi
  have pg := C81.pos2_grid (q := q) R.cfg fc b
  have rng : 2 * R.cfg.gobox b.lo ≤ pos2 fc b (grid R.cfg q b) ∧ pos2 fc b (grid R.cfg q b) ≤ 2 * R.cfg.gobox b.hi := by
    obtain ⟨r1, r2, r3⟩ := hio
    cases b <;> assumption
  have pq : pos2 fc b (q b) = 2 * q b + pos2 fc b 0 := by cases fc <;> cases b <;> simp [pos2]
  have p01 : pos2 fc b 0 = 0 ∨ pos2 fc b 0 = 1 := by cases fc <;> cases b <;> simp [pos2]
  have eg : grid R.cfg q b = q b + R.cfg.gibox b.lo := rfl
  have llo := layers_eq h b.lo
  have lhi := layers_eq h b.hi
  have olo : outwards X b.lo fc q = (-(pos2 fc b (q b) : ℝ) / 2) * sideCell X b.lo := by
    unfold outwards; rw [lo1.2, lo1.1, if_pos rfl]
  have ohi : outwards X b.hi fc q = ((pos2 fc b (q b) : ℝ) / 2 - cellsOf X.file b) * sideCell X b.hi := by
    unfold outwards; rw [hi1.2, hi1.1]; simp only [reduceIte, Bool.false_eq_true]
  have slo : 0 < outwards X b.lo fc q ↔ pos2 fc b (q b) < 0 := by
    rw [olo, mul_pos_iff_of_pos_right (cpos _)]
    constructor
    · intro hh
      have : (pos2 fc b (q b) : ℝ) < 0 := by linarith
      exact_mod_cast this
    · intro hh
      have : (pos2 fc b (q b) : ℝ) < 0 := by exact_mod_cast hh
      linarith
  have shi : 0 < outwards X b.hi fc q ↔ 2 * cellsOf X.file b < pos2 fc b (q b) := by
    rw [ohi, mul_pos_iff_of_pos_right (cpos _)]
    constructor
    · intro hh
      have : (2 * cellsOf X.file b : ℝ) < (pos2 fc b (q b) : ℝ) := by linarith
      exact_mod_cast this
    · intro hh
      have : (2 * cellsOf X.file b : ℝ) < (pos2 fc b (q b) : ℝ) := by exact_mod_cast hh
      linarith
  have dlo : ∀ y : ℝ, y = (pos2 fc b (q b) : ℝ) / 2 + R.cfg.gibox b.lo → X.file.bt b.lo = .pml →
      C23.layerDepth R.cfg b.lo y * layerThickness X b.lo = outwards X b.lo fc q := by
    intro y hy hp
    have := hv.pml b.lo (by rw [hb]; exact hp)
    rw [if_pos hp] at llo
    have n0 : (X.file.layers b.lo : ℝ) ≠ 0 := by rw [← llo]; exact_mod_cast (by omega)
    unfold C23.layerDepth layerThickness
    rw [olo, llo, lo1.1, if_pos rfl, hy]
    field_simp
    ring
  have dhi : ∀ y : ℝ, y = (pos2 fc b (q b) : ℝ) / 2 + R.cfg.gibox b.lo → X.file.bt b.hi = .pml →
      C23.layerDepth R.cfg b.hi y * layerThickness X b.hi = outwards X b.hi fc q := by
    intro y hy hp
    have := hv.pml b.hi (by rw [hb]; exact hp)
    rw [if_pos hp] at lhi
    have n0 : (X.file.layers b.hi : ℝ) ≠ 0 := by rw [← lhi]; exact_mod_cast (by omega)
    have o3 : (R.cfg.gibox b.hi : ℝ) = cellsOf X.file b + R.cfg.gibox b.lo := by exact_mod_cast (by omega)
    unfold C23.layerDepth layerThickness
    rw [ohi, lhi, hi1.1, hy]
    simp only [reduceIte, Bool.false_eq_true]
    rw [o3]
    field_simp
    ring
  have plo : pos2 fc b (q b) < 0 → X.file.bt b.lo = .pml := by
    intro hh
    by_contra hne
    rw [if_neg hne] at llo
    omega
  have phi : 2 * cellsOf X.file b < pos2 fc b (q b) → X.file.bt b.hi = .pml := by
    intro hh
    by_contra hne
    rw [if_neg hne] at lhi
    omega
  have ypos : ∀ f y, 0 < outwards X f fc q → X.file.bt f = .pml → C23.layerDepth R.cfg f y * layerThickness X f = outwards X f fc q →
      0 ≤ C23.layerDepth R.cfg f y := by
    intro f y ho hp e
    have l := layers_eq h f
    rw [if_pos hp] at l
    have n1 := hv.pml f (by rw [hb]; exact hp)
    have hD : 0 < layerThickness X f := by
      unfold layerThickness
      rw [← l]
      have : (0 : ℝ) < R.cfg.layers f := by exact_mod_cast (by omega)
      exact mul_pos this (cpos _)
    rw [← e] at ho
    exact ((mul_pos_iff_of_pos_right hD).1 ho).le
  unfold sigmaAt kappaAt
  by_cases c1 : pos2 fc b (q b) < 0
  · have hp := plo c1
    have s1 := slo.2 c1
    rw [if_pos ⟨hp, s1⟩, if_pos ⟨hp, s1⟩]
    rcases p01 with p | p
    · rw [if_pos p, (g1 _ (by omega) (by omega)).1]
      have e := dlo (grid R.cfg q b : ℤ) (by rw [pq, p, eg]; push_cast; ring) hp
      rw [← e]
      exact graded_belongs hk h hT hg hp (ypos _ _ s1 hp e)
    · rw [if_neg (by omega), (g1 _ (by omega) (by omega)).2]
      have e := dlo ((grid R.cfg q b : ℤ) + 1 / 2) (by rw [pq, p, eg]; push_cast; ring) hp
      rw [← e]
      exact graded_belongs hk h hT hg hp (ypos _ _ s1 hp e)
  · have nlo : ¬ (X.file.bt b.lo = .pml ∧ 0 < outwards X b.lo fc q) := fun hh => c1 (slo.1 hh.2)
    rw [if_neg nlo, if_neg nlo]
    by_cases c2 : 2 * cellsOf X.file b < pos2 fc b (q b)
    · have hp := phi c2
      have s1 := shi.2 c2
      rw [if_pos ⟨hp, s1⟩, if_pos ⟨hp, s1⟩]
      rcases p01 with p | p
      · rw [if_pos p, g4 _ (by rw [hb]; exact hp) (by omega) (by omega)]
        have e := dhi (grid R.cfg q b : ℤ) (by rw [pq, p, eg]; push_cast; ring) hp
        rw [← e]
        exact graded_belongs hk h hT hg hp (ypos _ _ s1 hp e)
      · rw [if_neg (by omega), g5 _ (by omega) (by omega)]
        have e := dhi ((grid R.cfg q b : ℤ) + 1 / 2) (by rw [pq, p, eg]; push_cast; ring) hp
        rw [← e]
        exact graded_belongs hk h hT hg hp (ypos _ _ s1 hp e)
    · have nhi : ¬ (X.file.bt b.hi = .pml ∧ 0 < outwards X b.hi fc q) := fun hh => c2 (shi.1 hh.2)
      rw [if_neg nhi, if_neg nhi]
      rcases p01 with p | p
      · rw [if_pos p]
        by_cases c3 : grid R.cfg q b = R.cfg.gibox b.hi
        · by_cases hp : X.file.bt b.hi = .pml
          · rw [g4 _ (by rw [hb]; exact hp) (by omega) (by omega), c3]
            have : C23.layerDepth R.cfg b.hi (R.cfg.gibox b.hi : ℤ) = 0 := by
              unfold C23.layerDepth; rw [hi1.1]; simp
            rw [this]
            exact graded_zero hk h hT hg hp
          · rw [g3 _ (by rw [hb]; exact hp) c3]
            exact belongs_unity _ _
        · rw [(g2 _ (by omega) (by omega)).1]
          exact belongs_unity _ _
      · rw [if_neg (by omega), (g2 _ (by omega) (by omega)).2]
        exact belongs_unity _ _

/-! ### Rotations in the layers -/

theorem lengths' (h : setup k J X = some R) (a : Axis) (m : Int) (h0 : R.cfg.gobox a.lo ≤ m + R.cfg.gibox a.lo)
    (h1 : m + R.cfg.gibox a.lo ≤ R.cfg.gobox a.hi) :
    R.coefs (.idh a (m + R.cfg.gibox a.lo)) = 1 / middleDistance X a m ∧
    R.coefs (.ide a (m + R.cfg.gibox a.lo)) = 1 / cellLength X a m := by
  obtain ⟨hv, hn, hb, hdt, hC, -⟩ := run_parts h
  obtain ⟨r1, r2⟩ := C18.reciprocals R.cfg hv a (X.lines a) k.big (J.edges a) (m + R.cfg.gibox a.lo) (by omega) (by omega)
  have d := C18.dual_edges R.cfg hv a (X.lines a) k.big (J.edges a) (m + R.cfg.gibox a.lo) (by omega) (by omega)
  have e1 := C18.edge_lengths R.cfg hv a (X.lines a) k.big (J.edges a) (m + R.cfg.gibox a.lo) (by omega) (by omega)
  have e2 := C18.edge_lengths R.cfg hv a (X.lines a) k.big (J.edges a) (m + R.cfg.gibox a.lo - 1) (by omega) (by omega)
  rw [add_sub_cancel_right, hn] at e1
  rw [show m + R.cfg.gibox a.lo - 1 - R.cfg.gibox a.lo = m - 1 by ring, hn] at e2
  rw [hC]
  refine ⟨?_, ?_⟩
  · show (edges k J X R.cfg a).idh _ = _
    unfold edges
    rw [r2, d, e1, e2]
    rfl
  · show (edges k J X R.cfg a).ide _ = _
    unfold edges
    rw [r1, e1]
    rfl

theorem outer_range (h : setup k J X = some R) {fc : Fc} (hi : SampleIn (gridBox X) fc (q .x) (q .y) (q .z)) (b : Axis) :
    R.cfg.gobox b.lo ≤ q b + R.cfg.gibox b.lo ∧ q b + R.cfg.gibox b.lo ≤ R.cfg.gobox b.hi := by
  obtain ⟨r1, r2, r3⟩ := in_outer h hi
  have p := fun b => C81.pos2_grid (q := q) R.cfg fc b
  have pq : ∀ b, pos2 fc b (q b) = 2 * q b + pos2 fc b 0 := by intro b; cases fc <;> cases b <;> simp [pos2]
  have p01 : pos2 fc b 0 = 0 ∨ pos2 fc b 0 = 1 := by cases fc <;> cases b <;> simp [pos2]
  rw [p, pq] at r1 r2 r3
  cases b <;> simp only [Axis.lo, Axis.hi] at * <;> omega

theorem curlH_eq (h : setup k J X = some R) (hi : SampleIn (gridBox X) a.e (q .x) (q .y) (q .z)) (n : ℕ) (u : Loc → ℝ) :
    (C23.curlH a (grid R.cfg q .x) (grid R.cfg q .y) (grid R.cfg q .z)).eval R.coefs (setInputs u (R.fields n)) = rotH X (value R n) a q := by
  obtain ⟨b0, b1⟩ := outer_range h hi a.next
  obtain ⟨c0, c1⟩ := outer_range h hi a.next.next
  have e1 := (lengths' h a.next (q a.next) b0 b1).1
  have e2 := (lengths' h a.next.next (q a.next.next) c0 c1).1
  have key : (C23.curlH a (grid R.cfg q .x) (grid R.cfg q .y) (grid R.cfg q .z)).eval R.coefs (setInputs u (R.fields n)) =
      curlOfH (fun c n => (R.coefs (.idh c n))⁻¹) (setInputs u (R.fields n)) a (grid R.cfg q) := by
    cases a <;> simp [Expr.eval, C23.curlH, curlOfH, at3, back, Axis.next, Axis.h, curlHx, curlHy, curlHz, HX, HY, HZ] <;> ring
  rw [key]
  unfold curlOfH rotH
  dsimp only
  rw [grid_back, grid_back]
  show (_ - _) / (R.coefs (.idh a.next (q a.next + R.cfg.gibox a.next.lo)))⁻¹ -
    (_ - _) / (R.coefs (.idh a.next.next (q a.next.next + R.cfg.gibox a.next.next.lo)))⁻¹ = _
  rw [e1, e2, one_div, one_div, inv_inv, inv_inv]
  rfl

theorem curlE_eq (h : setup k J X = some R) (hi : SampleIn (gridBox X) a.h (q .x) (q .y) (q .z)) (n : ℕ) (s : Loc → ℝ)
    (hs : ∀ fc i j l, fc.isE = true → s (.fld fc i j l) = R.fields n (.fld fc i j l)) :
    (C23.curlE a (grid R.cfg q .x) (grid R.cfg q .y) (grid R.cfg q .z)).eval R.coefs s = - rotE X (value R n) a q := by
  obtain ⟨b0, b1⟩ := outer_range h hi a.next
  obtain ⟨c0, c1⟩ := outer_range h hi a.next.next
  have e1 := (lengths' h a.next (q a.next) b0 b1).2
  have e2 := (lengths' h a.next.next (q a.next.next) c0 c1).2
  have key : (C23.curlE a (grid R.cfg q .x) (grid R.cfg q .y) (grid R.cfg q .z)).eval R.coefs s =
      - curlOfE (fun c n => (R.coefs (.ide c n))⁻¹) (R.fields n) a (grid R.cfg q) := by
    have x1 := fun i j l => hs .ex i j l rfl
    have x2 := fun i j l => hs .ey i j l rfl
    have x3 := fun i j l => hs .ez i j l rfl
    cases a <;> simp [Expr.eval, C23.curlE, curlOfE, at3, ahead, Axis.next, Axis.e, curlEx, curlEy, curlEz, EX, EY, EZ, x1, x2, x3] <;> ring
  rw [key]
  congr 1
  unfold curlOfE rotE
  dsimp only
  rw [grid_ahead, grid_ahead]
  show (_ - _) / (R.coefs (.ide a.next (q a.next + R.cfg.gibox a.next.lo)))⁻¹ -
    (_ - _) / (R.coefs (.ide a.next.next (q a.next.next + R.cfg.gibox a.next.next.lo)))⁻¹ = _
  rw [e1, e2, one_div, one_div, inv_inv, inv_inv]
  rfl

/-! ### Nothing else acts on the layers -/

theorem no_block (h : setup k J X = some R) {fc : Fc} (hq : ¬ SampleIn (meshBox X) fc (q .x) (q .y) (q .z)) :
    ∀ x ∈ X.file.cards, ∀ e s u poles, ¬ DebyeCard X fc q x e s u poles := by
  rintro x hx e s u poles ⟨c, mask, rfl, -, hc, -⟩
  obtain ⟨hv, hn, hb, hdt, hC, -, hst, -⟩ := run_parts h
  obtain ⟨t, v, htv, hm⟩ := C64.accepted hst hx
  simp only [Deck.State.card] at htv
  split at htv
  · simp at htv
  · split at htv
    · rename_i hp
      unfold parseMB at hp
      simp only [Bool.and_eq_true] at hp
      have hw : bboxIsWithin c.bbox t.mbox = true := hp.1.1.1.2
      rw [hm] at hw
      simp only [bboxIsWithin, Bool.and_eq_true, decide_eq_true_eq] at hw
      have hw2 : ((((c.bbox .xlo ≥ 0 ∧ c.bbox .xhi ≤ X.file.nx) ∧ c.bbox .ylo ≥ 0) ∧ c.bbox .yhi ≤ X.file.ny) ∧ c.bbox .zlo ≥ 0) ∧
        c.bbox .zhi ≤ X.file.nz := hw
      obtain ⟨b1, b2, b3⟩ := hc.1
      refine hq ⟨?_, ?_, ?_⟩ <;> simp only [meshBox, mkBox] <;> omega
    · simp at htv

theorem no_src (h : setup k J X = some R) {fc : Fc} (hq : ¬ SampleIn (meshBox X) fc (q .x) (q .y) (q .z)) : NoSource X fc q :=
  fun m b n tag w size delay r hx t ht e hc hb => hq (C76.box_in_mesh h hx hb)

theorem no_sourceH (h : setup k J X = some R) (ho : OrdinaryBlocks X.file.cards) (hn : NoSource X a.h q) :
    NoWrite (updateSourcesH R.sim.srcs) (.fld a.h (grid R.cfg q .x) (grid R.cfg q .y) (grid R.cfg q .z)) := by
  obtain ⟨hv, hnn, hb, hdt, hC, hd, hst, pws, hpw, eS⟩ := run_parts h
  refine NoWrite.flatMap fun y hy => ?_
  split
  · rename_i hact
    refine NoWrite.loop fun i j l hl hw => ?_
    rw [C27.writes_srcH, List.mem_singleton] at hw
    simp only [Loc.fld.injEq] at hw
    obtain ⟨e0, e1, e2, e3⟩ := hw
    have hmem : y.1 ∈ R.sim.srcs := by
      have := List.mem_zipIdx' hy
      rw [this.2]; exact List.getElem_mem _
    rw [eS] at hmem
    simp only [List.map_map, List.mem_map] at hmem
    obtain ⟨it, hit, hit2⟩ := hmem
    rw [srcs_stored h ho, List.mem_filterMap] at hit
    obtain ⟨x, hx, hit⟩ := hit
    cases x with
    | ex m b nm tag w size delay r =>
      obtain ⟨⟨t, ht, rfl, hlk⟩, hbox⟩ := source_card h hx
      simp only [C64.exItem, hlk, Option.map_some, Option.some.injEq] at hit
      subst hit
      have hh : HitsH y.1 a.h (grid R.cfg q .x) (grid R.cfg q .y) (grid R.cfg q .z) := by
        refine ⟨hact, e0.symm, ?_⟩
        rw [e0, e1, e2, e3]
        exact hl
      rw [← hit2] at hh
      have hc := (hits_iff (q := q) R.cfg _ _ a).2.1 hh
      exact hn _ _ _ _ _ _ _ _ hx t ht rfl hc.1 hc.2
    | _ => simp [C64.exItem] at hit
  · exact NoWrite.nil

theorem pml_only_E (c : Cfg) (r : Face) (fc : Fc) (i j l : Int) : NoWrite (updatePmlEfield c) (.b r fc i j l) := by
  refine NoWrite.flatMap fun r' _ => ?_
  unfold pmlRegionE
  split
  · refine NoWrite.append (NoWrite.append ?_ ?_) ?_ <;> refine NoWrite.loop fun i j k _ => ?_ <;>
      simp [pmlExBlock, pmlEyBlock, pmlEzBlock, Block.writes, Pr, PPr]
  · exact NoWrite.nil

theorem pml_only_H (c : Cfg) (r : Face) (fc : Fc) (i j l : Int) :
    NoWrite (updatePmlHfield c) (.p r fc i j l) ∧ NoWrite (updatePmlHfield c) (.pp r fc i j l) := by
  constructor
  all_goals
    refine NoWrite.flatMap fun r' _ => ?_
    unfold pmlRegionH
    split
    · refine NoWrite.append (NoWrite.append ?_ ?_) ?_ <;> refine NoWrite.loop fun i j k _ => ?_ <;>
        simp [pmlHxBlock, pmlHyBlock, pmlHzBlock, Block.writes, Br]
    · exact NoWrite.nil

theorem rest_E (S : Sim) {l : Loc} (hl : l.kind = .pml) : NoWrite (C22.extrasE S ++ updateGhostEfield S.cfg) l := by
  have n : ∀ ks : List LKind, LKind.pml ∉ ks → l.kind ∉ ks := fun ks h => by rw [hl]; exact h
  exact (((((wo_debye S.debye).noWrite (n _ (by decide))).append ((wo_sibcE S.sibc).noWrite (n _ (by decide)))).append
    ((wo_srcE S.srcs).noWrite (n _ (by decide)))).append ((wo_pwE S.cfg S.pws).noWrite (n _ (by decide)))).append
    ((wo_ghost S.cfg ghostEcomps).noWrite (n _ (by decide)))

theorem rest_H (S : Sim) {l : Loc} (hl : l.kind = .pml) : NoWrite (C23.extrasH S ++ updateGhostHfield S.cfg) l := by
  have n : ∀ ks : List LKind, LKind.pml ∉ ks → l.kind ∉ ks := fun ks h => by rw [hl]; exact h
  exact ((((wo_sibcH S.sibc).noWrite (n _ (by decide))).append
    ((wo_srcH S.srcs).noWrite (n _ (by decide)))).append ((wo_pwH S.cfg S.pws).noWrite (n _ (by decide)))).append
    ((wo_ghost S.cfg ghostHcomps).noWrite (n _ (by decide)))

theorem stepE_parts (S : Sim) : S.stepE = C23.coreE S.cfg ++ (C22.extrasE S ++ updateGhostEfield S.cfg) := by
  simp [Sim.stepE, C22.coreE, C22.extrasE, List.append_assoc]
theorem stepH_parts (S : Sim) : S.stepH = C23.coreH S.cfg ++ (C23.extrasH S ++ updateGhostHfield S.cfg) := by
  simp [Sim.stepH, C23.coreH, C23.extrasH, List.append_assoc]

theorem holds (h : setup k J X = some R) : C23.Holds R.coefs (Setup.pml k J X R.cfg) := by
  obtain ⟨hv, hn, hb, hdt, hC, -⟩ := run_parts h
  constructor <;> intro b n <;> rw [hC] <;> rfl

/-! ### The equations -/

theorem axes (a : Axis) : C23.nxt a = a.next ∧ C23.prv a = a.next.next := by cases a <;> decide

theorem coord_grid (c : Cfg) (q : Axis → Int) (b : Axis) : coord b (grid c q .x, grid c q .y, grid c q .z) = grid c q b := by cases b <;> rfl

theorem rate_eq {T eps0 σ κ U U' : ℝ} (hT : T ≠ 0) (he : eps0 ≠ 0) {c : PmlCoef} (hc : Belongs T eps0 σ κ c) :
    c.k * (U' - U) + c.g * (U' + U) = T * stretchedRate eps0 T κ σ U U' := by
  obtain ⟨-, h1, h2⟩ := hc
  unfold stretchedRate
  rw [h1, h2]
  field_simp

theorem eps_pos (hk : Physical k) : 0 < k.eps0 := by rw [hk.eps0]; have := hk.c0; have := hk.mu0; positivity

/-- C83: the electric field of the layers. -/
theorem layer_ampere (hk : Physical k) (h : setup k J X = some R) (ho : OrdinaryBlocks X.file.cards) (hT : 0 < R.dt) (hg : GoodLayers k X)
    (h2 : ∀ b, X.file.bt b.lo = .pml → 2 ≤ cellsOf X.file b) (hq : InLayer X a.e q) (hs : ClearOfSheets X a.e q) (hw : ClearOfWaves X a.e q)
    {stuff : Stuff} (hm : MadeOf X a.e (continued X a.e q .x) (continued X a.e q .y) (continued X a.e q .z) stuff)
    (hr : ∀ x ∈ X.file.cards, ∀ s, ¬ ResistorOf X a.e (continued X a.e q .x) (continued X a.e q .y) (continued X a.e q .z) x s) :
    ∃ D P : ℕ → ℝ, D 0 = 0 ∧ P 0 = 0 ∧ ∀ n,
      AmpereIn k R.dt (D n) (D (n + 1)) (rotH X (value R n) a q) 0 stuff ∧
      stretchedRate k.eps0 R.dt (kappaAt X a.e q a.next) (sigmaAt k X a.e q a.next) (P n) (P (n + 1)) = (D (n + 1) - D n) / R.dt ∧
      stretchedRate k.eps0 R.dt (kappaAt X a.e q a.next.next) (sigmaAt k X a.e q a.next.next) (value R n a.e q) (value R (n + 1) a.e q) =
        stretchedRate k.eps0 R.dt (kappaAt X a.e q a) (sigmaAt k X a.e q a) (P n) (P (n + 1)) := by
  obtain ⟨hv, hn, hb, hdt, hC, -, hst, pws, hpw, eS⟩ := run_parts h
  have ecfg : R.sim.cfg = R.cfg := by rw [eS]
  obtain ⟨r, hrp, hrl⟩ := region hv (in_outer h hq.inside) (not_in_mesh h hq.outside)
  have hE : ∀ b, b ≠ a → pos2 a.e b 0 = 0 := by intro b hb; cases a <;> cases b <;> first | rfl | exact absurd rfl hb
  have hE' : pos2 a.e a 0 ≠ 0 := by cases a <;> decide
  have b1 := grade hk h hT hg hq.inside a.next
  have b2 := grade hk h hT hg hq.inside a.next.next
  have b3 := grade hk h hT hg hq.inside a
  rw [if_pos (hE _ (next_ne a).1)] at b1
  rw [if_pos (hE _ (next_ne a).2)] at b2
  rw [if_neg hE'] at b3
  have ax := axes a
  have nd : NoWrite (C22.extrasE R.sim ++ updateGhostEfield R.sim.cfg) (.fld a.e (grid R.cfg q .x) (grid R.cfg q .y) (grid R.cfg q .z)) := by
    refine (C81.undisturbed h ho ⟨no_block h hq.outside, hs, hw, no_src h hq.outside⟩).append ?_
    rw [ecfg]
    exact noWrite_ghostE hv (in_outer h hq.inside)
  -- one step
  have key : ∀ n (l : Loc), NoWrite (C22.extrasE R.sim ++ updateGhostEfield R.sim.cfg) l → NoWrite R.sim.stepH l →
      R.fields (n + 1) l = (C23.coreE R.cfg).run R.coefs (setInputs (R.drive n) (R.fields n)) l := by
    intro n l h1 h2
    rw [fields_succ]
    show Prog.run R.coefs (R.sim.stepE ++ R.sim.stepH) _ l = _
    rw [run_append, NoWrite.run R.coefs h2, stepE_parts, run_append, NoWrite.run R.coefs h1, ecfg]
  have noH : ∀ l : Loc, l.kind = .pml → (NoWrite (updatePmlHfield R.sim.cfg) l) → NoWrite R.sim.stepH l := by
    intro l hl hp
    have nn : ∀ ks : List LKind, LKind.pml ∉ ks → l.kind ∉ ks := fun ks h => by rw [hl]; exact h
    rw [stepH_parts]
    exact ((hp.append ((wo_murH _).noWrite (nn _ (by decide)))).append ((wo_gridH _).noWrite (nn _ (by decide)))).append (rest_H _ hl)
  have kD := fun n => key n (C23.ppL R.cfg r a (grid R.cfg q .x) (grid R.cfg q .y) (grid R.cfg q .z)) (rest_E _ rfl)
    (noH _ rfl (pml_only_H _ _ _ _ _ _).2)
  have kP := fun n => key n (C23.pL R.cfg r a (grid R.cfg q .x) (grid R.cfg q .y) (grid R.cfg q .z)) (rest_E _ rfl)
    (noH _ rfl (pml_only_H _ _ _ _ _ _).1)
  have kE := fun n => key n (.fld a.e (grid R.cfg q .x) (grid R.cfg q .y) (grid R.cfg q .z)) nd
    (noE_stepH (by cases a <;> rfl) _ _ _ _)
  have hbv := (C64.every_sample hk h ho hT (continued_in h h2 hq.inside)).2 stuff hm
  have ca := layer_coef h ho h2 hq hr .alpha (Or.inl rfl)
  have cb := layer_coef h ho h2 hq hr .beta (Or.inr (Or.inl rfl))
  have he0 := (eps_pos hk).ne'
  have hT' := hT.ne'
  have st := fun n => C23.stretched_electric R.coefs (holds h) hv hrp a hrl (by rw [coord_grid, ax.1]; exact b1.1)
    (by rw [coord_grid, ax.2]; exact b2.1) (by rw [coord_grid]; exact b3.1) (setInputs (R.drive n) (R.fields n))
  simp only [coord_grid, ax.1, ax.2] at st
  simp only [← kD, ← kP, ← kE] at st
  have inp : ∀ n (l : Loc), l.isInput = false → setInputs (R.drive n) (R.fields n) l = R.fields n l := by
    intro n l hl; unfold setInputs; rw [hl]; rfl
  refine ⟨fun n => R.fields n (C23.ppL R.cfg r a (grid R.cfg q .x) (grid R.cfg q .y) (grid R.cfg q .z)),
    fun n => R.fields n (C23.pL R.cfg r a (grid R.cfg q .x) (grid R.cfg q .y) (grid R.cfg q .z)), rfl, rfl, fun n => ?_⟩
  obtain ⟨s1, s2, s3⟩ := st n
  rw [inp n (C23.ppL R.cfg r a (grid R.cfg q .x) (grid R.cfg q .y) (grid R.cfg q .z)) rfl] at s1 s2
  rw [inp n (C23.pL R.cfg r a (grid R.cfg q .x) (grid R.cfg q .y) (grid R.cfg q .z)) rfl] at s2 s3
  rw [inp n (.fld a.e (grid R.cfg q .x) (grid R.cfg q .y) (grid R.cfg q .z)) rfl] at s3
  rw [rate_eq hT' he0 b1] at s2
  rw [rate_eq hT' he0 b2, rate_eq hT' he0 b3] at s3
  refine ⟨?_, ?_, ?_⟩
  · have st1 : ∀ n, R.fields (n + 1) (C23.ppL R.cfg r a (grid R.cfg q .x) (grid R.cfg q .y) (grid R.cfg q .z)) =
        R.coefs (.alpha a.e (grid R.cfg (continued X a.e q) .x) (grid R.cfg (continued X a.e q) .y) (grid R.cfg (continued X a.e q) .z)) *
          R.fields n (C23.ppL R.cfg r a (grid R.cfg q .x) (grid R.cfg q .y) (grid R.cfg q .z)) +
        R.coefs (.beta a.e (grid R.cfg (continued X a.e q) .x) (grid R.cfg (continued X a.e q) .y) (grid R.cfg (continued X a.e q) .z)) *
          rotH X (value R n) a q := by
      intro n
      have := (st n).1
      rw [inp n (C23.ppL R.cfg r a (grid R.cfg q .x) (grid R.cfg q .y) (grid R.cfg q .z)) rfl, curlH_eq h hq.inside, ca, cb] at this
      exact this
    cases stuff with
    | vacuum =>
      have := hbv.1 (R.fields n (C23.ppL R.cfg r a (grid R.cfg q .x) (grid R.cfg q .y) (grid R.cfg q .z))) (rotH X (value R n) a q)
      dsimp only at this
      unfold AmpereIn AmpereWithCurrent
      have st' := st1 n
      unfold grid at st'
      simp only [Axis.lo] at st'
      unfold grid at this ⊢
      simp only [Axis.lo] at this ⊢
      rw [← st'] at this
      linear_combination this
    | metal =>
      obtain ⟨hb, -⟩ := hbv
      have z : ∀ n, R.fields n (C23.ppL R.cfg r a (grid R.cfg q .x) (grid R.cfg q .y) (grid R.cfg q .z)) = 0 := by
        intro n
        induction n with
        | zero => rfl
        | succ n ih =>
          rw [st1 n, ih]
          exact hb _
      exact z (n + 1)
    | matter e s u =>
      intro h1 h2 h3
      have := (hbv h1 h2 h3).1 (R.fields n (C23.ppL R.cfg r a (grid R.cfg q .x) (grid R.cfg q .y) (grid R.cfg q .z))) (rotH X (value R n) a q)
      dsimp only at this
      unfold AmpereWithCurrent
      have st' := st1 n
      unfold grid at st'
      simp only [Axis.lo] at st'
      unfold grid at this ⊢
      simp only [Axis.lo] at this ⊢
      rw [← st'] at this
      linear_combination this
    | dispersive e s u poles => trivial
  · rw [eq_div_iff hT', mul_comm]
    exact s2
  · exact mul_left_cancel₀ hT' s3

/-- C83: the magnetic field of the layers. -/
theorem layer_faraday (hk : Physical k) (h : setup k J X = some R) (ho : OrdinaryBlocks X.file.cards) (hT : 0 < R.dt) (hg : GoodLayers k X)
    (h2 : ∀ b, X.file.bt b.lo = .pml → 2 ≤ cellsOf X.file b) (hq : InLayer X a.h q) (hs : ClearOfSheets X a.h q) (hw : ClearOfWaves X a.h q)
    {stuff : Stuff} (hm : MadeOf X a.h (continued X a.h q .x) (continued X a.h q .y) (continued X a.h q .z) stuff) (hrg : InRange k R.dt stuff)
    (hr : ∀ x ∈ X.file.cards, ∀ s, ¬ ResistorOf X a.h (continued X a.h q .x) (continued X a.h q .y) (continued X a.h q .z) x s) :
    ∃ B : ℕ → ℝ, B 0 = 0 ∧ ∀ n,
      relPermeability stuff * k.mu0 *
        stretchedRate k.eps0 R.dt (kappaAt X a.h q a.next) (sigmaAt k X a.h q a.next) (B n) (B (n + 1)) = - rotE X (value R (n + 1)) a q ∧
      stretchedRate k.eps0 R.dt (kappaAt X a.h q a.next.next) (sigmaAt k X a.h q a.next.next) (value R n a.h q) (value R (n + 1) a.h q) =
        stretchedRate k.eps0 R.dt (kappaAt X a.h q a) (sigmaAt k X a.h q a) (B n) (B (n + 1)) := by
  obtain ⟨hv, hn, hb, hdt, hC, -, hst, pws, hpw, eS⟩ := run_parts h
  have ecfg : R.sim.cfg = R.cfg := by rw [eS]
  obtain ⟨r, hrp, hrl⟩ := region hv (in_outer h hq.inside) (not_in_mesh h hq.outside)
  have hE : ∀ b, b ≠ a → pos2 a.h b 0 ≠ 0 := by intro b hb; cases a <;> cases b <;> first | decide | exact absurd rfl hb
  have hE' : pos2 a.h a 0 = 0 := by cases a <;> decide
  have b1 := grade hk h hT hg hq.inside a.next
  have b2 := grade hk h hT hg hq.inside a.next.next
  have b3 := grade hk h hT hg hq.inside a
  rw [if_neg (hE _ (next_ne a).1)] at b1
  rw [if_neg (hE _ (next_ne a).2)] at b2
  rw [if_pos hE'] at b3
  have ax := axes a
  have nd : NoWrite (C23.extrasH R.sim ++ updateGhostHfield R.sim.cfg) (.fld a.h (grid R.cfg q .x) (grid R.cfg q .y) (grid R.cfg q .z)) := by
    refine (((clear_sheets h hs).2.append (no_sourceH h ho (no_src h hq.outside))).append (clear_waves h hw).2).append ?_
    rw [ecfg]
    exact noWrite_ghostH hv (in_outer h hq.inside)
  have key : ∀ n (l : Loc), NoWrite (C23.extrasH R.sim ++ updateGhostHfield R.sim.cfg) l →
      R.fields (n + 1) l = (C23.coreH R.cfg).run R.coefs (R.sim.stepE.run R.coefs (setInputs (R.drive n) (R.fields n))) l := by
    intro n l h1
    rw [fields_succ]
    show Prog.run R.coefs (R.sim.stepE ++ R.sim.stepH) _ l = _
    rw [run_append, stepH_parts, run_append, NoWrite.run R.coefs h1, ecfg]
  have noE : ∀ l : Loc, l.kind = .pml → (NoWrite (updatePmlEfield R.sim.cfg) l) → NoWrite R.sim.stepE l := by
    intro l hl hp
    have nn : ∀ ks : List LKind, LKind.pml ∉ ks → l.kind ∉ ks := fun ks h => by rw [hl]; exact h
    rw [stepE_parts]
    exact ((hp.append ((wo_murE _).noWrite (nn _ (by decide)))).append ((wo_gridE _).noWrite (nn _ (by decide)))).append (rest_E _ hl)
  have kB := fun n => key n (C23.bL R.cfg r a (grid R.cfg q .x) (grid R.cfg q .y) (grid R.cfg q .z)) (rest_H _ rfl)
  have kH := fun n => key n (.fld a.h (grid R.cfg q .x) (grid R.cfg q .y) (grid R.cfg q .z)) nd
  have he0 := (eps_pos hk).ne'
  have hT' := hT.ne'
  have inp : ∀ n (l : Loc), l.isInput = false → setInputs (R.drive n) (R.fields n) l = R.fields n l := by
    intro n l hl; unfold setInputs; rw [hl]; rfl
  have mid : ∀ n (l : Loc), l.isInput = false → NoWrite R.sim.stepE l →
      R.sim.stepE.run R.coefs (setInputs (R.drive n) (R.fields n)) l = R.fields n l := by
    intro n l hl hh
    rw [NoWrite.run R.coefs hh, inp n l hl]
  have midE : ∀ n fc i j l, fc.isE = true →
      R.sim.stepE.run R.coefs (setInputs (R.drive n) (R.fields n)) (.fld fc i j l) = R.fields (n + 1) (.fld fc i j l) := by
    intro n fc i j l hf
    rw [fields_succ]
    show _ = Prog.run R.coefs (R.sim.stepE ++ R.sim.stepH) _ _
    rw [run_append, NoWrite.run R.coefs (noE_stepH hf _ _ _ _)]
  have st := fun n => C23.stretched_magnetic R.coefs (holds h) hv hrp a hrl (by rw [coord_grid, ax.1]; exact b1.1)
    (by rw [coord_grid, ax.2]; exact b2.1) (by rw [coord_grid]; exact b3.1) (R.sim.stepE.run R.coefs (setInputs (R.drive n) (R.fields n)))
  simp only [coord_grid, ax.1, ax.2] at st
  simp only [← kB, ← kH] at st
  refine ⟨fun n => R.fields n (C23.bL R.cfg r a (grid R.cfg q .x) (grid R.cfg q .y) (grid R.cfg q .z)), rfl, fun n => ?_⟩
  obtain ⟨s1, s2⟩ := st n
  rw [mid n (C23.bL R.cfg r a (grid R.cfg q .x) (grid R.cfg q .y) (grid R.cfg q .z)) rfl (noE _ rfl (pml_only_E _ _ _ _ _ _))] at s1 s2
  rw [mid n (.fld a.h (grid R.cfg q .x) (grid R.cfg q .y) (grid R.cfg q .z)) rfl (noH_stepE (by cases a <;> rfl) _ _ _ _)] at s2
  rw [rate_eq hT' he0 b1, curlE_eq h hq.inside (n + 1) _ (midE n)] at s1
  rw [rate_eq hT' he0 b2, rate_eq hT' he0 b3] at s2
  refine ⟨?_, mul_left_cancel₀ hT' s2⟩
  have cg := layer_coef h ho h2 hq hr .gamma (Or.inr (Or.inr rfl))
  have hbv := (C64.every_sample hk h ho hT (continued_in h h2 hq.inside)).2 stuff hm
  have key2 : ∀ x, relPermeability stuff * k.mu0 * (R.coefs (.gamma a.h (grid R.cfg q .x) (grid R.cfg q .y) (grid R.cfg q .z)) * x) / R.dt = x := by
    intro x
    rw [cg]
    cases stuff with
    | vacuum => exact hbv.2 x
    | metal =>
      have := hbv.2 x
      unfold relPermeability
      rw [one_mul]
      exact this
    | matter e s u => exact (hbv hrg.1 hrg.2.1 hrg.2.2).2 x
    | dispersive e s u poles => exact (hbv hrg.1 hrg.2.1 hrg.2.2.1 hrg.2.2.2).2 x
  rw [← key2 (- rotE X (value R (n + 1)) a q), ← s1]
  field_simp

/-! ### The metal behind the layers -/

theorem behind_outside (h : setup k J X = some R) {fc : Fc} (hf : X.file.bt f = .pml)
    (hp : OnPlane (gridBox X) f fc (q .x) (q .y) (q .z)) : ¬ SampleIn (meshBox X) fc (q .x) (q .y) (q .z) := by
  obtain ⟨hv, hn, hb, -⟩ := run_parts h
  have l := hv.pml f (by rw [hb]; exact hf)
  have e := layers_eq h f
  rw [if_pos hf] at e
  rintro ⟨h1, h2, h3⟩
  unfold OnPlane gridBox at hp
  rw [if_pos hf] at hp
  cases f <;> simp [samplePos, Face.axis, Face.isLo, meshBox, mkBox] at hp h1 h2 h3 <;> omega

/-- C83: the electric field along the outermost plane of the layers is zero. -/
theorem metal_behind (h : setup k J X = some R) (ho : OrdinaryBlocks X.file.cards) (h2 : ∀ b, X.file.bt b.lo = .pml → 2 ≤ cellsOf X.file b)
    (hf : X.file.bt f = .pml) (hi : SampleIn (gridBox X) a.e (q .x) (q .y) (q .z)) (hp : OnPlane (gridBox X) f a.e (q .x) (q .y) (q .z))
    (n : ℕ) : value R n a.e q = 0 := by
  obtain ⟨hv, hn, hb, hdt, hC, -, hst, pws, hpw, eS⟩ := run_parts h
  have ecfg : R.sim.cfg = R.cfg := by rw [eS]
  have onw : ∀ {fc : Fc} {q : Axis → Int}, OnPlane (gridBox X) f fc (q .x) (q .y) (q .z) ↔
      OnPlane R.cfg.gobox f fc (grid R.cfg q .x) (grid R.cfg q .y) (grid R.cfg q .z) := by
    intro fc q
    unfold OnPlane
    rw [outer_side h f]
    have p := fun b => C81.pos2_grid (q := q) R.cfg fc b
    cases f <;> simp only [samplePos, Face.axis, Axis.lo] at * <;> rw [p] <;> simp only [Axis.lo] <;> omega
  have nw : ∀ fc i j l, C13.OnWall R.cfg f fc i j l → ∀ x ∈ X.file.cards, ∀ m b nm tag w size delay r,
      x = Deck.Card.ex m b nm tag w size delay r → ¬ SampleIn (Deck.place R.cfg b) fc i j l := by
    rintro fc i j l ⟨-, -, hw⟩ x hx m b nm tag w size delay r rfl hh
    have e1 : i = grid R.cfg (there (i - R.cfg.gibox .xlo) (j - R.cfg.gibox .ylo) (l - R.cfg.gibox .zlo)) .x := by simp [grid, there, Axis.lo]
    have e2 : j = grid R.cfg (there (i - R.cfg.gibox .xlo) (j - R.cfg.gibox .ylo) (l - R.cfg.gibox .zlo)) .y := by simp [grid, there, Axis.lo]
    have e3 : l = grid R.cfg (there (i - R.cfg.gibox .xlo) (j - R.cfg.gibox .ylo) (l - R.cfg.gibox .zlo)) .z := by simp [grid, there, Axis.lo]
    generalize there (i - R.cfg.gibox .xlo) (j - R.cfg.gibox .ylo) (l - R.cfg.gibox .zlo) = q' at e1 e2 e3
    subst e1 e2 e3
    exact behind_outside h hf (onw.2 hw) (C76.box_in_mesh h hx ((C71.in_box_place R.cfg b).1 hh))
  have hC' : R.coefs = coefRef (mediaArrays R.sim.cfg (medSetup k J X R.cfg R.state) J.med) (otherCoef k J X R.cfg R.state) := by
    rw [hC, ecfg]; rfl
  unfold value Setup.Run.fields
  rw [hC']
  refine C13.outer_wall_field_free R.sim (by rw [ecfg]; exact hv) (by intro b hp; rw [ecfg, hn]; exact h2 b (by rw [← hb, ← ecfg]; exact hp)) R.dt k.eps0 k.mu0 ⟨.pec, 1, 0, 1, 0⟩ _
    ?_ J.med _ (f := f) (Or.inr (by rw [ecfg, hb]; exact hf)) ?_ ?_ R.drive n ?_
  · rw [hdt]
    simp [medSetup, medCoef, mediumCoef]
  · intro x hx fc i j l hw hcont
    rw [ecfg] at hx hw
    obtain ⟨l1, l2, l3, l4⟩ := C64.read_lists _ (C47.stored_parts hst).2 fun c hc => (ho c hc).2
    simp only [Deck.State.init, List.nil_append] at l1 l2 l3 l4
    have f4 : resistFills R.cfg (medSetup k J X R.cfg R.state) =
        X.file.cards.filterMap (C64.resFill k J X R.cfg (Setup.dt k J X R.cfg)) := by
      simp only [resistFills, medSetup]
      rw [l4, List.filterMap_filterMap, List.map_filterMap]
      rfl
    rw [f4, List.mem_filterMap] at hx
    obtain ⟨cd, hcd, hx⟩ := hx
    simp only [C64.resFill, Option.map_eq_some_iff, Option.bind_eq_some_iff] at hx
    obtain ⟨b, ⟨it, hit, hsf⟩, rfl⟩ := hx
    cases cd with
    | ex m bx nm tag w size delay r =>
      simp only [C64.exItem, Option.map_eq_some_iff] at hit
      obtain ⟨t, ht, rfl⟩ := hit
      have hb1 : b.1 = bx := by
        unfold srcFill at hsf
        dsimp only at hsf
        split at hsf <;> cases hsf <;> rfl
      rw [hb1] at hcont
      exact nw _ _ _ _ hw _ hcd _ _ _ _ _ _ _ _ rfl hcont.1
    | _ => simp [C64.exItem] at hit
  · intro x hx hkind i' j' k' hlim hw
    rw [ecfg] at hw
    rw [eS] at hx
    simp only [List.map_map, List.mem_map] at hx
    obtain ⟨it, hit, rfl⟩ := hx
    rw [srcs_stored h ho] at hit
    obtain ⟨cd, hcd, hit⟩ := List.mem_filterMap.1 hit
    cases cd with
    | ex m b nm tag w size delay r =>
      simp only [C64.exItem, Option.map_eq_some_iff] at hit
      obtain ⟨t, ht, rfl⟩ := hit
      simp only [Function.comp, Deck.srcItem, Src.flim] at hlim hw
      exact nw _ _ _ _ hw _ hcd _ _ _ _ _ _ _ _ rfl ((C19.inLim_iff_contains _ _ _ _ _ _).1 hlim).1
    | _ => simp [C64.exItem] at hit
  · rw [ecfg]
    exact ⟨by cases a <;> simp [Axis.e], in_outer h hi, onw.1 hp⟩

/-! ### What the parameters mean -/

/-- A harmonic oscillation `u zⁿ` is slowed down by the factor `κ + σ/(w ε₀)`; `w` is what `iω` becomes for centred steps. -/
theorem stretch_factor (eps0 T κ σ : ℝ) (hT : T ≠ 0) (z u : ℂ) (n : ℕ) (h1 : z ≠ 1) (h2 : z ≠ -1) :
    stretchedRate eps0 T κ σ (u * z ^ n).re (u * z ^ (n + 1)).re =
      ((κ + σ / (2 * (z - 1) / (T * (z + 1)) * eps0)) * ((u * z ^ (n + 1) - u * z ^ n) / T)).re := by
  have a1 : z - 1 ≠ 0 := sub_ne_zero.2 h1
  have a2 : z + 1 ≠ 0 := by intro h; exact h2 (by linear_combination h)
  have tc : (T : ℂ) ≠ 0 := by exact_mod_cast hT
  have e : ((κ : ℂ) + σ / (2 * (z - 1) / (T * (z + 1)) * eps0)) * ((u * z ^ (n + 1) - u * z ^ n) / T) =
      (κ : ℂ) * ((u * z ^ (n + 1) - u * z ^ n) / T) + σ / eps0 * ((u * z ^ (n + 1) + u * z ^ n) / 2) := by
    rw [add_mul]
    congr 1
    by_cases he : (eps0 : ℂ) = 0
    · rw [he]; simp
    · field_simp
      ring
  rw [e]
  unfold stretchedRate
  have r1 : ∀ (x : ℝ) (y : ℂ), ((x : ℂ) * y).re = x * y.re := by intro x y; simp
  rw [show ((σ : ℂ) / eps0) = ((σ / eps0 : ℝ) : ℂ) by push_cast; rfl,
    show (u * z ^ (n + 1) - u * z ^ n) / (T : ℂ) = ((1 / T : ℝ) : ℂ) * (u * z ^ (n + 1) - u * z ^ n) by push_cast; field_simp,
    show (u * z ^ (n + 1) + u * z ^ n) / 2 = ((1 / 2 : ℝ) : ℂ) * (u * z ^ (n + 1) + u * z ^ n) by push_cast; ring]
  rw [Complex.add_re, r1, r1, r1, r1, Complex.sub_re, Complex.add_re]
  ring

theorem profile_integral (eta0 : ℝ) (p : PmlParams) {D : ℝ} (hD : 0 < D) (d : ℝ) :
    ∫ x in (0 : ℝ)..D, profileSigma eta0 p D d x = topConductivity eta0 p D d * (D / (p.order + 1)) := by
  unfold profileSigma
  rw [intervalIntegral.integral_const_mul]
  congr 1
  have : (fun x : ℝ => (x / D) ^ p.order) = fun x : ℝ => x ^ p.order * (1 / D ^ p.order) := by
    funext x; rw [div_pow]; ring
  rw [this, intervalIntegral.integral_mul_const, integral_pow]
  have := hD.ne'
  field_simp
  simp [pow_succ]

/-- C83: the reflection coefficient on the card is what a layer of matter of the given index sends back. -/
theorem reflection {eta0 : ℝ} (he : 0 < eta0) {p : PmlParams} (hn : 0 < p.nEff) {D : ℝ} (hD : 0 < D) (d : ℝ) (hr : 0 < p.refCoeff) :
    reflectedPart eta0 p.nEff D (profileSigma eta0 p D d) = p.refCoeff := by
  unfold reflectedPart
  rw [profile_integral eta0 p hD]
  unfold topConductivity
  rw [if_pos hr]
  have e : -2 * eta0 * p.nEff * (-(p.order + 1) / (2 * eta0 * p.nEff * D) * Real.log p.refCoeff * (D / (p.order + 1))) = Real.log p.refCoeff := by
    have := he.ne'; have := hn.ne'; have := hD.ne'
    have : (p.order + 1 : ℝ) ≠ 0 := by positivity
    field_simp
  rw [e, Real.exp_log hr]

/-- C83: without one, `N` layers send back `exp (-8 N / 5)`. -/
theorem reflection_default {eta0 : ℝ} (he : 0 < eta0) {p : PmlParams} (hn : 0 < p.nEff) {d : ℝ} (hd : 0 < d) (hr : p.refCoeff ≤ 0) {N : ℕ} (hN : 0 < N) :
    reflectedPart eta0 p.nEff (N * d) (profileSigma eta0 p (N * d) d) = Real.exp (- 8 * N / 5) := by
  have hN' : (0 : ℝ) < N := by exact_mod_cast hN
  unfold reflectedPart
  rw [profile_integral eta0 p (by positivity)]
  unfold topConductivity
  rw [if_neg (by linarith)]
  congr 1
  have := he.ne'; have := hn.ne'; have := hd.ne'
  have : (p.order + 1 : ℝ) ≠ 0 := by positivity
  field_simp
  norm_num

/-- The conductivities of the manual for a layer in matter of index `n`: there the wave impedance `η₀ / n` stands for `η`. -/
noncomputable def manualTop (eta0 : ℝ) (p : PmlParams) (D d : ℝ) : ℝ :=
  if 0 < p.refCoeff then - (p.order + 1) / (2 * (eta0 / p.nEff) * D) * Real.log p.refCoeff else 4 * p.nEff * (p.order + 1) / (5 * eta0 * d)

/-- C83: the manual's formula is the program's only in vacuum. -/
theorem manual_differs {eta0 : ℝ} (he : 0 < eta0) {p : PmlParams} (hn : 0 < p.nEff) (hr : p.refCoeff < 1) {D d : ℝ} (hD : 0 < D) (hd : 0 < d) :
    topConductivity eta0 p D d = manualTop eta0 p D d ↔ p.nEff = 1 := by
  have k1 : topConductivity eta0 p D d * p.nEff ^ 2 = manualTop eta0 p D d := by
    unfold topConductivity manualTop
    have := he.ne'; have := hn.ne'; have := hD.ne'; have := hd.ne'
    split_ifs <;> field_simp
  have k2 : topConductivity eta0 p D d ≠ 0 := by
    unfold topConductivity
    split_ifs with h0
    · have l : Real.log p.refCoeff ≠ 0 := (Real.log_neg h0 hr).ne
      have a : (0 : ℝ) < p.order + 1 := by positivity
      have b : 0 < 2 * eta0 * p.nEff * D := by positivity
      exact mul_ne_zero (div_ne_zero (neg_ne_zero.2 a.ne') b.ne') l
    · positivity
  rw [← k1]
  constructor
  · intro h
    have : p.nEff ^ 2 = 1 := by
      have := mul_left_cancel₀ k2 (h.symm.trans (mul_one _).symm)
      exact this
    nlinarith
  · intro h; rw [h]; ring

end

/-! ### A room with absorbing walls -/

open C73

theorem pml_vacuum {fc : Fc} {q : Axis → Int} : MadeOf (room 12 .pml 6) fc (q .x) (q .y) (q .z) .vacuum ∧
    ∀ x ∈ (room 12 .pml 6).file.cards, ∀ s, ¬ ResistorOf (room 12 .pml 6) fc (q .x) (q .y) (q .z) x s := by
  have r : ∀ x ∈ (room 12 .pml 6).file.cards, ∀ s, ¬ ResistorOf (room 12 .pml 6) fc (q .x) (q .y) (q .z) x s := by
    rintro x hx s ⟨_, b, n, tag, w, size, delay, r, d, rfl, ht, -⟩
    rcases room_cards hx with h | h
    · cases h
    · injection h with _ _ _ h4
      rw [h4] at ht
      simp [lumpedAxis] at ht
  refine ⟨.vacuum r ?_ ?_ ?_ ?_, r⟩
  · rintro ⟨f, hf, -⟩; cases hf
  · rintro x hx s ⟨_, _, rfl, -⟩; rcases room_cards hx with h | h <;> cases h
  · rintro x hx s ⟨_, rfl, -⟩; rcases room_cards hx with h | h <;> cases h
  · rintro x hx s ⟨_, _, _, rfl, -⟩; rcases room_cards hx with h | h <;> cases h

/-- In the middle of the layers of the side `x = 12` (three of six layers deep) the loss along x is `σ_max / 16`, there is none along
y and z, and the sixth plane is metal. -/
example (k : Consts) (hk : Physical k) (he : 0 < k.eta0) (hb : 1 < k.big) (J : Junk) : ∃ R, setup k J (room 12 .pml 6) = some R ∧
    sigmaAt k (room 12 .pml 6) .ez (there 15 6 6) .x = 4 * 5 / (5 * k.eta0) / 16 ∧ sigmaAt k (room 12 .pml 6) .ez (there 15 6 6) .y = 0 ∧
    (∃ D P : ℕ → ℝ, D 0 = 0 ∧ P 0 = 0 ∧ ∀ n,
      AmpereIn k R.dt (D n) (D (n + 1)) (rotH (room 12 .pml 6) (value R n) .z (there 15 6 6)) 0 .vacuum ∧
      stretchedRate k.eps0 R.dt (kappaAt (room 12 .pml 6) .ez (there 15 6 6) .x) (sigmaAt k (room 12 .pml 6) .ez (there 15 6 6) .x) (P n) (P (n + 1)) =
        (D (n + 1) - D n) / R.dt ∧
      stretchedRate k.eps0 R.dt (kappaAt (room 12 .pml 6) .ez (there 15 6 6) .y) (sigmaAt k (room 12 .pml 6) .ez (there 15 6 6) .y)
        (value R n .ez (there 15 6 6)) (value R (n + 1) .ez (there 15 6 6)) =
        stretchedRate k.eps0 R.dt (kappaAt (room 12 .pml 6) .ez (there 15 6 6) .z) (sigmaAt k (room 12 .pml 6) .ez (there 15 6 6) .z) (P n) (P (n + 1))) ∧
    ∀ n, value R n .ez (there 18 6 6) = 0 := by
  obtain ⟨R, hR⟩ := room_setup k J (N := 12) (wall := .pml) (c := 6) (Or.inr ⟨rfl, rfl, rfl⟩)
  have hT : 0 < R.dt := C64.step_positive hk hR (by show (0 : ℝ) < 0.5; norm_num)
    (by intro a m _ _; show ((m : Int) : ℝ) < ((m + 1 : Int) : ℝ); push_cast; linarith) (by
    intro a m _ _
    show ((m + 1 : Int) : ℝ) - ((m : Int) : ℝ) < k.big
    push_cast; linarith)
  have cell : ∀ f, sideCell (room 12 .pml 6) f = 1 := fun f => unit_cell rfl _ _
  have thick : ∀ f, layerThickness (room 12 .pml 6) f = 6 := by
    intro f; unfold layerThickness; rw [cell]; show ((6 : Int) : ℝ) * 1 = 6; norm_num
  have h2 : ∀ b, (room 12 .pml 6).file.bt b.lo = .pml → 2 ≤ cellsOf (room 12 .pml 6).file b := by intro b _; cases b <;> decide
  have good : GoodLayers k (room 12 .pml 6) := by
    refine ⟨he, fun b i => by rw [unit_cell rfl]; exact one_pos, fun f _ => ?_⟩
    simp [room]
  have o1 : outwards (room 12 .pml 6) (Axis.x).lo .ez (there 15 6 6) = -15 := by
    unfold outwards; rw [cell]; simp [Axis.lo, Axis.hi, Face.isLo, Face.axis, pos2, there]; norm_num
  have o2 : outwards (room 12 .pml 6) (Axis.x).hi .ez (there 15 6 6) = 3 := by
    unfold outwards; rw [cell]; simp [Axis.lo, Axis.hi, Face.isLo, Face.axis, pos2, there, cellsOf, room]; norm_num
  have o3 : outwards (room 12 .pml 6) (Axis.y).lo .ez (there 15 6 6) = -6 := by
    unfold outwards; rw [cell]; simp [Axis.lo, Axis.hi, Face.isLo, Face.axis, pos2, there]; norm_num
  have o4 : outwards (room 12 .pml 6) (Axis.y).hi .ez (there 15 6 6) = -6 := by
    unfold outwards; rw [cell]; simp [Axis.lo, Axis.hi, Face.isLo, Face.axis, pos2, there, cellsOf, room]; norm_num
  refine ⟨R, hR, ?_, ?_, ?_, fun n => ?_⟩
  · unfold sigmaAt
    rw [if_neg (by rw [o1]; norm_num), if_pos ⟨rfl, by rw [o2]; norm_num⟩, thick, cell, o2]
    unfold profileSigma topConductivity
    have : ¬ (0 : ℝ) < ((room 12 .pml 6).par (Axis.x).hi).refCoeff := by show ¬ (0 : ℝ) < -1; norm_num
    rw [if_neg this]
    show 4 * (((4 : ℕ) : ℝ) + 1) / (5 * k.eta0 * 1 * 1) * (3 / 6) ^ 4 = _
    have := he.ne'
    field_simp
    norm_num
  · unfold sigmaAt
    rw [if_neg (by rw [o3]; norm_num), if_neg (by rw [o4]; norm_num)]
  · exact layer_ampere (a := .z) (q := there 15 6 6) hk hR room_blocks hT good h2
      ⟨by simp [SampleIn, gridBox, pos2, meshBox, mkBox, room, there, Axis.e, Face.isLo],
       by simp [SampleIn, pos2, meshBox, mkBox, room, there, Axis.e],
       fun f _ => by cases f <;> simp [OnPlane, samplePos, gridBox, pos2, meshBox, mkBox, room, there, Axis.e, Face.isLo, Face.axis]⟩
      room_sheets room_waves pml_vacuum.1 pml_vacuum.2
  · exact metal_behind (a := .z) (f := .xhi) (q := there 18 6 6) hR room_blocks h2 rfl
      (by simp [SampleIn, gridBox, pos2, meshBox, mkBox, room, there, Axis.e, Face.isLo])
      (by simp [OnPlane, samplePos, gridBox, pos2, meshBox, mkBox, room, there, Axis.e, Face.isLo, Face.axis]) n

/-- A layer with the given reflection `1/1000` sends back a thousandth. -/
example : reflectedPart 377 1 6 (profileSigma 377 ⟨4, 1, 1 / 1000, 1⟩ 6 1) = 1 / 1000 :=
  reflection (p := ⟨4, 1, 1 / 1000, 1⟩) (by norm_num) one_pos (by norm_num) 1 (by norm_num)
end Vulture.C83
