import Verif.Props.C54_Memory
import Mathlib.Algebra.Order.BigOperators.Group.Finset
set_option linter.unusedSimpArgs false
set_option linter.unusedVariables false
/-
C55 Only the electrical size of a model matters: the same model `r` times as large and as slow, with conductivities, poles,
residues and excitations converted accordingly, has a time step `r` times as long and the same fields in every cell and step.
The code violates the claim for plane waves: the tolerance by which it tells cubic meshes from others is a length in metres.
-/
namespace Vulture.C55
open Spec Setup Deck Scaling

section
variable {k : Consts} {J J' : Junk} {X : Experiment} {R : Run} {r : ℝ}

/-- C55, for meshes whose type the program judges alike in both units, or without plane waves; the other hypotheses are
those of C54, and cells not larger than the largest number of the arithmetic. -/
theorem only_electrical_size_matters_partial (hr : 0 < r) (hR : setup k J X = some R) (hz : ThirdSidesOrdered X.file.cards)
    (ha : gridType k J X R.cfg = .cubic ∨ WavesInside X.file.cards) (hs : SheetsAway X.file)
    (hbig : ∀ a, X.lines a 1 - X.lines a 0 ≤ k.big ∧ r * (X.lines a 1 - X.lines a 0) ≤ k.big)
    (hg : waveBoxes X.file.cards = [] ∨ gridType k J' (scaleExperiment r X) R.cfg = gridType k J X R.cfg) :
    ∃ R', setup k J' (scaleExperiment r X) = some R' ∧ R'.cfg = R.cfg ∧ R'.sim = R.sim ∧ R'.dt = r * R.dt ∧
      ∀ n fc i j l, InGrid R.cfg i j l → R'.fields n (.fld fc i j l) = R.fields n (.fld fc i j l) := by
  obtain ⟨R', h1, h2, h3, h4, -, -, h5⟩ := main (k := k) (J := J) (J' := J') (X := X) (X' := scaleExperiment r X) (r := r) hr
    ⟨rfl, rfl, rfl, rfl, fun _ _ _ _ => rfl⟩ hR hz ha hs (Or.inr hbig) (Or.inr hg)
  refine ⟨R', h1, h2, h3, h4, fun n fc i j l hi => ?_⟩
  obtain ⟨s, hst, hc, hS, -⟩ := setup_parts hR
  obtain ⟨s', c', pws, -, hc', -, eS⟩ := C47.sim_parts hS
  have e2 : c' = R.cfg := by
    have h2 : initExternalSurfaceParameters X.file.cells X.file.bt X.file.layers = some c' := hc'
    rw [hc] at h2
    exact (Option.some.inj h2).symm
  have := h5 n (.fld fc i j l) (by show InGrid R.sim.cfg i j l; rw [eS, e2]; exact hi)
  rw [this]
  show r ^ (0 : Int) * _ = _
  rw [zpow_zero, one_mul]

theorem sizes_of {c : Cfg} (hv : ValidCfg c) (hn : c.n = cellsOf X.file) (a : Axis) {i : Int} (h1 : c.gibox a.lo ≤ i) (h2 : i < c.gibox a.hi) :
    Setup.de k J X c a i = X.lines a (i - c.gibox a.lo + 1) - X.lines a (i - c.gibox a.lo) := by
  have f := cfg_facts hv a
  have s := gibox_span c a
  unfold Setup.de edges
  rw [C18.edge_lengths c hv a _ _ _ i (by omega) (by omega)]
  have e : C18.nearestCell (c.n a) (i - c.gibox a.lo) = i - c.gibox a.lo := by
    unfold C18.nearestCell
    omega
  rw [e]
  rfl

/-- A mesh whose cells are all smaller than half the tolerance is taken for cubic. -/
theorem small_is_cubic {c : Cfg} (hv : ValidCfg c) (hn : c.n = cellsOf X.file)
    (h : ∀ a i, 0 ≤ i → i < cellsOf X.file a → |X.lines a (i + 1) - X.lines a i| < k.tol / 2) : gridType k J X c = .cubic := by
  have sz : ∀ a i, c.gibox a.lo ≤ i → i < c.gibox a.hi → |Setup.de k J X c a i| < k.tol / 2 := by
    intro a i h1 h2
    rw [sizes_of hv hn a h1 h2]
    have s := gibox_span c a
    refine h a _ (by omega) ?_
    rw [← hn]; omega
  have diff : ∀ u v : ℝ, |u| < k.tol / 2 → |v| < k.tol / 2 → |u - v| < k.tol := by
    intro u v hu hv
    rw [abs_lt] at *
    constructor <;> linarith
  have un : ∀ a : Axis, axisIsUniform k.tol (c.gibox a.lo) (c.gibox a.hi) (Setup.de k J X c a) = true := by
    intro a
    unfold axisIsUniform
    rw [List.all_eq_true]
    intro i hi
    rw [mem_intRange] at hi
    have := diff _ _ (sz a i (by omega) (by omega)) (sz a (i - 1) (by omega) (by omega))
    rw [abs_lt] at this
    simp only [gt_iff_lt, Bool.not_eq_true', decide_eq_false_iff_not, not_lt]
    linarith
  have fx := cfg_facts hv .x; have fy := cfg_facts hv .y; have fz := cfg_facts hv .z
  unfold gridType setGridType
  have u1 := un .x; have u2 := un .y; have u3 := un .z
  simp only [Axis.lo, Axis.hi] at u1 u2 u3
  rw [u1, u2, u3]
  simp only [Bool.and_self, if_true]
  rw [if_pos]
  exact ⟨diff _ _ (sz .x _ le_rfl (by simp only [Axis.lo, Axis.hi] at *; omega)) (sz .y _ le_rfl (by simp only [Axis.lo, Axis.hi] at *; omega)),
    diff _ _ (sz .y _ le_rfl (by simp only [Axis.lo, Axis.hi] at *; omega)) (sz .z _ le_rfl (by simp only [Axis.lo, Axis.hi] at *; omega))⟩

/-- A mesh of cubes is taken for cubic. -/
theorem cubes_are_cubic {c : Cfg} (hv : ValidCfg c) (hn : c.n = cellsOf X.file) (ht : 0 < k.tol) {d : ℝ} (h : CubicMesh X d) :
    gridType k J X c = .cubic := by
  have sz : ∀ a i, c.gibox a.lo ≤ i → i < c.gibox a.hi → Setup.de k J X c a i = d := by
    intro a i h1 h2
    rw [sizes_of hv hn a h1 h2]
    have s := gibox_span c a
    refine h a _ (by omega) ?_
    rw [← hn]; omega
  have un : ∀ a : Axis, axisIsUniform k.tol (c.gibox a.lo) (c.gibox a.hi) (Setup.de k J X c a) = true := by
    intro a
    unfold axisIsUniform
    rw [List.all_eq_true]
    intro i hi
    rw [mem_intRange] at hi
    rw [sz a i (by omega) (by omega), sz a (i - 1) (by omega) (by omega)]
    simp only [gt_iff_lt, Bool.not_eq_true', decide_eq_false_iff_not, not_lt, sub_self]
    exact ht.le
  have fx := cfg_facts hv .x; have fy := cfg_facts hv .y; have fz := cfg_facts hv .z
  unfold gridType setGridType
  have u1 := un .x; have u2 := un .y; have u3 := un .z
  simp only [Axis.lo, Axis.hi] at u1 u2 u3
  rw [u1, u2, u3]
  simp only [Bool.and_self, if_true]
  rw [if_pos]
  simp only [Axis.lo, Axis.hi] at fx fy fz
  have s1 := sz .x _ le_rfl (by simp only [Axis.lo, Axis.hi]; omega)
  have s2 := sz .y _ le_rfl (by simp only [Axis.lo, Axis.hi]; omega)
  have s3 := sz .z _ le_rfl (by simp only [Axis.lo, Axis.hi]; omega)
  simp only [Axis.lo] at s1 s2 s3
  rw [s1, s2, s3]
  simp [ht]

theorem cfg_of (hR : setup k J X = some R) : ValidCfg R.cfg ∧ R.cfg.n = cellsOf X.file := by
  obtain ⟨s, hst, hc, hS, -⟩ := setup_parts hR
  obtain ⟨o1, o2⟩ := C47.outer_cells hc
  obtain ⟨⟨n1, n2, n3⟩, -⟩ := C47.stored_parts hst
  refine ⟨C07.setup_valid _ _ _ _ ?_ hc, by rw [o1, cells_of]⟩
  intro a
  cases a
  exacts [n1, n2, n3]

/-- C55 for models made of cubes, with plane waves or without, in any place. -/
theorem cubes_scale (hr : 0 < r) (hR : setup k J X = some R) (hz : ThirdSidesOrdered X.file.cards) (hs : SheetsAway X.file)
    (ht : 0 < k.tol) {d : ℝ} (hd : CubicMesh X d) (hbig : d ≤ k.big ∧ r * d ≤ k.big) :
    ∃ R', setup k J' (scaleExperiment r X) = some R' ∧ R'.cfg = R.cfg ∧ R'.sim = R.sim ∧ R'.dt = r * R.dt ∧
      ∀ n fc i j l, InGrid R.cfg i j l → R'.fields n (.fld fc i j l) = R.fields n (.fld fc i j l) := by
  obtain ⟨hv, hn⟩ := cfg_of hR
  have g1 : gridType k J X R.cfg = .cubic := cubes_are_cubic hv hn ht hd
  have hd' : CubicMesh (scaleExperiment r X) (r * d) := by
    intro a i h1 h2
    show r * X.lines a (i + 1) - r * X.lines a i = r * d
    rw [← mul_sub, hd a i h1 h2]
  have g2 : gridType k J' (scaleExperiment r X) R.cfg = .cubic := cubes_are_cubic hv hn ht hd'
  refine only_electrical_size_matters_partial hr hR hz (Or.inl g1) hs ?_ (Or.inr (by rw [g1, g2]))
  intro a
  have := hd a 0 le_rfl (by rw [← hn]; have := hv.cells a; omega)
  simp only [zero_add] at this
  rw [this]
  exact hbig

theorem mapM_any (c : Cfg) (b b' : Bool) : ∀ (l : List PwItem) (t : List PW), l.mapM (pwItem b c) = some t →
    ∃ t', l.mapM (pwItem b' c) = some t'
  | [], t, _ => ⟨[], rfl⟩
  | x :: l, t, ht => by
    rw [List.mapM_cons] at ht
    obtain ⟨y, hy, ht⟩ := Option.bind_eq_some_iff.1 ht
    obtain ⟨u, hu, -⟩ := Option.bind_eq_some_iff.1 ht
    obtain ⟨t', ht'⟩ := mapM_any c b b' l u hu
    unfold pwItem at hy
    obtain ⟨q0, hq, -⟩ := Option.map_eq_some_iff.1 hy
    refine ⟨⟨place c x.mbbox, x.active, if b' then some (PlaneWave.auxGridOf x.theta x.phi (place c x.mbbox) q0) else none⟩ :: t', ?_⟩
    rw [List.mapM_cons]
    have : pwItem b' c x = some ⟨place c x.mbbox, x.active, if b' then some (PlaneWave.auxGridOf x.theta x.phi (place c x.mbbox) q0) else none⟩ := by
      unfold pwItem
      rw [hq]; rfl
    rw [this, ht']; rfl

/-- The model in the other unit is accepted if the model is. -/
theorem scaled_accepted (k : Consts) (J J' : Junk) (r : ℝ) (hR : setup k J X = some R) :
    ∃ R', setup k J' (scaleExperiment r X) = some R' ∧ R'.cfg = R.cfg ∧
      (∀ w ∈ R'.sim.pws, w.aux.isSome = (gridType k J' (scaleExperiment r X) R.cfg == .cubic)) ∧
      (∀ w ∈ R.sim.pws, w.aux.isSome = (gridType k J X R.cfg == .cubic)) ∧ R'.sim.pws.length = (waveBoxes X.file.cards).length ∧
      R.sim.pws.length = (waveBoxes X.file.cards).length := by
  obtain ⟨s, hst, hc, hS, -⟩ := setup_parts hR
  obtain ⟨s', c', pws, hst', hc', hpw, eS⟩ := C47.sim_parts hS
  have e1 : s' = s := by
    have : (fileOf k J X R.cfg).stored = X.file.stored := rfl
    rw [this, hst] at hst'
    exact (Option.some.inj hst').symm
  have e2 : c' = R.cfg := by
    have h2 : initExternalSurfaceParameters X.file.cells X.file.bt X.file.layers = some c' := hc'
    rw [hc] at h2
    exact (Option.some.inj h2).symm
  subst e1
  subst e2
  obtain ⟨t', ht'⟩ := mapM_any R.cfg _ (gridType k J' (scaleExperiment r X) R.cfg == .cubic) _ _ hpw
  have hst2 : (scaleExperiment r X).file.stored = some (scaleState r s') := by
    show ({ X.file with cards := X.file.cards.map (scaleCard r) } : File).stored = _
    rw [stored_scale, hst]; rfl
  have hS2 : (fileOf k J' (scaleExperiment r X) R.cfg).sim (Setup.de k J' (scaleExperiment r X) R.cfg) (Setup.dh k J' (scaleExperiment r X) R.cfg) =
      some ⟨R.cfg, debyeItems R.cfg (scaleState r s').blocks, sibcItems R.cfg (scaleState r s').surfs, ((scaleState r s').srcs.map (srcItem (Setup.de k J' (scaleExperiment r X) R.cfg) (Setup.dh k J' (scaleExperiment r X) R.cfg) R.cfg)).map Prod.fst, t'⟩ := by
    unfold File.sim
    have a1 : (fileOf k J' (scaleExperiment r X) R.cfg).stored = some (scaleState r s') := hst2
    have a2 : initExternalSurfaceParameters (fileOf k J' (scaleExperiment r X) R.cfg).cells (fileOf k J' (scaleExperiment r X) R.cfg).bt (fileOf k J' (scaleExperiment r X) R.cfg).layers = some R.cfg := hc
    have a3 : (scaleState r s').pws.mapM (pwItem (fileOf k J' (scaleExperiment r X) R.cfg).cubic R.cfg) = some t' := by
      show (s'.pws.map (scalePw r)).mapM _ = _
      rw [mapM_scale]
      exact ht'
    rw [a1, Option.bind_some, a2, Option.bind_some, a3]; rfl
  have aux : ∀ (b : Bool) (t : List PW), s'.pws.mapM (pwItem b R.cfg) = some t → ∀ w ∈ t, w.aux.isSome = b := by
    intro b t ht w hw
    obtain ⟨x, -, hx⟩ := C47.mem_mapM ht w hw
    unfold pwItem at hx
    obtain ⟨q0, -, rfl⟩ := Option.map_eq_some_iff.1 hx
    cases b <;> rfl
  have len : s'.pws.length = (waveBoxes X.file.cards).length := by
    obtain ⟨-, hrd⟩ := C47.stored_parts hst
    have := (C47.read_boxes _ _ _ hrd).2.2.2
    simpa [State.init] using congrArg List.length this
  refine ⟨_, setup_of (X := scaleExperiment r X) hc hst2 hS2, rfl, aux _ _ ht', ?_, ?_, ?_⟩
  · rw [eS]; exact aux _ _ hpw
  · exact (mapM_forall ht').length_eq.symm.trans len
  · rw [eS]; exact (mapM_forall hpw).length_eq.symm.trans len

/-- A mesh that is not cubic, made small enough, is taken for cubic; its plane waves are then computed in another way. So no
model with a plane wave on a mesh that is not cubic behaves alike in all units. -/
theorem tolerance_is_a_length (hR : setup k J X = some R) (ht : 0 < k.tol) (hw : waveBoxes X.file.cards ≠ [])
    (hg : gridType k J X R.cfg ≠ .cubic) :
    ∃ r0 > 0, ∀ r, 0 < r → r < r0 → ∃ R', setup k J' (scaleExperiment r X) = some R' ∧
      gridType k J' (scaleExperiment r X) R.cfg = .cubic ∧ R'.sim ≠ R.sim := by
  obtain ⟨hv, hn⟩ := cfg_of hR
  let T : Axis → ℝ := fun a => ∑ i ∈ Finset.Ico (0 : Int) (cellsOf X.file a), |X.lines a (i + 1) - X.lines a i|
  have T0 : ∀ a, 0 ≤ T a := fun a => Finset.sum_nonneg fun i _ => abs_nonneg _
  obtain ⟨B, hB⟩ : ∃ B, B = T .x + T .y + T .z := ⟨_, rfl⟩
  have B0 : 0 ≤ B := by have := T0 .x; have := T0 .y; have := T0 .z; linarith
  have le : ∀ a i, 0 ≤ i → i < cellsOf X.file a → |X.lines a (i + 1) - X.lines a i| ≤ B := by
    intro a i h1 h2
    have h3 : |X.lines a (i + 1) - X.lines a i| ≤ T a :=
      Finset.single_le_sum (f := fun i => |X.lines a (i + 1) - X.lines a i|) (fun i _ => abs_nonneg _)
        (Finset.mem_Ico.2 ⟨h1, h2⟩)
    have := T0 .x; have := T0 .y; have := T0 .z
    cases a <;> linarith
  refine ⟨k.tol / 2 / (B + 1), by positivity, fun r hr hr0 => ?_⟩
  have g : gridType k J' (scaleExperiment r X) R.cfg = .cubic := by
    refine small_is_cubic hv hn fun a i h1 h2 => ?_
    show |r * X.lines a (i + 1) - r * X.lines a i| < k.tol / 2
    rw [← mul_sub, abs_mul, abs_of_pos hr]
    have h3 := le a i h1 h2
    rw [lt_div_iff₀ (by linarith)] at hr0
    calc r * |X.lines a (i + 1) - X.lines a i| ≤ r * (B + 1) := by
          apply mul_le_mul_of_nonneg_left _ hr.le; linarith
      _ < _ := hr0
  obtain ⟨R', h1, h2, h3, h4, h5, h6⟩ := scaled_accepted k J J' r hR
  refine ⟨R', h1, g, fun e => ?_⟩
  have hlen : 0 < R.sim.pws.length := by rw [h6]; exact List.length_pos_iff.2 hw
  have hm : R.sim.pws[0] ∈ R.sim.pws := List.getElem_mem _
  have q1 := h4 _ hm
  have q2 := h3 _ (by rw [e]; exact hm)
  rw [g] at q2
  rw [q2] at q1
  simp at q1
  exact hg q1

end

/-! ### Examples -/

/-- The sample file, with everything in it, on a mesh of cubes: in any unit the fields are the same. -/
example (k : Consts) (J J' : Junk) (r d : ℝ) (hr : 0 < r) (ht : 0 < k.tol) (hb : d ≤ k.big ∧ r * d ≤ k.big) :
    ∃ R R', setup k J (C54.sample d) = some R ∧ setup k J' (scaleExperiment r (C54.sample d)) = some R' ∧ R'.dt = r * R.dt ∧
    ∀ n fc i j l, InGrid R.cfg i j l → R'.fields n (.fld fc i j l) = R.fields n (.fld fc i j l) := by
  obtain ⟨R, hR, -⟩ := C54.sample_setup k J d
  obtain ⟨R', h1, -, -, h2, h3⟩ := cubes_scale (J' := J') hr hR (C54.sample_ordered d) (C54.sample_sheets d) ht (d := d)
    (fun a i _ _ => by simp only [C54.sample]; push_cast; ring) hb
  exact ⟨R, R', hR, h1, h2, h3⟩

/-- The same file on a mesh twice as coarse along one axis: the program's judgement depends on the unit. -/
noncomputable def coarse (d : ℝ) : Experiment := { C54.sample d with lines := fun a i => if a = .x then 2 * d * i else d * i }

example (k : Consts) (J J' : Junk) (d : ℝ) (ht : 0 < k.tol) (hd : k.tol ≤ d) : ∃ R, setup k J (coarse d) = some R ∧
    ∃ r0 > 0, ∀ r, 0 < r → r < r0 → ∃ R', setup k J' (scaleExperiment r (coarse d)) = some R' ∧ R'.sim ≠ R.sim := by
  obtain ⟨s, hs, -⟩ := C47.sample_stored false
  obtain ⟨c, hc⟩ : ∃ c, initExternalSurfaceParameters (coarse d).file.cells (coarse d).file.bt (coarse d).file.layers = some c :=
    Option.isSome_iff_exists.1 (by
      show (initExternalSurfaceParameters (C47.sampleFile false).cells (C47.sampleFile false).bt (C47.sampleFile false).layers).isSome = true
      decide +kernel)
  obtain ⟨S, hS, -⟩ := C47.sampleFile_accepted (gridType k J (coarse d) c == .cubic) (Setup.de k J (coarse d) c) (Setup.dh k J (coarse d) c)
  have hR := setup_of (k := k) (J := J) (X := coarse d) hc hs hS
  refine ⟨_, hR, ?_⟩
  obtain ⟨hv, hn⟩ := cfg_of hR
  have ng : gridType k J (coarse d) c ≠ .cubic := by
    have fx := cfg_facts hv .x; have fy := cfg_facts hv .y
    simp only [Axis.lo, Axis.hi] at fx fy
    unfold gridType setGridType
    have e1 := sizes_of (k := k) (J := J) (X := coarse d) hv hn .x (i := c.gibox .xlo) le_rfl (by simp only [Axis.hi]; omega)
    have e2 := sizes_of (k := k) (J := J) (X := coarse d) hv hn .y (i := c.gibox .ylo) le_rfl (by simp only [Axis.hi]; omega)
    simp only [Axis.lo, sub_self, coarse, if_true, zero_add, Int.cast_zero, Int.cast_one, mul_zero, mul_one, sub_zero, reduceCtorEq, if_false] at e1 e2
    split
    · rw [if_neg]
      · simp
      · rintro ⟨h, -⟩
        have e1' : Setup.de k J (coarse d) c .x (c.gibox .xlo) = 2 * d := e1
        have e2' : Setup.de k J (coarse d) c .y (c.gibox .ylo) = d := e2
        rw [e1', e2', abs_lt] at h
        linarith [h.2]
    · simp
  obtain ⟨r0, h0, h⟩ := tolerance_is_a_length (J' := J') hR ht (by simp [coarse, C54.sample, C47.sampleFile, C47.sampleCards, waveBoxes]) ng
  refine ⟨r0, h0, fun r h1 h2 => ?_⟩
  obtain ⟨R', a, -, b⟩ := h r h1 h2
  exact ⟨R', a, b⟩

end Vulture.C55
