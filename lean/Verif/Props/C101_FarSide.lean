import Verif.Spec.FarSide
import Verif.Props.C81_Sides
import Verif.Props.C67_Observe
/-
C101: a probe on a far side of the mesh records some of the components half a cell outside.
-/
set_option linter.unusedSimpArgs false
set_option linter.unusedSectionVars false
set_option linter.unusedVariables false
namespace Vulture.C101
open Vulture.Spec Vulture.Setup Vulture.Deck

section
variable {k : Consts} {J : Junk} {X : Experiment} {R : Setup.Run} {Q : Request} {fs : List (String × Contents)}
  {c c' : OPCard} {d : Axis}

/-- The node of a card. -/
def node (c : OPCard) : Axis → Int := fun a => c.bbox a.lo

theorem at_corner (q : ℕ) (fc : Fc) : atNode R q fc (corner c) = value R q fc (node c) := rfl

theorem mesh_hi (b : Axis) : meshBox X b.hi = cellsOf X.file b := by cases b <;> rfl
theorem mesh_lo (b : Axis) : meshBox X b.lo = 0 := by cases b <;> rfl

theorem pos2_add (fc : Fc) (a : Axis) (i : Int) : pos2 fc a i = 2 * i + pos2 fc a 0 := by
  cases fc <;> cases a <;> simp [pos2] <;> omega

/-- A card on a far side records the components that are half way outside the mesh. -/
theorem outside (hd : c.bbox d.lo = cellsOf X.file d) {fc : Fc} (hh : HalfWay fc d) : HalfOutside (meshBox X) d.hi fc (node c) := by
  unfold HalfOutside Spec.place
  have e1 : d.hi.axis = d := by cases d <;> rfl
  have e2 : d.hi.isLo = false := by cases d <;> rfl
  rw [e1, e2, pos2_add, hh, mesh_hi]
  show 2 * c.bbox d.lo + 1 = _
  rw [hd]; simp

theorem extended (hc : NodeInMesh X c) : OnExtendedGrid (meshBox X) d.hi (node c) := by
  intro a _
  rw [mesh_lo, mesh_hi]
  have := hc a
  exact ⟨by show 0 - 1 ≤ c.bbox a.lo; omega, this.2⟩

theorem image (hd : c.bbox d.lo = cellsOf X.file d) (hb : NextTo c c' d (cellsOf X.file d - 1)) {fc : Fc} (hh : HalfWay fc d) :
    MirrorImage (meshBox X) d.hi fc (node c) (node c') := by
  have e1 : d.hi.axis = d := by cases d <;> rfl
  unfold MirrorImage Spec.place
  rw [e1]
  constructor
  · rw [pos2_add fc d (node c d), pos2_add fc d (node c' d), hh, mesh_hi]
    show 2 * c.bbox d.lo + 1 + (2 * c'.bbox d.lo + 1) = _
    have h2 := hb d
    rw [if_pos rfl] at h2
    rw [hd, h2]; ring
  · intro a ha
    show pos2 fc a (c'.bbox a.lo) = pos2 fc a (c.bbox a.lo)
    have h2 := hb a
    rw [if_neg ha] at h2
    rw [h2]

theorem period (hd : c.bbox d.lo = cellsOf X.file d) (hb : NextTo c c' d 0) {fc : Fc} (hh : HalfWay fc d) :
    PeriodImage (meshBox X) d.hi fc (node c) (node c') := by
  have e1 : d.hi.axis = d := by cases d <;> rfl
  have e2 : d.hi.isLo = false := by cases d <;> rfl
  unfold PeriodImage Spec.place
  rw [e1, e2]
  constructor
  · rw [pos2_add fc d (node c d), pos2_add fc d (node c' d), hh, mesh_hi, mesh_lo]
    show 2 * c'.bbox d.lo + 1 = 2 * c.bbox d.lo + 1 + _
    have h2 := hb d
    rw [if_pos rfl] at h2
    rw [hd, h2]; simp
  · intro a ha
    show pos2 fc a (c'.bbox a.lo) = pos2 fc a (c.bbox a.lo)
    have h2 := hb a
    rw [if_neg ha] at h2
    rw [h2]

/-- From the values before every step to the columns of the files. -/
theorem columns (h : Leaves k J X Q fs) (hR : setup k J X = some R) (hc : TimeProbe X c) (hc' : TimeProbe X c') (s : ℝ)
    (hv : ∀ fc q, HalfWay fc d → value R q fc (node c) = s * value R q fc (node c')) :
    ∃ at1 at2 l l', ("eh_" ++ c.name ++ "_td.asc", Contents.time at1 l) ∈ fs ∧ ("eh_" ++ c'.name ++ "_td.asc", Contents.time at2 l') ∈ fs ∧
      ∀ i fc, sixComponents[i]? = some fc → HalfWay fc d → column i l = (column i l').map (s * ·) := by
  refine ⟨_, _, _, _, C61.probe_file h hR hc.1 hc.2.1 hc.2.2, C61.probe_file h hR hc'.1 hc'.2.1 hc'.2.2, ?_⟩
  intro i fc hi hh
  unfold column
  rw [List.map_map, List.map_map, List.map_map]
  refine List.map_congr_left fun q _ => ?_
  simp only [Function.comp_apply]
  have key : ∀ c : OPCard, (sixAt R q (corner c)).getD i 0 = value R q fc (node c) := by
    intro c
    have : sixAt R q (corner c) = sixComponents.map fun fc => value R q fc (node c) := rfl
    rw [this, List.getD_eq_getElem?_getD, List.getElem?_map, hi]; rfl
  rw [key, key, hv fc q hh]

/-- **C101.** On a conducting far side: the electric field along the normal and the magnetic field across it are those recorded
one cell further inside, before every step. -/
theorem conducting (h : Leaves k J X Q fs) (hf : X.file.bt d.hi = .pec) (hc : TimeProbe X c) (hc' : TimeProbe X c')
    (hi : NodeInMesh X c) (hd : c.bbox d.lo = cellsOf X.file d) (hb : NextTo c c' d (cellsOf X.file d - 1)) :
    ∃ at1 at2 l l', ("eh_" ++ c.name ++ "_td.asc", Contents.time at1 l) ∈ fs ∧ ("eh_" ++ c'.name ++ "_td.asc", Contents.time at2 l') ∈ fs ∧
      ∀ i fc, sixComponents[i]? = some fc → HalfWay fc d → column i l = column i l' := by
  obtain ⟨R, hR⟩ := C61.setup_of_leaves h
  obtain ⟨a1, a2, l, l', h1, h2, h3⟩ := columns (d := d) h hR hc hc' 1 (fun fc q hh => by
    rw [one_mul]
    exact C81.conducting_side_image hR hf (outside hd hh) (extended hi) (image hd hb hh) q)
  refine ⟨a1, a2, l, l', h1, h2, fun i fc hi hh => ?_⟩
  rw [h3 i fc hi hh]
  simp

/-- **C101.** On a magnetic far side: minus those. -/
theorem magnetic (h : Leaves k J X Q fs) (hf : X.file.bt d.hi = .pmc) (hc : TimeProbe X c) (hc' : TimeProbe X c')
    (hi : NodeInMesh X c) (hd : c.bbox d.lo = cellsOf X.file d) (hb : NextTo c c' d (cellsOf X.file d - 1)) :
    ∃ at1 at2 l l', ("eh_" ++ c.name ++ "_td.asc", Contents.time at1 l) ∈ fs ∧ ("eh_" ++ c'.name ++ "_td.asc", Contents.time at2 l') ∈ fs ∧
      ∀ i fc, sixComponents[i]? = some fc → HalfWay fc d → column i l = (column i l').map (fun x => -x) := by
  obtain ⟨R, hR⟩ := C61.setup_of_leaves h
  obtain ⟨a1, a2, l, l', h1, h2, h3⟩ := columns (d := d) h hR hc hc' (-1) (fun fc q hh => by
    rw [neg_one_mul]
    exact C81.magnetic_side hR hf (outside hd hh) (extended hi) (image hd hb hh) q)
  refine ⟨a1, a2, l, l', h1, h2, fun i fc hi hh => ?_⟩
  rw [h3 i fc hi hh]
  simp

/-- **C101.** On a periodic far side: those recorded on the near side. -/
theorem periodic (h : Leaves k J X Q fs) (hf : X.file.bt d.hi = .periodic) (hc : TimeProbe X c) (hc' : TimeProbe X c')
    (hi : NodeInMesh X c) (hd : c.bbox d.lo = cellsOf X.file d) (hb : NextTo c c' d 0) :
    ∃ at1 at2 l l', ("eh_" ++ c.name ++ "_td.asc", Contents.time at1 l) ∈ fs ∧ ("eh_" ++ c'.name ++ "_td.asc", Contents.time at2 l') ∈ fs ∧
      ∀ i fc, sixComponents[i]? = some fc → HalfWay fc d → column i l = column i l' := by
  obtain ⟨R, hR⟩ := C61.setup_of_leaves h
  obtain ⟨a1, a2, l, l', h1, h2, h3⟩ := columns (d := d) h hR hc hc' 1 (fun fc q hh => by
    rw [one_mul]
    exact C81.periodic_side hR hf (outside hd hh) (extended hi) (period hd hb hh) q)
  refine ⟨a1, a2, l, l', h1, h2, fun i fc hi hh => ?_⟩
  rw [h3 i fc hi hh]
  simp

end

/-! ### A case -/

/-- Probes on the far conducting side of the box of C61, one cell before it, and the dipole. -/
noncomputable def farCards : List Deck.Card :=
  [.wf "pulse", .op ⟨8, mkBox 6 6 2 2 1 1, "wall", true, true, 1, 1, 1, "", false⟩,
   .op ⟨8, mkBox 5 5 2 2 1 1, "inside", true, true, 1, 1, 1, "", false⟩,
   .ex 9 (mkBox 2 2 2 2 1 2) "feed" ['V', 'R', 'Z'] "pulse" 1 0 50]

noncomputable def farBox (d : ℝ) : Experiment :=
  ⟨⟨6, 5, 4, fun f => if f = .xlo then .pml else .pec, fun _ => 3, farCards, false⟩, fun _ i => d * i, 0.5,
   fun _ => ⟨4, 1, -1, 1⟩, fun _ => .builtin ⟨.gaussian, 1, -1, -1, -1⟩⟩

theorem far_stored (cubic : Bool) : ∃ s, ({ (farBox 1).file with cubic := cubic }).stored = some s ∧ s.pws = [] := by
  have e : ({ (farBox 1).file with cubic := cubic }).stored = Deck.read (State.init (mkBox 0 6 0 5 0 4)) farCards := rfl
  rw [e, farCards]
  rw [C47.read_cons, C47.card_wf (by decide +kernel), Option.bind_some]
  rw [C47.read_cons, C61.card_op (by decide +kernel), Option.bind_some]
  rw [C47.read_cons, C61.card_op (by decide +kernel), Option.bind_some]
  have hl : Source.lookup ['V', 'R', 'Z'] = some ⟨.thevenin, .z, none, .ez, true⟩ := by decide +kernel
  rw [C47.read_cons]
  have key : ∀ s : Deck.State, parseEX s.mbox (fun n => (s.srcs.map SrcItem.name).contains n) (fun n => s.waves.contains n)
      (exCard 9 (mkBox 2 2 2 2 1 2) "feed" ['V', 'R', 'Z'] "pulse") = true → s.pws = [] →
      ∃ s', ((s.card (.ex 9 (mkBox 2 2 2 2 1 2) "feed" ['V', 'R', 'Z'] "pulse" 1 0 50)).bind fun s => Deck.read s []) = some s' ∧ s'.pws = [] := by
    intro s hp h0
    obtain ⟨s', h', -, -, -, -, e5, -⟩ := C47.card_ex (size := 1) (delay := 0) (resist := 50) hl hp
    rw [h', Option.bind_some]
    exact ⟨s', rfl, by rw [e5, h0]⟩
  refine key _ ?_ rfl
  decide +kernel

theorem far_setup (k : Consts) (J : Junk) (d : ℝ) : ∃ R, setup k J (farBox d) = some R := by
  obtain ⟨s, hs, -⟩ := far_stored false
  have hc : ∃ c, initExternalSurfaceParameters (farBox d).file.cells (farBox d).file.bt (farBox d).file.layers = some c := by
    have : (initExternalSurfaceParameters (farBox 1).file.cells (farBox 1).file.bt (farBox 1).file.layers).isSome = true := by decide +kernel
    exact Option.isSome_iff_exists.1 this
  obtain ⟨c, hc⟩ := hc
  obtain ⟨s', hs', hw⟩ := far_stored (gridType k J (farBox d) c == .cubic)
  have hS : ∃ S, (fileOf k J (farBox d) c).sim (Setup.de k J (farBox d) c) (Setup.dh k J (farBox d) c) = some S := by
    have ef : (fileOf k J (farBox d) c).stored = some s' := hs'
    have ec : initExternalSurfaceParameters (fileOf k J (farBox d) c).cells (fileOf k J (farBox d) c).bt
      (fileOf k J (farBox d) c).layers = some c := hc
    simp only [File.sim, ef, ec, hw, Option.bind_some, List.mapM_nil, Option.pure_def]
    exact ⟨_, rfl⟩
  obtain ⟨S, hS⟩ := hS
  exact ⟨_, Scaling.setup_of hc hs hS⟩

/-- Its run ends, and the columns of `ex`, `hy` and `hz` of the two probes are equal. -/
example (k : Consts) (J : Junk) (d : ℝ) : ∃ fs, Leaves k J (farBox d) ⟨100, none, none⟩ fs ∧
    ∃ at1 at2 l l', ("eh_wall_td.asc", Contents.time at1 l) ∈ fs ∧ ("eh_inside_td.asc", Contents.time at2 l') ∈ fs ∧
      column 0 l = column 0 l' ∧ column 4 l = column 4 l' ∧ column 5 l = column 5 l' := by
  obtain ⟨R, hR⟩ := far_setup k J d
  obtain ⟨fs, h⟩ := C61.run_leaves (Q := ⟨100, none, none⟩) hR
    ⟨by decide, by simp, by simp⟩ (by decide) (by
      intro c hc hb a
      rw [C61.mem_probes] at hc
      simp only [farBox, farCards, List.mem_cons, List.not_mem_nil, or_false, reduceCtorEq, Deck.Card.op.injEq, false_or, or_false] at hc
      rcases hc with rfl | rfl <;> simp at hb) (by intro _ e; simp [waveNames, farBox, farCards, waveOf] at e)
  refine ⟨fs, h, ?_⟩
  obtain ⟨a1, a2, l, l', h1, h2, h3⟩ := conducting (d := .x)
    (c := ⟨8, mkBox 6 6 2 2 1 1, "wall", true, true, 1, 1, 1, "", false⟩)
    (c' := ⟨8, mkBox 5 5 2 2 1 1, "inside", true, true, 1, 1, 1, "", false⟩) h (by rfl)
    ⟨List.mem_cons_of_mem _ List.mem_cons_self, rfl, rfl⟩
    ⟨List.mem_cons_of_mem _ (List.mem_cons_of_mem _ List.mem_cons_self), rfl, rfl⟩
    (by
      intro a
      have key : ∀ a : Axis, 0 ≤ (mkBox 6 6 2 2 1 1) a.lo ∧ (mkBox 6 6 2 2 1 1) a.lo ≤ (match a with | .x => 6 | .y => 5 | .z => 4 : Int) := by decide
      have := key a
      cases a <;> exact this) rfl (by intro a; cases a <;> rfl)
  exact ⟨a1, a2, l, l', h1, h2, h3 0 .ex rfl rfl, h3 4 .hy rfl rfl, h3 5 .hz rfl rfl⟩

end Vulture.C101
