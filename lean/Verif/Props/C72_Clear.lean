import Verif.Props.C72_Step
/- C72, geometry: which samples dispersive blocks, sheets and plane waves touch; lengths of the mesh. -/
set_option linter.unusedSimpArgs false
set_option linter.unusedVariables false
set_option linter.unusedSectionVars false
namespace Vulture.C72
open Vulture Spec Setup Deck CavityLemmas Scaling

variable {k : Consts} {J : Junk} {X : Experiment} {R : Setup.Run} {fc : Fc} {q : Axis → Int}

/-- Grid indices of mesh coordinates. -/
def grid (c : Cfg) (q : Axis → Int) : Axis → Int := fun a => q a + c.gibox a.lo

theorem near_place (c : Cfg) (b : BBox) : Near (place c b) fc (grid c q) ↔ Near b fc q := by
  unfold Near
  refine forall_congr' fun a => ?_
  rw [(C71.placed c b a).1, (C71.placed c b a).2]
  unfold grid
  cases fc <;> cases a <;> simp only [pos2] <;> omega

theorem inside_place (c : Cfg) (b : BBox) : Inside3 (place c b) fc (grid c q) ↔ Inside3 b fc q := by
  unfold Inside3
  refine forall_congr' fun a => ?_
  rw [(C71.placed c b a).1, (C71.placed c b a).2]
  unfold grid
  cases fc <;> cases a <;> simp only [pos2] <;> omega

theorem mesh_place (h : setup k J X = some R) : place R.cfg (meshBox X) = R.cfg.gibox := by
  obtain ⟨hv, hn, hb, hdt, hC, -, hst, -⟩ := run_parts h
  have sx := gibox_span R.cfg .x; have sy := gibox_span R.cfg .y; have sz := gibox_span R.cfg .z
  rw [hn] at sx sy sz
  simp only [Axis.lo, Axis.hi, cellsOf] at sx sy sz
  funext f
  cases f <;> simp [place, offsetBoundingBox, meshBox, mkBox] <;> omega

theorem in_mesh (h : setup k J X = some R) (hi : SampleIn (meshBox X) fc (q .x) (q .y) (q .z)) :
    SampleIn R.cfg.gibox fc (grid R.cfg q .x) (grid R.cfg q .y) (grid R.cfg q .z) := by
  rw [← mesh_place h]
  have := (C71.in_box_place R.cfg (meshBox X)).2 hi
  rwa [mesh_place h] at this ⊢

theorem in_limits (h : setup k J X = some R) (hi : SampleIn (meshBox X) fc (q .x) (q .y) (q .z)) (hm : ¬ OnMurSide X fc q) :
    InLim (R.cfg.gfilim fc) (grid R.cfg q .x) (grid R.cfg q .y) (grid R.cfg q .z) := by
  obtain ⟨hv, hn, hb, -⟩ := run_parts h
  unfold Cfg.gfilim
  rw [C19.inLim_iff_contains]
  refine ⟨in_mesh h hi, fun f hf => ?_⟩
  rw [hb]
  by_contra hne
  simp only [Bool.not_eq_true, Bool.not_eq_false', beq_iff_eq] at hne
  refine hm ⟨f, hne, ?_⟩
  rw [← mesh_place h] at hf
  have e : R.cfg.gibox = place R.cfg (meshBox X) := (mesh_place h).symm
  have key : ∀ g : BBox, OnPlane (place R.cfg (meshBox X)) f fc (q .x + R.cfg.gibox .xlo) (q .y + R.cfg.gibox .ylo) (q .z + R.cfg.gibox .zlo) →
      OnPlane (meshBox X) f fc (q .x) (q .y) (q .z) := by
    intro _
    cases fc <;> cases f <;> simp [OnPlane, samplePos, Face.axis, place, offsetBoundingBox, pos2] <;> omega
  exact key R.cfg.gibox (by rw [mesh_place h] at hf ⊢; exact hf)

/-! ### Sheets -/

theorem sheet_near {l : List SibcSurf} (hn : ∀ w ∈ l, ¬ Near w.gbbox fc q) :
    NoWrite (updateSibcE l) (.fld fc (q .x) (q .y) (q .z)) ∧ NoWrite (updateSibcH l) (.fld fc (q .x) (q .y) (q .z)) := by
  have lim : ∀ (w : SibcSurf) i j m, InLim (sibcLim w) i j m → ∀ a, w.gbbox a.lo ≤ coord a (i, j, m) ∧
      coord a (i, j, m) ≤ (if a = w.normal then w.gbbox a.hi else w.gbbox a.hi - 1) := by
    rintro w i j m ⟨h1, h2, h3⟩ a
    cases a <;> simp [sibcLim, Face.isLo, Face.axis, coord, Axis.lo, Axis.hi] at * <;> assumption
  refine ⟨NoWrite.flatMap fun w hw => NoWrite.loop fun i j m hl hm => ?_, NoWrite.append (NoWrite.flatMap fun w hw => NoWrite.loop fun i j m hl hm => ?_)
    (NoWrite.flatMap fun w hw => NoWrite.loop fun i j m hl hm => ?_)⟩
  all_goals
    have hw' : w.1 ∈ l := by
      have := List.mem_zipIdx' hw
      rw [this.2]; exact List.getElem_mem _
    refine hn w.1 hw' fun a => ?_
    have lx := lim _ _ _ _ hl .x
    have ly := lim _ _ _ _ hl .y
    have lz := lim _ _ _ _ hl .z
    obtain ⟨⟨normal, g, np⟩, n⟩ := w
  · simp only [Block.writes, sibcEBlock, List.map_append, List.mem_append, List.mem_map, List.mem_cons, List.not_mem_nil, or_false,
      List.mem_flatMap] at hm
    rcases hm with (⟨_, hm, e⟩ | ⟨_, ⟨_, _, rfl⟩, e⟩) | ⟨_, ⟨_, _, _, _, hm⟩, e⟩
    · cases normal <;> cases a <;> simp [coord, Axis.lo, Axis.hi] at lx ly lz <;> simp only [Axis.lo, Axis.hi] <;> rcases hm with rfl | rfl | rfl | rfl <;>
        simp [fldAt, shift, Axis.next, Axis.e] at e <;> obtain ⟨rfl, e1, e2, e3⟩ := e <;> simp only [pos2] <;> omega
    · cases e
    · rcases hm with rfl | ⟨_, _, rfl | rfl⟩ <;> cases e
  · simp only [Block.writes, sibcHBlock, List.map_append, List.mem_append, List.mem_map, List.mem_cons, List.not_mem_nil, or_false] at hm
    rcases hm with ⟨_, hm, e⟩ | ⟨_, hm, e⟩
    · cases normal <;> cases a <;> simp [coord, Axis.lo, Axis.hi] at lx ly lz <;> simp only [Axis.lo, Axis.hi] <;>
        rcases hm with rfl | rfl | rfl | rfl | rfl | rfl | rfl | rfl | rfl <;>
        simp [sibcCorr, fldAt, shift, Axis.next, Axis.h] at e <;> obtain ⟨rfl, e1, e2, e3⟩ := e <;> simp only [pos2] <;> omega
    · cases normal <;> simp only [sibcAdj, List.mem_cons, List.not_mem_nil, or_false] at hm <;> cases a <;>
        simp [coord, Axis.lo, Axis.hi] at lx ly lz <;> simp only [Axis.lo, Axis.hi] <;>
        rcases hm with rfl | rfl | rfl | rfl <;>
        simp [sibcCorr, fldAt, shift, Axis.next, Axis.h] at e <;> obtain ⟨rfl, e1, e2, e3⟩ := e <;> simp only [pos2] <;> omega
  · simp only [Block.writes, List.map_cons, List.map_nil, List.mem_singleton] at hm
    cases normal <;> cases a <;> simp [coord, Axis.lo, Axis.hi] at lx ly lz <;> simp only [Axis.lo, Axis.hi] <;>
      simp [fldAt, Axis.h] at hm <;> obtain ⟨rfl, e1, e2, e3⟩ := hm <;> simp only [pos2] <;> omega

theorem clear_sheets (h : setup k J X = some R) (hs : ClearOfSheets X fc q) :
    NoWrite (updateSibcE R.sim.sibc) (.fld fc (grid R.cfg q .x) (grid R.cfg q .y) (grid R.cfg q .z)) ∧
    NoWrite (updateSibcH R.sim.sibc) (.fld fc (grid R.cfg q .x) (grid R.cfg q .y) (grid R.cfg q .z)) := by
  obtain ⟨hv, hn, hb, hdt, hC, -, hst, pws, -, eS⟩ := run_parts h
  rw [eS]
  refine sheet_near fun w hw => ?_
  simp only [sibcItems, List.mem_filterMap] at hw
  obtain ⟨b, hb, hw⟩ := hw
  have l2 := C65.read_surfs _ (C47.stored_parts hst).2
  rw [l2] at hb
  simp only [State.init, List.nil_append, List.mem_filterMap] at hb
  obtain ⟨x, hx, hb⟩ := hb
  cases x with
  | tb c =>
    simp only [C64.tbItem, Option.map_eq_some_iff] at hb
    obtain ⟨bd, hbd, rfl⟩ := hb
    cases bd with
    | sibc pr =>
      simp only [Option.some.injEq] at hw
      subst hw
      rw [near_place]
      exact hs c pr hx ((C64.boundary_found hst _).1 hbd)
    | _ => simp at hw
  | _ => simp [C64.tbItem] at hb

/-! ### Plane waves -/

set_option maxHeartbeats 1000000 in
theorem wave_near {c : Cfg} {l : List PW} (hn : ∀ w ∈ l, Inside3 w.gbbox fc q ∨ ¬ Near w.gbbox fc q) :
    NoWrite (updatePlaneWavesE c l) (.fld fc (q .x) (q .y) (q .z)) ∧ NoWrite (updatePlaneWavesH c l) (.fld fc (q .x) (q .y) (q .z)) := by
  have main : ∀ (w : PW) (f : Face) (fc' : Fc) (tab : List (Face × Fc × Bool × Fc)),
      (tab = pwTableE ∨ tab = pwTableH) → (∃ b ic, (f, fc', b, ic) ∈ tab) → (Inside3 w.gbbox fc q ∨ ¬ Near w.gbbox fc q) →
      ∀ i j m, InLim (w.flim c f fc') i j m → Loc.fld fc (q .x) (q .y) (q .z) ≠ .fld fc' i j m := by
    intro w f fc' tab ht hrow hor i j m hl e
    simp only [Loc.fld.injEq] at e
    obtain ⟨rfl, rfl, rfl, rfl⟩ := e
    unfold PW.flim at hl
    rw [C19.inLim_iff_contains] at hl
    obtain ⟨⟨h1, h2, h3⟩, hp⟩ := hl
    have hf1 := hp .xlo; have hf2 := hp .xhi; have hf3 := hp .ylo; have hf4 := hp .yhi; have hf5 := hp .zlo; have hf6 := hp .zhi
    obtain ⟨b, ic, hrow⟩ := hrow
    have rows : ∀ b, (f, fc, b, ic) ∈ tab → (f, fc) ∈ (pwTableE ++ pwTableH).map fun r => (r.1, r.2.1) := by
      intro b hb
      rcases ht with rfl | rfl
      · exact List.mem_map.2 ⟨_, List.mem_append_left _ hb, rfl⟩
      · exact List.mem_map.2 ⟨_, List.mem_append_right _ hb, rfl⟩
    have hr := rows b hrow
    clear hrow rows ht hp
    have goal : Near w.gbbox fc q ∧ ¬ Inside3 w.gbbox fc q := by
      constructor
      · intro a
        cases f <;> cases fc <;> first | (exfalso; revert hr; decide) | skip
        all_goals
          simp [PW.faceBox, PW.faceIncl, Face.axis, Face.isLo, OnPlane, samplePos, pos2] at h1 h2 h3 hf1 hf2 hf3 hf4 hf5 hf6
          cases a <;> simp only [pos2, Axis.lo, Axis.hi] <;> omega
      · intro hin
        have ix := hin .x; have iy := hin .y; have iz := hin .z
        cases f <;> cases fc <;> first | (exfalso; revert hr; decide) | skip
        all_goals
          simp [PW.faceBox, PW.faceIncl, Face.axis, Face.isLo, OnPlane, samplePos, pos2] at h1 h2 h3 hf1 hf2 hf3 hf4 hf5 hf6
          simp only [pos2, Axis.lo, Axis.hi] at ix iy iz
          omega
    rcases hor with h | h
    · exact goal.2 h
    · exact h goal.1
  have mem : ∀ w ∈ l.zipIdx, w.1 ∈ l := by
    intro w hw
    have := List.mem_zipIdx' hw
    rw [this.2]; exact List.getElem_mem _
  refine ⟨NoWrite.flatMap fun w hw => NoWrite.append ?_ (NoWrite.flatMap fun r hr => ?_),
    NoWrite.flatMap fun w hw => NoWrite.append ?_ (NoWrite.flatMap fun r hr => ?_)⟩
  · split
    · intro b hb
      simp only [auxE, List.mem_append, List.mem_map] at hb
      rcases hb with (⟨_, _, rfl⟩ | ⟨_, _, rfl⟩) | hb
      · simp [Block.writes]
      · simp [Block.writes]
      · simp at hb; subst hb; simp [Block.writes]
    · exact NoWrite.nil
  · split
    · refine NoWrite.loop fun i j m hl hm => ?_
      simp only [pwEBlock, Block.writes, List.map_cons, List.map_nil, List.mem_singleton] at hm
      exact main w.1 r.1 r.2.1 _ (Or.inl rfl) ⟨_, _, hr⟩ (hn _ (mem w hw)) i j m hl hm
    · exact NoWrite.nil
  · split
    · intro b hb
      simp only [auxH, List.mem_append, List.mem_map] at hb
      rcases hb with ⟨_, _, rfl⟩ | ⟨_, _, rfl⟩ <;> simp [Block.writes]
    · exact NoWrite.nil
  · split
    · refine NoWrite.loop fun i j m hl hm => ?_
      simp only [pwHBlock, Block.writes, List.map_cons, List.map_nil, List.mem_singleton] at hm
      exact main w.1 r.1 r.2.1 _ (Or.inr rfl) ⟨_, _, hr⟩ (hn _ (mem w hw)) i j m hl hm
    · exact NoWrite.nil

theorem clear_waves (h : setup k J X = some R) (hs : ClearOfWaves X fc q) :
    NoWrite (updatePlaneWavesE R.sim.cfg R.sim.pws) (.fld fc (grid R.cfg q .x) (grid R.cfg q .y) (grid R.cfg q .z)) ∧
    NoWrite (updatePlaneWavesH R.sim.cfg R.sim.pws) (.fld fc (grid R.cfg q .x) (grid R.cfg q .y) (grid R.cfg q .z)) := by
  obtain ⟨hv, hn, hb, hdt, hC, -, hst, pws, hpw, eS⟩ := run_parts h
  rw [eS]
  refine wave_near fun w hw => ?_
  obtain ⟨p, hp, hw⟩ := C47.mem_mapM hpw w hw
  rw [C71.pws_stored hst] at hp
  obtain ⟨x, hx, hp⟩ := List.mem_filterMap.1 hp
  cases x with
  | pw c t =>
    simp only [C71.pwOf, Option.some.injEq] at hp
    subst hp
    simp only [pwItem, Option.map_eq_some_iff] at hw
    obtain ⟨q0, -, rfl⟩ := hw
    rw [near_place, inside_place]
    exact hs c t hx
  | _ => simp [C71.pwOf] at hp

/-! ### Dispersive blocks -/

theorem clear_debye (h : setup k J X = some R) (ho : OrdinaryBlocks X.file.cards)
    (hd : ∀ x ∈ X.file.cards, ∀ e s u poles, ¬ DebyeCard X fc q x e s u poles) :
    NoWrite (updateDebye R.sim.debye) (.fld fc (grid R.cfg q .x) (grid R.cfg q .y) (grid R.cfg q .z)) := by
  obtain ⟨hv, hn, hb, hdt, hC, -, hst, pws, hpw, eS⟩ := run_parts h
  rw [eS]
  refine NoWrite.flatMap fun w hw => NoWrite.flatMap fun f' _ => NoWrite.loop fun i j m hl hm => ?_
  have hw' : w.1 ∈ debyeItems R.cfg R.state.blocks := by
    have := List.mem_zipIdx' hw
    rw [this.2]; exact List.getElem_mem _
  simp only [debyeItems, List.mem_filterMap] at hw'
  obtain ⟨b, hb, hw'⟩ := hw'
  obtain ⟨l1, -⟩ := C64.read_lists _ (C47.stored_parts hst).2 fun c hc => (ho c hc).2
  rw [l1] at hb
  simp only [State.init, List.nil_append, List.mem_filterMap] at hb
  obtain ⟨x, hx, hb⟩ := hb
  have hm' : f' = fc ∧ i = grid R.cfg q .x ∧ j = grid R.cfg q .y ∧ m = grid R.cfg q .z := by
    simp only [debyeBlock, Block.writes, List.map_cons, List.mem_cons, List.mem_map, List.mem_flatMap, List.not_mem_nil, or_false] at hm
    rcases hm with hm | hm | ⟨_, ⟨_, _, rfl | rfl⟩, e⟩
    · simp only [Loc.fld.injEq] at hm
      obtain ⟨rfl, rfl, rfl, rfl⟩ := hm
      exact ⟨rfl, rfl, rfl, rfl⟩
    · cases hm
    · cases e
    · cases e
  obtain ⟨rfl, rfl, rfl, rfl⟩ := hm'
  cases x with
  | mb c =>
    simp only [C64.mbItem, Option.map_eq_some_iff] at hb
    obtain ⟨md, hmd, rfl⟩ := hb
    cases md with
    | debye e s u poles =>
      simp only [Option.some.injEq] at hw'
      rw [← hw'] at hl
      dsimp only at hl
      rw [C19.inLim_iff_contains] at hl
      have hc := (C64.contains_place R.cfg c.bbox _).1 hl
      obtain ⟨u', v', huv, -⟩ := C64.accepted hst hx
      refine hd _ hx e s u poles ⟨c, _, rfl, C64.mask_value (ho c hx).1 ?_, hc, (C64.medium_found hst (ho c hx).2 _).1 hmd⟩
      simp only [State.card] at huv
      split at huv
      · simp at huv
      · split at huv <;> simp at huv
        rename_i hq
        unfold parseMB at hq
        simp only [Bool.and_eq_true, Bool.or_eq_true, decide_eq_true_eq] at hq
        rcases hq.2 with h | h
        · have := (ho c hx).1; omega
        · exact h
    | _ => simp at hw'
  | _ => simp [C64.mbItem] at hb

/-! ### Lengths -/

theorem lengths (h : setup k J X = some R) (a : Axis) (m : Int) (h0 : 0 ≤ m) (h1 : m ≤ cellsOf X.file a) :
    R.coefs (.idh a (m + R.cfg.gibox a.lo)) = 1 / middleDistance X a m ∧
    R.coefs (.ide a (m + R.cfg.gibox a.lo)) = 1 / cellLength X a m := by
  obtain ⟨hv, hn, hb, hdt, hC, -⟩ := run_parts h
  have sp := C71.span R.cfg hv a
  rw [hn] at sp
  obtain ⟨r1, r2⟩ := C18.reciprocals R.cfg hv a (X.lines a) k.big (J.edges a) (m + R.cfg.gibox a.lo) (by omega) (by omega)
  have d := C18.dual_edges R.cfg hv a (X.lines a) k.big (J.edges a) (m + R.cfg.gibox a.lo) (by omega) (by omega)
  have e1 := C18.edge_lengths R.cfg hv a (X.lines a) k.big (J.edges a) (m + R.cfg.gibox a.lo) (by omega) (by omega)
  have e2 := C18.edge_lengths R.cfg hv a (X.lines a) k.big (J.edges a) (m + R.cfg.gibox a.lo - 1) (by omega) (by omega)
  rw [add_sub_cancel_right, hn] at e1
  rw [show m + R.cfg.gibox a.lo - 1 - R.cfg.gibox a.lo = m - 1 by ring, hn] at e2
  rw [hC]
  refine ⟨?_, ?_⟩
  · show (edges k J X R.cfg a).idh _ = _
    unfold edges
    rw [r2, d, e1, e2]
    rfl
  · show (edges k J X R.cfg a).ide _ = _
    unfold edges
    rw [r1, e1]
    rfl

end Vulture.C72
