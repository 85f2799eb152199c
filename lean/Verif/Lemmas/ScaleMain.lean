import Verif.Lemmas.ScaleRun
set_option linter.unusedSimpArgs false
set_option linter.unusedVariables false
/- Set-up and fields of an experiment in another unit of length, whatever memory held before. -/
namespace Vulture.Scaling
open Spec Setup Deck Degree

section
variable {k : Consts} {J J' : Junk} {X X' : Experiment} {c : Cfg} {r : ℝ} {R : Run}

/-- What a set-up run consists of. -/
theorem setup_parts (h : setup k J X = some R) :
    ∃ s, X.file.stored = some s ∧ initExternalSurfaceParameters X.file.cells X.file.bt X.file.layers = some R.cfg ∧
      (fileOf k J X R.cfg).sim (Setup.de k J X R.cfg) (Setup.dh k J X R.cfg) = some R.sim ∧
      R = ⟨R.cfg, s, R.sim, Setup.dt k J X R.cfg, coefs k J X R.cfg s,
        Deck.drive (env k J X R.cfg) (gridType k J X R.cfg == .cubic) R.cfg s⟩ := by
  unfold setup at h
  obtain ⟨c, hc, h⟩ := Option.bind_eq_some_iff.1 h
  obtain ⟨s, hs, h⟩ := Option.bind_eq_some_iff.1 h
  obtain ⟨S, hS, rfl⟩ := Option.map_eq_some_iff.1 h
  exact ⟨s, hs, hc, hS, rfl⟩

theorem setup_of {s : Deck.State} {S : Sim} (hc : initExternalSurfaceParameters X.file.cells X.file.bt X.file.layers = some c)
    (hs : X.file.stored = some s) (hS : (fileOf k J X c).sim (Setup.de k J X c) (Setup.dh k J X c) = some S) :
    setup k J X = some ⟨c, s, S, Setup.dt k J X c, coefs k J X c s,
        Deck.drive (env k J X c) (gridType k J X c == .cubic) c s⟩ := by
  unfold setup
  rw [hc, hs]
  simp only [Option.bind_some, hS, Option.map_some]

theorem cells_of (f : File) : f.cells = cellsOf f := by funext a; cases a <;> rfl

theorem sheets_in {de dh : Axis → Int → ℝ} {f : File} {S : Sim} (h : f.sim de dh = some S) (hv : ValidSim S)
    (hs : SheetsAway f) (hn : S.cfg.n = cellsOf f) (hb : S.cfg.bt = f.bt) : SheetsIn S.cfg S.sibc := by
  intro w hw
  obtain ⟨i1, i2, i3⟩ := hv.sibc w hw
  obtain ⟨c, hc, ⟨pr, hp, -⟩, hm⟩ := (C47.no_other_items h).2 w hw
  have A := hs c pr hc hp
  rw [← hn, ← hb] at A
  have hi : ∀ a : Axis, w.gbbox a.hi < S.cfg.gobox a.hi := by
    intro a
    have f := cfg_facts hv.cfg a
    have m := hm a
    have w1 := i1 a
    have sp := gibox_span S.cfg a
    by_cases e : c.bbox a.hi = S.cfg.n a
    · have p := hv.cfg.pml _ ((A a).1 e)
      have e2 : S.cfg.gobox a.hi = S.cfg.gibox a.hi + S.cfg.layers a.hi := by
        cases a <;> rfl
      omega
    · omega
  refine ⟨?_, i3, ?_, hi⟩
  · intro a
    have f := cfg_facts hv.cfg a
    have w1 := i1 a
    omega
  · generalize w.normal = a at *
    have f := cfg_facts hv.cfg a
    have m := hm a
    have w1 := i1 a
    by_cases e : c.bbox a.hi = 0
    · have p := hv.cfg.pml _ ((A a).2 e)
      have e2 : S.cfg.gibox a.lo = 1 + S.cfg.layers a.lo := by
        have := C07.inner_offset S.cfg a
        omega
      omega
    · omega

theorem mapM_forall {α β : Type} {g : α → Option β} : ∀ {l : List α} {t : List β}, l.mapM g = some t →
    List.Forall₂ (fun x y => g x = some y) l t
  | [], t, h => by simp at h; subst h; exact .nil
  | a :: l, t, h => by
    rw [List.mapM_cons] at h
    obtain ⟨b, hb, h⟩ := Option.bind_eq_some_iff.1 h
    obtain ⟨u, hu, h⟩ := Option.bind_eq_some_iff.1 h
    simp at h; subst h
    exact .cons hb (mapM_forall hu)

theorem main (hr : 0 < r) (hX : SameInput (scaleExperiment r X) X') (hR : setup k J X = some R)
    (hz : ThirdSidesOrdered X.file.cards) (ha : gridType k J X R.cfg = .cubic ∨ WavesInside X.file.cards)
    (hs : SheetsAway X.file)
    (hbig : r = 1 ∨ ∀ a, X.lines a 1 - X.lines a 0 ≤ k.big ∧ r * (X.lines a 1 - X.lines a 0) ≤ k.big)
    (hg : r = 1 ∨ waveBoxes X.file.cards = [] ∨ gridType k J' X' R.cfg = gridType k J X R.cfg) :
    ∃ R', setup k J' X' = some R' ∧ R'.cfg = R.cfg ∧ R'.sim = R.sim ∧ R'.dt = r * R.dt ∧ SimSafe R.sim R.sim.step ∧ ValidSim R.sim ∧
      ∀ n l, SAllocated R.sim l → R'.fields n l = r ^ ldeg R.sim l * R.fields n l := by
  obtain ⟨s, hst, hc, hS, e⟩ := setup_parts hR
  obtain ⟨x1, x2, x3, x4, x5⟩ := hX
  have hv : ValidSim R.sim := C47.accepted_file_valid hS hz
  have safe : SimSafe R.sim R.sim.step := by
    refine C47.accepted_file_safe hS hz ?_
    rcases ha with ha | ha
    · left; simp [fileOf, ha]
    · right
      rintro x hx q d rfl a
      exact ha _ (by simp only [waveBoxes, List.mem_filterMap]; exact ⟨_, hx, rfl⟩) a
  obtain ⟨s', c', pws, hst', hc', hpw, eS⟩ := C47.sim_parts hS
  have e1 : s' = s := by
    have : (fileOf k J X R.cfg).stored = X.file.stored := rfl
    rw [this, hst] at hst'
    exact (Option.some.inj hst').symm
  have e2 : c' = R.cfg := by
    have : (fileOf k J X R.cfg).cells = X.file.cells := by funext a; cases a <;> rfl
    rw [this] at hc'
    have h2 : initExternalSurfaceParameters X.file.cells X.file.bt X.file.layers = some c' := hc'
    rw [hc] at h2
    exact (Option.some.inj h2).symm
  subst e1
  subst e2
  have hcfg : R.sim.cfg = R.cfg := by rw [eS]
  obtain ⟨o1, o2⟩ := C47.outer_cells hc
  have rel : Rel k R.cfg r X X' := by
    refine ⟨hcfg ▸ hv.cfg, hr, x2, x3, ?_, hbig⟩
    intro a i h1 h2
    exact x5 a i h1 (by rw [o1] at h2; exact h2)
  have hsib : R.sim.sibc = sibcItems R.cfg s'.surfs := by rw [eS]
  have hsrc : R.sim.srcs = (s'.srcs.map (srcItem (Setup.de k J X R.cfg) (Setup.dh k J X R.cfg) R.cfg)).map Prod.fst := by rw [eS]
  have hb : BoxesIn R.cfg s' := by
    intro x hx
    have := hv.srcs (srcItem (Setup.de k J X R.cfg) (Setup.dh k J X R.cfg) R.cfg x).1
      (by rw [hsrc]; exact List.mem_map_of_mem (List.mem_map_of_mem hx))
    rw [hcfg] at this
    exact this
  have hlen : pws.length = s'.pws.length := by
    exact (mapM_forall hpw).length_eq.symm
  have hpws : ∀ x ∈ s'.pws, Within (place R.cfg x.mbbox) R.cfg.gibox ∧ Ordered (place R.cfg x.mbbox) := by
    intro x hx
    have F := mapM_forall hpw
    obtain ⟨m, hm, rfl⟩ := List.mem_iff_getElem.1 hx
    have hm' : m < pws.length := by omega
    have g := (List.forall₂_iff_get.1 F).2 m hm hm'
    simp only [List.get_eq_getElem] at g
    have hy : pws[m] ∈ R.sim.pws := by rw [eS]; exact List.getElem_mem _
    have v := hv.pws _ hy
    rw [hcfg] at v
    unfold pwItem at g
    obtain ⟨q0, -, g⟩ := Option.map_eq_some_iff.1 g
    rw [← g] at v
    exact v
  have hno : s'.pws.length = 0 ∨ gridType k J' X' R.cfg = gridType k J X R.cfg := by
    rcases hg with hg | hg | hg
    · subst hg; exact Or.inr (rel.gridType_one J J')
    · left
      obtain ⟨-, hrd⟩ := C47.stored_parts hst
      have := (C47.read_boxes _ _ _ hrd).2.2.2
      rw [hg] at this
      simpa [State.init] using congrArg List.length this
    · exact Or.inr hg
  have hsh : SheetsIn R.cfg (sibcItems R.cfg s'.surfs) := by
    have := sheets_in hS hv hs (by rw [hcfg, o1, cells_of]; rfl) (by rw [hcfg, o2]; rfl)
    rwa [hcfg, hsib] at this
  -- the other experiment
  have hst2 : X'.file.stored = some (scaleState r s') := by
    rw [x1]
    show ({ X.file with cards := X.file.cards.map (scaleCard r) } : File).stored = _
    rw [stored_scale, hst]; rfl
  have hc2 : initExternalSurfaceParameters X'.file.cells X'.file.bt X'.file.layers = some R.cfg := by
    rw [x1]; exact hc
  have hS2 : (fileOf k J' X' R.cfg).sim (Setup.de k J' X' R.cfg) (Setup.dh k J' X' R.cfg) = some R.sim := by
    unfold File.sim
    show (X'.file.stored).bind _ = _
    rw [hst2, Option.bind_some]
    have hc3 : initExternalSurfaceParameters (fileOf k J' X' R.cfg).cells (fileOf k J' X' R.cfg).bt (fileOf k J' X' R.cfg).layers =
        some R.cfg := hc2
    rw [hc3, Option.bind_some]
    have hp2 : (scaleState r s').pws.mapM (pwItem (fileOf k J' X' R.cfg).cubic R.cfg) = some pws := by
      show (s'.pws.map (scalePw r)).mapM _ = _
      rw [mapM_scale, ← hpw]
      rcases hno with h0 | h0
      · rw [List.length_eq_zero_iff] at h0
        rw [h0]; rfl
      · show s'.pws.mapM (pwItem (gridType k J' X' R.cfg == .cubic) R.cfg) = _
        rw [h0]; rfl
    rw [hp2, Option.map_some, eS]
    congr 2
    · exact debyeItems_scale r R.cfg s'.blocks
    · exact sibcItems_scale r R.cfg s'.surfs
    · simp only [scaleState, List.map_map]
      refine List.map_congr_left fun x hx => ?_
      exact (srcItem_scale rel J J' x (hb x hx)).1
  have hR2 := setup_of hc2 hst2 hS2
  have hlenS : R.sim.pws.length = s'.pws.length := by rw [eS]; exact hlen
  refine ⟨_, hR2, rfl, rfl, ?_, safe, hv, ?_⟩
  · show Setup.dt k J' X' R.cfg = r * R.dt
    rw [rel.dt J J', e]
  · intro n l hl
    have := state_scale (S := R.sim) hr.ne' (C := coefs k J X R.cfg s') (C' := coefs k J' X' R.cfg (scaleState r s'))
      (fun q hq => coefs_scale rel J J' hcfg hsib hb hsh (by rw [hlenS]; exact hno) q hq) safe
      (u := Deck.drive (env k J X R.cfg) (gridType k J X R.cfg == .cubic) R.cfg s')
      (u' := Deck.drive (env k J' X' R.cfg) (gridType k J' X' R.cfg == .cubic) R.cfg (scaleState r s'))
      (fun n l hl hi => drive_scale rel (fun nm => by rw [x4]; rfl) J J' hcfg hsrc hb hpws hno n l hl hi) n l hl
    unfold Run.fields
    rw [e]
    exact this

end
end Vulture.Scaling
