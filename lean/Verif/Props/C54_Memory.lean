import Verif.Lemmas.ScaleMain
set_option linter.unusedSimpArgs false
set_option linter.unusedVariables false
/-
C54 Uninitialised memory never matters: whatever `malloc` returned, and whatever lies behind the arrays of mesh lines, an
input file gives the same run: accepted or not, the same items, time step and fields for ever.
The code violates the claim for an impedance sheet that reaches a side of the grid; that is proved too.
-/
namespace Vulture.C54
open Spec Setup Deck Scaling

section
variable {k : Consts} {J J' : Junk} {X X' : Experiment} {R : Run}

/-- In the unit it already has, an experiment stays what it is. -/
theorem scaleCard_one (c : Deck.Card) : scaleCard 1 c = c := by
  cases c with
  | mt n m =>
    cases m <;> simp [scaleCard, scaleMed]
  | bt n b => cases b <;> simp [scaleCard, scaleBnd]
  | ex kk b n tag w size delay resist =>
    simp only [scaleCard, one_mul]
    cases Source.lookup tag with
    | none => simp
    | some i => cases h : i.type <;> simp [sizeFactor, h]
  | pw c d => simp [scaleCard]
  | _ => rfl

theorem scale_one (X : Experiment) : scaleExperiment 1 X = X := by
  have h1 : X.file.cards.map (scaleCard 1) = X.file.cards := by
    conv_rhs => rw [← List.map_id X.file.cards]
    exact List.map_congr_left fun c _ => scaleCard_one c
  have h2 : ∀ n, scaleWave 1 (X.waves n) = X.waves n := by
    intro n
    cases X.waves n <;> simp [scaleWave]
  unfold scaleExperiment
  simp only [h1, h2, one_mul]

/-- Whether the set-up accepts the input does not depend on memory. -/
theorem acceptance_same (k : Consts) (J J' : Junk) (hX : SameInput X X') : (setup k J X).isSome = (setup k J' X').isSome := by
  have key : ∀ {J J' : Junk} {X X' : Experiment}, SameInput X X' → (setup k J X).isSome = true → (setup k J' X').isSome = true := by
    intro J J' X X' hX h
    obtain ⟨R, hR⟩ := Option.isSome_iff_exists.1 h
    obtain ⟨s, hst, hc, hS, -⟩ := setup_parts hR
    obtain ⟨s', c', pws, hst', hc', hpw, -⟩ := C47.sim_parts hS
    obtain ⟨x1, -⟩ := hX
    have e1 : s' = s := by
      have : (fileOf k J X R.cfg).stored = X.file.stored := rfl
      rw [this, hst] at hst'
      exact (Option.some.inj hst').symm
    subst e1
    have g : ∀ (b : Bool) (l : List PwItem) (t : List PW), l.mapM (pwItem b c') = some t → ∀ b' : Bool, ∃ t', l.mapM (pwItem b' c') = some t' := by
      intro b l
      induction l with
      | nil => intro t _ b'; exact ⟨[], rfl⟩
      | cons x l ih =>
        intro t ht b'
        rw [List.mapM_cons] at ht
        obtain ⟨y, hy, ht⟩ := Option.bind_eq_some_iff.1 ht
        obtain ⟨u, hu, -⟩ := Option.bind_eq_some_iff.1 ht
        obtain ⟨t', ht'⟩ := ih u hu b'
        unfold pwItem at hy
        obtain ⟨q0, hq, -⟩ := Option.map_eq_some_iff.1 hy
        refine ⟨⟨place c' x.mbbox, x.active, if b' then some (PlaneWave.auxGridOf x.theta x.phi (place c' x.mbbox) q0) else none⟩ :: t', ?_⟩
        rw [List.mapM_cons]
        have : pwItem b' c' x = some ⟨place c' x.mbbox, x.active, if b' then some (PlaneWave.auxGridOf x.theta x.phi (place c' x.mbbox) q0) else none⟩ := by
          unfold pwItem
          rw [hq]; rfl
        rw [this, ht']; rfl
    have hce : initExternalSurfaceParameters X'.file.cells X'.file.bt X'.file.layers = some c' := by rw [x1]; exact hc'
    obtain ⟨t', ht'⟩ := g _ _ _ hpw (gridType k J' X' c' == .cubic)
    have hS' : ((fileOf k J' X' c').sim (Setup.de k J' X' c') (Setup.dh k J' X' c')) =
        some ⟨c', debyeItems c' s'.blocks, sibcItems c' s'.surfs, (s'.srcs.map (srcItem (Setup.de k J' X' c') (Setup.dh k J' X' c') c')).map Prod.fst, t'⟩ := by
      unfold File.sim
      have a1 : (fileOf k J' X' c').stored = some s' := by
        show X'.file.stored = _
        rw [x1]; exact hst
      have a2 : initExternalSurfaceParameters (fileOf k J' X' c').cells (fileOf k J' X' c').bt (fileOf k J' X' c').layers = some c' := hce
      have a3 : s'.pws.mapM (pwItem (fileOf k J' X' c').cubic c') = some t' := ht'
      rw [a1, Option.bind_some, a2, Option.bind_some, a3]; rfl
    rw [setup_of hce (by rw [x1]; exact hst) hS']
    rfl
  have sym : SameInput X' X := by
    obtain ⟨x1, x2, x3, x4, x5⟩ := hX
    exact ⟨x1.symm, x2.symm, x3.symm, x4.symm, fun a i h1 h2 => (x5 a i h1 (by rw [x1] at h2; exact h2)).symm⟩
  cases h : (setup k J X).isSome
  · cases h' : (setup k J' X').isSome
    · rfl
    · rw [key sym h'] at h; cases h
  · exact (key hX h).symm

/-- C54, for files whose sheets keep away from the sides of the grid, whose plane waves keep away from the low sides of a mesh
that is not cubic, and whose boxes are ordered: all arrays of fields and auxiliary quantities are the same in every step. -/
theorem memory_never_matters_partial (hX : SameInput X X') (hR : setup k J X = some R) (hz : ThirdSidesOrdered X.file.cards)
    (ha : gridType k J X R.cfg = .cubic ∨ WavesInside X.file.cards) (hs : SheetsAway X.file) :
    ∃ R', setup k J' X' = some R' ∧ R'.cfg = R.cfg ∧ R'.sim = R.sim ∧ R'.dt = R.dt ∧
      ∀ n l, SAllocated R.sim l → R'.fields n l = R.fields n l := by
  obtain ⟨R', h1, h2, h3, h4, -, -, h5⟩ := main (k := k) (J := J) (J' := J') (X := X) (X' := X') (r := 1) one_pos
    (by rw [scale_one]; exact hX) hR hz ha hs (Or.inl rfl) (Or.inl rfl)
  refine ⟨R', h1, h2, h3, by rw [h4, one_mul], fun n l hl => ?_⟩
  rw [h5 n l hl, one_zpow, one_mul]

/-- The fields an observer can see. -/
theorem fields_same_partial (hX : SameInput X X') (hR : setup k J X = some R) (hz : ThirdSidesOrdered X.file.cards)
    (ha : gridType k J X R.cfg = .cubic ∨ WavesInside X.file.cards) (hs : SheetsAway X.file) {R' : Run}
    (hR' : setup k J' X' = some R') (n : Nat) (fc : Fc) {i j l : Int} (hi : InGrid R.cfg i j l) :
    R'.fields n (.fld fc i j l) = R.fields n (.fld fc i j l) := by
  obtain ⟨R'', h1, h2, h3, h4, h5⟩ := memory_never_matters_partial (J' := J') hX hR hz ha hs
  rw [hR'] at h1
  cases h1
  obtain ⟨s, hst, hc, hS, -⟩ := setup_parts hR
  obtain ⟨s', c', pws, -, hc', -, eS⟩ := C47.sim_parts hS
  have e2 : c' = R.cfg := by
    have h2 : initExternalSurfaceParameters X.file.cells X.file.bt X.file.layers = some c' := hc'
    rw [hc] at h2
    exact (Option.some.inj h2).symm
  refine h5 n _ ?_
  show InGrid R.sim.cfg i j l
  rw [eS, e2]
  exact hi

end

/-! ### The hypotheses hold for a file with everything in it -/

/-- The sample file of C47 on a mesh of cubes. -/
noncomputable def sample (d : ℝ) : Experiment :=
  ⟨C47.sampleFile false, fun _ i => d * i, 0.5, fun _ => ⟨4, 1, -1, 1⟩, fun _ => .builtin ⟨.gaussian, 1, -1, -1, -1⟩⟩

theorem sample_setup (k : Consts) (J : Junk) (d : ℝ) : ∃ R, setup k J (sample d) = some R ∧ R.sim.sibc.length = 1 ∧
    R.sim.srcs.length = 1 ∧ R.sim.pws.length = 1 ∧ R.sim.debye.length = 1 := by
  obtain ⟨s, hs, -⟩ := C47.sample_stored false
  have hc : ∃ c, initExternalSurfaceParameters (sample d).file.cells (sample d).file.bt (sample d).file.layers =
      some c := by
    have : (initExternalSurfaceParameters (C47.sampleFile false).cells (C47.sampleFile false).bt
      (C47.sampleFile false).layers).isSome = true := by decide +kernel
    exact Option.isSome_iff_exists.1 this
  obtain ⟨c, hc⟩ := hc
  have ef : fileOf k J (sample d) c = C47.sampleFile (gridType k J (sample d) c == .cubic) := rfl
  obtain ⟨S, hS, a1, a2, a3, a4⟩ := C47.sampleFile_accepted (gridType k J (sample d) c == .cubic) (Setup.de k J (sample d) c) (Setup.dh k J (sample d) c)
  exact ⟨_, setup_of hc hs (by rw [ef]; exact hS), a2, a3, a4, a1⟩

theorem sample_ordered (d : ℝ) : ThirdSidesOrdered (sample d).file.cards := by
  intro c hc b hb
  simp only [sample, C47.sampleFile, C47.sampleCards, List.mem_cons, List.not_mem_nil, or_false] at hc
  rcases hc with rfl | rfl | rfl | rfl | rfl | rfl | rfl <;> simp [boxOf] at hb <;> subst hb <;> decide

theorem sample_waves (d : ℝ) : WavesInside (sample d).file.cards := by
  intro b hb a
  simp [sample, C47.sampleFile, C47.sampleCards, waveBoxes] at hb
  subst hb
  cases a <;> decide

theorem sample_sheets (d : ℝ) : SheetsAway (sample d).file := by
  intro c pr hc _ a
  simp [sample, C47.sampleFile, C47.sampleCards] at hc
  subst hc
  cases a <;> constructor <;> intro h <;> simp [mkBox, cellsOf, sample, C47.sampleFile, Axis.lo, Axis.hi] at h

/-- So the sample gives the same fields whatever memory held. -/
example (k : Consts) (J J' : Junk) (d : ℝ) : ∃ R R', setup k J (sample d) = some R ∧ setup k J' (sample d) = some R' ∧
    ∀ n l, SAllocated R.sim l → R'.fields n l = R.fields n l := by
  obtain ⟨R, hR, -⟩ := sample_setup k J d
  obtain ⟨R', h1, -, -, -, h2⟩ := memory_never_matters_partial (J' := J') (X' := sample d)
    ⟨rfl, rfl, rfl, rfl, fun _ _ _ _ => rfl⟩ hR (sample_ordered d) (Or.inr (sample_waves d)) (sample_sheets d)
  exact ⟨R, R', hR, h1, h2⟩

/-! ### A sheet that reaches a wall -/

/-- A sheet between the low y wall's neighbourhood and the high y wall, all walls PEC. -/
noncomputable def wallCards : List Deck.Card :=
  [.bt "carbon" (.sibc C47.samplePr), .tb ⟨7, mkBox 3 3 1 5 1 3, "carbon", 1, 0⟩]
noncomputable def wallFile : File := ⟨6, 5, 4, fun _ => .pec, fun _ => 0, wallCards, false⟩
noncomputable def wall : Experiment :=
  ⟨wallFile, fun _ i => (i : ℝ), 0.5, fun _ => ⟨4, 1, -1, 1⟩, fun _ => .builtin ⟨.gaussian, 1, -1, -1, -1⟩⟩

theorem wall_stored : ∃ s, wallFile.stored = some s ∧ s.surfs = [⟨mkBox 3 3 1 5 1 3, .sibc C47.samplePr, 1, ((0 : ℚ) : ℝ)⟩] ∧
    s.pws = [] ∧ s.srcs = [] := by
  have e : wallFile.stored = Deck.read (State.init (mkBox 0 6 0 5 0 4)) wallCards := rfl
  rw [e, wallCards]
  rw [C47.read_cons, C47.card_bt (by decide +kernel), Option.bind_some]
  rw [C47.read_cons, C47.card_tb (m := .sibc C47.samplePr) (by rfl) (by decide +kernel), Option.bind_some]
  exact ⟨_, rfl, rfl, rfl, rfl⟩

/-- The program accepts the file; the factor of a term of the update equations is what the allocator happened to leave in
memory: 1 or 0. -/
theorem memory_matters_at_walls (k : Consts) (J : Junk) : ∃ R R' q,
    setup k { J with adj := fun _ _ _ _ => false } wall = some R ∧ setup k { J with adj := fun _ _ _ _ => true } wall = some R' ∧
    R'.sim = R.sim ∧ (∃ b ∈ R.sim.step, q ∈ b.coefs) ∧ R.coefs q = 1 ∧ R'.coefs q = 0 := by
  obtain ⟨s, hs, hu, hp, hsr⟩ := wall_stored
  obtain ⟨c, hc⟩ : ∃ c, initExternalSurfaceParameters wall.file.cells wall.file.bt wall.file.layers = some c :=
    Option.isSome_iff_exists.1 (by
      show (initExternalSurfaceParameters wallFile.cells wallFile.bt wallFile.layers).isSome = true
      decide +kernel)
  have hbox : c.gobox = mkBox 1 7 1 6 1 5 ∧ place c (mkBox 3 3 1 5 1 3) = mkBox 4 4 2 6 2 4 := by
    have h2 : (initExternalSurfaceParameters wallFile.cells wallFile.bt wallFile.layers).map (fun c => Face.all.all fun f =>
      c.gobox f == mkBox 1 7 1 6 1 5 f && place c (mkBox 3 3 1 5 1 3) f == mkBox 4 4 2 6 2 4 f) = some true := by decide +kernel
    have h3 : initExternalSurfaceParameters wallFile.cells wallFile.bt wallFile.layers = some c := hc
    rw [h3, Option.map_some, Option.some.injEq, List.all_eq_true] at h2
    constructor <;> funext f <;> have h4 := h2 f (by cases f <;> decide) <;>
      rw [Bool.and_eq_true, beq_iff_eq, beq_iff_eq] at h4
    exacts [h4.1, h4.2]
  have items : sibcItems c s.surfs = [⟨.x, mkBox 4 4 2 6 2 4, fun p q => (C47.samplePr p q).terms.length⟩] := by
    rw [hu]
    simp only [sibcItems, List.filterMap_cons, List.filterMap_nil, hbox.2]
    rfl
  have hS : ∀ J, (fileOf k J wall c).sim (Setup.de k J wall c) (Setup.dh k J wall c) =
      some ⟨c, debyeItems c s.blocks, sibcItems c s.surfs, [], []⟩ := by
    intro J
    unfold File.sim
    have a1 : (fileOf k J wall c).stored = some s := hs
    have a2 : initExternalSurfaceParameters (fileOf k J wall c).cells (fileOf k J wall c).bt (fileOf k J wall c).layers = some c := hc
    rw [a1, Option.bind_some, a2, Option.bind_some, hp, hsr]
    rfl
  have flag : ∀ (b : Bool), adjFlag { J with adj := fun _ _ _ _ => b } c s true 0 4 5 2 1 = b := by
    intro b
    unfold adjFlag
    rw [items]
    simp only [List.getElem?_cons_zero, if_true, Adj.isAdjB, faceMapRead, Option.getD_some, sibcFace]
    rw [items, hbox.1]
    have V := (C43.faceMap_value (mkBox 1 7 1 6 1 5) [⟨.x, mkBox 4 4 2 6 2 4, fun p q => (C47.samplePr p q).terms.length⟩]
      (by simp [mkBox, Axis.lo, Axis.hi]) (4, 5 + 1, 2) .y).2.2 ?_ ?_
    · rw [V]; rfl
    · rintro ⟨w, hw, hcov⟩
      simp at hw
      subst hw
      exact absurd hcov.1 (by decide)
    · intro h
      have := (h .y).2
      simp [coord, mkBox, Axis.hi] at this
  refine ⟨_, _, .sibN 0 5 4 5 2, setup_of hc hs (hS _), setup_of hc hs (hS _), rfl, ?_, ?_, ?_⟩
  · refine ⟨sibcHBlock 0 ⟨.x, mkBox 4 4 2 6 2 4, fun p q => (C47.samplePr p q).terms.length⟩ (4, 5, 2), ?_, ?_⟩
    · simp only [Sim.step, Sim.stepH, List.mem_append]
      right; left; left; left; right
      unfold updateSibcH
      refine List.mem_append.2 (Or.inl (List.mem_flatMap.2 ⟨(⟨.x, mkBox 4 4 2 6 2 4, fun p q => (C47.samplePr p q).terms.length⟩, 0), ?_, ?_⟩))
      · rw [items]; simp
      · refine List.mem_map.2 ⟨(4, 5, 2), mem_boxLoop.2 ?_, rfl⟩
        simp [sibcLim, mkBox, Face.isLo, Face.axis]
    · simp [sibcHBlock, sibcAdj, Block.coefs, sibcCorr, Expr.coefs]
  · show bit (!(adjFlag { J with adj := fun _ _ _ _ => false } c s (4 ≤ 5) 0 4 5 2 (5 % 4))) = 1
    have := flag false
    simp only [show decide (4 ≤ 5) = true by decide, show 5 % 4 = 1 by decide, this]
    simp [bit]
  · show bit (!(adjFlag { J with adj := fun _ _ _ _ => true } c s (4 ≤ 5) 0 4 5 2 (5 % 4))) = 0
    have := flag true
    simp only [show decide (4 ≤ 5) = true by decide, show 5 % 4 = 1 by decide, this]
    simp [bit]

end Vulture.C54
