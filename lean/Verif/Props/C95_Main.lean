import Verif.Props.C95_Command
import Verif.Props.C95_Picture
/-
C95. The gvulture command from its arguments to the files it writes.
-/
namespace Vulture.C95
open Vulture Gvulture Gnuplot Spec Deck

/-- The command on options and the name of an accepted mesh file writes the picture its options ask for: for Gmsh exactly
if `-m` is the last choice, in coordinates exactly if `-p` is given, with the sides of the mesh unless `-e` is. -/
theorem runs (eta0 : ℝ) (opened : String → Option (File × (Axis → Int → ℝ))) {ws : List Switch} {as : List String}
    (h : List.Forall₂ Asks ws as) (he : ∀ w ∈ ws, ¬ w.ends) {mesh : String} (hm : ¬ Dashed mesh) {f : File}
    {lines : Axis → Int → ℝ} (ho : opened mesh = some (f, lines)) {s : Deck.State} (hs : f.stored = some s) :
    (LastGmsh ws → main eta0 opened (as ++ [mesh]) =
      (Gmsh.gmshMesh (decide (.physical ∈ ws)) (decide (.noExternal ∉ ws)) lines f).map .msh) ∧
    (¬ LastGmsh ws → main eta0 opened (as ++ [mesh]) =
      (gnuplotMesh (decide (.physical ∈ ws)) (decide (.noExternal ∉ ws)) eta0 lines f s).map .plot) := by
  obtain ⟨o, hp, h1, h2, h3, -⟩ := meaning h he hm
  have e1 : o.physical = decide (Switch.physical ∈ ws) := by rw [Bool.eq_iff_iff, h1, decide_eq_true_eq]
  have e2 : o.external = decide (Switch.noExternal ∉ ws) := by rw [Bool.eq_iff_iff, h2, decide_eq_true_eq]
  unfold main
  simp only [hp, ho, hs, e1, e2]
  exact ⟨fun hg => by rw [if_pos (h3.2 hg)], fun hg => by rw [if_neg (fun hh => hg (h3.1 hh))]⟩

/-- The Gmsh picture is always written for files within the limits of C94, and is the one C94 describes. -/
theorem runs_gmsh (eta0 : ℝ) (opened : String → Option (File × (Axis → Int → ℝ))) {ws : List Switch} {as : List String}
    (h : List.Forall₂ Asks ws as) (he : ∀ w ∈ ws, ¬ w.ends) {mesh : String} (hm : ¬ Dashed mesh) {f : File}
    {lines : Axis → Int → ℝ} (ho : opened mesh = some (f, lines)) {s : Deck.State} (hs : f.stored = some s)
    (hx : Exportable f) (hg : LastGmsh ws) : ∃ m, main eta0 opened (as ++ [mesh]) = some (.msh m) ∧
      ∃ l : List (Thing × Nat × List Gmsh.MshElement), m.elements = (l.map fun x => x.2.2).flatten ∧
        (∀ th, Shown f (decide (.noExternal ∉ ws)) th ↔ ∃ n es, (th, n, es) ∈ l) ∧
        ∀ x ∈ l, OnceEach m (shownAt (decide (.physical ∈ ws)) lines) x.1 x.2.1 x.2.2 := by
  obtain ⟨m, h1, ⟨l, l1, l2, -, l4⟩, -⟩ := C94.shows (decide (.physical ∈ ws)) (decide (.noExternal ∉ ws)) lines hs hx
  exact ⟨m, by rw [(runs eta0 opened h he hm ho hs).1 hg, h1]; rfl, l, l1, l2, l4⟩

/-- The gnuplot picture is always written for files whose waves have azimuths below 360 degrees and whose observers have
positive distances: the eight files show what their cards ask for and nothing else. -/
theorem runs_gnuplot (eta0 : ℝ) (opened : String → Option (File × (Axis → Int → ℝ))) {ws : List Switch} {as : List String}
    (h : List.Forall₂ Asks ws as) (he : ∀ w ∈ ws, ¬ w.ends) {mesh : String} (hm : ¬ Dashed mesh) {f : File}
    {lines : Axis → Int → ℝ} (ho : opened mesh = some (f, lines)) {s : Deck.State} (hs : f.stored = some s)
    (hphi : ∀ c d, Card.pw c d ∈ f.cards → c.phi < 360) (hst : GoodSteps f) (hg : ¬ LastGmsh ws) :
    ∃ out, main eta0 opened (as ++ [mesh]) = some (.plot out) ∧ out.files.map Prod.fst = pictureFiles ∧
      (∀ name d, (name, d) ∈ out.files → ∀ p q, Drawn d p q ↔ Pictured f (shownAt (decide (.physical ∈ ws)) lines)
        (fun c => (arrowsOf (decide (.physical ∈ ws)) f lines eta0 c).getD []) name p q) ∧
      (∀ d, ("gnuplot-observer.dat", d) ∈ out.files → ∀ P, [P] ∈ d ↔
        ∃ c n, Card.op c ∈ f.cards ∧ Recorded c n ∧ P = pin (shownAt (decide (.physical ∈ ws)) lines) n) ∧
      (.noExternal ∉ ws → ∀ c, Card.op c ∈ f.cards → ∃ names : List String, names.Nodup ∧
        (∀ name, name ∈ names ↔ Needed f true name) ∧
        (visible SLine.commented (firstCommand SLine.continued out.script).1).map SLine.file = names.map some) := by
  obtain ⟨out, h1, h2, -, h4, h5, h6, -⟩ := draws (decide (.physical ∈ ws)) (decide (.noExternal ∉ ws)) (eta0 := eta0) lines
    hs hphi hst
  refine ⟨out, by rw [(runs eta0 opened h he hm ho hs).2 hg, h1]; rfl, h2, h4, h5, ?_⟩
  intro hn c hc
  obtain ⟨names, n1, n2, n3, -⟩ := script_plots hs hc
  refine ⟨names, n1, n2, ?_⟩
  rw [h6, decide_eq_true hn]
  exact n3

/-- A mesh file that is rejected or cannot be read is an error exit, and so is a call without a mesh file, unless a file of
empty name can be read. -/
theorem rejected (eta0 : ℝ) (opened : String → Option (File × (Axis → Int → ℝ))) {ws : List Switch} {as : List String}
    (h : List.Forall₂ Asks ws as) (he : ∀ w ∈ ws, ¬ w.ends) :
    (∀ mesh, ¬ Dashed mesh → (opened mesh = none ∨ ∃ f lines, opened mesh = some (f, lines) ∧ f.stored = none) →
      main eta0 opened (as ++ [mesh]) = some (.exit 6)) ∧
    (opened "" = none → main eta0 opened as = some (.exit 6)) := by
  constructor
  · intro mesh hm ho
    obtain ⟨o, hp, -⟩ := meaning h he hm
    unfold main
    rcases ho with ho | ⟨f, lines, ho, hs⟩
    · simp only [hp, ho]
    · simp only [hp, ho, hs]
  · intro ho
    obtain ⟨o, hp⟩ := (no_name (a := "a") (b := "a") h he {} [] (by rw [← dashed_iff]; decide +kernel)).1
    unfold main
    simp only [hp, ho]

/-! ### Files that cannot be drawn -/

/-- A plane wave from an azimuth of exactly 360 degrees, which the checks let pass, stops the export with an assertion. -/
theorem azimuth_fails (physical external : Bool) (eta0 : ℝ) (lines : Axis → Int → ℝ) {f : File} {s : Deck.State}
    (h : f.stored = some s) {c : PWCard} {d : ℝ} (hc : Card.pw c d ∈ f.cards) (hphi : c.phi = 360) :
    gnuplotMesh physical external eta0 lines f s = none := by
  obtain ⟨-, hr⟩ := C47.stored_parts h
  obtain ⟨hang, hw⟩ := read_waves _ _ _ hr
  have ha := hang _ hc
  simp only [AnglesChecked, hphi, PlaneWave.anglesOk] at ha
  push Not at ha
  have ho := (C30.azimuth_360_accepted_then_aborts (c.theta : ℝ) c.eta ⟨ha.1.1, ha.1.2⟩ ⟨ha.2.2.1, ha.2.2.2⟩).2
  have hmem : (c.bbox, (c.theta : ℝ), (c.phi : ℝ), (c.eta : ℝ)) ∈ s.pws.map (fun x => (x.mbbox, x.theta, x.phi, x.eta)) := by
    rw [hw]
    exact List.mem_append_right _ (List.mem_filterMap.2 ⟨_, hc, rfl⟩)
  obtain ⟨w, hw', e⟩ := List.mem_map.1 hmem
  obtain ⟨e1, e2⟩ := Prod.mk.inj e
  obtain ⟨e2, e3⟩ := Prod.mk.inj e2
  obtain ⟨e3, e4⟩ := Prod.mk.inj e3
  have none_of : ∀ {α β : Type} (g : α → Option β) (l : List α), (∃ x ∈ l, g x = none) → l.mapM g = none := by
    intro α β g l
    induction l with
    | nil => simp
    | cons x l ih =>
      rintro ⟨y, hy, hn⟩
      rw [List.mapM_cons]
      cases hx : g x with
      | none => rfl
      | some z =>
        rcases List.mem_cons.1 hy with rfl | hy
        · rw [hx] at hn; cases hn
        · rw [ih ⟨y, hy, hn⟩]; rfl
  have hwave : waveFile physical (fun a => f.cells a + 1) lines eta0 s.mbox s.pws = none := by
    unfold waveFile
    rw [none_of, Option.map_none]
    refine ⟨w, hw', ?_⟩
    rw [e1, e2, e3, e4, hphi]
    unfold waveArrows PlaneWave.ijk0
    rw [show ((360 : ℚ) : ℝ) = 360 by norm_num, ho]
    rfl
  dsimp only [gnuplotMesh]
  rw [hwave]
  rfl

/-- An accepted file with such a wave, and one with an observer that has no distance between its nodes. -/
noncomputable def turned : File :=
  ⟨2, 2, 2, fun _ => .pec, fun _ => 0, [.wf "pulse", .pw ⟨11, mkBox 0 2 0 2 0 2, "wave", "pulse", 45, 360, 0, "111111".toList, 1⟩ 0], true⟩

theorem cannot_draw (physical external : Bool) (eta0 : ℝ) (lines : Axis → Int → ℝ) :
    (∃ s, turned.stored = some s ∧ gnuplotMesh physical external eta0 lines turned s = none) ∧
    ∃ s, C94.stuckProbe.stored = some s ∧ gnuplotMesh physical external eta0 lines C94.stuckProbe s = none := by
  constructor
  · have h1 : ∃ s, turned.stored = some s := by
      have e : turned.stored = Deck.read (Deck.State.init (mkBox 0 2 0 2 0 2)) turned.cards := rfl
      rw [e]
      simp only [turned]
      rw [C47.read_cons, C47.card_wf (by decide +kernel), Option.bind_some, C47.read_cons]
      simp only [Deck.State.card]
      rw [if_pos (by decide +kernel), Option.bind_some]
      exact ⟨_, rfl⟩
    obtain ⟨s, hs⟩ := h1
    exact ⟨s, hs, azimuth_fails _ _ _ _ hs
      (c := ⟨11, mkBox 0 2 0 2 0 2, "wave", "pulse", 45, 360, 0, "111111".toList, 1⟩) (d := 0) (by simp [turned]) rfl⟩
  · refine ⟨_, by
      have e : C94.stuckProbe.stored = Deck.read (Deck.State.init (mkBox 0 2 0 2 0 2)) C94.stuckProbe.cards := rfl
      rw [e]
      simp only [C94.stuckProbe]
      rw [C47.read_cons]
      simp only [Deck.State.card]
      rw [if_pos (by decide +kernel), Option.bind_some]
      rfl, ?_⟩
    rfl

/-- The sample file of C47 can be drawn in both ways. -/
example (cubic : Bool) : ∃ s, (C47.sampleFile cubic).stored = some s ∧ Exportable (C47.sampleFile cubic) ∧
    (∀ c d, Card.pw c d ∈ (C47.sampleFile cubic).cards → c.phi < 360) ∧ GoodSteps (C47.sampleFile cubic) := by
  obtain ⟨s, hs, -⟩ := C47.sample_stored cubic
  have hw : ∀ c d, Card.pw c d ∈ C47.sampleCards →
      c = ⟨11, mkBox 1 5 1 4 1 3, "wave", "pulse", 45, 30, 0, "111111".toList, 1⟩ := by
    intro c d hc
    simp only [C47.sampleCards, List.mem_cons, List.not_mem_nil, or_false, reduceCtorEq, false_or, Card.pw.injEq] at hc
    exact hc.1
  have hob : ∀ c, Card.op c ∉ C47.sampleCards := by intro c hc; simp [C47.sampleCards] at hc
  refine ⟨s, hs, ⟨?_, fun c hc => (hob c hc).elim⟩, ?_, fun c hc => (hob c hc).elim⟩
  · intro c d hc
    rw [hw c d hc]
    decide +kernel
  · intro c d hc
    rw [hw c d hc]
    norm_num

end Vulture.C95
