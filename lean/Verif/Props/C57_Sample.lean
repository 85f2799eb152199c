import Verif.Props.C57_Exchange
set_option linter.unusedSimpArgs false
set_option linter.unusedVariables false
/-
Sample files that meet the hypotheses of C56 and C57: a box of 6 x 5 x 4 cells with a block of glass and a plate, fed by a
current on one edge, and the same with a resistive source.
-/
namespace Vulture.C57
open Spec Setup Deck Scaling Finset

/-- A block of glass with conductivity `s`, a plate, a waveform, a current source with `tag` in box `b`; `more` cards. -/
noncomputable def boxCards (s : ℝ) (tag : List Char) (b : BBox) (more : List Deck.Card) : List Deck.Card :=
  [.mt "glass" (.simple 4 s 1), .wf "pulse", .mb ⟨7, mkBox 1 3 1 2 0 4, "glass", "111111".toList⟩,
   .tb ⟨7, mkBox 4 4 1 3 1 3, "PEC", 1, 0⟩, .ex 9 b "feed" tag "pulse" 1 0 50] ++ more
noncomputable def boxFile (s : ℝ) (tag : List Char) (b : BBox) (more : List Deck.Card) : File :=
  ⟨6, 5, 4, fun _ => .pec, fun _ => 0, boxCards s tag b more, false⟩
noncomputable def box (s : ℝ) (tag : List Char) (b : BBox) (more : List Deck.Card) (cn : ℝ) : Experiment :=
  ⟨boxFile s tag b more, fun _ i => (i : ℝ), cn, fun _ => ⟨4, 1, -1, 1⟩, fun _ => .builtin ⟨.gaussian, 1, -1, -1, -1⟩⟩

/-- A voltage source with 50 Ω next to the feed. -/
noncomputable def load : Deck.Card := .ex 9 (mkBox 5 5 4 4 0 1) "load" ['V', 'R', 'Z'] "pulse" 1 0 50

def start : Deck.State := State.init (mkBox 0 6 0 5 0 4)

theorem box_stored (s : ℝ) {tag : List Char} {b : BBox} {i : Source.TagInfo} (hi : Source.lookup tag = some i)
    (hp : parseEX (mkBox 0 6 0 5 0 4) (fun n => ([] : List String).contains n) (fun n => ["pulse"].contains n)
      (exCard 9 b "feed" tag "pulse") = true) (more : Bool) :
    ∃ t, (boxFile s tag b (if more then [load] else [])).stored = some t ∧ t.pws = [] := by
  have e : (boxFile s tag b (if more then [load] else [])).stored = Deck.read start (boxCards s tag b (if more then [load] else [])) := rfl
  rw [e, boxCards]
  simp only [List.cons_append, List.nil_append]
  rw [C47.read_cons, C47.card_mt (by decide +kernel), Option.bind_some]
  rw [C47.read_cons, C47.card_wf (by rfl), Option.bind_some]
  rw [C47.read_cons, C47.card_mb (m := .simple 4 s 1) (by rfl) (by rfl), Option.bind_some]
  rw [C47.read_cons, C47.card_tb (m := .pec) (by rfl) (by rfl), Option.bind_some]
  rw [C47.read_cons]
  obtain ⟨t, h, e1, e2, e3, e4, e5, e6⟩ := C47.card_ex (s := { start with
      media := start.media ++ [("glass", .simple 4 s 1)]
      waves := start.waves ++ ["pulse"]
      blocks := start.blocks ++ [⟨mkBox 1 3 1 2 0 4, .simple 4 s 1, mbMask ⟨7, mkBox 1 3 1 2 0 4, "glass", "111111".toList⟩⟩]
      surfs := start.surfs ++ [⟨mkBox 4 4 1 3 1 3, .pec, 1, ((0 : ℚ) : ℝ)⟩] })
    (k := 9) (b := b) (n := "feed") (w := "pulse") (size := 1) (delay := 0) (resist := 50) hi hp
  rw [h, Option.bind_some]
  cases more with
  | false => exact ⟨t, rfl, e5⟩
  | true =>
    have hl : Source.lookup ['V', 'R', 'Z'] = some ⟨.thevenin, .z, none, .ez, true⟩ := by decide +kernel
    simp only [if_true, load]
    rw [C47.read_cons]
    obtain ⟨u, h, -, -, -, -, f5, -⟩ := C47.card_ex (s := t) (k := 9) (b := mkBox 5 5 4 4 0 1) (n := "load") (w := "pulse") (size := 1) (delay := 0)
      (resist := 50) hl (by rw [e1, e6, e4]; rfl)
    rw [h, Option.bind_some]
    exact ⟨u, rfl, by rw [f5, e5]; rfl⟩

theorem box_setup (k : Consts) (J : Junk) (s cn : ℝ) {tag : List Char} {b : BBox} {i : Source.TagInfo} (hi : Source.lookup tag = some i)
    (hp : parseEX (mkBox 0 6 0 5 0 4) (fun n => ([] : List String).contains n) (fun n => ["pulse"].contains n)
      (exCard 9 b "feed" tag "pulse") = true) (more : Bool) :
    ∃ R, setup k J (box s tag b (if more then [load] else []) cn) = some R := by
  obtain ⟨t, ht, hp⟩ := box_stored s hi hp more
  obtain ⟨c, hc⟩ : ∃ c, initExternalSurfaceParameters (boxFile s tag b (if more then [load] else [])).cells
      (boxFile s tag b (if more then [load] else [])).bt (boxFile s tag b (if more then [load] else [])).layers = some c :=
    Option.isSome_iff_exists.1 (by
      show (initExternalSurfaceParameters (boxFile 0 [] (mkBox 0 0 0 0 0 0) []).cells (fun _ => .pec) (fun _ => 0)).isSome = true
      decide +kernel)
  refine ⟨_, setup_of hc ht (S := ⟨c, debyeItems c t.blocks, sibcItems c t.surfs,
    (t.srcs.map (srcItem (Setup.de k J (box s tag b (if more then [load] else []) cn) c) (Setup.dh k J (box s tag b (if more then [load] else []) cn) c) c)).map Prod.fst, []⟩) ?_⟩
  unfold File.sim
  have a1 : (fileOf k J (box s tag b (if more then [load] else []) cn) c).stored = some t := ht
  have a2 : initExternalSurfaceParameters (fileOf k J (box s tag b (if more then [load] else []) cn) c).cells
    (fileOf k J (box s tag b (if more then [load] else []) cn) c).bt (fileOf k J (box s tag b (if more then [load] else []) cn) c).layers = some c := hc
  rw [a1, Option.bind_some, a2, Option.bind_some, hp]
  rfl

theorem box_cavity {k : Consts} (hb : 1 < k.big) {s cn : ℝ} (hs : 0 ≤ s) (hc : 0 < cn) {tag : List Char} (b : BBox)
    (ht : ∃ t ∈ currentTags, tag = t.toList) (more : Bool) : Cavity k (box s tag b (if more then [load] else []) cn) := by
  refine ⟨fun f => rfl, ?_, ?_, ?_, ?_, ?_, ?_, hc⟩
  · intro n m h
    cases more <;> simp [box, boxFile, boxCards, load] at h <;> exact ⟨4, s, 1, h.2, by norm_num, hs, le_refl _⟩
  · intro n pr h
    cases more <;> simp [box, boxFile, boxCards, load] at h
  · intro c d h
    cases more <;> simp [box, boxFile, boxCards, load] at h
  · intro q b' n tag' w size delay resist h
    cases more
    · simp [box, boxFile, boxCards] at h
      obtain ⟨-, -, -, rfl, -⟩ := h
      exact Or.inl ht
    · simp [box, boxFile, boxCards, load] at h
      rcases h with ⟨-, -, -, rfl, -⟩ | ⟨-, rfl, -, rfl, -, -, -, rfl⟩
      · exact Or.inl ht
      · refine Or.inr ⟨⟨"VRZ", by simp [lumpedTags], by decide +kernel⟩, by norm_num, ?_⟩
        intro a
        cases a
        · left; exact ⟨by decide, (by decide : (5 : Int) < 6)⟩
        · left; exact ⟨by decide, (by decide : (4 : Int) < 5)⟩
        · right; intro d hd; cases d <;> first | exact absurd rfl hd | decide
  · intro a i _ _; simp [box]
  · intro a i _ _; simpa [box] using hb

theorem feed_tag : (∃ t ∈ currentTags, ['I', 'Z'] = t.toList) ∧ (∃ t ∈ currentTags, ['I', 'X'] = t.toList) :=
  ⟨⟨"IZ", by simp [currentTags], by decide +kernel⟩, ⟨"IX", by simp [currentTags], by decide +kernel⟩⟩

/-- C56 applies: a lossy block, a plate, a current source and a resistive source in a box. -/
example (k : Consts) (hk : Physical k) (hb : 1 < k.big) (J : Junk) :
    ∃ R, setup k J (box 0.02 ['I', 'Z'] (mkBox 5 5 1 1 1 2) [load] 0.9) = some R ∧
      ∃ M, ∀ n fc i j l, SampleIn R.sim.cfg.gibox fc i j l → |R.fields n (.fld fc i j l)| ≤ M := by
  obtain ⟨R, h⟩ := box_setup k J 0.02 0.9 (tag := ['I', 'Z']) (b := mkBox 5 5 1 1 1 2) (edge_tag .z) (by decide +kernel) true
  refine ⟨R, h, C56.pulses_stay_bounded hk h (box_cavity hb (by norm_num) (by norm_num) _ feed_tag.1 true) (by simp [box]; norm_num) ?_⟩
  intro n
  exact ⟨by simp, by norm_num⟩

/-- Without conductivity the energy is conserved. -/
example (k : Consts) (hk : Physical k) (hb : 1 < k.big) (J : Junk) :
    ∃ R, setup k J (box 0 ['I', 'Z'] (mkBox 5 5 1 1 1 2) [] 0.9) = some R ∧
      ∃ g : Filling, C17.Closed (C17.undriven R.sim) R.coefs g ∧ g.dt = R.dt ∧
      ∀ N, (∀ n p q, R.drive (N + n) (.src p q) = 0) → ∀ n,
        leapEnergy g R.sim.cfg.gibox (R.fields (N + n)) (R.fields (N + n + 1)) =
          leapEnergy g R.sim.cfg.gibox (R.fields N) (R.fields (N + 1)) := by
  obtain ⟨R, h⟩ := box_setup k J 0 0.9 (tag := ['I', 'Z']) (b := mkBox 5 5 1 1 1 2) (edge_tag .z) (by decide +kernel) false
  refine ⟨R, h, C56.lossless_conserved hk h (box_cavity hb (le_refl _) (by norm_num) _ feed_tag.1 false) ⟨?_, ?_⟩⟩
  · intro n m hm
    simp [box, boxFile, boxCards] at hm
    exact ⟨4, 1, hm.2⟩
  · intro q b' n tag' w size delay resist hm
    simp [box, boxFile, boxCards] at hm
    obtain ⟨-, -, -, rfl, -⟩ := hm
    exact feed_tag.1

/-- C57 applies: an edge along z in front of the plate and an edge along x in the glass. -/
example (k : Consts) (hk : Physical k) (hb : 1 < k.big) (J : Junk) :
    ∃ R1 R2, setup k J (box 0.02 ['I', 'Z'] (mkBox 5 5 1 1 1 2) [] 0.9) = some R1 ∧
      setup k J (box 0.02 ['I', 'X'] (mkBox 1 2 2 2 3 3) [] 0.9) = some R2 ∧ ∀ n,
      R1.fields n (edgeLoc R1.cfg .x (mkBox 1 2 2 2 3 3)) = R2.fields n (edgeLoc R2.cfg .z (mkBox 5 5 1 1 1 2)) := by
  obtain ⟨R1, h1⟩ := box_setup k J 0.02 0.9 (tag := ['I', 'Z']) (b := mkBox 5 5 1 1 1 2) (edge_tag .z) (by decide +kernel) false
  obtain ⟨R2, h2⟩ := box_setup k J 0.02 0.9 (tag := ['I', 'X']) (b := mkBox 1 2 2 2 3 3) (edge_tag .x) (by decide +kernel) false
  refine ⟨R1, R2, h1, h2, fun n => ?_⟩
  have := exchange (a1 := .z) (a2 := .x) (b1 := mkBox 5 5 1 1 1 2) (b2 := mkBox 1 2 2 2 3 3) hk h1 h2
    (box_cavity hb (by norm_num) (by norm_num) _ feed_tag.1 false)
    (box_cavity hb (by norm_num) (by norm_num) _ feed_tag.2 false) ⟨⟨rfl, rfl, rfl, rfl, rfl, rfl, rfl, rfl, rfl⟩,
      [.mt "glass" (.simple 4 0.02 1), .wf "pulse", .mb ⟨7, mkBox 1 3 1 2 0 4, "glass", "111111".toList⟩,
       .tb ⟨7, mkBox 4 4 1 3 1 3, "PEC", 1, 0⟩], [], "feed", ['I', 'Z'], ['I', 'X'], "pulse", 1, 0, 9, 50, 9, 50, rfl, rfl,
      ⟨rfl, by decide, by decide +kernel⟩, ⟨rfl, by decide, by decide +kernel⟩, by
        intro c hc; simp at hc; rcases hc with rfl | rfl | rfl | rfl <;> exact fun h => h⟩ n
  simpa [box, mkBox] using this

end Vulture.C57
