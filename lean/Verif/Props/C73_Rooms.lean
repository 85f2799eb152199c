import Verif.Props.C73_Locality
/- C73: equal time steps, and files to which the theorems apply. -/
set_option linter.unusedSimpArgs false
set_option linter.unusedVariables false
set_option linter.unreachableTactic false
set_option linter.unusedTactic false
namespace Vulture.C73
open Vulture Spec Setup Deck CavityLemmas Scaling C72

/-- The cell sizes of a file along an axis. -/
def cellSizes (X : Experiment) (a : Axis) : Set ℝ := {s | ∃ m, 0 ≤ m ∧ m < cellsOf X.file a ∧ s = X.lines a (m + 1) - X.lines a m}

/-- C73: two files with the same Courant number and the same smallest cells run with the same time step. -/
theorem same_step {k : Consts} {J J' : Junk} {X Y : Experiment} {R S : Setup.Run} (h : setup k J X = some R) (h' : setup k J' Y = some S)
    (hcn : X.cn = Y.cn)
    (hx : ∀ a, ∀ s ∈ cellSizes X a, 0 < s ∧ s < k.big) (hy : ∀ a, ∀ s ∈ cellSizes Y a, 0 < s ∧ s < k.big)
    {l : Axis → ℝ} (hlx : ∀ a, IsLeast (cellSizes X a) (l a)) (hly : ∀ a, IsLeast (cellSizes Y a) (l a)) : R.dt = S.dt := by
  have key : ∀ {X : Experiment} {J : Junk} {R : Setup.Run}, setup k J X = some R → (∀ a, ∀ s ∈ cellSizes X a, 0 < s ∧ s < k.big) →
      (∀ a, IsLeast (cellSizes X a) (l a)) → R.dt = timeStep X.cn k.c0 l := by
    intro X J R h hx hl
    obtain ⟨hv, hn, -, hdt, -⟩ := run_parts h
    rw [hdt]
    have e : (fun a => (edges k J X R.cfg a).dmin) = l := by
      funext a
      have e1 := (C18.smallest_largest (c := R.cfg) (a := a) (lines := X.lines a) (big := k.big) (junk := J.edges a) hv ?_ ?_).1
      · have e2 : {d | ∃ m, 0 ≤ m ∧ m < R.cfg.n a ∧ d = C18.cellSize (X.lines a) m} = cellSizes X a := by
          rw [hn]; rfl
        rw [e2] at e1
        exact e1.unique (hl a)
      · intro m h0 h1
        have := (hx a _ ⟨m, h0, by rw [← hn]; exact h1, rfl⟩).1
        linarith
      · intro m h0 h1
        exact (hx a _ ⟨m, h0, by rw [← hn]; exact h1, rfl⟩).2
    exact congrArg (timeStep X.cn k.c0) e
  rw [key h hx hlx, key h' hy hly, hcn]

/-! ### Meshes with cells of size one -/

theorem unit_cell {X : Experiment} (hl : X.lines = fun (_ : Axis) (i : Int) => (i : ℝ)) (a : Axis) (m : Int) : cellLength X a m = 1 := by
  unfold cellLength
  rw [hl]
  push_cast
  ring

theorem unit_sizes {X : Experiment} (hl : X.lines = fun (_ : Axis) (i : Int) => (i : ℝ)) (hn : ∀ a, 0 < cellsOf X.file a) (a : Axis) : cellSizes X a = {1} := by
  ext s
  simp only [cellSizes, Set.mem_setOf_eq, Set.mem_singleton_iff, hl]
  constructor
  · rintro ⟨m, -, -, rfl⟩; push_cast; ring
  · rintro rfl; exact ⟨0, le_rfl, hn a, by push_cast; ring⟩

theorem unit_step {k : Consts} {J J' : Junk} {X Y : Experiment} {R S : Setup.Run} (hb : 1 < k.big) (h : setup k J X = some R) (h' : setup k J' Y = some S)
    (hcn : X.cn = Y.cn) (hx : X.lines = fun (_ : Axis) (i : Int) => (i : ℝ)) (hy : Y.lines = fun (_ : Axis) (i : Int) => (i : ℝ)) : R.dt = S.dt := by
  have px : ∀ a, 0 < cellsOf X.file a := by
    obtain ⟨hv, hn, -⟩ := run_parts h
    intro a; rw [← hn]; exact hv.cells a
  have py : ∀ a, 0 < cellsOf Y.file a := by
    obtain ⟨hv, hn, -⟩ := run_parts h'
    intro a; rw [← hn]; exact hv.cells a
  refine same_step h h' hcn (l := fun _ => 1) ?_ ?_ ?_ ?_
  · intro a s hs; rw [unit_sizes hx px] at hs; rw [Set.mem_singleton_iff.1 hs]; exact ⟨one_pos, hb⟩
  · intro a s hs; rw [unit_sizes hy py] at hs; rw [Set.mem_singleton_iff.1 hs]; exact ⟨one_pos, hb⟩
  · intro a; rw [unit_sizes hx px]; exact isLeast_singleton
  · intro a; rw [unit_sizes hy py]; exact isLeast_singleton

def jz : Tag := ⟨false, .J, .z, none⟩
theorem jz_valid : jz.Valid := by decide
theorem jz_spell : jz.spell = ['J', 'Z'] := rfl

/-! ### Two empty rooms of different sizes -/

/-- A cube of `N` cells with the same walls on all sides and a current in the middle. -/
def roomCards (c : Int) : List Deck.Card := [.wf "pulse", .ex 10 (mkBox c c c c c (c + 1)) "feed" ['J', 'Z'] "pulse" 1 0 0]
noncomputable def room (N : ℕ) (wall : BType) (c : Int) : Experiment :=
  ⟨⟨N, N, N, fun _ => wall, fun _ => 6, roomCards c, false⟩, fun _ i => (i : ℝ), 0.5,
    fun _ => ⟨4, 1, -1, 1⟩, fun _ => .builtin ⟨.gaussian, 1, -1, -1, -1⟩⟩

theorem room_setup (k : Consts) (J : Junk) {N : ℕ} {wall : BType} {c : Int} (hr : (N = 8 ∧ wall = .pec ∧ c = 4) ∨ (N = 12 ∧ wall = .pml ∧ c = 6)) :
    ∃ R, setup k J (room N wall c) = some R := by
  have hl : Source.lookup ['J', 'Z'] = some ⟨.ecurrDens, .z, none, .ez, true⟩ := by decide +kernel
  obtain ⟨s, hs, hp⟩ : ∃ s, (room N wall c).file.stored = some s ∧ s.pws = [] := by
    have e : (room N wall c).file.stored = Deck.read (State.init (mkBox 0 N 0 N 0 N)) (roomCards c) := by
      rcases hr with ⟨rfl, rfl, rfl⟩ | ⟨rfl, rfl, rfl⟩ <;> rfl
    rw [e, roomCards]
    rw [C47.read_cons, C47.card_wf (by rfl), Option.bind_some]
    rw [C47.read_cons]
    simp only [State.card, hl]
    rcases hr with ⟨rfl, rfl, rfl⟩ | ⟨rfl, rfl, rfl⟩
    · rw [if_pos (by decide +kernel)]; exact ⟨_, rfl, rfl⟩
    · rw [if_pos (by decide +kernel)]; exact ⟨_, rfl, rfl⟩
  obtain ⟨cf, hc⟩ : ∃ cf, initExternalSurfaceParameters (room N wall c).file.cells (room N wall c).file.bt (room N wall c).file.layers = some cf := by
    rcases hr with ⟨rfl, rfl, rfl⟩ | ⟨rfl, rfl, rfl⟩
    · exact Option.isSome_iff_exists.1 (by
        show (initExternalSurfaceParameters (fun a => match a with | .x => 8 | .y => 8 | .z => 8) (fun _ => BType.pec) (fun _ => 6)).isSome = true
        decide +kernel)
    · exact Option.isSome_iff_exists.1 (by
        show (initExternalSurfaceParameters (fun a => match a with | .x => 12 | .y => 12 | .z => 12) (fun _ => BType.pml) (fun _ => 6)).isSome = true
        decide +kernel)
  have hS : ∃ S, (fileOf k J (room N wall c) cf).sim (Setup.de k J (room N wall c) cf) (Setup.dh k J (room N wall c) cf) = some S := by
    unfold File.sim
    have a1 : (fileOf k J (room N wall c) cf).stored = some s := hs
    have a2 : initExternalSurfaceParameters (fileOf k J (room N wall c) cf).cells (fileOf k J (room N wall c) cf).bt (fileOf k J (room N wall c) cf).layers = some cf := hc
    rw [a1, Option.bind_some, a2, Option.bind_some, hp]
    exact ⟨_, rfl⟩
  obtain ⟨S, hS⟩ := hS
  exact ⟨_, Scaling.setup_of hc hs hS⟩

section
variable {N : ℕ} {wall : BType} {c : Int} {fc : Fc} {q : Axis → Int}

theorem room_cards {x : Deck.Card} (h : x ∈ (room N wall c).file.cards) :
    x = .wf "pulse" ∨ x = .ex 10 (mkBox c c c c c (c + 1)) "feed" ['J', 'Z'] "pulse" 1 0 0 := by
  have : x ∈ roomCards c := h
  simpa [roomCards] using this

theorem room_blocks : OrdinaryBlocks (room N wall c).file.cards := by
  intro b hb; rcases room_cards hb with h | h <;> cases h
theorem room_sheets : ClearOfSheets (room N wall c) fc q := by
  intro b pr hb; rcases room_cards hb with h | h <;> cases h
theorem room_waves : ClearOfWaves (room N wall c) fc q := by
  intro b pr hb; rcases room_cards hb with h | h <;> cases h
theorem room_debye : ∀ x ∈ (room N wall c).file.cards, ∀ e s u poles, ¬ DebyeCard (room N wall c) fc q x e s u poles := by
  rintro x hx e s u poles ⟨c, mask, rfl, -⟩
  rcases room_cards hx with h | h <;> cases h
theorem room_currents : OnlyCurrents (room N wall c) fc q := by
  intro m b n tag w size delay r hx t ht hs hc hq
  rcases room_cards hx with h | h
  · cases h
  · injection h with _ _ _ h4
    have e : t = jz := C27.spell_injective ht jz_valid (by rw [hs, h4]; rfl)
    subst e
    exact ⟨rfl, trivial⟩

theorem room_vacuum (hside : ∀ f, ¬ OnPlane (meshBox (room N wall c)) f fc (q .x) (q .y) (q .z)) :
    MadeOf (room N wall c) fc (q .x) (q .y) (q .z) .vacuum := by
  refine .vacuum ?_ ?_ ?_ ?_ ?_
  · rintro x hx s ⟨_, b, n, tag, w, size, delay, r, d, rfl, ht, -⟩
    rcases room_cards hx with h | h
    · cases h
    · injection h with _ _ _ h4
      rw [h4] at ht
      simp [lumpedAxis] at ht
  · rintro ⟨f, -, hf⟩; exact hside f hf
  · rintro x hx s ⟨_, _, rfl, -⟩; rcases room_cards hx with h | h <;> cases h
  · rintro x hx s ⟨_, rfl, -⟩; rcases room_cards hx with h | h <;> cases h
  · rintro x hx s ⟨_, _, _, rfl, -⟩; rcases room_cards hx with h | h <;> cases h

theorem room_total (T t : ℝ) : totalCurrent (room N wall c) T t fc q =
    impressed (room N wall c) T t fc q (.ex 10 (mkBox c c c c c (c + 1)) "feed" ['J', 'Z'] "pulse" 1 0 0) := by
  unfold totalCurrent
  show ([impressed _ T t fc q (.wf "pulse"), impressed _ T t fc q (.ex 10 (mkBox c c c c c (c + 1)) "feed" ['J', 'Z'] "pulse" 1 0 0)] : List ℝ).sum = _
  simp [impressed]

end

/-- The small room agrees with the middle of the large one until three steps have passed. -/
example (k : Consts) (hb : 1 < k.big) (J J' : Junk) : ∃ R S, setup k J (room 8 .pec 4) = some R ∧ setup k J' (room 12 .pml 6) = some S ∧
    ∀ fc, value R 3 fc (fun _ => 4) = value S 3 fc (fun _ => 6) := by
  obtain ⟨R, hR⟩ := room_setup k J (Or.inl ⟨rfl, rfl, rfl⟩)
  obtain ⟨S, hS⟩ := room_setup k J' (Or.inr ⟨rfl, rfl, rfl⟩)
  refine ⟨R, S, hR, hS, ?_⟩
  refine light_cone (q := fun _ => 4) (d := fun _ => 2) hR hS room_blocks room_blocks (unit_step hb hR hS rfl rfl rfl) 3 fun p hp b => ?_
  have r : ∀ a, 1 ≤ p a ∧ p a ≤ 7 := by
    intro a
    have := hp a
    rw [abs_le] at this
    push_cast at this
    omega
  have rx := r .x; have ry := r .y; have rz := r .z
  have side1 : ∀ (fc : Fc) f, ¬ OnPlane (meshBox (room 8 .pec 4)) f fc (p .x) (p .y) (p .z) := by
    intro fc f hf
    cases fc <;> cases f <;> simp [OnPlane, samplePos, pos2, meshBox, mkBox, room, Face.axis] at hf <;> omega
  have side2 : ∀ (fc : Fc) f, ¬ OnPlane (meshBox (room 12 .pml 6)) f fc (moved p (fun _ => 2) .x) (moved p (fun _ => 2) .y) (moved p (fun _ => 2) .z) := by
    intro fc f hf
    cases fc <;> cases f <;> simp [OnPlane, samplePos, pos2, meshBox, mkBox, room, Face.axis, moved] at hf <;> omega
  have in1 : ∀ fc, SampleIn (meshBox (room 8 .pec 4)) fc (p .x) (p .y) (p .z) := by
    intro fc
    cases fc <;> simp [SampleIn, pos2, meshBox, mkBox, room] <;> omega
  have in2 : ∀ fc, SampleIn (meshBox (room 12 .pml 6)) fc (moved p (fun _ => 2) .x) (moved p (fun _ => 2) .y) (moved p (fun _ => 2) .z) := by
    intro fc
    cases fc <;> simp [SampleIn, pos2, meshBox, mkBox, room, moved] <;> omega
  have say : ∀ fc, SaySame (room 8 .pec 4) (room 12 .pml 6) (fun _ => 2) R.dt fc p := by
    intro fc
    refine ⟨fun s => ⟨fun hs => ?_, fun hs => ?_⟩, fun t => ?_⟩
    · rw [C64.made_unique hR room_blocks hs (room_vacuum (side1 fc))]
      exact room_vacuum (side2 fc)
    · rw [C64.made_unique hS room_blocks hs (room_vacuum (q := moved p fun _ => 2) (side2 fc))]
      exact room_vacuum (side1 fc)
    · rw [room_total, room_total]
      have e := tagOf_spell jz_valid
      rw [jz_spell] at e
      simp only [impressed, e]
      have hbox : SampleIn (mkBox 4 4 4 4 4 (4 + 1)) fc (p .x) (p .y) (p .z) ↔
          SampleIn (mkBox 6 6 6 6 6 (6 + 1)) fc (moved p (fun _ => 2) .x) (moved p (fun _ => 2) .y) (moved p (fun _ => 2) .z) := by
        cases fc <;> simp [SampleIn, pos2, mkBox, moved] <;> omega
      by_cases hq : jz.component = fc ∧ SampleIn (mkBox 4 4 4 4 4 (4 + 1)) fc (p .x) (p .y) (p .z)
      · rw [if_pos hq, if_pos ⟨hq.1, hbox.1 hq.2⟩]; rfl
      · rw [if_neg hq, if_neg fun h => hq ⟨h.1, hbox.2 h.2⟩]
  refine ⟨⟨⟨in1 _, ?_, room_debye, room_sheets, room_waves, room_currents⟩, ⟨in2 _, ?_, room_debye, room_sheets, room_waves, room_currents⟩, say _, ?_⟩,
    ⟨in1 _, room_sheets, room_waves, room_currents⟩, ⟨in2 _, room_sheets, room_waves, room_currents⟩, say _, ?_⟩
  · rintro ⟨f, -, hf⟩; exact side1 _ f hf
  · rintro ⟨f, -, hf⟩; exact side2 _ f hf
  · intro b _
    unfold middleDistance
    rw [unit_cell rfl, unit_cell rfl, unit_cell rfl, unit_cell rfl]
  · intro b _
    rw [unit_cell rfl, unit_cell rfl]

/-! ### A room behind a metal plate -/

/-- A metal box with a metal plate across, a current on one side of the plate and a block of wood on the other, if `full`. -/
def cellCards (full : Bool) : List Deck.Card :=
  [.mt "wood" (.simple 2 1 1), .wf "pulse"] ++ (if full then [.mb ⟨8, mkBox 4 6 0 4 0 4, "wood", "111111".toList⟩] else []) ++
  [.tb ⟨7, mkBox 3 3 0 4 0 4, "PEC", 1, 0⟩, .ex 10 (mkBox 1 1 2 2 1 2) "feed" ['J', 'Z'] "pulse" 1 0 0]
noncomputable def cell (full : Bool) : Experiment :=
  ⟨⟨6, 4, 4, fun _ => .pec, fun _ => 6, cellCards full, false⟩, fun _ i => (i : ℝ), 0.5,
    fun _ => ⟨4, 1, -1, 1⟩, fun _ => .builtin ⟨.gaussian, 1, -1, -1, -1⟩⟩

theorem cell_setup (k : Consts) (J : Junk) (full : Bool) : ∃ R, setup k J (cell full) = some R := by
  have hl : Source.lookup ['J', 'Z'] = some ⟨.ecurrDens, .z, none, .ez, true⟩ := by decide +kernel
  obtain ⟨s, hs, hp⟩ : ∃ s, (cell full).file.stored = some s ∧ s.pws = [] := by
    have e : (cell full).file.stored = Deck.read (State.init (mkBox 0 6 0 4 0 4)) (cellCards full) := rfl
    rw [e]
    cases full
    · show ∃ s, Deck.read (State.init (mkBox 0 6 0 4 0 4)) [.mt "wood" (.simple 2 1 1), .wf "pulse",
        .tb ⟨7, mkBox 3 3 0 4 0 4, "PEC", 1, 0⟩, .ex 10 (mkBox 1 1 2 2 1 2) "feed" ['J', 'Z'] "pulse" 1 0 0] = some s ∧ s.pws = []
      rw [C47.read_cons, C47.card_mt (by decide +kernel), Option.bind_some]
      rw [C47.read_cons, C47.card_wf (by decide +kernel), Option.bind_some]
      rw [C47.read_cons, C47.card_tb (m := .pec) (by rfl) (by decide +kernel), Option.bind_some]
      rw [C47.read_cons]
      simp only [State.card, hl]
      rw [if_pos (by decide +kernel)]
      exact ⟨_, rfl, rfl⟩
    · show ∃ s, Deck.read (State.init (mkBox 0 6 0 4 0 4)) [.mt "wood" (.simple 2 1 1), .wf "pulse",
        .mb ⟨8, mkBox 4 6 0 4 0 4, "wood", "111111".toList⟩,
        .tb ⟨7, mkBox 3 3 0 4 0 4, "PEC", 1, 0⟩, .ex 10 (mkBox 1 1 2 2 1 2) "feed" ['J', 'Z'] "pulse" 1 0 0] = some s ∧ s.pws = []
      rw [C47.read_cons, C47.card_mt (by decide +kernel), Option.bind_some]
      rw [C47.read_cons, C47.card_wf (by decide +kernel), Option.bind_some]
      rw [C47.read_cons, C47.card_mb (m := .simple 2 1 1) (by rfl) (by decide +kernel), Option.bind_some]
      rw [C47.read_cons, C47.card_tb (m := .pec) (by rfl) (by decide +kernel), Option.bind_some]
      rw [C47.read_cons]
      simp only [State.card, hl]
      rw [if_pos (by decide +kernel)]
      exact ⟨_, rfl, rfl⟩
  obtain ⟨cf, hc⟩ : ∃ cf, initExternalSurfaceParameters (cell full).file.cells (cell full).file.bt (cell full).file.layers = some cf := by
    exact Option.isSome_iff_exists.1 (by
      show (initExternalSurfaceParameters (fun a => match a with | .x => 6 | .y => 4 | .z => 4) (fun _ => BType.pec) (fun _ => 6)).isSome = true
      decide +kernel)
  have hS : ∃ S, (fileOf k J (cell full) cf).sim (Setup.de k J (cell full) cf) (Setup.dh k J (cell full) cf) = some S := by
    unfold File.sim
    have a1 : (fileOf k J (cell full) cf).stored = some s := hs
    have a2 : initExternalSurfaceParameters (fileOf k J (cell full) cf).cells (fileOf k J (cell full) cf).bt (fileOf k J (cell full) cf).layers = some cf := hc
    rw [a1, Option.bind_some, a2, Option.bind_some, hp]
    exact ⟨_, rfl⟩
  obtain ⟨S, hS⟩ := hS
  exact ⟨_, Scaling.setup_of hc hs hS⟩

section
variable {full : Bool} {fc : Fc} {q : Axis → Int}

theorem cell_cards {x : Deck.Card} (h : x ∈ (cell full).file.cards) :
    x = .mt "wood" (.simple 2 1 1) ∨ x = .wf "pulse" ∨ x = .mb ⟨8, mkBox 4 6 0 4 0 4, "wood", "111111".toList⟩ ∨
    x = .tb ⟨7, mkBox 3 3 0 4 0 4, "PEC", 1, 0⟩ ∨ x = .ex 10 (mkBox 1 1 2 2 1 2) "feed" ['J', 'Z'] "pulse" 1 0 0 := by
  have h' : x ∈ cellCards full := h
  simp only [cellCards, List.mem_append, List.mem_cons, List.not_mem_nil, or_false] at h'
  rcases h' with ((h | h) | h) | h | h
  · exact Or.inl h
  · exact Or.inr (Or.inl h)
  · split at h
    · exact Or.inr (Or.inr (Or.inl (List.mem_singleton.1 h)))
    · simp at h
  · exact Or.inr (Or.inr (Or.inr (Or.inl h)))
  · exact Or.inr (Or.inr (Or.inr (Or.inr h)))

theorem cell_blocks : OrdinaryBlocks (cell full).file.cards := by
  intro c hc
  rcases cell_cards hc with h | h | h | h | h <;> first | cases h; done | skip
  injection h with h
  subst h
  refine ⟨le_refl 8, ?_⟩
  intro q h
  have : ("wood".toList).head? ≠ some '_' := by decide +kernel
  rw [show "wood" = String.ofList (Names.resistName q) from h] at this
  exact this (by rw [String.toList_ofList]; rfl)
theorem cell_sheets : ClearOfSheets (cell full) fc q := by
  intro c pr hc hb
  obtain ⟨nm, hnm⟩ : ∃ nm, nm = c.boundary := ⟨_, rfl⟩
  rw [← hnm] at hb
  cases hb with
  | card hb => rcases cell_cards hb with h | h | h | h | h <;> cases h
theorem cell_waves : ClearOfWaves (cell full) fc q := by
  intro b pr hb; rcases cell_cards hb with h | h | h | h | h <;> cases h
theorem cell_debye : ∀ x ∈ (cell full).file.cards, ∀ e s u poles, ¬ DebyeCard (cell full) fc q x e s u poles := by
  rintro x hx e s u poles ⟨c, mask, rfl, -, -, hm⟩
  obtain ⟨nm, hnm⟩ : ∃ nm, nm = c.medium := ⟨_, rfl⟩
  rw [← hnm] at hm
  cases hm with
  | card hb => rcases cell_cards hb with h | h | h | h | h <;> cases h
theorem cell_currents : OnlyCurrents (cell full) fc q := by
  intro m b n tag w size delay r hx t ht hs hc hq
  rcases cell_cards hx with h | h | h | h | h <;> first | cases h; done | skip
  injection h with _ _ _ h4
  have e : t = jz := C27.spell_injective ht jz_valid (by rw [hs, h4]; rfl)
  subst e
  exact ⟨rfl, trivial⟩

theorem cell_no_resistor : ∀ x ∈ (cell full).file.cards, ∀ s, ¬ ResistorOf (cell full) fc (q .x) (q .y) (q .z) x s := by
  rintro x hx s ⟨_, b, n, tag, w, size, delay, r, d, rfl, ht, -⟩
  rcases cell_cards hx with h | h | h | h | h <;> first | cases h; done | skip
  injection h with _ _ _ h4
  rw [h4] at ht
  simp [lumpedAxis] at ht

theorem cell_side (h : OnPecSide (cell true) fc (q .x) (q .y) (q .z)) : MadeOf (cell full) fc (q .x) (q .y) (q .z) .metal :=
  .side cell_no_resistor h

theorem cell_plate (h : ¬ OnPecSide (cell true) fc (q .x) (q .y) (q .z)) (hq : SampleIn (mkBox 3 3 0 4 0 4) fc (q .x) (q .y) (q .z)) :
    MadeOf (cell full) fc (q .x) (q .y) (q .z) .metal := by
  have hr : PlateOf (cell full) fc (q .x) (q .y) (q .z) (.tb ⟨7, mkBox 3 3 0 4 0 4, "PEC", 1, 0⟩) .metal :=
    ⟨_, .pec, rfl, C64.contains_whole hq, .pec, Or.inr ⟨Or.inl rfl, rfl⟩⟩
  refine .plate cell_no_resistor h ⟨[.mt "wood" (.simple 2 1 1), .wf "pulse"] ++ (if full then [.mb ⟨8, mkBox 4 6 0 4 0 4, "wood", "111111".toList⟩] else []), [.ex 10 (mkBox 1 1 2 2 1 2) "feed" ['J', 'Z'] "pulse" 1 0 0], rfl, ⟨_, hr⟩, ?_⟩ hr
  · rintro y hy ⟨s, c, b, rfl, -⟩
    simp at hy

theorem cell_vacuum (h : ¬ OnPecSide (cell true) fc (q .x) (q .y) (q .z)) (hq : ¬ SampleIn (mkBox 3 3 0 4 0 4) fc (q .x) (q .y) (q .z))
    (hp : ¬ SampleIn (mkBox 4 6 0 4 0 4) fc (q .x) (q .y) (q .z)) : MadeOf (cell full) fc (q .x) (q .y) (q .z) .vacuum := by
  refine .vacuum cell_no_resistor h ?_ ?_ ?_
  · rintro x hx s ⟨c, _, rfl, hc, -⟩
    rcases cell_cards hx with h | h | h | h | h <;> first | cases h; done | skip
    injection h with h
    rw [h] at hc
    exact hq hc.1
  · rintro x hx s ⟨_, rfl, -⟩; rcases cell_cards hx with h | h | h | h | h <;> cases h
  · rintro x hx s ⟨c, _, _, rfl, -, hc, -⟩
    rcases cell_cards hx with h | h | h | h | h <;> first | cases h; done | skip
    injection h with h
    rw [h] at hc
    exact hp hc.1

theorem cell_total (T t : ℝ) : totalCurrent (cell false) T t fc q = totalCurrent (cell true) T t fc q := by
  unfold totalCurrent
  have e : (cell true).file.cards = [.mt "wood" (.simple 2 1 1), .wf "pulse", .mb ⟨8, mkBox 4 6 0 4 0 4, "wood", "111111".toList⟩] ++
    [.tb ⟨7, mkBox 3 3 0 4 0 4, "PEC", 1, 0⟩, .ex 10 (mkBox 1 1 2 2 1 2) "feed" ['J', 'Z'] "pulse" 1 0 0] := rfl
  have e' : (cell false).file.cards = [.mt "wood" (.simple 2 1 1), .wf "pulse"] ++
    [.tb ⟨7, mkBox 3 3 0 4 0 4, "PEC", 1, 0⟩, .ex 10 (mkBox 1 1 2 2 1 2) "feed" ['J', 'Z'] "pulse" 1 0 0] := rfl
  rw [e, e']
  simp only [List.map_append, List.map_cons, List.map_nil, List.sum_append, List.sum_cons, List.sum_nil]
  have : impressed (cell false) T t fc q (.ex 10 (mkBox 1 1 2 2 1 2) "feed" ['J', 'Z'] "pulse" 1 0 0) =
    impressed (cell true) T t fc q (.ex 10 (mkBox 1 1 2 2 1 2) "feed" ['J', 'Z'] "pulse" 1 0 0) := rfl
  rw [this]
  simp only [impressed, zero_add, add_zero]
end

/-- The wood behind the plate has no influence on the other side, however long the run. -/
example (k : Consts) (hb : 1 < k.big) (J J' : Junk) : ∃ R S, setup k J (cell false) = some R ∧ setup k J' (cell true) = some S ∧
    ∀ n fc q, SampleIn (mkBox 0 3 0 4 0 4) fc (q .x) (q .y) (q .z) → value R n fc q = value S n fc q := by
  obtain ⟨R, hR⟩ := cell_setup k J false
  obtain ⟨S, hS⟩ := cell_setup k J' true
  refine ⟨R, S, hR, hS, ?_⟩
  have m0 : ∀ q : Axis → Int, moved q (fun _ => 0) = q := fun q => by funext a; simp [moved]
  have ins : ∀ (f : Bool) fc (q : Axis → Int), SampleIn (mkBox 0 3 0 4 0 4) fc (q .x) (q .y) (q .z) → SampleIn (meshBox (cell f)) fc (q .x) (q .y) (q .z) := by
    intro f fc q h
    obtain ⟨h1, h2, h3⟩ := h
    simp [mkBox] at h1 h2 h3
    refine ⟨?_, ?_, ?_⟩ <;> simp [meshBox, cell, mkBox] <;> omega
  have say : ∀ fc (q : Axis → Int), SampleIn (mkBox 0 3 0 4 0 4) fc (q .x) (q .y) (q .z) →
      SaySame (cell false) (cell true) (fun _ => 0) R.dt fc q := by
    intro fc q hq
    refine ⟨?_, fun t => by rw [m0]; exact cell_total _ _⟩
    rw [m0]
    have : ∃ s, MadeOf (cell false) fc (q .x) (q .y) (q .z) s ∧ MadeOf (cell true) fc (q .x) (q .y) (q .z) s := by
      by_cases h1 : OnPecSide (cell true) fc (q .x) (q .y) (q .z)
      · exact ⟨_, cell_side h1, cell_side h1⟩
      · by_cases h2 : SampleIn (mkBox 3 3 0 4 0 4) fc (q .x) (q .y) (q .z)
        · exact ⟨_, cell_plate h1 h2, cell_plate h1 h2⟩
        · have h3 : ¬ SampleIn (mkBox 4 6 0 4 0 4) fc (q .x) (q .y) (q .z) := by
            intro h
            have a := hq.1; have b := h.1
            simp [mkBox] at a b
            omega
          exact ⟨_, cell_vacuum h1 h2 h3, cell_vacuum h1 h2 h3⟩
    obtain ⟨s, s1, s2⟩ := this
    intro s'
    constructor
    · intro h; rw [C64.made_unique hR cell_blocks h s1]; exact s2
    · intro h; rw [C64.made_unique hS cell_blocks h s2]; exact s1
  have mur : ∀ (f : Bool) fc q, ¬ OnMurSide (cell f) fc q := by
    rintro f fc q ⟨g, hg, -⟩
    have : BType.pec = BType.mur := hg
    cases this
  have ord : ∀ (f : Bool) a q, SampleIn (mkBox 0 3 0 4 0 4) (Axis.e a) (q .x) (q .y) (q .z) → OrdinaryE (cell f) a q :=
    fun f a q hq => ⟨ins f _ q hq, mur _ _ _, cell_debye, cell_sheets, cell_waves, cell_currents⟩
  have enc : Enclosed (cell false) (cell true) (fun _ => 0) R.dt (fun fc q => SampleIn (mkBox 0 3 0 4 0 4) fc (q .x) (q .y) (q .z)) := by
    refine ⟨fun a q hq => ?_, fun a q hq => ?_⟩
    · by_cases h1 : OnPecSide (cell true) a.e (q .x) (q .y) (q .z)
      · left
        rw [m0]
        exact ⟨ord _ _ _ hq, cell_side h1, ord _ _ _ hq, cell_side h1⟩
      · by_cases h2 : SampleIn (mkBox 3 3 0 4 0 4) a.e (q .x) (q .y) (q .z)
        · left
          rw [m0]
          exact ⟨ord _ _ _ hq, cell_plate h1 h2, ord _ _ _ hq, cell_plate h1 h2⟩
        · right
          refine ⟨⟨ord _ _ _ hq, by rw [m0]; exact ord _ _ _ hq, say _ _ hq, ?_⟩, ?_⟩
          · intro b _
            unfold middleDistance
            rw [unit_cell rfl, unit_cell rfl, unit_cell rfl, unit_cell rfl]
          · have k1 : ∀ f, ¬ OnPlane (meshBox (cell true)) f a.e (q .x) (q .y) (q .z) := fun f hf => h1 ⟨f, rfl, hf⟩
            have kxl := k1 .xlo; have kyl := k1 .ylo; have kzl := k1 .zlo; have kyh := k1 .yhi; have kzh := k1 .zhi
            obtain ⟨i1, i2, i3⟩ := hq
            unfold SampleIn at h2
            intro b c hb hc hbc
            cases a <;> cases b <;> cases c <;> first | exact absurd rfl hb | exact absurd rfl hc | exact absurd rfl hbc | skip
            all_goals
              simp [OnPlane, samplePos, pos2, meshBox, mkBox, cell, Face.axis, Axis.e] at kxl kyl kzl kyh kzh i1 i2 i3 h2
              simp [SampleIn, pos2, mkBox, Axis.h, back]
              omega
    · refine ⟨⟨⟨ins _ _ _ hq, cell_sheets, cell_waves, cell_currents⟩, by rw [m0]; exact ⟨ins _ _ _ hq, cell_sheets, cell_waves, cell_currents⟩, say _ _ hq, ?_⟩, ?_⟩
      · intro b _
        rw [unit_cell rfl, unit_cell rfl]
      · obtain ⟨i1, i2, i3⟩ := hq
        intro b c hb hc hbc
        cases a <;> cases b <;> cases c <;> first | exact absurd rfl hb | exact absurd rfl hc | exact absurd rfl hbc | skip
        all_goals
          simp [pos2, mkBox, Axis.h] at i1 i2 i3
          simp [SampleIn, pos2, mkBox, Axis.e, ahead]
          omega
  intro n fc q hq
  have := shielding hR hS cell_blocks cell_blocks (unit_step hb hR hS rfl rfl rfl) enc n fc q hq
  rw [m0] at this
  exact this

end Vulture.C73
