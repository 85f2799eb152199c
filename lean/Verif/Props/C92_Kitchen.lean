import Verif.Props.C92_Dispersive
import Verif.Props.C90_Oven
/- C92: two files with a block of a medium with a relaxation and a resonance, and a current through one edge. -/
set_option linter.unusedSimpArgs false
set_option linter.unusedVariables false
set_option linter.unreachableTactic false
set_option linter.unusedTactic false
set_option autoImplicit false
namespace Vulture.C92
open Spec Setup Deck CavityLemmas Scaling Finset C90

/-- The oven of C90 with a current through one edge. -/
def edgeBox (a : Axis) (q : Axis → Int) : BBox :=
  mkBox (q .x) (if Axis.x = a then q .x + 1 else q .x) (q .y) (if Axis.y = a then q .y + 1 else q .y) (q .z) (if Axis.z = a then q .z + 1 else q .z)
noncomputable def kitchenCards (a : Axis) (p : Axis → Int) : List Deck.Card :=
  [.mt "food" food, .wf "pulse", .mb ⟨8, foodBox, "food", "111111".toList⟩, .ex 10 (edgeBox a p) "feed" (currentTag a) "pulse" 1 0 0]
noncomputable def kitchen (a : Axis) (p : Axis → Int) : Experiment :=
  ⟨⟨7, 7, 7, fun _ => .pec, fun _ => 6, kitchenCards a p, false⟩, fun _ i => (i : ℝ), 0.5,
    fun _ => ⟨4, 1, -1, 1⟩, fun _ => .builtin ⟨.gaussian, 1, -1, -1, -1⟩⟩

/-- An edge on one side of the food, and one behind it. -/
def front : Axis → Int := fun _ => 5
def behind : Axis → Int | .x => 4 | .y => 2 | .z => 2
def Places (a : Axis) (q : Axis → Int) : Prop := (a = .z ∧ q = front) ∨ (a = .x ∧ q = behind)

theorem kitchen_cards {a : Axis} {p : Axis → Int} {x : Deck.Card} (h : x ∈ (kitchen a p).file.cards) : x = .mt "food" food ∨ x = .wf "pulse" ∨
    x = .mb ⟨8, foodBox, "food", "111111".toList⟩ ∨ x = .ex 10 (edgeBox a p) "feed" (currentTag a) "pulse" 1 0 0 := by
  have : x ∈ kitchenCards a p := h
  simpa [kitchenCards] using this

theorem kitchen_setup (k : Consts) (J : Junk) {a : Axis} {p : Axis → Int} (hp : Places a p) : ∃ R, setup k J (kitchen a p) = some R := by
  obtain ⟨s, hs, hp⟩ : ∃ s, (kitchen a p).file.stored = some s ∧ s.pws = [] := by
    have e : (kitchen a p).file.stored = Deck.read (State.init (mkBox 0 7 0 7 0 7)) (kitchenCards a p) := rfl
    rw [e, kitchenCards]
    rw [C47.read_cons, C47.card_mt (by decide +kernel), Option.bind_some]
    rw [C47.read_cons, C47.card_wf (by decide +kernel), Option.bind_some]
    rw [C47.read_cons, C47.card_mb (m := food) (by rfl) (by decide +kernel), Option.bind_some]
    rw [C47.read_cons]
    rcases hp with ⟨rfl, rfl⟩ | ⟨rfl, rfl⟩
    · have hl : Source.lookup (currentTag .z) = some ⟨.ecurrent, .z, none, .ez, true⟩ := by decide +kernel
      simp only [State.card, hl]
      rw [if_pos (by decide +kernel)]
      exact ⟨_, rfl, rfl⟩
    · have hl : Source.lookup (currentTag .x) = some ⟨.ecurrent, .x, none, .ex, true⟩ := by decide +kernel
      simp only [State.card, hl]
      rw [if_pos (by decide +kernel)]
      exact ⟨_, rfl, rfl⟩
  obtain ⟨c, hc⟩ : ∃ c, initExternalSurfaceParameters (kitchen a p).file.cells (kitchen a p).file.bt (kitchen a p).file.layers = some c :=
    Option.isSome_iff_exists.1 (by
      show (initExternalSurfaceParameters (fun a => match a with | .x => 7 | .y => 7 | .z => 7) (fun _ => BType.pec) (fun _ => 6)).isSome = true
      decide +kernel)
  have hS : ∃ S, (fileOf k J (kitchen a p) c).sim (Setup.de k J (kitchen a p) c) (Setup.dh k J (kitchen a p) c) = some S := by
    unfold File.sim
    have a1 : (fileOf k J (kitchen a p) c).stored = some s := hs
    have a2 : initExternalSurfaceParameters (fileOf k J (kitchen a p) c).cells (fileOf k J (kitchen a p) c).bt (fileOf k J (kitchen a p) c).layers = some c := hc
    rw [a1, Option.bind_some, a2, Option.bind_some, hp]
    exact ⟨_, rfl⟩
  obtain ⟨S, hS⟩ := hS
  exact ⟨_, Scaling.setup_of hc hs hS⟩

section
variable {a : Axis} {p : Axis → Int} {fc : Fc} {q : Axis → Int}

theorem kitchen_blocks : OrdinaryBlocks (kitchen a p).file.cards := by
  intro c hc
  rcases kitchen_cards hc with h | h | h | h
  · cases h
  · cases h
  · injection h with h
    subst h
    refine ⟨le_refl 8, ?_⟩
    intro q h
    have : ("food".toList).head? ≠ some '_' := by decide +kernel
    rw [show "food" = String.ofList (Names.resistName q) from h] at this
    exact this (by rw [String.toList_ofList]; rfl)
  · cases h

theorem kitchen_card (a : Axis) (p : Axis → Int) : OneEdgeCard (kitchen a p) a p "pulse" 1 0 := by
  refine ⟨[.mt "food" food, .wf "pulse", .mb ⟨8, foodBox, "food", "111111".toList⟩], [], 10, edgeBox a p, "feed", 0, rfl, fun d => ?_, ?_⟩
  · cases d <;> exact ⟨rfl, rfl⟩
  · intro c hc m b name tag w size delay r
    have : c = .mt "food" food ∨ c = .wf "pulse" ∨ c = .mb ⟨8, foodBox, "food", "111111".toList⟩ := by simpa using hc
    rcases this with rfl | rfl | rfl <;> (intro c; cases c)

theorem kitchen_named : MediumNamed (kitchen a p).file.cards "food" food := .card (by simp [kitchen, kitchenCards])

theorem kitchen_currents : OnlyCurrents (kitchen a p) fc q := by
  intro m b n tag w size delay r hx t ht hs hc hq
  rcases kitchen_cards hx with h | h | h | h
  · cases h
  · cases h
  · cases h
  · injection h with _ _ _ h4
    have v : (⟨false, .I, a, none⟩ : Tag).Valid := by cases a <;> decide
    have e : t = ⟨false, .I, a, none⟩ := C27.spell_injective ht v (by rw [hs, h4]; cases a <;> rfl)
    subst e
    exact ⟨rfl, trivial⟩
theorem kitchen_source (hp : Places a p) (hq : InFood fc q) : NoSource (kitchen a p) fc q := by
  intro m b nm tag w size delay r hx t ht hs hc hb
  rcases kitchen_cards hx with h | h | h | h
  · cases h
  · cases h
  · cases h
  · injection h with _ h2
    rw [h2] at hb
    obtain ⟨⟨a1, a2⟩, -⟩ := in_food hq
    obtain ⟨⟨b1, b2⟩, -⟩ := hb
    have p2 : pos2 fc .x (q .x) = 2 * q .x ∨ pos2 fc .x (q .x) = 2 * q .x + 1 := by cases fc <;> simp [pos2]
    have : 4 ≤ p .x := by rcases hp with ⟨-, rfl⟩ | ⟨-, rfl⟩ <;> simp [front, behind]
    simp only [foodBox, edgeBox, mkBox] at a1 a2 b1 b2
    omega
theorem kitchen_resistor {i j l : Int} : ∀ x ∈ (kitchen a p).file.cards, ∀ s, ¬ ResistorOf (kitchen a p) fc i j l x s := by
  rintro x hx s ⟨_, b', n, tag, w, size, delay, r, d, rfl, ht, -⟩
  rcases kitchen_cards hx with h | h | h | h
  · cases h
  · cases h
  · cases h
  · injection h with _ _ _ h4
    rw [h4] at ht
    cases a <;> simp [lumpedAxis, currentTag] at ht
theorem kitchen_metal {i j l : Int} (h : OnPecSide (kitchen a p) fc i j l) : MadeOf (kitchen a p) fc i j l .metal := .side kitchen_resistor h
theorem kitchen_plate {i j l : Int} : ∀ x ∈ (kitchen a p).file.cards, ∀ s, ¬ PlateOf (kitchen a p) fc i j l x s := by
  rintro x hx s ⟨_, _, rfl, -⟩; rcases kitchen_cards hx with h | h | h | h <;> cases h
theorem kitchen_wire {i j l : Int} : ∀ x ∈ (kitchen a p).file.cards, ∀ s, ¬ WireOf fc i j l x s := by
  rintro x hx s ⟨_, rfl, -⟩; rcases kitchen_cards hx with h | h | h | h <;> cases h
theorem kitchen_block_in {x : Deck.Card} {s : Stuff} (hx : x ∈ (kitchen a p).file.cards) (hb : BlockOf (kitchen a p) fc (q .x) (q .y) (q .z) x s) : InFood fc q := by
  obtain ⟨c, mask, m, rfl, h1, h2, h3, -⟩ := hb
  rcases kitchen_cards hx with h | h | h | h
  · cases h
  · cases h
  · injection h with h
    subst h
    have e : mask = fun f => (63 : Nat).testBit (maskPlace f) := C64.includes_unique h1 food_mask
    rw [e] at h2
    exact h2
  · cases h
theorem kitchen_vacuum (h : ¬ OnPecSide (kitchen a p) fc (q .x) (q .y) (q .z)) (hf : ¬ InFood fc q) : MadeOf (kitchen a p) fc (q .x) (q .y) (q .z) .vacuum :=
  .vacuum kitchen_resistor h kitchen_plate kitchen_wire fun x hx s hb => hf (kitchen_block_in hx hb)
theorem kitchen_food (h : ¬ OnPecSide (kitchen a p) fc (q .x) (q .y) (q .z)) (hf : InFood fc q) :
    MadeOf (kitchen a p) fc (q .x) (q .y) (q .z) (.dispersive 2 0 1 foodPoles) := by
  have hr : BlockOf (kitchen a p) fc (q .x) (q .y) (q .z) (.mb ⟨8, foodBox, "food", "111111".toList⟩) (.dispersive 2 0 1 foodPoles) :=
    ⟨_, _, food, rfl, food_mask, hf, kitchen_named, rfl⟩
  refine .block kitchen_resistor h kitchen_plate kitchen_wire ⟨[_, _], [_], rfl, ⟨_, hr⟩, ?_⟩ hr
  rintro y hy ⟨s, c, mask, m, rfl, -⟩
  simp at hy
theorem kitchen_mur : ¬ OnMurSide (kitchen a p) fc q := by rintro ⟨f, hf, -⟩; cases hf
theorem kitchen_sheets : ClearOfSheets (kitchen a p) fc q := by
  intro b pr hb; rcases kitchen_cards hb with h | h | h | h <;> cases h
theorem kitchen_waves : ClearOfWaves (kitchen a p) fc q := by
  intro b pr hb; rcases kitchen_cards hb with h | h | h | h <;> cases h
theorem kitchen_debye (hf : ¬ InFood fc q) : ∀ x ∈ (kitchen a p).file.cards, ∀ e s u poles, ¬ DebyeCard (kitchen a p) fc q x e s u poles := by
  rintro x hx e s u poles ⟨c, mask, h0, h1, h2, h3⟩
  exact hf (kitchen_block_in hx ⟨c, mask, _, h0, h1, h2, h3, rfl⟩)
theorem kitchen_one (hf : InFood fc q) : OneDebyeCard (kitchen a p) fc q := by
  refine ⟨[_, _], _, [_], rfl, ⟨2, 0, 1, foodPoles, _, _, rfl, food_mask, hf, kitchen_named⟩, ?_⟩
  rintro y hy e s u poles ⟨c, mask, rfl, -⟩
  simp at hy
end

theorem kitchen_sealed {k : Consts} {R : Setup.Run} {d : Axis} {p : Axis → Int} (hk : Physical k) (hT : 0 < R.dt) (hp : Places d p) :
    RelaxingModel k (kitchen d p) R.dt ovenStuff fun _ _ => k.mu0 where
  sides f := Or.inl rfl
  ends d e := by cases e
  edges a q hq := by
    have pec : OnPecSide oven a.e (q .x) (q .y) (q .z) ↔ OnPecSide (kitchen d p) a.e (q .x) (q .y) (q .z) := Iff.rfl
    unfold ovenStuff
    split
    · rename_i c
      refine Or.inr (Or.inl ⟨C87.in_mesh.1 hq, kitchen_mur, kitchen_metal (pec.1 c), ?_, rfl⟩)
      rintro x hx ⟨_, b, nm, tag, w, size, delay, r, e, rfl, -, -, ht⟩
      rcases kitchen_cards hx with h | h | h | h
      · cases h
      · cases h
      · cases h
      · injection h with _ _ _ h4
        subst h4
        rcases ht with ht | ⟨ht, -⟩
        · cases d <;> simp [fieldAxis, currentTag] at ht
        · cases d <;> simp [lumpedAxis, currentTag] at ht
    · rename_i c
      split
      · rename_i hf
        exact Or.inr (Or.inr ⟨C87.in_mesh.1 hq, kitchen_mur, kitchen_one hf, kitchen_sheets, kitchen_waves, kitchen_source hp hf, kitchen_food (fun x => c (pec.2 x)) hf,
          by norm_num, le_rfl, le_rfl, food_passive⟩)
      · rename_i hf
        exact Or.inl (Or.inl ⟨⟨C87.in_mesh.1 hq, kitchen_mur, kitchen_debye hf, kitchen_sheets, kitchen_waves, kitchen_currents⟩, kitchen_vacuum (fun x => c (pec.2 x)) hf, trivial⟩)
  walls a q hq hp := by
    have c : OnPecSide oven a.e (q .x) (q .y) (q .z) := hp
    unfold ovenStuff; rw [if_pos c]
  squares a q hq := by
    refine ⟨⟨C87.in_mesh.1 hq, kitchen_sheets, kitchen_waves, kitchen_currents⟩, ?_⟩
    by_cases c : OnPecSide (kitchen d p) a.h (q .x) (q .y) (q .z)
    · exact ⟨_, kitchen_metal c, trivial, by simp [relPermeability]⟩
    · by_cases hf : InFood a.h q
      · refine ⟨_, kitchen_food c hf, ⟨by norm_num, le_rfl, le_rfl, mul_nonneg hT.le (List.sum_nonneg ?_)⟩, by simp [relPermeability]⟩
        intro x hx
        obtain ⟨p, hpm, rfl⟩ := List.mem_map.1 hx
        exact instant_term hT (eps0_pos hk) (food_passive p hpm)
      · exact ⟨_, kitchen_vacuum c hf, trivial, by simp [relPermeability]⟩

/-- The current `IZ` in front of the food makes behind it, along `x`, the voltage that the current `IX` behind makes in front. -/
example (k : Consts) (hk : Physical k) (hb : 1 < k.big) (J J' : Junk) : ∃ R S, setup k J (kitchen .z front) = some R ∧ setup k J' (kitchen .x behind) = some S ∧
    ∀ n, value R n .ex behind = value S n .ez front := by
  have p1 : Places .z front := Or.inl ⟨rfl, rfl⟩
  have p2 : Places .x behind := Or.inr ⟨rfl, rfl⟩
  obtain ⟨R, hR⟩ := kitchen_setup k J p1
  obtain ⟨S, hS⟩ := kitchen_setup k J' p2
  have hl : ∀ d p, Increasing (kitchen d p) := by intro d p a m _ _; show ((m : Int) : ℝ) < ((m + 1 : Int) : ℝ); push_cast; linarith
  have hr : ∀ d p, Representable k (kitchen d p) := by intro d p a m _ _; show ((m + 1 : Int) : ℝ) - ((m : Int) : ℝ) < k.big; push_cast; linarith
  have hT : 0 < R.dt := C64.step_positive hk hR (by show (0 : ℝ) < 0.5; norm_num) (hl _ _) (hr _ _)
  have hT' : 0 < S.dt := C64.step_positive hk hS (by show (0 : ℝ) < 0.5; norm_num) (hl _ _) (hr _ _)
  refine ⟨R, S, hR, hS, fun n => ?_⟩
  have nz : ∃ n : ℕ, (1 : ℝ) * waveValue R.dt ((kitchen .z front).waves "pulse") (n * R.dt - 0) ≠ 0 := by
    refine ⟨0, ?_⟩
    have w : 0 < waveValue R.dt ((kitchen .z front).waves "pulse") ((0 : ℕ) * R.dt - 0) := by
      show 0 < waveValue R.dt (.builtin ⟨.gaussian, 1, -1, -1, -1⟩) ((0 : ℕ) * R.dt - 0)
      simp only [waveValue, Waveform.value, Waveform.initWaveform, Waveform.shape, Waveform.gaussianPulse]
      refine mul_pos ?_ (Real.exp_pos _)
      norm_num [Waveform.dflt]
    rw [one_mul]
    exact w.ne'
  have e := exchange_cards hR (hl _ _) (of_relaxing hk hT (kitchen_sealed hk hT p1)) kitchen_blocks hS (of_relaxing hk hT' (kitchen_sealed hk hT' p2)) kitchen_blocks
    ⟨fun a => by cases a <;> rfl, rfl, rfl, rfl⟩ hk hT (hr _ _) rfl (a1 := .z) (a2 := .x) (q1 := front) (q2 := behind)
    (by simp [SampleInMesh, SampleIn, pos2, meshBox, mkBox, kitchen, front, Axis.e])
    (by simp [SampleInMesh, SampleIn, pos2, meshBox, mkBox, kitchen, behind, Axis.e])
    (kitchen_card _ _) (kitchen_card _ _) nz n
  have l1 : ∀ d p a m, cellLength (kitchen d p) a m = 1 := fun d p a m => C73.unit_cell (X := kitchen d p) rfl a m
  have f1 : insidePart (kitchen .z front) .x behind = 1 := by
    unfold insidePart; rw [if_neg (by decide), if_neg (by decide)]; norm_num
  have f2 : insidePart (kitchen .z front) .z front = 1 := by
    unfold insidePart; rw [if_neg (by decide), if_neg (by decide)]; norm_num
  rw [l1, l1, f1, f2, mul_one, mul_one, mul_one] at e
  exact e

end Vulture.C92
