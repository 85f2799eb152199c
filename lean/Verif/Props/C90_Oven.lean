import Verif.Props.C90_Passive
import Verif.Props.C84_Guide
import Verif.Props.C72_Bench
/- C90: a closed model with a Debye and a Lorentz pole to which the theorems apply. -/
set_option linter.unusedSimpArgs false
set_option linter.unusedVariables false
set_option linter.unreachableTactic false
set_option linter.unusedTactic false
set_option autoImplicit false
namespace Vulture.C90
open Spec Setup Deck CavityLemmas Scaling Finset

/-- A metal cube of 7 cells with a block of a medium with a relaxation and a resonance, and a current next to it. -/
noncomputable def foodPoles : List DPole := [⟨⟨1, 0⟩, ⟨-1, 0⟩⟩, ⟨⟨0, -1⟩, ⟨-1, 2⟩⟩]
noncomputable def food : Med := .debye 2 0 1 foodPoles
def foodBox : BBox := mkBox 1 3 1 3 1 3
def ovenBox : BBox := mkBox 5 5 5 5 5 6
noncomputable def ovenCards : List Deck.Card :=
  [.mt "food" food, .wf "pulse", .mb ⟨8, foodBox, "food", "111111".toList⟩, .ex 10 ovenBox "feed" ['J', 'Z'] "pulse" 1 0 0]
noncomputable def oven : Experiment :=
  ⟨⟨7, 7, 7, fun _ => .pec, fun _ => 6, ovenCards, false⟩, fun _ i => (i : ℝ), 0.5,
    fun _ => ⟨4, 1, -1, 1⟩, fun _ => .builtin ⟨.gaussian, 1, -1, -1, -1⟩⟩

theorem food_passive : ∀ p ∈ foodPoles, PassivePole p := by
  intro p hp
  simp only [foodPoles, List.mem_cons, List.not_mem_nil, or_false] at hp
  rcases hp with rfl | rfl
  · exact passive_of 1 0 (-1) 0 (by norm_num) (by norm_num) (by norm_num)
  · exact passive_of 0 (-1) (-1) 2 (by norm_num) (by norm_num) (by norm_num)

theorem oven_cards {x : Deck.Card} (h : x ∈ oven.file.cards) : x = .mt "food" food ∨ x = .wf "pulse" ∨
    x = .mb ⟨8, foodBox, "food", "111111".toList⟩ ∨ x = .ex 10 ovenBox "feed" ['J', 'Z'] "pulse" 1 0 0 := by
  have : x ∈ ovenCards := h
  simpa [ovenCards] using this

theorem oven_setup (k : Consts) (J : Junk) : ∃ R, setup k J oven = some R := by
  obtain ⟨s, hs, hp⟩ : ∃ s, oven.file.stored = some s ∧ s.pws = [] := by
    have e : oven.file.stored = Deck.read (State.init (mkBox 0 7 0 7 0 7)) ovenCards := rfl
    rw [e, ovenCards]
    rw [C47.read_cons, C47.card_mt (by decide +kernel), Option.bind_some]
    rw [C47.read_cons, C47.card_wf (by decide +kernel), Option.bind_some]
    rw [C47.read_cons, C47.card_mb (m := food) (by rfl) (by decide +kernel), Option.bind_some]
    rw [C47.read_cons]
    have hl : Source.lookup ['J', 'Z'] = some ⟨.ecurrDens, .z, none, .ez, true⟩ := by decide +kernel
    simp only [State.card, hl]
    rw [if_pos (by decide +kernel)]
    exact ⟨_, rfl, rfl⟩
  obtain ⟨c, hc⟩ : ∃ c, initExternalSurfaceParameters oven.file.cells oven.file.bt oven.file.layers = some c :=
    Option.isSome_iff_exists.1 (by
      show (initExternalSurfaceParameters (fun a => match a with | .x => 7 | .y => 7 | .z => 7) (fun _ => BType.pec) (fun _ => 6)).isSome = true
      decide +kernel)
  have hS : ∃ S, (fileOf k J oven c).sim (Setup.de k J oven c) (Setup.dh k J oven c) = some S := by
    unfold File.sim
    have a1 : (fileOf k J oven c).stored = some s := hs
    have a2 : initExternalSurfaceParameters (fileOf k J oven c).cells (fileOf k J oven c).bt (fileOf k J oven c).layers = some c := hc
    rw [a1, Option.bind_some, a2, Option.bind_some, hp]
    exact ⟨_, rfl⟩
  obtain ⟨S, hS⟩ := hS
  exact ⟨_, Scaling.setup_of hc hs hS⟩

theorem oven_blocks : OrdinaryBlocks oven.file.cards := by
  intro c hc
  rcases oven_cards hc with h | h | h | h
  · cases h
  · cases h
  · injection h with h
    subst h
    refine ⟨le_refl 8, ?_⟩
    intro q h
    have : ("food".toList).head? ≠ some '_' := by decide +kernel
    rw [show "food" = String.ofList (Names.resistName q) from h] at this
    exact this (by rw [String.toList_ofList]; rfl)
  · cases h

section
variable {fc : Fc} {q : Axis → Int}

theorem food_mask : Includes (⟨8, foodBox, "food", "111111".toList⟩ : MBCard) fun f => (63 : Nat).testBit (maskPlace f) :=
  C64.bench_mask 63 [true, true, true, true, true, true] (by decide) (by decide) (by decide) _ (by decide +kernel)
theorem food_named : MediumNamed oven.file.cards "food" food := .card (by simp [oven, ovenCards])

/-- The sample belongs to the block. -/
def InFood (fc : Fc) (q : Axis → Int) : Prop := Contains foodBox (fun f => (63 : Nat).testBit (maskPlace f)) fc (q .x) (q .y) (q .z)

theorem in_food (hq : InFood fc q) : SampleIn foodBox fc (q .x) (q .y) (q .z) := hq.1

theorem oven_currents : OnlyCurrents oven fc q := by
  intro m b n tag w size delay r hx t ht hs hc hq
  rcases oven_cards hx with h | h | h | h
  · cases h
  · cases h
  · cases h
  · injection h with _ _ _ h4
    have e : t = C73.jz := C27.spell_injective ht C73.jz_valid (by rw [hs, h4]; rfl)
    subst e
    exact ⟨rfl, trivial⟩
theorem oven_source (hq : InFood fc q) : NoSource oven fc q := by
  intro m b nm tag w size delay r hx t ht hs hc hb
  rcases oven_cards hx with h | h | h | h
  · cases h
  · cases h
  · cases h
  · injection h with _ h2
    rw [h2] at hb
    obtain ⟨⟨a1, a2⟩, -⟩ := in_food hq
    obtain ⟨⟨b1, b2⟩, -⟩ := hb
    have p2 : pos2 fc .x (q .x) = 2 * q .x ∨ pos2 fc .x (q .x) = 2 * q .x + 1 := by cases fc <;> simp [pos2]
    simp only [foodBox, ovenBox, mkBox] at a1 a2 b1 b2
    omega
theorem oven_resistor {i j l : Int} : ∀ x ∈ oven.file.cards, ∀ s, ¬ ResistorOf oven fc i j l x s := by
  rintro x hx s ⟨_, b', n, tag, w, size, delay, r, d, rfl, ht, -⟩
  rcases oven_cards hx with h | h | h | h
  · cases h
  · cases h
  · cases h
  · injection h with _ _ _ h4
    rw [h4] at ht
    simp [lumpedAxis] at ht
theorem oven_metal {i j l : Int} (h : OnPecSide oven fc i j l) : MadeOf oven fc i j l .metal := .side oven_resistor h
theorem oven_plate {i j l : Int} : ∀ x ∈ oven.file.cards, ∀ s, ¬ PlateOf oven fc i j l x s := by
  rintro x hx s ⟨_, _, rfl, -⟩; rcases oven_cards hx with h | h | h | h <;> cases h
theorem oven_wire {i j l : Int} : ∀ x ∈ oven.file.cards, ∀ s, ¬ WireOf fc i j l x s := by
  rintro x hx s ⟨_, rfl, -⟩; rcases oven_cards hx with h | h | h | h <;> cases h
theorem oven_block_in {x : Deck.Card} {s : Stuff} (hx : x ∈ oven.file.cards) (hb : BlockOf oven fc (q .x) (q .y) (q .z) x s) : InFood fc q := by
  obtain ⟨c, mask, m, rfl, h1, h2, h3, -⟩ := hb
  rcases oven_cards hx with h | h | h | h
  · cases h
  · cases h
  · injection h with h
    subst h
    have e : mask = fun f => (63 : Nat).testBit (maskPlace f) := C64.includes_unique h1 food_mask
    rw [e] at h2
    exact h2
  · cases h
theorem oven_vacuum (h : ¬ OnPecSide oven fc (q .x) (q .y) (q .z)) (hf : ¬ InFood fc q) : MadeOf oven fc (q .x) (q .y) (q .z) .vacuum :=
  .vacuum oven_resistor h oven_plate oven_wire fun x hx s hb => hf (oven_block_in hx hb)
theorem oven_food (h : ¬ OnPecSide oven fc (q .x) (q .y) (q .z)) (hf : InFood fc q) : MadeOf oven fc (q .x) (q .y) (q .z) (.dispersive 2 0 1 foodPoles) := by
  have hr : BlockOf oven fc (q .x) (q .y) (q .z) (.mb ⟨8, foodBox, "food", "111111".toList⟩) (.dispersive 2 0 1 foodPoles) :=
    ⟨_, _, food, rfl, food_mask, hf, food_named, rfl⟩
  refine .block oven_resistor h oven_plate oven_wire ⟨[_, _], [_], rfl, ⟨_, hr⟩, ?_⟩ hr
  rintro y hy ⟨s, c, mask, m, rfl, -⟩
  simp at hy
theorem oven_mur : ¬ OnMurSide oven fc q := by rintro ⟨f, hf, -⟩; cases hf
theorem oven_sheets : ClearOfSheets oven fc q := by
  intro b pr hb; rcases oven_cards hb with h | h | h | h <;> cases h
theorem oven_waves : ClearOfWaves oven fc q := by
  intro b pr hb; rcases oven_cards hb with h | h | h | h <;> cases h
theorem oven_debye (hf : ¬ InFood fc q) : ∀ x ∈ oven.file.cards, ∀ e s u poles, ¬ DebyeCard oven fc q x e s u poles := by
  rintro x hx e s u poles ⟨c, mask, h0, h1, h2, h3⟩
  exact hf (oven_block_in hx ⟨c, mask, _, h0, h1, h2, h3, rfl⟩)
theorem oven_one (hf : InFood fc q) : OneDebyeCard oven fc q := by
  refine ⟨[_, _], _, [_], rfl, ⟨2, 0, 1, foodPoles, _, _, rfl, food_mask, hf, food_named⟩, ?_⟩
  rintro y hy e s u poles ⟨c, mask, rfl, -⟩
  simp at hy
theorem food_inside (hf : InFood fc q) : ¬ OnPecSide oven fc (q .x) (q .y) (q .z) := by
  obtain ⟨⟨a1, a2⟩, ⟨b1, b2⟩, c1, c2⟩ := in_food hf
  rintro ⟨f, -, hp⟩
  cases f <;> simp [OnPlane, samplePos, meshBox, mkBox, oven, Face.axis] at hp <;> simp only [foodBox, mkBox] at a1 a2 b1 b2 c1 c2 <;> omega
end

open Classical in
/-- What the edges of the oven are made of. -/
noncomputable def ovenStuff (a : Axis) (q : Axis → Int) : Stuff :=
  if OnPecSide oven a.e (q .x) (q .y) (q .z) then .metal else if InFood a.e q then .dispersive 2 0 1 foodPoles else .vacuum

theorem oven_sealed {k : Consts} {R : Setup.Run} (hk : Physical k) (hT : 0 < R.dt) : RelaxingModel k oven R.dt ovenStuff fun _ _ => k.mu0 where
  sides f := Or.inl rfl
  ends d e := by cases e
  edges a q hq := by
    unfold ovenStuff
    split
    · rename_i c
      refine Or.inr (Or.inl ⟨C87.in_mesh.1 hq, oven_mur, oven_metal c, ?_, rfl⟩)
      rintro x hx ⟨_, b, nm, tag, w, size, delay, r, d, rfl, -, -, ht⟩
      rcases oven_cards hx with h | h | h | h
      · cases h
      · cases h
      · cases h
      · injection h with _ _ _ h4
        subst h4
        rcases ht with ht | ⟨ht, -⟩
        · simp [fieldAxis] at ht
        · simp [lumpedAxis] at ht
    · rename_i c
      split
      · rename_i hf
        exact Or.inr (Or.inr ⟨C87.in_mesh.1 hq, oven_mur, oven_one hf, oven_sheets, oven_waves, oven_source hf, oven_food c hf, by norm_num, le_rfl, le_rfl, food_passive⟩)
      · rename_i hf
        exact Or.inl (Or.inl ⟨⟨C87.in_mesh.1 hq, oven_mur, oven_debye hf, oven_sheets, oven_waves, oven_currents⟩, oven_vacuum c hf, trivial⟩)
  walls a q hq hp := by unfold ovenStuff; rw [if_pos hp]
  squares a q hq := by
    refine ⟨⟨C87.in_mesh.1 hq, oven_sheets, oven_waves, oven_currents⟩, ?_⟩
    by_cases c : OnPecSide oven a.h (q .x) (q .y) (q .z)
    · exact ⟨_, oven_metal c, trivial, by simp [relPermeability]⟩
    · by_cases hf : InFood a.h q
      · refine ⟨_, oven_food c hf, ⟨by norm_num, le_rfl, le_rfl, mul_nonneg hT.le (List.sum_nonneg ?_)⟩, by simp [relPermeability]⟩
        intro x hx
        obtain ⟨p, hpm, rfl⟩ := List.mem_map.1 hx
        exact instant_term hT (eps0_pos hk) (food_passive p hpm)
      · exact ⟨_, oven_vacuum c hf, trivial, by simp [relPermeability]⟩

/-- The oven: its fields stay bounded for ever, the energy in them is never more than the work of the current, and the food never
gives back more than it has taken. -/
example (k : Consts) (hk : Physical k) (hb : 1 < k.big) (J : Junk) : ∃ R, setup k J oven = some R ∧
    (∃ B, ∀ (n : ℕ) (fc : Fc) (q : Axis → Int), SampleInMesh oven fc q → |value R n fc q| ≤ B) ∧
    (∀ n, totalEnergy oven R (fun a q => instantPermittivity k (ovenStuff a q)) (fun _ _ => k.mu0) n ≤ ∑ m ∈ range (n + 1), totalWork oven R m) ∧
    ∀ n, 0 ≤ ∑ m ∈ range n, meanOver R m .ez (fun _ => 2) *
      (rotH oven (value R m) .z (fun _ => 2) - 2 * k.eps0 * ((value R (m + 1) .ez (fun _ => 2) - value R m .ez (fun _ => 2)) / R.dt) - 0 * meanOver R m .ez (fun _ => 2)) := by
  obtain ⟨R, hR⟩ := oven_setup k J
  have hl : Increasing oven := by intro a m _ _; show ((m : Int) : ℝ) < ((m + 1 : Int) : ℝ); push_cast; linarith
  have hr : Representable k oven := by intro a m _ _; show ((m + 1 : Int) : ℝ) - ((m : Int) : ℝ) < k.big; push_cast; linarith
  have hcn : 0 < oven.cn := by show (0 : ℝ) < 0.5; norm_num
  have hT : 0 < R.dt := C64.step_positive hk hR hcn hl hr
  have hs := oven_sealed (R := R) hk hT
  have hf : InFood .ez (fun _ => 2) := ⟨by decide, by decide +kernel⟩
  refine ⟨R, hR, pulses_stay_bounded hR hl hs oven_blocks hk hT hcn (by show (0.5 : ℝ) < 1; norm_num) hr (fun _ => ⟨by decide, ?_⟩), fun n => ?_, fun n => ?_⟩
  · show (-1 : ℝ) ≠ 0; norm_num
  · have e := energy_passive hR hl hs oven_blocks hk hT n
    have z : ∀ m, totalHeat oven R (fun a q => staticConductivity (ovenStuff a q)) m = 0 := by
      intro m
      unfold totalHeat
      rw [C87.allE_congr (g := fun _ _ => 0) fun a q hq => ?_, C87.allE_zero, mul_zero]
      have : staticConductivity (ovenStuff a q) = 0 := by unfold ovenStuff; split; · rfl
                                                          · split <;> rfl
      dsimp only
      rw [this]; ring
    simp only [z, sub_zero] at e
    exact e
  · exact medium_passive (a := .z) (q := fun _ => 2) hk hR oven_blocks hT
      ⟨by decide, oven_mur, oven_one hf, oven_sheets, oven_waves, oven_source hf, oven_food (food_inside hf) hf, by norm_num, le_rfl, le_rfl, food_passive⟩ n

end Vulture.C90
