import Verif.Props.C93_Ringdown
import Verif.Props.C84_Guide
import Verif.Props.C72_Bench
/- C93: a closed model filled with a conductor, to which the theorems apply. -/
set_option linter.unusedSimpArgs false
set_option linter.unusedVariables false
set_option linter.unreachableTactic false
set_option linter.unusedTactic false
set_option autoImplicit false
namespace Vulture.C93
open Spec Setup Deck CavityLemmas Scaling Finset

/-- A metal cube of 7 cells filled with a conducting medium, and a current in the middle. -/
noncomputable def coal : Med := .simple 2 1 1
def furnaceBox : BBox := mkBox 0 7 0 7 0 7
def furnaceFeed : BBox := mkBox 3 3 3 3 3 4
noncomputable def furnaceCards : List Deck.Card :=
  [.mt "coal" coal, .wf "pulse", .mb ⟨8, furnaceBox, "coal", "111111".toList⟩, .ex 10 furnaceFeed "feed" ['J', 'Z'] "pulse" 1 0 0]
noncomputable def furnace : Experiment :=
  ⟨⟨7, 7, 7, fun _ => .pec, fun _ => 6, furnaceCards, false⟩, fun _ i => (i : ℝ), 0.5,
    fun _ => ⟨4, 1, -1, 1⟩, fun _ => .builtin ⟨.gaussian, 1, -1, -1, -1⟩⟩

theorem furnace_cards {x : Deck.Card} (h : x ∈ furnace.file.cards) : x = .mt "coal" coal ∨ x = .wf "pulse" ∨
    x = .mb ⟨8, furnaceBox, "coal", "111111".toList⟩ ∨ x = .ex 10 furnaceFeed "feed" ['J', 'Z'] "pulse" 1 0 0 := by
  have : x ∈ furnaceCards := h
  simpa [furnaceCards] using this

theorem furnace_setup (k : Consts) (J : Junk) : ∃ R, setup k J furnace = some R := by
  obtain ⟨s, hs, hp⟩ : ∃ s, furnace.file.stored = some s ∧ s.pws = [] := by
    have e : furnace.file.stored = Deck.read (State.init (mkBox 0 7 0 7 0 7)) furnaceCards := rfl
    rw [e, furnaceCards]
    rw [C47.read_cons, C47.card_mt (by decide +kernel), Option.bind_some]
    rw [C47.read_cons, C47.card_wf (by decide +kernel), Option.bind_some]
    rw [C47.read_cons, C47.card_mb (m := coal) (by rfl) (by decide +kernel), Option.bind_some]
    rw [C47.read_cons]
    have hl : Source.lookup ['J', 'Z'] = some ⟨.ecurrDens, .z, none, .ez, true⟩ := by decide +kernel
    simp only [State.card, hl]
    rw [if_pos (by decide +kernel)]
    exact ⟨_, rfl, rfl⟩
  obtain ⟨c, hc⟩ : ∃ c, initExternalSurfaceParameters furnace.file.cells furnace.file.bt furnace.file.layers = some c :=
    Option.isSome_iff_exists.1 (by
      show (initExternalSurfaceParameters (fun a => match a with | .x => 7 | .y => 7 | .z => 7) (fun _ => BType.pec) (fun _ => 6)).isSome = true
      decide +kernel)
  have hS : ∃ S, (fileOf k J furnace c).sim (Setup.de k J furnace c) (Setup.dh k J furnace c) = some S := by
    unfold File.sim
    have a1 : (fileOf k J furnace c).stored = some s := hs
    have a2 : initExternalSurfaceParameters (fileOf k J furnace c).cells (fileOf k J furnace c).bt (fileOf k J furnace c).layers = some c := hc
    rw [a1, Option.bind_some, a2, Option.bind_some, hp]
    exact ⟨_, rfl⟩
  obtain ⟨S, hS⟩ := hS
  exact ⟨_, Scaling.setup_of hc hs hS⟩

theorem furnace_blocks : OrdinaryBlocks furnace.file.cards := by
  intro c hc
  rcases furnace_cards hc with h | h | h | h
  · cases h
  · cases h
  · injection h with h
    subst h
    refine ⟨le_refl 8, ?_⟩
    intro q h
    have : ("coal".toList).head? ≠ some '_' := by decide +kernel
    rw [show "coal" = String.ofList (Names.resistName q) from h] at this
    exact this (by rw [String.toList_ofList]; rfl)
  · cases h

section
variable {fc : Fc} {q : Axis → Int}

theorem coal_mask : Includes (⟨8, furnaceBox, "coal", "111111".toList⟩ : MBCard) fun f => (63 : Nat).testBit (maskPlace f) :=
  C64.bench_mask 63 [true, true, true, true, true, true] (by decide) (by decide) (by decide) _ (by decide +kernel)
theorem coal_named : MediumNamed furnace.file.cards "coal" coal := .card (by simp [furnace, furnaceCards])

/-- The sample belongs to the block. -/
def InCoal (fc : Fc) (q : Axis → Int) : Prop := Contains furnaceBox (fun f => (63 : Nat).testBit (maskPlace f)) fc (q .x) (q .y) (q .z)

theorem in_coal (hq : InCoal fc q) : SampleIn furnaceBox fc (q .x) (q .y) (q .z) := hq.1

theorem furnace_currents : OnlyCurrents furnace fc q := by
  intro m b n tag w size delay r hx t ht hs hc hq
  rcases furnace_cards hx with h | h | h | h
  · cases h
  · cases h
  · cases h
  · injection h with _ _ _ h4
    have e : t = C73.jz := C27.spell_injective ht C73.jz_valid (by rw [hs, h4]; rfl)
    subst e
    exact ⟨rfl, trivial⟩
theorem furnace_resistor {i j l : Int} : ∀ x ∈ furnace.file.cards, ∀ s, ¬ ResistorOf furnace fc i j l x s := by
  rintro x hx s ⟨_, b', n, tag, w, size, delay, r, d, rfl, ht, -⟩
  rcases furnace_cards hx with h | h | h | h
  · cases h
  · cases h
  · cases h
  · injection h with _ _ _ h4
    rw [h4] at ht
    simp [lumpedAxis] at ht
theorem furnace_metal {i j l : Int} (h : OnPecSide furnace fc i j l) : MadeOf furnace fc i j l .metal := .side furnace_resistor h
theorem furnace_plate {i j l : Int} : ∀ x ∈ furnace.file.cards, ∀ s, ¬ PlateOf furnace fc i j l x s := by
  rintro x hx s ⟨_, _, rfl, -⟩; rcases furnace_cards hx with h | h | h | h <;> cases h
theorem furnace_wire {i j l : Int} : ∀ x ∈ furnace.file.cards, ∀ s, ¬ WireOf fc i j l x s := by
  rintro x hx s ⟨_, rfl, -⟩; rcases furnace_cards hx with h | h | h | h <;> cases h
theorem furnace_block_in {x : Deck.Card} {s : Stuff} (hx : x ∈ furnace.file.cards) (hb : BlockOf furnace fc (q .x) (q .y) (q .z) x s) : InCoal fc q := by
  obtain ⟨c, mask, m, rfl, h1, h2, h3, -⟩ := hb
  rcases furnace_cards hx with h | h | h | h
  · cases h
  · cases h
  · injection h with h
    subst h
    have e : mask = fun f => (63 : Nat).testBit (maskPlace f) := C64.includes_unique h1 coal_mask
    rw [e] at h2
    exact h2
  · cases h
theorem furnace_vacuum (h : ¬ OnPecSide furnace fc (q .x) (q .y) (q .z)) (hf : ¬ InCoal fc q) : MadeOf furnace fc (q .x) (q .y) (q .z) .vacuum :=
  .vacuum furnace_resistor h furnace_plate furnace_wire fun x hx s hb => hf (furnace_block_in hx hb)
theorem furnace_coal (h : ¬ OnPecSide furnace fc (q .x) (q .y) (q .z)) (hf : InCoal fc q) : MadeOf furnace fc (q .x) (q .y) (q .z) (.matter 2 1 1) := by
  have hr : BlockOf furnace fc (q .x) (q .y) (q .z) (.mb ⟨8, furnaceBox, "coal", "111111".toList⟩) (.matter 2 1 1) :=
    ⟨_, _, coal, rfl, coal_mask, hf, coal_named, rfl⟩
  refine .block furnace_resistor h furnace_plate furnace_wire ⟨[_, _], [_], rfl, ⟨_, hr⟩, ?_⟩ hr
  rintro y hy ⟨s, c, mask, m, rfl, -⟩
  simp at hy
theorem furnace_mur : ¬ OnMurSide furnace fc q := by rintro ⟨f, hf, -⟩; cases hf
theorem furnace_sheets : ClearOfSheets furnace fc q := by
  intro b pr hb; rcases furnace_cards hb with h | h | h | h <;> cases h
theorem furnace_waves : ClearOfWaves furnace fc q := by
  intro b pr hb; rcases furnace_cards hb with h | h | h | h <;> cases h
theorem furnace_debye : ∀ x ∈ furnace.file.cards, ∀ e s u poles, ¬ DebyeCard furnace fc q x e s u poles := by
  rintro x hx e s u poles ⟨c, mask, rfl, -, -, hm⟩
  obtain ⟨nm, hnm⟩ : ∃ nm, nm = c.medium := ⟨_, rfl⟩
  rw [← hnm] at hm
  cases hm with
  | card hm => rcases furnace_cards hm with h | h | h | h <;> cases h
theorem all_coal (hq : SampleInMesh furnace fc q) : InCoal fc q := by
  refine ⟨hq, fun f _ => ?_⟩
  cases f <;> decide
end

open Classical in
/-- What the edges of the furnace are made of. -/
noncomputable def furnaceStuff (a : Axis) (q : Axis → Int) : Stuff :=
  if OnPecSide furnace a.e (q .x) (q .y) (q .z) then .metal else .matter 2 1 1

theorem furnace_e {a : Axis} {q : Axis → Int} (hq : SampleInMesh furnace a.e q) : OrdinaryE furnace a q :=
  ⟨hq, furnace_mur, furnace_debye, furnace_sheets, furnace_waves, furnace_currents⟩

theorem furnace_sealed {k : Consts} {R : Setup.Run} : SealedModel k furnace R.dt furnaceStuff fun _ _ => k.mu0 where
  sides f := Or.inl rfl
  ends d e := by cases e
  edges a q hq := by
    unfold furnaceStuff
    split
    · rename_i c
      exact Or.inr ⟨furnace_e (C87.in_mesh.1 hq), furnace_metal c, rfl⟩
    · rename_i c
      exact Or.inl ⟨furnace_e (C87.in_mesh.1 hq), furnace_coal c (all_coal (C87.in_mesh.1 hq)), by norm_num, by norm_num, le_rfl⟩
  walls a q hq hp := by unfold furnaceStuff; rw [if_pos hp]
  squares a q hq := by
    refine ⟨⟨C87.in_mesh.1 hq, furnace_sheets, furnace_waves, furnace_currents⟩, ?_⟩
    by_cases c : OnPecSide furnace a.h (q .x) (q .y) (q .z)
    · exact ⟨_, furnace_metal c, trivial, by simp [relPermeability]⟩
    · exact ⟨_, furnace_coal c (all_coal (C87.in_mesh.1 hq)), ⟨by norm_num, by norm_num, le_rfl⟩, by simp [relPermeability]⟩

/-- The furnace: whatever the current has put into it, all its electric fields die out, and its magnetic fields stop changing. -/
example (k : Consts) (hk : Physical k) (hb : 1 < k.big) (J : Junk) : ∃ R, setup k J furnace = some R ∧
    (∀ (a : Axis) (q : Axis → Int), SampleInMesh furnace a.e q → DiesOut fun n => value R n a.e q) ∧
    (∀ (a : Axis) (q : Axis → Int), SampleInMesh furnace a.h q → DiesOut fun n => value R (n + 1) a.h q - value R n a.h q) ∧
    (∃ q, SampleInMesh furnace .ez q ∧ ¬ OnPecSide furnace .ez (q .x) (q .y) (q .z) ∧ ∃ t, totalCurrent furnace R.dt t .ez q ≠ 0) := by
  obtain ⟨R, hR⟩ := furnace_setup k J
  have hl : Increasing furnace := by intro a m _ _; show ((m : Int) : ℝ) < ((m + 1 : Int) : ℝ); push_cast; linarith
  have hr : Representable k furnace := by intro a m _ _; show ((m + 1 : Int) : ℝ) - ((m : Int) : ℝ) < k.big; push_cast; linarith
  have hcn : 0 < furnace.cn := by show (0 : ℝ) < 0.5; norm_num
  have hlt : furnace.cn < 1 := by show (0.5 : ℝ) < 1; norm_num
  have hT : 0 < R.dt := C64.step_positive hk hR hcn hl hr
  have hw : ∀ n, C56.Pulse (furnace.waves n) := fun _ => ⟨by decide, by show (-1 : ℝ) ≠ 0; norm_num⟩
  have hF : Fading furnace R.dt := fading hT hw
  have hc : Conducting furnace furnaceStuff := by
    intro a q _
    unfold furnaceStuff
    split
    · exact Or.inl rfl
    · exact Or.inr (by show (0 : ℝ) < 1; norm_num)
  refine ⟨R, hR, fun a q hq => goes_dark hR hl furnace_sealed furnace_blocks hk hT hcn hlt hr hF hc hq,
    (becomes_static hR hl furnace_sealed furnace_blocks hk hT hcn hlt hr hF hc).2, fun _ => 3, by simp [SampleInMesh, SampleIn, pos2, meshBox, mkBox, furnace], ?_, ?_⟩
  · rintro ⟨f, hf, hp⟩
    cases f <;> simp [OnPlane, samplePos, pos2, meshBox, mkBox, furnace, Face.axis] at hp
  · refine ⟨0, ?_⟩
    have e := C72.tagOf_spell C73.jz_valid
    rw [C73.jz_spell] at e
    have t : totalCurrent furnace R.dt 0 .ez (fun _ => 3) = impressed furnace R.dt 0 .ez (fun _ => 3) (.ex 10 furnaceFeed "feed" ['J', 'Z'] "pulse" 1 0 0) := by
      unfold totalCurrent
      show ([impressed furnace R.dt 0 .ez (fun _ => 3) (.mt "coal" coal), impressed furnace R.dt 0 .ez (fun _ => 3) (.wf "pulse"),
        impressed furnace R.dt 0 .ez (fun _ => 3) (.mb ⟨8, furnaceBox, "coal", "111111".toList⟩),
        impressed furnace R.dt 0 .ez (fun _ => 3) (.ex 10 furnaceFeed "feed" ['J', 'Z'] "pulse" 1 0 0)] : List ℝ).sum = _
      simp [impressed]
    rw [t]
    simp only [impressed, e]
    rw [if_pos ⟨rfl, by simp [SampleIn, pos2, furnaceFeed, mkBox]⟩]
    have w : 0 < waveValue R.dt (furnace.waves "pulse") (0 - 0) := by
      show 0 < waveValue R.dt (.builtin ⟨.gaussian, 1, -1, -1, -1⟩) (0 - 0)
      simp only [waveValue, Waveform.value, Waveform.initWaveform, Waveform.shape, Waveform.gaussianPulse]
      refine mul_pos ?_ (Real.exp_pos _)
      norm_num [Waveform.dflt]
    refine mul_ne_zero ?_ w.ne'
    show (1 : ℝ) ≠ 0
    exact one_ne_zero

end Vulture.C93
