import Verif.Props.C87_Sealed
import Verif.Props.C84_Guide
/- C87: a closed model with all three kinds of sides to which the theorems apply. -/
set_option linter.unusedSimpArgs false
set_option linter.unusedVariables false
set_option linter.unreachableTactic false
set_option linter.unusedTactic false
set_option autoImplicit false
namespace Vulture.C87
open Spec Setup Deck CavityLemmas Scaling Finset C84

/-- A cube of 8 cells with a current in the middle: periodic along x, magnetic walls along y, metal walls along z. -/
def hutSides : Face → BType
  | .xlo | .xhi => .periodic
  | .ylo | .yhi => .pmc
  | .zlo | .zhi => .pec
def hutBox : BBox := mkBox 4 4 4 4 4 5
noncomputable def hut : Experiment := pipe 8 8 8 hutSides hutBox ['J', 'Z']

theorem hut_setup (k : Consts) (J : Junk) : ∃ R, setup k J hut = some R := by
  have hl : Source.lookup ['J', 'Z'] = some ⟨.ecurrDens, .z, none, .ez, true⟩ := by decide +kernel
  obtain ⟨s, hs, hp⟩ : ∃ s, hut.file.stored = some s ∧ s.pws = [] := by
    have e : hut.file.stored = Deck.read (State.init (mkBox 0 8 0 8 0 8)) (pipeCards hutBox ['J', 'Z']) := rfl
    rw [e, pipeCards, C47.read_cons, C47.card_wf (by rfl), Option.bind_some, C47.read_cons]
    simp only [State.card, hl]
    rw [if_pos (by decide +kernel)]; exact ⟨_, rfl, rfl⟩
  obtain ⟨cf, hc⟩ : ∃ cf, initExternalSurfaceParameters hut.file.cells hut.file.bt hut.file.layers = some cf :=
    Option.isSome_iff_exists.1 (by
      show (initExternalSurfaceParameters (fun a => match a with | .x => 8 | .y => 8 | .z => 8) hutSides (fun _ => 6)).isSome = true
      decide +kernel)
  have hS : ∃ S, (fileOf k J hut cf).sim (Setup.de k J hut cf) (Setup.dh k J hut cf) = some S := by
    unfold File.sim
    have a1 : (fileOf k J hut cf).stored = some s := hs
    have a2 : initExternalSurfaceParameters (fileOf k J hut cf).cells (fileOf k J hut cf).bt (fileOf k J hut cf).layers = some cf := hc
    rw [a1, Option.bind_some, a2, Option.bind_some, hp]
    exact ⟨_, rfl⟩
  obtain ⟨S, hS⟩ := hS
  exact ⟨_, Scaling.setup_of hc hs hS⟩

section
variable {fc : Fc} {q : Axis → Int}

theorem hut_currents : OnlyCurrents hut fc q := by
  intro m b n tag w size delay r hx t ht hs hc hq
  rcases pipe_cards hx with h | h
  · cases h
  · injection h with _ _ _ h4
    have e : t = C73.jz := C27.spell_injective ht C73.jz_valid (by rw [hs, h4]; rfl)
    subst e
    exact ⟨rfl, trivial⟩
theorem hut_source (h : q .x < 4 ∨ 4 < q .x) : NoSource hut fc q := by
  intro m b nm tag w size delay r hx t ht hs hc hb
  rcases pipe_cards hx with h' | h'
  · cases h'
  · injection h' with _ h2 _ h4
    have e : t = C73.jz := C27.spell_injective ht C73.jz_valid (by rw [hs, h4]; rfl)
    subst e
    have hc' : fc = .ez := hc.symm
    subst hc'
    rw [h2] at hb
    obtain ⟨b1, b2, b3⟩ := hb
    simp only [hutBox, mkBox, pos2] at b1 b2 b3
    omega
theorem hut_resistor {i j l : Int} : ∀ x ∈ hut.file.cards, ∀ s, ¬ ResistorOf hut fc i j l x s := by
  rintro x hx s ⟨_, b', n, tag, w, size, delay, r, d, rfl, ht, -⟩
  rcases pipe_cards hx with h | h
  · cases h
  · injection h with _ _ _ h4
    rw [h4] at ht
    simp [lumpedAxis] at ht
theorem hut_metal {i j l : Int} (h : OnPecSide hut fc i j l) : MadeOf hut fc i j l .metal := .side hut_resistor h
theorem hut_vacuum {i j l : Int} (h : ¬ OnPecSide hut fc i j l) : MadeOf hut fc i j l .vacuum := by
  refine .vacuum hut_resistor h ?_ ?_ ?_
  · rintro x hx s ⟨_, _, rfl, -⟩; rcases pipe_cards hx with h | h <;> cases h
  · rintro x hx s ⟨_, rfl, -⟩; rcases pipe_cards hx with h | h <;> cases h
  · rintro x hx s ⟨_, _, _, rfl, -⟩; rcases pipe_cards hx with h | h <;> cases h
theorem hut_side {i i' j l : Int} : OnPecSide hut fc i j l ↔ OnPecSide hut fc i' j l := by
  have : ∀ i i' : Int, OnPecSide hut fc i j l → OnPecSide hut fc i' j l := by
    rintro i i' ⟨f, hf, hp⟩
    refine ⟨f, hf, ?_⟩
    cases f <;> first | exact hp | cases hf
  exact ⟨this _ _, this _ _⟩
theorem hut_mur : ¬ OnMurSide hut fc q := by rintro ⟨f, hf, -⟩; cases f <;> cases hf

theorem hut_e {a : Axis} (hi : SampleIn (meshBox hut) a.e (q .x) (q .y) (q .z)) : OrdinaryE hut a q :=
  ⟨hi, hut_mur, pipe_debye, pipe_sheets, pipe_waves, hut_currents⟩
theorem hut_h {a : Axis} (hi : SampleIn (meshBox hut) a.h (q .x) (q .y) (q .z)) : OrdinaryH hut a q :=
  ⟨hi, pipe_sheets, pipe_waves, hut_currents⟩

theorem hut_other (h0 : q .x = 0) (hi : SampleIn (meshBox hut) fc (q .x) (q .y) (q .z)) (hx : ∀ i, pos2 fc .x i = 2 * i) :
    SampleIn (meshBox hut) fc (opposite hut .x q .x) (opposite hut .x q .y) (opposite hut .x q .z) := by
  obtain ⟨h1, h2, h3⟩ := hi
  have ox : opposite hut .x q .x = 8 := by show q .x + 8 = 8; omega
  refine ⟨?_, h2, h3⟩
  rw [hx, ox]
  simp [meshBox, mkBox, hut, pipe]
end

theorem hut_same {k : Consts} {J : Junk} {R : Setup.Run} (h : setup k J hut = some R) {fc : Fc} {q : Axis → Int} (h0 : q .x = 0) :
    SaySame hut hut (fun b => if b = .x then cellsOf hut.file .x else 0) R.dt fc q := by
  set d : Axis → Int := fun b => if b = .x then cellsOf hut.file .x else 0
  have ho : OrdinaryBlocks hut.file.cards := pipe_blocks
  refine ⟨fun s => ?_, fun t => ?_⟩
  · have e2 : moved q d .y = q .y := add_zero _
    have e3 : moved q d .z = q .z := add_zero _
    rw [e2, e3]
    by_cases c : OnPecSide hut fc (q .x) (q .y) (q .z)
    · have c' := (hut_side (i' := moved q d .x)).1 c
      constructor <;> intro hs
      · rw [C64.made_unique h ho hs (hut_metal c)]; exact hut_metal c'
      · rw [C64.made_unique h ho hs (hut_metal c')]; exact hut_metal c
    · have c' : ¬ OnPecSide hut fc (moved q d .x) (q .y) (q .z) := fun x => c (hut_side.1 x)
      constructor <;> intro hs
      · rw [C64.made_unique h ho hs (hut_vacuum c)]; exact hut_vacuum c'
      · rw [C64.made_unique h ho hs (hut_vacuum c')]; exact hut_vacuum c
  · rw [C75.no_current (hut_source (Or.inl (by omega))), C75.no_current (hut_source (Or.inr ?_))]
    show 4 < q .x + 8
    omega

theorem hut_ends {k : Consts} {J : Junk} {R : Setup.Run} (h : setup k J hut = some R) : SameEnds hut R.dt .x := by
  refine ⟨rfl, fun f hf => ?_, by rw [C73.unit_cell rfl, C73.unit_cell rfl], fun a q ha h0 hi => ⟨hut_e hi, hut_e (hut_other h0 hi ?_), hut_same h h0⟩,
    fun q h0 hi => ⟨hut_h hi, hut_h (hut_other h0 hi fun i => rfl), hut_same h h0⟩⟩
  · cases f
    · exact absurd rfl hf
    · exact absurd rfl hf
    · exact Or.inr (Or.inl rfl)
    · exact Or.inr (Or.inl rfl)
    · exact Or.inl rfl
    · exact Or.inl rfl
  · intro i
    cases a <;> first | exact absurd rfl ha | rfl

open Classical in
/-- What the edges of the hut are made of. -/
noncomputable def hutStuff (a : Axis) (q : Axis → Int) : Stuff := if OnPecSide hut a.e (q .x) (q .y) (q .z) then .metal else .vacuum

theorem hut_sealed {k : Consts} {J : Junk} {R : Setup.Run} (h : setup k J hut = some R) : SealedModel k hut R.dt hutStuff fun _ _ => k.mu0 where
  sides f := by
    cases f
    · exact Or.inr (Or.inr rfl)
    · exact Or.inr (Or.inr rfl)
    · exact Or.inr (Or.inl rfl)
    · exact Or.inr (Or.inl rfl)
    · exact Or.inl rfl
    · exact Or.inl rfl
  ends d e := by
    cases d
    · exact hut_ends h
    · cases e
    · cases e
  edges a q hq := by
    unfold hutStuff
    split
    · rename_i c
      exact Or.inr ⟨hut_e (in_mesh.1 hq), hut_metal c, rfl⟩
    · rename_i c
      exact Or.inl ⟨hut_e (in_mesh.1 hq), hut_vacuum c, trivial⟩
  walls a q hq hp := by unfold hutStuff; rw [if_pos hp]
  squares a q hq := by
    refine ⟨hut_h (in_mesh.1 hq), ?_⟩
    by_cases c : OnPecSide hut a.h (q .x) (q .y) (q .z)
    · exact ⟨_, hut_metal c, trivial, by simp [relPermeability]⟩
    · exact ⟨_, hut_vacuum c, trivial, by simp [relPermeability]⟩

/-- The hut: every sample of every step stays below a fixed bound, and the energy is the work done by the current. -/
example (k : Consts) (hk : Physical k) (hb : 1 < k.big) (J : Junk) : ∃ R, setup k J hut = some R ∧
    (∃ B, ∀ (n : ℕ) (fc : Fc) (q : Axis → Int), SampleInMesh hut fc q → |value R n fc q| ≤ B) ∧
    ∃ q, SampleInMesh hut .ez q ∧ ¬ OnPecSide hut .ez (q .x) (q .y) (q .z) ∧ ∃ t, totalCurrent hut R.dt t .ez q ≠ 0 := by
  obtain ⟨R, hR⟩ := hut_setup k J
  have hl : Increasing hut := by intro a m _ _; show ((m : Int) : ℝ) < ((m + 1 : Int) : ℝ); push_cast; linarith
  have hr : Representable k hut := by intro a m _ _; show ((m + 1 : Int) : ℝ) - ((m : Int) : ℝ) < k.big; push_cast; linarith
  have hcn : 0 < hut.cn := by show (0 : ℝ) < 0.5; norm_num
  have hT : 0 < R.dt := C64.step_positive hk hR hcn hl hr
  refine ⟨R, hR, pulses_stay_bounded hR hl (hut_sealed hR) pipe_blocks hk hT hcn (by show (0.5 : ℝ) < 1; norm_num) hr (fun _ => ⟨by decide, ?_⟩), fun _ => 4, ?_, ?_, ?_⟩
  · show (-1 : ℝ) ≠ 0; norm_num
  · simp [SampleInMesh, SampleIn, pos2, meshBox, mkBox, hut, pipe]
  · rintro ⟨f, hf, hp⟩
    cases f <;> first | (simp [OnPlane, samplePos, pos2, meshBox, mkBox, hut, pipe, Face.axis] at hp; done) | cases hf
  · refine ⟨0, ?_⟩
    have e := C72.tagOf_spell C73.jz_valid
    rw [C73.jz_spell] at e
    have t : totalCurrent hut R.dt 0 .ez (fun _ => 4) = impressed hut R.dt 0 .ez (fun _ => 4) (.ex 10 hutBox "source" ['J', 'Z'] "pulse" 1 0 0) := by
      unfold totalCurrent
      show ([impressed hut R.dt 0 .ez (fun _ => 4) (.wf "pulse"), impressed hut R.dt 0 .ez (fun _ => 4) (.ex 10 hutBox "source" ['J', 'Z'] "pulse" 1 0 0)] : List ℝ).sum = _
      simp [impressed]
    rw [t]
    simp only [impressed, e]
    rw [if_pos ⟨rfl, by simp [SampleIn, pos2, hutBox, mkBox]⟩]
    have w : 0 < waveValue R.dt (hut.waves "pulse") (0 - 0) := by
      show 0 < waveValue R.dt (.builtin ⟨.gaussian, 1, -1, -1, -1⟩) (0 - 0)
      simp only [waveValue, Waveform.value, Waveform.initWaveform, Waveform.shape, Waveform.gaussianPulse]
      refine mul_pos ?_ (Real.exp_pos _)
      norm_num [Waveform.dflt]
    refine mul_ne_zero ?_ w.ne'
    show (1 : ℝ) ≠ 0
    exact one_ne_zero

end Vulture.C87
