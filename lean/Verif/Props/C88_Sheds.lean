import Verif.Props.C88_Exchange
/- C88: two files to which the theorems apply. -/
set_option linter.unusedSimpArgs false
set_option linter.unusedVariables false
set_option linter.unreachableTactic false
set_option linter.unusedTactic false
set_option autoImplicit false
namespace Vulture.C88
open Spec Setup Deck CavityLemmas Scaling Finset C84 C87

/-- The hut of C87 with a current through one edge. -/
def edgeBox (a : Axis) (q : Axis → Int) : BBox :=
  mkBox (q .x) (if Axis.x = a then q .x + 1 else q .x) (q .y) (if Axis.y = a then q .y + 1 else q .y) (q .z) (if Axis.z = a then q .z + 1 else q .z)
noncomputable def shed (a : Axis) (q : Axis → Int) : Experiment := pipe 8 8 8 hutSides (edgeBox a q) (currentTag a)

/-- An edge in the middle, and one in a magnetic side. -/
def middle : Axis → Int := fun _ => 4
def atSide : Axis → Int | .x => 3 | .y => 0 | .z => 4

def Places (a : Axis) (q : Axis → Int) : Prop := (a = .z ∧ q = middle) ∨ (a = .x ∧ q = atSide)

theorem shed_setup (k : Consts) (J : Junk) {a : Axis} {q : Axis → Int} (hp : Places a q) : ∃ R, setup k J (shed a q) = some R := by
  obtain ⟨s, hs, hp⟩ : ∃ s, (shed a q).file.stored = some s ∧ s.pws = [] := by
    have e : (shed a q).file.stored = Deck.read (State.init (mkBox 0 8 0 8 0 8)) (pipeCards (edgeBox a q) (currentTag a)) := rfl
    rw [e, pipeCards, C47.read_cons, C47.card_wf (by rfl), Option.bind_some, C47.read_cons]
    rcases hp with ⟨rfl, rfl⟩ | ⟨rfl, rfl⟩
    · have hl : Source.lookup (currentTag .z) = some ⟨.ecurrent, .z, none, .ez, true⟩ := by decide +kernel
      simp only [State.card, hl]
      rw [if_pos (by decide +kernel)]; exact ⟨_, rfl, rfl⟩
    · have hl : Source.lookup (currentTag .x) = some ⟨.ecurrent, .x, none, .ex, true⟩ := by decide +kernel
      simp only [State.card, hl]
      rw [if_pos (by decide +kernel)]; exact ⟨_, rfl, rfl⟩
  obtain ⟨cf, hc⟩ : ∃ cf, initExternalSurfaceParameters (shed a q).file.cells (shed a q).file.bt (shed a q).file.layers = some cf :=
    Option.isSome_iff_exists.1 (by
      show (initExternalSurfaceParameters (fun a => match a with | .x => 8 | .y => 8 | .z => 8) hutSides (fun _ => 6)).isSome = true
      decide +kernel)
  have hS : ∃ S, (fileOf k J (shed a q) cf).sim (Setup.de k J (shed a q) cf) (Setup.dh k J (shed a q) cf) = some S := by
    unfold File.sim
    have a1 : (fileOf k J (shed a q) cf).stored = some s := hs
    have a2 : initExternalSurfaceParameters (fileOf k J (shed a q) cf).cells (fileOf k J (shed a q) cf).bt (fileOf k J (shed a q) cf).layers = some cf := hc
    rw [a1, Option.bind_some, a2, Option.bind_some, hp]
    exact ⟨_, rfl⟩
  obtain ⟨S, hS⟩ := hS
  exact ⟨_, Scaling.setup_of hc hs hS⟩

section
variable {a : Axis} {p : Axis → Int} {fc : Fc} {q : Axis → Int}

theorem shed_card (a : Axis) (p : Axis → Int) : OneEdgeCard (shed a p) a p "pulse" 1 0 := by
  refine ⟨[.wf "pulse"], [], 10, edgeBox a p, "source", 0, rfl, fun d => ?_, ?_⟩
  · cases d <;> exact ⟨rfl, rfl⟩
  · intro c hc m b name tag w size delay r
    have : c = .wf "pulse" := by simpa using hc
    rw [this]
    intro c; cases c

theorem shed_currents : OnlyCurrents (shed a p) fc q := by
  intro m b n tag w size delay r hx t ht hs hc hq
  rcases pipe_cards hx with h | h
  · cases h
  · injection h with _ _ _ h4
    have v : (⟨false, .I, a, none⟩ : Tag).Valid := by cases a <;> decide
    have e : t = ⟨false, .I, a, none⟩ := C27.spell_injective ht v (by rw [hs, h4]; cases a <;> rfl)
    subst e
    exact ⟨rfl, trivial⟩
theorem shed_resistor {i j l : Int} : ∀ x ∈ (shed a p).file.cards, ∀ s, ¬ ResistorOf (shed a p) fc i j l x s := by
  rintro x hx s ⟨_, b', n, tag, w, size, delay, r, d, rfl, ht, -⟩
  rcases pipe_cards hx with h | h
  · cases h
  · injection h with _ _ _ h4
    rw [h4] at ht
    cases a <;> simp [lumpedAxis, currentTag] at ht
theorem shed_metal {i j l : Int} (h : OnPecSide (shed a p) fc i j l) : MadeOf (shed a p) fc i j l .metal := .side shed_resistor h
theorem shed_vacuum {i j l : Int} (h : ¬ OnPecSide (shed a p) fc i j l) : MadeOf (shed a p) fc i j l .vacuum := by
  refine .vacuum shed_resistor h ?_ ?_ ?_
  · rintro x hx s ⟨_, _, rfl, -⟩; rcases pipe_cards hx with h | h <;> cases h
  · rintro x hx s ⟨_, rfl, -⟩; rcases pipe_cards hx with h | h <;> cases h
  · rintro x hx s ⟨_, _, _, rfl, -⟩; rcases pipe_cards hx with h | h <;> cases h
theorem shed_pec {i j l : Int} : OnPecSide (shed a p) fc i j l ↔ OnPecSide hut fc i j l := Iff.rfl
theorem shed_mur : ¬ OnMurSide (shed a p) fc q := by rintro ⟨f, hf, -⟩; cases f <;> cases hf
theorem shed_e {d : Axis} (hi : SampleIn (meshBox (shed a p)) d.e (q .x) (q .y) (q .z)) : OrdinaryE (shed a p) d q :=
  ⟨hi, shed_mur, pipe_debye, pipe_sheets, pipe_waves, shed_currents⟩
theorem shed_h {d : Axis} (hi : SampleIn (meshBox (shed a p)) d.h (q .x) (q .y) (q .z)) : OrdinaryH (shed a p) d q :=
  ⟨hi, pipe_sheets, pipe_waves, shed_currents⟩
end

theorem shed_same {k : Consts} {J : Junk} {R : Setup.Run} {a : Axis} {p : Axis → Int} (hp : Places a p) (h : setup k J (shed a p) = some R) {fc : Fc} {q : Axis → Int} (h0 : q .x = 0) :
    SaySame (shed a p) (shed a p) (fun b => if b = .x then cellsOf (shed a p).file .x else 0) R.dt fc q := by
  set d : Axis → Int := fun b => if b = .x then cellsOf (shed a p).file .x else 0
  have ho : OrdinaryBlocks (shed a p).file.cards := pipe_blocks
  have off : ∀ (t : ℝ) (r : Axis → Int), r .x = 0 ∨ r .x = 8 → totalCurrent (shed a p) R.dt t fc r = 0 := by
    intro t r hr
    refine (one_edge (shed_card a p) R.dt t fc r).2 fun c => ?_
    have := c.2
    rcases hp with ⟨-, rfl⟩ | ⟨-, rfl⟩
    · have e : r .x = 4 := by rw [this]; rfl
      omega
    · have e : r .x = 3 := by rw [this]; rfl
      omega
  refine ⟨fun s => ?_, fun t => ?_⟩
  · have e2 : moved q d .y = q .y := add_zero _
    have e3 : moved q d .z = q .z := add_zero _
    rw [e2, e3]
    by_cases c : OnPecSide (shed a p) fc (q .x) (q .y) (q .z)
    · have c' : OnPecSide (shed a p) fc (moved q d .x) (q .y) (q .z) := (hut_side (i' := moved q d .x)).1 c
      constructor <;> intro hs
      · rw [C64.made_unique h ho hs (shed_metal c)]; exact shed_metal c'
      · rw [C64.made_unique h ho hs (shed_metal c')]; exact shed_metal c
    · have c' : ¬ OnPecSide (shed a p) fc (moved q d .x) (q .y) (q .z) := fun x => c (hut_side.1 x)
      constructor <;> intro hs
      · rw [C64.made_unique h ho hs (shed_vacuum c)]; exact shed_vacuum c'
      · rw [C64.made_unique h ho hs (shed_vacuum c')]; exact shed_vacuum c
  · rw [off t q (Or.inl h0), off t (moved q d) (Or.inr ?_)]
    show q .x + 8 = 8
    omega

theorem shed_ends {k : Consts} {J : Junk} {R : Setup.Run} {a : Axis} {p : Axis → Int} (hp : Places a p) (h : setup k J (shed a p) = some R) : SameEnds (shed a p) R.dt .x := by
  refine ⟨rfl, fun f hf => ?_, by rw [C73.unit_cell rfl, C73.unit_cell rfl], fun b q ha h0 hi => ⟨shed_e hi, shed_e (hut_other h0 hi ?_), shed_same hp h h0⟩,
    fun q h0 hi => ⟨shed_h hi, shed_h (hut_other h0 hi fun i => rfl), shed_same hp h h0⟩⟩
  · cases f
    · exact absurd rfl hf
    · exact absurd rfl hf
    · exact Or.inr (Or.inl rfl)
    · exact Or.inr (Or.inl rfl)
    · exact Or.inl rfl
    · exact Or.inl rfl
  · intro i
    cases b <;> first | exact absurd rfl ha | rfl

theorem shed_sealed {k : Consts} {J : Junk} {R : Setup.Run} {a : Axis} {p : Axis → Int} (hp : Places a p) (h : setup k J (shed a p) = some R) :
    SealedModel k (shed a p) R.dt hutStuff fun _ _ => k.mu0 where
  sides f := by
    cases f
    · exact Or.inr (Or.inr rfl)
    · exact Or.inr (Or.inr rfl)
    · exact Or.inr (Or.inl rfl)
    · exact Or.inr (Or.inl rfl)
    · exact Or.inl rfl
    · exact Or.inl rfl
  ends d e := by
    cases d
    · exact shed_ends hp h
    · cases e
    · cases e
  edges a q hq := by
    unfold hutStuff
    split
    · rename_i c
      exact Or.inr ⟨shed_e (in_mesh.1 hq), shed_metal c, rfl⟩
    · rename_i c
      exact Or.inl ⟨shed_e (in_mesh.1 hq), shed_vacuum c, trivial⟩
  walls a q hq hp := by unfold hutStuff; rw [if_pos (shed_pec.1 hp)]
  squares a q hq := by
    refine ⟨shed_h (in_mesh.1 hq), ?_⟩
    by_cases c : OnPecSide hut a.h (q .x) (q .y) (q .z)
    · exact ⟨_, shed_metal c, trivial, by simp [relPermeability]⟩
    · exact ⟨_, shed_vacuum c, trivial, by simp [relPermeability]⟩

/-- A current in the middle seen in the magnetic side, and the other way round: the field in the side is twice the field in the middle. -/
example (k : Consts) (hk : Physical k) (hb : 1 < k.big) (J J' : Junk) : ∃ R S, setup k J (shed .z middle) = some R ∧ setup k J' (shed .x atSide) = some S ∧
    ∀ n, value R n .ex atSide = 2 * value S n .ez middle := by
  obtain ⟨R, hR⟩ := shed_setup k J (Or.inl ⟨rfl, rfl⟩)
  obtain ⟨S, hS⟩ := shed_setup k J' (Or.inr ⟨rfl, rfl⟩)
  have hl : Increasing (shed .z middle) := by intro a m _ _; show ((m : Int) : ℝ) < ((m + 1 : Int) : ℝ); push_cast; linarith
  have hr : Representable k (shed .z middle) := by intro a m _ _; show ((m + 1 : Int) : ℝ) - ((m : Int) : ℝ) < k.big; push_cast; linarith
  have hcn : 0 < (shed .z middle).cn := by show (0 : ℝ) < 0.5; norm_num
  have hT : 0 < R.dt := C64.step_positive hk hR hcn hl hr
  refine ⟨R, S, hR, hS, fun n => ?_⟩
  have := exchange_cards hR hl (shed_sealed (Or.inl ⟨rfl, rfl⟩) hR) pipe_blocks hS (shed_sealed (Or.inr ⟨rfl, rfl⟩) hS) pipe_blocks
    ⟨fun a => by cases a <;> rfl, rfl, rfl, rfl⟩ rfl hk hT hr (a1 := .z) (a2 := .x) (q1 := middle) (q2 := atSide)
    (by simp [SampleInMesh, SampleIn, pos2, meshBox, mkBox, shed, pipe, middle, Axis.e])
    (by simp [SampleInMesh, SampleIn, pos2, meshBox, mkBox, shed, pipe, atSide, Axis.e])
    (shed_card _ _) (shed_card _ _) ⟨0, ?_⟩ n
  · rw [C73.unit_cell rfl, C73.unit_cell rfl] at this
    have p1 : insidePart (shed .z middle) .x atSide = 1 / 2 := by norm_num [insidePart, atSide, Axis.next, cellsOf, shed, pipe]
    have p2 : insidePart (shed .z middle) .z middle = 1 := by norm_num [insidePart, middle, Axis.next, cellsOf, shed, pipe]
    rw [p1, p2] at this
    simp only [Axis.e] at this
    linarith
  · have w : 0 < waveValue R.dt ((shed .z middle).waves "pulse") ((0 : ℕ) * R.dt - 0) := by
      show 0 < waveValue R.dt (.builtin ⟨.gaussian, 1, -1, -1, -1⟩) ((0 : ℕ) * R.dt - 0)
      simp only [waveValue, Waveform.value, Waveform.initWaveform, Waveform.shape, Waveform.gaussianPulse]
      refine mul_pos ?_ (Real.exp_pos _)
      norm_num [Waveform.dflt]
    rw [one_mul]
    exact w.ne'

end Vulture.C88
