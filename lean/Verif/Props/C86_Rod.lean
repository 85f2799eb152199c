import Verif.Props.C86_Flat
import Verif.Props.C84_Guide
/- C86: a rod of field between two plates, and in three layers of cells between periodic sides. -/
set_option linter.unusedSimpArgs false
set_option linter.unusedVariables false
set_option linter.unreachableTactic false
set_option linter.unusedTactic false
namespace Vulture.C86
open Vulture Spec Setup Deck CavityLemmas Scaling C72 C84

def rodEnds (p : Bool) : Face → BType
  | .xlo | .xhi => .pml
  | .ylo | .yhi => .pmc
  | .zlo | .zhi => if p then .pec else .periodic
def rodBox (nz : ℕ) : BBox := mkBox 4 4 4 4 0 nz
/-- Absorbing sides across x, magnetic ones across y; a source of an electric field from the bottom to the top of the mesh. -/
noncomputable def rod (nz : ℕ) (p : Bool) : Experiment := pipe 8 8 nz (rodEnds p) (rodBox nz) (fieldTag .z).spell

theorem rod_setup (k : Consts) (J : Junk) {nz : ℕ} {p : Bool} (hz : (nz = 1 ∧ p = true) ∨ (nz = 3 ∧ p = false)) : ∃ R, setup k J (rod nz p) = some R := by
  have hl : Source.lookup (fieldTag .z).spell = some ⟨.efield, .z, none, .ez, true⟩ := by decide +kernel
  obtain ⟨s, hs, hp⟩ : ∃ s, (rod nz p).file.stored = some s ∧ s.pws = [] := by
    rcases hz with ⟨rfl, rfl⟩ | ⟨rfl, rfl⟩
    · have e : (rod 1 true).file.stored = Deck.read (State.init (mkBox 0 8 0 8 0 1)) (pipeCards (rodBox 1) (fieldTag .z).spell) := rfl
      rw [e, pipeCards, C47.read_cons, C47.card_wf (by rfl), Option.bind_some, C47.read_cons]
      simp only [State.card, hl]
      rw [if_pos (by decide +kernel)]; exact ⟨_, rfl, rfl⟩
    · have e : (rod 3 false).file.stored = Deck.read (State.init (mkBox 0 8 0 8 0 3)) (pipeCards (rodBox 3) (fieldTag .z).spell) := rfl
      rw [e, pipeCards, C47.read_cons, C47.card_wf (by rfl), Option.bind_some, C47.read_cons]
      simp only [State.card, hl]
      rw [if_pos (by decide +kernel)]; exact ⟨_, rfl, rfl⟩
  obtain ⟨cf, hc⟩ : ∃ cf, initExternalSurfaceParameters (rod nz p).file.cells (rod nz p).file.bt (rod nz p).file.layers = some cf := by
    rcases hz with ⟨rfl, rfl⟩ | ⟨rfl, rfl⟩
    · exact Option.isSome_iff_exists.1 (by
        show (initExternalSurfaceParameters (fun a => match a with | .x => 8 | .y => 8 | .z => 1) (rodEnds true) (fun _ => 6)).isSome = true
        decide +kernel)
    · exact Option.isSome_iff_exists.1 (by
        show (initExternalSurfaceParameters (fun a => match a with | .x => 8 | .y => 8 | .z => 3) (rodEnds false) (fun _ => 6)).isSome = true
        decide +kernel)
  have hS : ∃ S, (fileOf k J (rod nz p) cf).sim (Setup.de k J (rod nz p) cf) (Setup.dh k J (rod nz p) cf) = some S := by
    unfold File.sim
    have a1 : (fileOf k J (rod nz p) cf).stored = some s := hs
    have a2 : initExternalSurfaceParameters (fileOf k J (rod nz p) cf).cells (fileOf k J (rod nz p) cf).bt (fileOf k J (rod nz p) cf).layers = some cf := hc
    rw [a1, Option.bind_some, a2, Option.bind_some, hp]
    exact ⟨_, rfl⟩
  obtain ⟨S, hS⟩ := hS
  exact ⟨_, Scaling.setup_of hc hs hS⟩

section
variable {nz nz' : ℕ} {p p' : Bool} {fc : Fc} {q r : Axis → Int}

theorem rod_plain (k : Consts) {J : Junk} {R : Setup.Run} (hs : setup k J (rod nz p) = some R) : PlainModel k (rod nz p) R.dt := by
  have nomur : ∀ f, (rod nz p).file.bt f ≠ .mur := by intro f hf; cases f <;> cases p <;> cases hf
  refine ⟨fun fc q _ => ⟨pipe_sheets, pipe_waves⟩, fun fc q _ => pipe_debye, fun fc q _ => pipe_soft, fun f a q hq => absurd hq.mur (nomur f), ?_,
    fun f hf => absurd hf (nomur f), fun f g hf => absurd hf (nomur f), ?_, fun _ _ _ => pipe_resistor, ?_⟩
  · rintro a q ⟨-, f, g, -, hf, -⟩; exact absurd hf (nomur f)
  · intro b hb
    cases b
    · show (2 : Int) ≤ 8; norm_num
    · cases hb
    · cases p <;> cases hb
  · intro fc q hq s hst
    rcases pipe_made (nx := 8) (ny := 8) (nz := nz) (bt := rodEnds p) (b := rodBox nz) (a := .z) (fc := fc) (i := continued (rod nz p) fc q .x)
      (j := continued (rod nz p) fc q .y) (l := continued (rod nz p) fc q .z) with ⟨-, hm⟩ | ⟨-, hm⟩ <;>
    · rw [C64.made_unique hs pipe_blocks hst hm]
      exact ⟨trivial, fun _ _ _ _ h => by cases h⟩

theorem rod_source (T t : ℝ) (hq : SampleInMesh (rod nz p) fc q) : sourceCurrent (rod nz p) T t fc q = 0 ∧
    sourceField (rod nz p) T t fc q = open Classical in if fc = .ez ∧ q .x = 4 ∧ q .y = 4 then waveValue T (.builtin ⟨.gaussian, 1, -1, -1, -1⟩) t else 0 := by
  obtain ⟨e1, e2⟩ := pipe_source (nx := 8) (ny := 8) (nz := nz) (bt := rodEnds p) (b := rodBox nz) (a := .z) T t fc q
  refine ⟨e2, e1.trans ?_⟩
  by_cases hf : fc = .ez
  · subst hf
    have iq : SampleIn (mkBox 0 8 0 8 0 nz) .ez (q .x) (q .y) (q .z) := hq
    have e : (Axis.z.e = .ez ∧ SampleIn (rodBox nz) .ez (q .x) (q .y) (q .z)) ↔ (Fc.ez = .ez ∧ q .x = 4 ∧ q .y = 4) := by
      simp [SampleIn, pos2, mkBox, rodBox, Axis.e] at iq ⊢
      omega
    simp only [e]
  · rw [if_neg (fun h => hf h.1.symm), if_neg (fun h => hf h.1)]

theorem rod_section (k : Consts) {J : Junk} {R : Setup.Run} (hs : setup k J (rod nz p) = some R) (T : ℝ) : SameSection (rod nz p) (rod nz' p') T .z true := by
  refine ⟨⟨?_, ?_, ?_⟩, ?_, ?_⟩
  · intro b hb; cases b
    · rfl
    · rfl
    · exact absurd rfl hb
  · intro b hb i; rw [C73.unit_cell rfl, C73.unit_cell rfl]
  · intro f hf
    refine ⟨?_, rfl, rfl⟩
    cases f <;> first | rfl | exact absurd rfl hf
  · intro fc q r hl hq hr hqr st hst
    have half : ∀ i, pos2 fc .z i = 2 * i + 1 := by
      intro i
      rcases hl with e | ⟨a, ha, e⟩
      · subst e; rfl
      · subst e; cases a
        · rfl
        · rfl
        · exact absurd rfl ha
    have free : ∀ {nz p} {q : Axis → Int}, ¬ OnPecSide (rod nz p) fc (q .x) (q .y) (q .z) := by
      rintro nz p q ⟨f, hf', hp⟩
      cases f <;> cases p <;> simp [rod, pipe, rodEnds] at hf' <;>
        simp [OnPlane, samplePos, half, meshBox, mkBox, rod, pipe, Face.isLo, Face.axis] at hp <;> omega
    have vac : ∀ {nz p} {q : Axis → Int}, MadeOf (rod nz p) fc (q .x) (q .y) (q .z) .vacuum := fun {nz p q} =>
      (pipe_made (nx := 8) (ny := 8) (nz := nz) (bt := rodEnds p) (b := rodBox nz) (a := .z) (fc := fc)).elim (fun h => absurd h.1 free) And.right
    rw [C64.made_unique hs pipe_blocks hst vac]
    exact vac
  · intro fc q r hl hq hr hqr t
    obtain ⟨a1, a2⟩ := rod_source T t hq
    obtain ⟨b1, b2⟩ := rod_source T t hr
    rw [a1, a2, b1, b2, hqr .x (by decide), hqr .y (by decide)]
    exact ⟨rfl, rfl⟩

theorem rod_plated (T : ℝ) : Plated (rod nz p) T .z true := by
  refine ⟨?_, ?_⟩
  · intro f hf
    cases f <;> first | (cases hf; done) | (cases p <;> simp [rod, pipe, rodEnds])
  · intro fc q hl hq t
    obtain ⟨a1, a2⟩ := rod_source T t hq
    refine ⟨?_, a1⟩
    rw [a2, if_neg]
    rintro ⟨e, -⟩
    exact hl (Or.inl e)

end

/-- In every step the field of the one model is the field of the other, in the layers too; the field across is dark. -/
example (k : Consts) (hk : Physical k) (he : 0 < k.eta0) (hb : 1 < k.big) (J J' : Junk) : ∃ R S, setup k J (rod 1 true) = some R ∧
    setup k J' (rod 3 false) = some S ∧ ∀ n,
    value R n .ez (there 6 4 0) = value S n .ez (there 6 4 2) ∧ value R n .ez (there 11 4 0) = value S n .ez (there 11 4 1) ∧
    value R n .hy (there 6 4 0) = value S n .hy (there 6 4 2) ∧ value S n .ex (there 6 4 2) = 0 := by
  obtain ⟨R, hR⟩ := rod_setup k J (Or.inl ⟨rfl, rfl⟩)
  obtain ⟨S, hS⟩ := rod_setup k J' (Or.inr ⟨rfl, rfl⟩)
  have hdt : S.dt = R.dt := C73.unit_step hb hS hR rfl rfl rfl
  have hT : 0 < R.dt := by
    refine C64.step_positive hk hR (by show (0 : ℝ) < 0.5; norm_num) ?_ ?_
    · intro a m _ _; show ((m : Int) : ℝ) < ((m + 1 : Int) : ℝ); push_cast; linarith
    · intro a m _ _
      show ((m + 1 : Int) : ℝ) - ((m : Int) : ℝ) < k.big
      push_cast; linarith
  have g1 : ∀ nz p, GoodLayers k (rod nz p) := fun nz p => ⟨he, fun b i => by rw [C73.unit_cell rfl]; exact one_pos, fun f _ => by simp [rod, pipe]⟩
  refine ⟨R, S, hR, hS, fun n => ?_⟩
  have w := thickness_free hk hT hR pipe_blocks (g1 _ _) (rod_plain k hR) (rod_plated _) (rod_section k hR _) hdt hS pipe_blocks (g1 _ _) (rod_plain k hS)
    (rod_plated _) (rod_section k hS _) (rod_section k hR _) n
  have v := two_dimensional hk (by rw [hdt]; exact hT) hS pipe_blocks (g1 _ _) (rod_plain k hS) (rod_plated _) (rod_section k hS _) n .ex
  have cp : ∀ x y z z' : Int, ∀ b : Axis, b ≠ .z → there x y z' b = there x y z b := by
    intro x y z z' b hb
    cases b
    · rfl
    · rfl
    · exact absurd rfl hb
  refine ⟨w .ez (Or.inl rfl) _ _ ?_ ?_ (cp _ _ _ _) (fun h => by cases h), w .ez (Or.inl rfl) _ _ ?_ ?_ (cp _ _ _ _) (fun h => by cases h),
    w .hy (Or.inr ⟨.y, by decide, rfl⟩) _ _ ?_ ?_ (cp _ _ _ _) (fun _ => ?_), v.1 ?_ _ ?_ (fun h => by cases h)⟩
  · simp [OnGridBox, SampleIn, gridBox, pos2, meshBox, mkBox, rod, pipe, rodEnds, there, Axis.e, Face.isLo]
  · simp [OnGridBox, SampleIn, gridBox, pos2, meshBox, mkBox, rod, pipe, rodEnds, there, Axis.e, Face.isLo]
  · simp [OnGridBox, SampleIn, gridBox, pos2, meshBox, mkBox, rod, pipe, rodEnds, there, Axis.e, Face.isLo]
  · simp [OnGridBox, SampleIn, gridBox, pos2, meshBox, mkBox, rod, pipe, rodEnds, there, Axis.e, Face.isLo]
  · simp [OnGridBox, SampleIn, gridBox, pos2, meshBox, mkBox, rod, pipe, rodEnds, there, Axis.h, Face.isLo]
  · simp [OnGridBox, SampleIn, gridBox, pos2, meshBox, mkBox, rod, pipe, rodEnds, there, Axis.h, Face.isLo]
  · rintro ⟨f, hf, hp⟩
    cases f <;> simp [rod, pipe, rodEnds] at hf <;>
      simp [OnPlane, samplePos, gridBox, pos2, meshBox, mkBox, rod, pipe, rodEnds, there, Axis.h, Face.isLo, Face.axis] at hp
  · rintro (h | ⟨a, -, h⟩)
    · cases h
    · cases a <;> cases h
  · simp [OnGridBox, SampleIn, gridBox, pos2, meshBox, mkBox, rod, pipe, rodEnds, there, Axis.e, Face.isLo]

end Vulture.C86
