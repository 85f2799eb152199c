import Verif.Props.C85_Repeat
/- C85: a periodic model and a row of two of it. -/
set_option linter.unusedSimpArgs false
set_option linter.unusedVariables false
set_option linter.unreachableTactic false
set_option linter.unusedTactic false
namespace Vulture.C85
open Vulture Spec Setup Deck CavityLemmas Scaling C72 C84

/-- A current along z at the given heights. -/
def feed (z : Int) : Deck.Card := .ex 10 (mkBox 4 4 4 4 z (z + 1)) (if z = 7 then "second" else "first") C73.jz.spell "pulse" 1 0 0
def latticeEnds : Face → BType
  | .xlo | .xhi => .pml
  | .ylo | .yhi => .pmc
  | .zlo | .zhi => .periodic
/-- Absorbing sides across x, magnetic ones across y, periodic along z. -/
noncomputable def lattice (nz : ℕ) (zs : List Int) : Experiment :=
  ⟨⟨8, 8, nz, latticeEnds, fun _ => 6, .wf "pulse" :: zs.map feed, false⟩, fun _ i => (i : ℝ), 0.5,
    fun _ => ⟨4, 1, -1, 1⟩, fun _ => .builtin ⟨.gaussian, 1, -1, -1, -1⟩⟩

theorem lattice_setup (k : Consts) (J : Junk) {nz : ℕ} {zs : List Int} (hz : (nz = 4 ∧ zs = [2]) ∨ (nz = 8 ∧ zs = [3, 7])) :
    ∃ R, setup k J (lattice nz zs) = some R := by
  have hl : Source.lookup C73.jz.spell = some ⟨.ecurrDens, .z, none, .ez, true⟩ := by decide +kernel
  obtain ⟨s, hs, hp⟩ : ∃ s, (lattice nz zs).file.stored = some s ∧ s.pws = [] := by
    rcases hz with ⟨rfl, rfl⟩ | ⟨rfl, rfl⟩
    · have e : (lattice 4 [2]).file.stored = Deck.read (State.init (mkBox 0 8 0 8 0 4)) [.wf "pulse", feed 2] := rfl
      rw [e, C47.read_cons, C47.card_wf (by rfl), Option.bind_some, C47.read_cons]
      simp only [feed, State.card, hl]
      rw [if_pos (by decide +kernel)]; exact ⟨_, rfl, rfl⟩
    · have e : (lattice 8 [3, 7]).file.stored = Deck.read (State.init (mkBox 0 8 0 8 0 8)) [.wf "pulse", feed 3, feed 7] := rfl
      rw [e, C47.read_cons, C47.card_wf (by rfl), Option.bind_some, C47.read_cons]
      simp only [feed, State.card, hl]
      rw [if_pos (by decide +kernel), Option.bind_some, C47.read_cons]
      simp only [feed, State.card, hl]
      rw [if_pos (by decide +kernel)]; exact ⟨_, rfl, rfl⟩
  obtain ⟨cf, hc⟩ : ∃ cf, initExternalSurfaceParameters (lattice nz zs).file.cells (lattice nz zs).file.bt (lattice nz zs).file.layers = some cf := by
    rcases hz with ⟨rfl, rfl⟩ | ⟨rfl, rfl⟩
    · exact Option.isSome_iff_exists.1 (by
        show (initExternalSurfaceParameters (fun a => match a with | .x => 8 | .y => 8 | .z => 4) latticeEnds (fun _ => 6)).isSome = true
        decide +kernel)
    · exact Option.isSome_iff_exists.1 (by
        show (initExternalSurfaceParameters (fun a => match a with | .x => 8 | .y => 8 | .z => 8) latticeEnds (fun _ => 6)).isSome = true
        decide +kernel)
  have hS : ∃ S, (fileOf k J (lattice nz zs) cf).sim (Setup.de k J (lattice nz zs) cf) (Setup.dh k J (lattice nz zs) cf) = some S := by
    unfold File.sim
    have a1 : (fileOf k J (lattice nz zs) cf).stored = some s := hs
    have a2 : initExternalSurfaceParameters (fileOf k J (lattice nz zs) cf).cells (fileOf k J (lattice nz zs) cf).bt (fileOf k J (lattice nz zs) cf).layers = some cf := hc
    rw [a1, Option.bind_some, a2, Option.bind_some, hp]
    exact ⟨_, rfl⟩
  obtain ⟨S, hS⟩ := hS
  exact ⟨_, Scaling.setup_of hc hs hS⟩

section
variable {nz : ℕ} {zs : List Int} {fc : Fc} {q : Axis → Int}

theorem lattice_cards {x : Deck.Card} (h : x ∈ (lattice nz zs).file.cards) : x = .wf "pulse" ∨ ∃ z, x = feed z := by
  have : x ∈ Deck.Card.wf "pulse" :: zs.map feed := h
  rcases List.mem_cons.1 this with h | h
  · exact Or.inl h
  · obtain ⟨z, -, rfl⟩ := List.mem_map.1 h
    exact Or.inr ⟨z, rfl⟩

theorem lattice_blocks : OrdinaryBlocks (lattice nz zs).file.cards := by
  intro b hb; rcases lattice_cards hb with h | ⟨z, h⟩ <;> cases h

theorem lattice_resistor {i j l : Int} : ∀ x ∈ (lattice nz zs).file.cards, ∀ s, ¬ ResistorOf (lattice nz zs) fc i j l x s := by
  rintro x hx s ⟨_, b', n, tag, w, size, delay, r, d, rfl, ht, -⟩
  rcases lattice_cards hx with h | ⟨z, h⟩
  · cases h
  · injection h with _ _ _ h4
    have e : lumpedAxis C73.jz.spell = none := rfl
    rw [h4, e] at ht
    cases ht

theorem lattice_vacuum {i j l : Int} : MadeOf (lattice nz zs) fc i j l .vacuum := by
  refine .vacuum lattice_resistor ?_ ?_ ?_ ?_
  · rintro ⟨f, hf, -⟩; cases f <;> cases hf
  · rintro x hx s ⟨_, _, rfl, -⟩; rcases lattice_cards hx with h | ⟨z, h⟩ <;> cases h
  · rintro x hx s ⟨_, rfl, -⟩; rcases lattice_cards hx with h | ⟨z, h⟩ <;> cases h
  · rintro x hx s ⟨_, _, _, rfl, -⟩; rcases lattice_cards hx with h | ⟨z, h⟩ <;> cases h

theorem lattice_plain (k : Consts) {J : Junk} {R : Setup.Run} (hs : setup k J (lattice nz zs) = some R) : PlainModel k (lattice nz zs) R.dt := by
  have nomur : ∀ f, (lattice nz zs).file.bt f ≠ .mur := by intro f hf; cases f <;> cases hf
  refine ⟨fun fc q _ => ⟨?_, ?_⟩, ?_, ?_, fun f a q hq => absurd hq.mur (nomur f), ?_, fun f hf => absurd hf (nomur f), fun f g hf => absurd hf (nomur f), ?_,
    fun _ _ _ => lattice_resistor, ?_⟩
  · intro b pr hb; rcases lattice_cards hb with h | ⟨z, h⟩ <;> cases h
  · intro b pr hb; rcases lattice_cards hb with h | ⟨z, h⟩ <;> cases h
  · rintro fc q - x hx e s u poles ⟨c, mask, rfl, -⟩
    rcases lattice_cards hx with h | ⟨z, h⟩ <;> cases h
  · rintro fc q - x hx ⟨m, b', n, w, size, delay, r, t, rfl, ht, -, -, hard⟩
    rcases lattice_cards hx with h | ⟨z, h⟩
    · cases h
    · injection h with _ _ _ h4
      have e : t = C73.jz := C27.spell_injective ht C73.jz_valid h4
      subst e
      cases hard
  · rintro a q ⟨-, f, g, -, hf, -⟩; exact absurd hf (nomur f)
  · intro b hb
    cases b
    · show (2 : Int) ≤ 8; norm_num
    · cases hb
    · cases hb
  · intro fc q hq s hst
    rw [C64.made_unique hs lattice_blocks hst lattice_vacuum]
    exact ⟨trivial, fun _ _ _ _ h => by cases h⟩

open Classical in
theorem feed_source (X : Experiment) (hw : X.waves = fun _ => .builtin ⟨.gaussian, 1, -1, -1, -1⟩) (T t : ℝ) (fc : Fc) (q : Axis → Int) (z : Int) :
    addedField X T t fc q (feed z) = 0 ∧ addedCurrent X T t fc q (feed z) =
      if fc = .ez ∧ q .x = 4 ∧ q .y = 4 ∧ q .z = z then waveValue T (.builtin ⟨.gaussian, 1, -1, -1, -1⟩) t else 0 := by
  have ht := tagOf_spell C73.jz_valid
  have pr : ¬ C73.jz.prescribes 0 := fun h => h
  have co : C73.jz.component = .ez := rfl
  have he : density X C73.jz (mkBox 4 4 4 4 z (z + 1)) 1 0 = 1 := rfl
  simp only [feed, addedField, addedCurrent, ht, pr, co, he, hw, and_false, if_false, not_false_eq_true, and_true, one_mul, sub_zero, true_and]
  by_cases hf : fc = .ez
  · subst hf
    have e : SampleIn (mkBox 4 4 4 4 z (z + 1)) .ez (q .x) (q .y) (q .z) ↔ (q .x = 4 ∧ q .y = 4 ∧ q .z = z) := by
      simp [SampleIn, pos2, mkBox]; omega
    simp only [e, true_and]
  · rw [if_neg (fun h => hf h.1.symm), if_neg (fun h => hf h.1)]

end

theorem lattice_repeats {k : Consts} {J J' : Junk} {R S : Setup.Run} (hR : setup k J (lattice 4 [2]) = some R) (hS : setup k J' (lattice 8 [3, 7]) = some S) (T : ℝ) :
    Repeats (lattice 4 [2]) (lattice 8 [3, 7]) T .z 1 := by
  refine ⟨⟨rfl, rfl, rfl, rfl⟩, ⟨2, rfl⟩, fun i j _ _ _ _ _ => by rw [C73.unit_cell rfl, C73.unit_cell rfl],
    ⟨by rw [C73.unit_cell rfl, C73.unit_cell rfl], by rw [C73.unit_cell rfl, C73.unit_cell rfl]⟩, ⟨?_, ?_, fun f _ => ⟨rfl, rfl, rfl⟩⟩, ?_, ?_⟩
  · intro b hb; cases b
    · rfl
    · rfl
    · exact absurd rfl hb
  · intro b hb i; rw [C73.unit_cell rfl, C73.unit_cell rfl]
  · intro fc q r _ _ _ st hst
    rw [C64.made_unique hR lattice_blocks hst lattice_vacuum]
    exact lattice_vacuum
  · intro fc q r hq hr hqr t
    have s0 : ∀ X : Experiment, addedField X T t fc q (.wf "pulse") = 0 ∧ addedCurrent X T t fc q (.wf "pulse") = 0 ∧
        addedField X T t fc r (.wf "pulse") = 0 ∧ addedCurrent X T t fc r (.wf "pulse") = 0 := fun X => ⟨rfl, rfl, rfl, rfl⟩
    obtain ⟨a1, a2⟩ := feed_source (lattice 4 [2]) rfl T t fc q 2
    obtain ⟨b1, b2⟩ := feed_source (lattice 8 [3, 7]) rfl T t fc r 3
    obtain ⟨c1, c2⟩ := feed_source (lattice 8 [3, 7]) rfl T t fc r 7
    have A : sourceField (lattice 4 [2]) T t fc q = addedField (lattice 4 [2]) T t fc q (feed 2) ∧
        sourceCurrent (lattice 4 [2]) T t fc q = addedCurrent (lattice 4 [2]) T t fc q (feed 2) := by
      unfold sourceField sourceCurrent
      show ([addedField _ T t fc q (.wf "pulse"), addedField _ T t fc q (feed 2)] : List ℝ).sum = _ ∧
        ([addedCurrent _ T t fc q (.wf "pulse"), addedCurrent _ T t fc q (feed 2)] : List ℝ).sum = _
      rw [(s0 _).1, (s0 _).2.1]
      simp only [List.sum_cons, List.sum_nil, zero_add, add_zero]
      exact ⟨trivial, trivial⟩
    have B : sourceField (lattice 8 [3, 7]) T t fc r = addedField (lattice 8 [3, 7]) T t fc r (feed 3) + addedField (lattice 8 [3, 7]) T t fc r (feed 7) ∧
        sourceCurrent (lattice 8 [3, 7]) T t fc r = addedCurrent (lattice 8 [3, 7]) T t fc r (feed 3) + addedCurrent (lattice 8 [3, 7]) T t fc r (feed 7) := by
      unfold sourceField sourceCurrent
      show ([addedField _ T t fc r (.wf "pulse"), addedField _ T t fc r (feed 3), addedField _ T t fc r (feed 7)] : List ℝ).sum = _ ∧
        ([addedCurrent _ T t fc r (.wf "pulse"), addedCurrent _ T t fc r (feed 3), addedCurrent _ T t fc r (feed 7)] : List ℝ).sum = _
      rw [(s0 _).2.2.1, (s0 _).2.2.2]
      simp only [List.sum_cons, List.sum_nil, zero_add, add_zero]
      exact ⟨trivial, trivial⟩
    rw [A.1, A.2, B.1, B.2, a1, a2, b1, b2, c1, c2]
    refine ⟨by ring, ?_⟩
    obtain ⟨h1, h2⟩ := hqr
    have ex := h1 .x (by decide)
    have ey := h1 .y (by decide)
    have dv : (4 : Int) ∣ r .z - q .z - 1 := h2
    rw [ex, ey]
    by_cases hc : fc = .ez ∧ q .x = 4 ∧ q .y = 4
    · obtain ⟨hc0, hc1, hc2⟩ := hc
      subst hc0
      have iq : SampleIn (mkBox 0 8 0 8 0 4) .ez (q .x) (q .y) (q .z) := hq
      have ir : SampleIn (mkBox 0 8 0 8 0 8) .ez (r .x) (r .y) (r .z) := hr
      simp [SampleIn, pos2, mkBox] at iq ir
      have zq : 0 ≤ q .z ∧ q .z < 4 := by omega
      have zr : 0 ≤ r .z ∧ r .z < 8 := by omega
      simp only [hc1, hc2, true_and]
      by_cases h2 : q .z = 2
      · have : r .z = 3 ∨ r .z = 7 := by omega
        rcases this with e | e <;> rw [e, h2] <;> norm_num
      · rw [if_neg h2, if_neg (by omega), if_neg (by omega), add_zero]
    · rw [if_neg (fun h => hc ⟨h.1, h.2.1, h.2.2.1⟩), if_neg (fun h => hc ⟨h.1, h.2.1, h.2.2.1⟩), if_neg (fun h => hc ⟨h.1, h.2.1, h.2.2.1⟩), add_zero]

/-- In every step the field above the current of the small model is the field above both currents of the large one, across the seam too. -/
example (k : Consts) (hk : Physical k) (he : 0 < k.eta0) (hb : 1 < k.big) (J J' : Junk) : ∃ R S, setup k J (lattice 4 [2]) = some R ∧
    setup k J' (lattice 8 [3, 7]) = some S ∧ ∀ n,
    value R n .ez (there 6 4 3) = value S n .ez (there 6 4 4) ∧ value R n .ez (there 6 4 3) = value S n .ez (there 6 4 0) ∧
    value R n .hx (there 6 4 0) = value S n .hx (there 6 4 5) ∧ value R n .ez (there 11 4 3) = value S n .ez (there 11 4 0) := by
  obtain ⟨R, hR⟩ := lattice_setup k J (Or.inl ⟨rfl, rfl⟩)
  obtain ⟨S, hS⟩ := lattice_setup k J' (Or.inr ⟨rfl, rfl⟩)
  have hdt : S.dt = R.dt := C73.unit_step hb hS hR rfl rfl rfl
  have hT : 0 < R.dt := by
    refine C64.step_positive hk hR (by show (0 : ℝ) < 0.5; norm_num) ?_ ?_
    · intro a m _ _; show ((m : Int) : ℝ) < ((m + 1 : Int) : ℝ); push_cast; linarith
    · intro a m _ _
      show ((m + 1 : Int) : ℝ) - ((m : Int) : ℝ) < k.big
      push_cast; linarith
  have g1 : ∀ nz zs, GoodLayers k (lattice nz zs) := fun nz zs => ⟨he, fun b i => by rw [C73.unit_cell rfl]; exact one_pos, fun f _ => by simp [lattice]⟩
  refine ⟨R, S, hR, hS, fun n => ?_⟩
  obtain ⟨w1, w2⟩ := copies_alike hk hT hdt hR lattice_blocks (g1 _ _) (lattice_plain k hR) hS lattice_blocks (g1 _ _) (lattice_plain k hS) (lattice_repeats hR hS _) n
  have cp : ∀ x y z z' : Int, (4 : Int) ∣ z' - z - 1 → CopyOf (cellsOf (lattice 4 [2]).file .z) .z 1 (there x y z) (there x y z') := by
    intro x y z z' hz
    refine ⟨fun b hb => ?_, hz⟩
    cases b
    · rfl
    · rfl
    · exact absurd rfl hb
  refine ⟨w1 .z _ _ ?_ ?_ (cp 6 4 3 4 (by norm_num)), w1 .z _ _ ?_ ?_ (cp 6 4 3 0 (by norm_num)), w2 .x _ _ ?_ ?_ (cp 6 4 0 5 (by norm_num)) ?_,
    w1 .z _ _ ?_ ?_ (cp 11 4 3 0 (by norm_num))⟩
  · simp [OnGridBox, SampleIn, gridBox, pos2, meshBox, mkBox, lattice, latticeEnds, there, Axis.e, Face.isLo]
  · simp [OnGridBox, SampleIn, gridBox, pos2, meshBox, mkBox, lattice, latticeEnds, there, Axis.e, Face.isLo]
  · simp [OnGridBox, SampleIn, gridBox, pos2, meshBox, mkBox, lattice, latticeEnds, there, Axis.e, Face.isLo]
  · simp [OnGridBox, SampleIn, gridBox, pos2, meshBox, mkBox, lattice, latticeEnds, there, Axis.e, Face.isLo]
  · simp [OnGridBox, SampleIn, gridBox, pos2, meshBox, mkBox, lattice, latticeEnds, there, Axis.h, Face.isLo]
  · simp [OnGridBox, SampleIn, gridBox, pos2, meshBox, mkBox, lattice, latticeEnds, there, Axis.h, Face.isLo]
  · rintro ⟨f, hf, hp⟩
    cases f <;> simp [lattice, latticeEnds] at hf <;>
      simp [OnPlane, samplePos, gridBox, pos2, meshBox, mkBox, lattice, latticeEnds, there, Axis.h, Face.isLo, Face.axis] at hp
  · simp [OnGridBox, SampleIn, gridBox, pos2, meshBox, mkBox, lattice, latticeEnds, there, Axis.e, Face.isLo]
  · simp [OnGridBox, SampleIn, gridBox, pos2, meshBox, mkBox, lattice, latticeEnds, there, Axis.e, Face.isLo]

end Vulture.C85
