import Verif.Props.C72_Maxwell
/- C72: two files to which the theorems apply. -/
set_option linter.unusedSimpArgs false
set_option linter.unusedVariables false
namespace Vulture.C72
open Vulture Spec Setup Deck C64

instance (b : BBox) (fc : Fc) (q : Axis → Int) : Decidable (Near b fc q) := by unfold Near; infer_instance

theorem bench_range : OrdinaryBlocks bench.file.cards := by
  intro c hc
  have := bench_mem hc
  simp only [benchCards, List.mem_cons, List.not_mem_nil, or_false, reduceCtorEq, false_or, Deck.Card.mb.injEq] at this
  have hq : ∀ (t : String) (q : Nat), t.toList.head? ≠ some '_' → t ≠ String.ofList (Names.resistName q) := by
    rintro t q h rfl
    exact h (by rw [String.toList_ofList]; rfl)
  rcases this with rfl | rfl
  · exact ⟨le_refl 8, fun q => hq "wood" q (by decide +kernel)⟩
  · exact ⟨le_refl 8, fun q => hq "wax" q (by decide +kernel)⟩

theorem bench_step {k : Consts} {J : Junk} {R : Setup.Run} (hk : Physical k) (hb : 1 < k.big) (hR : setup k J bench = some R) : 0 < R.dt := by
  refine step_positive hk hR (show (0 : ℝ) < 0.5 by norm_num) ?_ ?_
  · intro a m _ _; show (m : ℝ) < ((m + 1 : Int) : ℝ); push_cast; linarith
  · intro a m _ _; show ((m + 1 : Int) : ℝ) - (m : ℝ) < k.big; push_cast; linarith

def there (i j l : Int) : Axis → Int := fun a => match a with | .x => i | .y => j | .z => l

theorem bench_no_debye (fc : Fc) (q : Axis → Int) : ∀ x ∈ bench.file.cards, ∀ e s u poles, ¬ DebyeCard bench fc q x e s u poles := by
  rintro x hx e s u poles ⟨c, mask, rfl, -, -, hm⟩
  have := bench_mem hx
  simp only [benchCards, List.mem_cons, List.not_mem_nil, or_false, reduceCtorEq, false_or, Deck.Card.mb.injEq] at this
  obtain ⟨nm, hnm⟩ : ∃ nm, nm = c.medium := ⟨_, rfl⟩
  rw [← hnm] at hm
  cases hm with
  | card hm =>
    have := bench_mem hm
    simp [benchCards] at this

theorem bench_no_sheet (fc : Fc) (q : Axis → Int) : ClearOfSheets bench fc q := by
  intro c pr hc hb
  obtain ⟨nm, hnm⟩ : ∃ nm, nm = c.boundary := ⟨_, rfl⟩
  rw [← hnm] at hb
  exfalso
  cases hb with
  | card hb =>
    have := bench_mem hb
    simp [benchCards] at this

theorem bench_no_wave (fc : Fc) (q : Axis → Int) : ClearOfWaves bench fc q := by
  intro p t hp
  have := bench_mem hp
  simp [benchCards] at this

theorem bench_source {m b n tag w size delay r} (h : Deck.Card.ex m b n tag w size delay r ∈ bench.file.cards) :
    b = mkBox 3 3 2 2 1 2 ∧ tag = ['V', 'R', 'Z'] ∧ r = 50 := by
  have := bench_mem h
  simp only [benchCards, List.mem_cons, List.not_mem_nil, or_false, reduceCtorEq, false_or, Deck.Card.ex.injEq] at this
  exact ⟨this.2.1, this.2.2.2.1, this.2.2.2.2.2.2.2⟩

def vrz : Tag := ⟨false, .VR, .z, none⟩

theorem bench_currents (fc : Fc) (q : Axis → Int) : OnlyCurrents bench fc q := by
  intro m b n tag w size delay r hx t ht hs hc hq
  obtain ⟨e1, e2, e3⟩ := bench_source hx
  have e : t = vrz := C27.spell_injective ht (by decide) (by rw [hs, e2]; rfl)
  rw [e, e3]
  exact ⟨rfl, by show (1 : ℝ) / 100 < 50; norm_num⟩

theorem bench_no_mur (fc : Fc) (q : Axis → Int) : ¬ OnMurSide bench fc q := by
  rintro ⟨f, hf, -⟩
  revert hf
  cases f <;> decide

/-- On the resistive source: the law of matter of the conductance of the resistor, with the current of the source. -/
example (k : Consts) (hk : Physical k) (hb : 1 < k.big) (J : Junk) : ∃ R, setup k J bench = some R ∧ ∀ n,
    AmpereWithCurrent R.dt (1 * k.eps0) (1 / 50) (value R n .ez (there 3 2 1)) (value R (n + 1) .ez (there 3 2 1))
      (rotH bench (value R n) .z (there 3 2 1)) (totalCurrent bench R.dt (n * R.dt) .ez (there 3 2 1)) := by
  obtain ⟨R, hR⟩ := bench_setup k J
  refine ⟨R, hR, fun n => ?_⟩
  exact ampere (a := .z) (q := there 3 2 1) hk hR bench_range (bench_step hk hb hR) (by decide) (bench_no_mur _ _) (bench_no_debye _ _)
    (bench_no_sheet _ _) (bench_no_wave _ _) (bench_currents _ _) bench_made.1 n le_rfl (by norm_num) le_rfl

/-- Faraday's law in vacuum. -/
example (k : Consts) (hk : Physical k) (hb : 1 < k.big) (J : Junk) : ∃ R, setup k J bench = some R ∧ ∀ n,
    FaradayWithCurrent R.dt (1 * k.mu0) (value R n .hz (there 5 4 3)) (value R (n + 1) .hz (there 5 4 3))
      (rotE bench (value R (n + 1)) .z (there 5 4 3)) (totalCurrent bench R.dt ((n + 1 / 2) * R.dt) .hz (there 5 4 3)) := by
  obtain ⟨R, hR⟩ := bench_setup k J
  refine ⟨R, hR, fun n => ?_⟩
  exact faraday (a := .z) (q := there 5 4 3) hk hR bench_range (bench_step hk hb hR) (by decide)
    (bench_no_sheet _ _) (bench_no_wave _ _) (bench_currents _ _) bench_made.2.2.2.2.2.2 trivial n

/-! ### A block of a dispersive medium -/

noncomputable def glassCards : List Deck.Card :=
  [.mt "glass" (.debye 2 0 1 [⟨1, -1⟩]), .wf "pulse", .mb ⟨8, mkBox 1 3 1 3 0 2, "glass", "111111".toList⟩,
   .ex 10 (mkBox 4 4 2 2 1 2) "feed" ['J', 'Z'] "pulse" 1 0 0]
noncomputable def glass : Experiment :=
  ⟨⟨5, 5, 3, fun f => if f = .xlo then .pml else .pec, fun _ => 3, glassCards, false⟩, fun _ i => (i : ℝ), 0.5,
    fun _ => ⟨4, 1, -1, 1⟩, fun _ => .builtin ⟨.gaussian, 1, -1, -1, -1⟩⟩

theorem glass_mem {x : Deck.Card} (h : x ∈ glass.file.cards) : x ∈ glassCards := h

theorem glass_setup (k : Consts) (J : Junk) : ∃ R, setup k J glass = some R := by
  obtain ⟨s, hs, hp⟩ : ∃ s, glass.file.stored = some s ∧ s.pws = [] := by
    have e : glass.file.stored = Deck.read (State.init (mkBox 0 5 0 5 0 3)) glassCards := rfl
    rw [e, glassCards]
    rw [C47.read_cons, C47.card_mt (by decide +kernel), Option.bind_some]
    rw [C47.read_cons, C47.card_wf (by decide +kernel), Option.bind_some]
    rw [C47.read_cons, C47.card_mb (m := .debye 2 0 1 [⟨1, -1⟩]) (by rfl) (by decide +kernel), Option.bind_some]
    rw [C47.read_cons]
    have hl : Source.lookup ['J', 'Z'] = some ⟨.ecurrDens, .z, none, .ez, true⟩ := by decide +kernel
    simp only [State.card, hl]
    rw [if_pos (by decide +kernel)]
    exact ⟨_, rfl, rfl⟩
  obtain ⟨c, hc⟩ : ∃ c, initExternalSurfaceParameters glass.file.cells glass.file.bt glass.file.layers = some c :=
    Option.isSome_iff_exists.1 (by
      show (initExternalSurfaceParameters (fun a => match a with | .x => 5 | .y => 5 | .z => 3) (fun f => if f = .xlo then BType.pml else .pec) (fun _ => 3)).isSome = true
      decide +kernel)
  have hS : ∃ S, (fileOf k J glass c).sim (Setup.de k J glass c) (Setup.dh k J glass c) = some S := by
    unfold File.sim
    have a1 : (fileOf k J glass c).stored = some s := hs
    have a2 : initExternalSurfaceParameters (fileOf k J glass c).cells (fileOf k J glass c).bt (fileOf k J glass c).layers = some c := hc
    rw [a1, Option.bind_some, a2, Option.bind_some, hp]
    exact ⟨_, rfl⟩
  obtain ⟨S, hS⟩ := hS
  exact ⟨_, Scaling.setup_of hc hs hS⟩

theorem glass_range : OrdinaryBlocks glass.file.cards := by
  intro c hc
  have := glass_mem hc
  simp only [glassCards, List.mem_cons, List.not_mem_nil, or_false, reduceCtorEq, false_or, Deck.Card.mb.injEq] at this
  subst this
  refine ⟨le_refl 8, ?_⟩
  intro q h
  have : ("glass".toList).head? ≠ some '_' := by decide +kernel
  rw [show "glass" = String.ofList (Names.resistName q) from h] at this
  exact this (by rw [String.toList_ofList]; rfl)

theorem glass_mask : Includes (⟨8, mkBox 1 3 1 3 0 2, "glass", "111111".toList⟩ : MBCard) fun f => (63 : Nat).testBit (maskPlace f) :=
  bench_mask 63 [true, true, true, true, true, true] (by decide) (by decide) (by decide) _ (by decide +kernel)

theorem glass_named : MediumNamed glass.file.cards "glass" (.debye 2 0 1 [⟨1, -1⟩]) := .card (by simp [glass, glassCards])

theorem glass_made : MadeOf glass .ez 2 2 1 (.dispersive 2 0 1 [⟨1, -1⟩]) := by
  have hr : BlockOf glass .ez 2 2 1 (.mb ⟨8, mkBox 1 3 1 3 0 2, "glass", "111111".toList⟩) (.dispersive 2 0 1 [⟨1, -1⟩]) :=
    ⟨_, _, .debye 2 0 1 [⟨1, -1⟩], rfl, glass_mask, ⟨by decide, by decide +kernel⟩, glass_named, rfl⟩
  refine .block ?_ ?_ ?_ ?_ ⟨[_, _], [_], rfl, ⟨_, hr⟩, ?_⟩ hr
  · rintro x hx s ⟨q, b, n, tag, w, size, delay, r, d, rfl, -, hc, -⟩
    have := glass_mem hx
    simp only [glassCards, List.mem_cons, List.not_mem_nil, or_false, reduceCtorEq, false_or, Deck.Card.ex.injEq] at this
    rw [this.2.1] at hc
    exact absurd hc.1 (by decide)
  · rintro ⟨f, hb, hf⟩
    cases f <;> first | (have : BType.pml = BType.pec := hb; cases this) | (revert hf; decide)
  · rintro x hx s ⟨c, b, rfl, -⟩
    have := glass_mem hx
    simp [glassCards] at this
  · rintro x hx s ⟨c, rfl, -⟩
    have := glass_mem hx
    simp [glassCards] at this
  · rintro y hy ⟨s, c, mask, m, rfl, -⟩
    simp at hy

theorem glass_one : OneDebyeCard glass .ez (there 2 2 1) := by
  refine ⟨[_, _], _, [_], rfl, ⟨2, 0, 1, [⟨1, -1⟩], _, _, rfl, glass_mask, ⟨by decide, by decide +kernel⟩, glass_named⟩, ?_⟩
  rintro y hy e s u poles ⟨c, mask, rfl, -⟩
  simp at hy

/-- The fields in the dispersive block obey its law. -/
example (k : Consts) (hk : Physical k) (hb : 1 < k.big) (J : Junk) : ∃ R, setup k J glass = some R ∧
    ∃ P : ℕ → ℕ → ℂ, (∀ p, P 0 p = 0) ∧ ∀ n,
      PoleEquation R.dt k.eps0 ⟨1, -1⟩ (P n 0) (P (n + 1) 0) (value R n .ez (there 2 2 1)) (value R (n + 1) .ez (there 2 2 1)) ∧
      DispersiveAmpere R.dt k.eps0 2 0 (value R n .ez (there 2 2 1)) (value R (n + 1) .ez (there 2 2 1)) (rotH glass (value R n) .z (there 2 2 1))
        [P n 0] [P (n + 1) 0] := by
  obtain ⟨R, hR⟩ := glass_setup k J
  have hT : 0 < R.dt := by
    refine step_positive hk hR (show (0 : ℝ) < 0.5 by norm_num) ?_ ?_
    · intro a m _ _; show (m : ℝ) < ((m + 1 : Int) : ℝ); push_cast; linarith
    · intro a m _ _; show ((m + 1 : Int) : ℝ) - (m : ℝ) < k.big; push_cast; linarith
  have he0 : 0 < k.eps0 := by rw [hk.eps0]; have := hk.c0; have := hk.mu0; positivity
  have h1 : ¬ OnMurSide glass .ez (there 2 2 1) := by
    rintro ⟨f, hf, -⟩
    revert hf
    show (if f = .xlo then BType.pml else .pec) = .mur → False
    cases f <;> decide
  have h2 : ClearOfSheets glass .ez (there 2 2 1) := by
    intro c pr hc
    have := glass_mem hc
    simp [glassCards] at this
  have h3 : ClearOfWaves glass .ez (there 2 2 1) := by
    intro p t hp
    have := glass_mem hp
    simp [glassCards] at this
  have h4 : NoSource glass .ez (there 2 2 1) := by
    intro m b n tag w size delay r hx t ht hs hc
    have := glass_mem hx
    simp only [glassCards, List.mem_cons, List.not_mem_nil, or_false, reduceCtorEq, false_or, Deck.Card.ex.injEq] at this
    rw [this.2.1]
    decide
  have h5 : InRange k R.dt (.dispersive 2 0 1 [⟨1, -1⟩]) := by
    refine ⟨by norm_num, le_rfl, le_rfl, ?_⟩
    have e : (k.eps0 * 1 / (1 - R.dt / 2 * (-1)) : ℂ) = ((k.eps0 / (1 + R.dt / 2) : ℝ) : ℂ) := by push_cast; congr 1 <;> ring
    simp only [List.map_cons, List.map_nil, List.sum_cons, List.sum_nil, add_zero]
    rw [e, Complex.ofReal_re]
    positivity
  have h6 : ∀ p ∈ [(⟨1, -1⟩ : DPole)], p.pole.re ≤ 0 := by
    intro p hp
    simp only [List.mem_singleton] at hp
    subst hp
    simp
  obtain ⟨P, h0, hP⟩ := dispersive_ampere (a := .z) (q := there 2 2 1) hk hR glass_range hT (by decide) h1 glass_one h2 h3 h4 glass_made h5 h6
  exact ⟨R, hR, P, h0, fun n => ⟨(hP n).1 0 (by simp), (hP n).2⟩⟩

end Vulture.C72
