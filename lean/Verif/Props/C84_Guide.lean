import Verif.Props.C84_Plates
/- C84: two parallel-plate models to which the theorems apply. -/
set_option linter.unusedSimpArgs false
set_option linter.unusedVariables false
set_option linter.unreachableTactic false
set_option linter.unusedTactic false
namespace Vulture.C84
open Vulture Spec Setup Deck CavityLemmas Scaling C72

/-- Unit cells, and one source of an electric field. -/
def pipeCards (b : BBox) (tag : List Char) : List Deck.Card := [.wf "pulse", .ex 10 b "source" tag "pulse" 1 0 0]
noncomputable def pipe (nx ny nz : ℕ) (bt : Face → BType) (b : BBox) (tag : List Char) : Experiment :=
  ⟨⟨nx, ny, nz, bt, fun _ => 6, pipeCards b tag, false⟩, fun _ i => (i : ℝ), 0.5,
    fun _ => ⟨4, 1, -1, 1⟩, fun _ => .builtin ⟨.gaussian, 1, -1, -1, -1⟩⟩

/-- The manual's model: a row of 20 cells along x, metal plates below and above (y), magnetic sides (z), layers at both ends. -/
def guideEnds : Face → BType
  | .xlo | .xhi => .pml
  | .ylo | .yhi => .pec
  | .zlo | .zhi => .pmc
def guideBox : BBox := mkBox 5 5 0 1 0 1
noncomputable def guide : Experiment := pipe 20 1 1 guideEnds guideBox ['E', 'Y']

/-- The same line along y, two cells between the plates and three between periodic sides. -/
def wideEnds : Face → BType
  | .xlo | .xhi => .pec
  | .ylo | .yhi => .pml
  | .zlo | .zhi => .periodic
def wideBox : BBox := mkBox 0 2 5 5 0 3
noncomputable def wide : Experiment := pipe 2 20 3 wideEnds wideBox ['E', 'X']

theorem guide_setup (k : Consts) (J : Junk) : ∃ R, setup k J guide = some R := by
  have hl : Source.lookup ['E', 'Y'] = some ⟨.efield, .y, none, .ey, true⟩ := by decide +kernel
  obtain ⟨s, hs, hp⟩ : ∃ s, guide.file.stored = some s ∧ s.pws = [] := by
    have e : guide.file.stored = Deck.read (State.init (mkBox 0 20 0 1 0 1)) (pipeCards guideBox ['E', 'Y']) := rfl
    rw [e, pipeCards, C47.read_cons, C47.card_wf (by rfl), Option.bind_some, C47.read_cons]
    simp only [State.card, hl]
    rw [if_pos (by decide +kernel)]; exact ⟨_, rfl, rfl⟩
  obtain ⟨cf, hc⟩ : ∃ cf, initExternalSurfaceParameters guide.file.cells guide.file.bt guide.file.layers = some cf :=
    Option.isSome_iff_exists.1 (by
      show (initExternalSurfaceParameters (fun a => match a with | .x => 20 | .y => 1 | .z => 1) guideEnds (fun _ => 6)).isSome = true
      decide +kernel)
  have hS : ∃ S, (fileOf k J guide cf).sim (Setup.de k J guide cf) (Setup.dh k J guide cf) = some S := by
    unfold File.sim
    have a1 : (fileOf k J guide cf).stored = some s := hs
    have a2 : initExternalSurfaceParameters (fileOf k J guide cf).cells (fileOf k J guide cf).bt (fileOf k J guide cf).layers = some cf := hc
    rw [a1, Option.bind_some, a2, Option.bind_some, hp]
    exact ⟨_, rfl⟩
  obtain ⟨S, hS⟩ := hS
  exact ⟨_, Scaling.setup_of hc hs hS⟩

theorem wide_setup (k : Consts) (J : Junk) : ∃ R, setup k J wide = some R := by
  have hl : Source.lookup ['E', 'X'] = some ⟨.efield, .x, none, .ex, true⟩ := by decide +kernel
  obtain ⟨s, hs, hp⟩ : ∃ s, wide.file.stored = some s ∧ s.pws = [] := by
    have e : wide.file.stored = Deck.read (State.init (mkBox 0 2 0 20 0 3)) (pipeCards wideBox ['E', 'X']) := rfl
    rw [e, pipeCards, C47.read_cons, C47.card_wf (by rfl), Option.bind_some, C47.read_cons]
    simp only [State.card, hl]
    rw [if_pos (by decide +kernel)]; exact ⟨_, rfl, rfl⟩
  obtain ⟨cf, hc⟩ : ∃ cf, initExternalSurfaceParameters wide.file.cells wide.file.bt wide.file.layers = some cf :=
    Option.isSome_iff_exists.1 (by
      show (initExternalSurfaceParameters (fun a => match a with | .x => 2 | .y => 20 | .z => 3) wideEnds (fun _ => 6)).isSome = true
      decide +kernel)
  have hS : ∃ S, (fileOf k J wide cf).sim (Setup.de k J wide cf) (Setup.dh k J wide cf) = some S := by
    unfold File.sim
    have a1 : (fileOf k J wide cf).stored = some s := hs
    have a2 : initExternalSurfaceParameters (fileOf k J wide cf).cells (fileOf k J wide cf).bt (fileOf k J wide cf).layers = some cf := hc
    rw [a1, Option.bind_some, a2, Option.bind_some, hp]
    exact ⟨_, rfl⟩
  obtain ⟨S, hS⟩ := hS
  exact ⟨_, Scaling.setup_of hc hs hS⟩

section
variable {nx ny nz : ℕ} {bt : Face → BType} {b : BBox} {tag : List Char} {fc : Fc} {q : Axis → Int}

theorem pipe_cards {x : Deck.Card} (h : x ∈ (pipe nx ny nz bt b tag).file.cards) : x = .wf "pulse" ∨ x = .ex 10 b "source" tag "pulse" 1 0 0 := by
  have : x ∈ pipeCards b tag := h
  simpa [pipeCards] using this

theorem pipe_blocks : OrdinaryBlocks (pipe nx ny nz bt b tag).file.cards := by
  intro b hb; rcases pipe_cards hb with h | h <;> cases h
theorem pipe_sheets : ClearOfSheets (pipe nx ny nz bt b tag) fc q := by
  intro b pr hb; rcases pipe_cards hb with h | h <;> cases h
theorem pipe_waves : ClearOfWaves (pipe nx ny nz bt b tag) fc q := by
  intro b pr hb; rcases pipe_cards hb with h | h <;> cases h
theorem pipe_debye : ∀ x ∈ (pipe nx ny nz bt b tag).file.cards, ∀ e s u poles, ¬ DebyeCard (pipe nx ny nz bt b tag) fc q x e s u poles := by
  rintro x hx e s u poles ⟨c, mask, rfl, -⟩
  rcases pipe_cards hx with h | h <;> cases h

/-- The tag of a source of an electric field. -/
def fieldTag (a : Axis) : Tag := ⟨false, .E, a, none⟩
theorem fieldTag_valid (a : Axis) : (fieldTag a).Valid := by cases a <;> decide

theorem pipe_soft {a : Axis} : ∀ x ∈ (pipe nx ny nz bt b (fieldTag a).spell).file.cards, ¬ Overwrites x fc q := by
  rintro x hx ⟨m, b', n, w, size, delay, r, t, rfl, ht, -, -, hard⟩
  rcases pipe_cards hx with h | h
  · cases h
  · injection h with _ _ _ h4
    have e : t = fieldTag a := C27.spell_injective ht (fieldTag_valid a) h4
    subst e
    cases hard

theorem pipe_resistor {a : Axis} {i j l : Int} :
    ∀ x ∈ (pipe nx ny nz bt b (fieldTag a).spell).file.cards, ∀ s, ¬ ResistorOf (pipe nx ny nz bt b (fieldTag a).spell) fc i j l x s := by
  rintro x hx s ⟨_, b', n, tag, w, size, delay, r, d, rfl, ht, -⟩
  rcases pipe_cards hx with h | h
  · cases h
  · injection h with _ _ _ h4
    have e : lumpedAxis (fieldTag a).spell = none := by cases a <;> rfl
    rw [h4, e] at ht
    cases ht

theorem pipe_made {a : Axis} {i j l : Int} : (OnPecSide (pipe nx ny nz bt b (fieldTag a).spell) fc i j l ∧ MadeOf (pipe nx ny nz bt b (fieldTag a).spell) fc i j l .metal) ∨
    (¬ OnPecSide (pipe nx ny nz bt b (fieldTag a).spell) fc i j l ∧ MadeOf (pipe nx ny nz bt b (fieldTag a).spell) fc i j l .vacuum) := by
  by_cases h : OnPecSide (pipe nx ny nz bt b (fieldTag a).spell) fc i j l
  · exact Or.inl ⟨h, .side pipe_resistor h⟩
  · refine Or.inr ⟨h, .vacuum pipe_resistor h ?_ ?_ ?_⟩
    · rintro x hx s ⟨_, _, rfl, -⟩; rcases pipe_cards hx with h | h <;> cases h
    · rintro x hx s ⟨_, rfl, -⟩; rcases pipe_cards hx with h | h <;> cases h
    · rintro x hx s ⟨_, _, _, rfl, -⟩; rcases pipe_cards hx with h | h <;> cases h

open Classical in
theorem pipe_source {a : Axis} (T t : ℝ) (fc : Fc) (q : Axis → Int) :
    sourceField (pipe nx ny nz bt b (fieldTag a).spell) T t fc q =
      (if a.e = fc ∧ SampleIn b fc (q .x) (q .y) (q .z) then waveValue T (.builtin ⟨.gaussian, 1, -1, -1, -1⟩) t else 0) ∧
    sourceCurrent (pipe nx ny nz bt b (fieldTag a).spell) T t fc q = 0 := by
  have ht := tagOf_spell (fieldTag_valid a)
  have pr : (fieldTag a).prescribes 0 := trivial
  have co : (fieldTag a).component = a.e := by cases a <;> rfl
  have he : heldField (pipe nx ny nz bt b (fieldTag a).spell) (fieldTag a) b 1 0 = 1 := rfl
  unfold sourceField sourceCurrent
  show ([addedField _ T t fc q (.wf "pulse"), addedField _ T t fc q (.ex 10 b "source" (fieldTag a).spell "pulse" 1 0 0)] : List ℝ).sum = _ ∧
    ([addedCurrent _ T t fc q (.wf "pulse"), addedCurrent _ T t fc q (.ex 10 b "source" (fieldTag a).spell "pulse" 1 0 0)] : List ℝ).sum = _
  simp only [addedField, addedCurrent, ht, pr, co, he, List.sum_cons, List.sum_nil, zero_add, add_zero, one_mul, and_true, not_true_eq_false, and_false, if_false, sub_zero]
  rfl

/-- What the two models have in common: they are lines of 20 cells along `p`, driven at the fifth node over the whole cross section. -/
structure Pipe (nx ny nz : ℕ) (bt : Face → BType) (b : BBox) (e h p : Axis) : Prop where
  axes : e ≠ h ∧ h ≠ p ∧ e ≠ p
  ends : ∀ f, bt f = if f.axis = p then .pml else if f.axis = e then .pec else bt f
  sides : ∀ f, f.axis = h → bt f = .pmc ∨ bt f = .periodic
  cells : cellsOf (pipe nx ny nz bt b (fieldTag e).spell).file p = 20
  box : ∀ q, SampleInMesh (pipe nx ny nz bt b (fieldTag e).spell) e.e q → (SampleIn b e.e (q .x) (q .y) (q .z) ↔ q p = 5)

variable {e h p : Axis}

theorem pipe_pec (hp : Pipe nx ny nz bt b e h p) {f : Face} (hf : bt f = .pec) : f.axis = e := by
  rcases eq_or_ne f.axis e with he | he
  · exact he
  exfalso
  rcases eq_or_ne f.axis p with h1 | h1
  · have := hp.ends f; rw [hf, if_pos h1] at this; cases this
  · have hh : f.axis = h := by
      obtain ⟨a1, a2, a3⟩ := hp.axes
      revert he h1 a1 a2 a3
      generalize f.axis = a
      cases a <;> cases e <;> cases h <;> cases p <;> simp
    rcases hp.sides f hh with h2 | h2 <;> rw [hf] at h2 <;> cases h2

theorem pipe_vacuum_E (hp : Pipe nx ny nz bt b e h p) {s : Stuff} (hs : MadeOf (pipe nx ny nz bt b (fieldTag e).spell) e.e (q .x) (q .y) (q .z) s)
    (hR : ∀ s s', MadeOf (pipe nx ny nz bt b (fieldTag e).spell) e.e (q .x) (q .y) (q .z) s → MadeOf (pipe nx ny nz bt b (fieldTag e).spell) e.e (q .x) (q .y) (q .z) s' → s = s') :
    s = .vacuum := by
  rcases pipe_made (nx := nx) (ny := ny) (nz := nz) (bt := bt) (b := b) (fc := e.e) (a := e) (i := q .x) (j := q .y) (l := q .z) with ⟨h1, -⟩ | ⟨-, h2⟩
  · exfalso
    obtain ⟨f, hf, hq⟩ := h1
    have := pipe_pec hp hf
    unfold OnPlane at hq
    cases f <;> cases e <;> simp [Face.axis] at this <;> simp [samplePos, pos2, Face.axis, meshBox, mkBox, Axis.e] at hq <;> omega
  · exact hR _ _ hs h2

theorem pipe_vacuum_H (hp : Pipe nx ny nz bt b e h p) {s : Stuff} (hs : MadeOf (pipe nx ny nz bt b (fieldTag e).spell) h.h (q .x) (q .y) (q .z) s)
    (hR : ∀ s s', MadeOf (pipe nx ny nz bt b (fieldTag e).spell) h.h (q .x) (q .y) (q .z) s → MadeOf (pipe nx ny nz bt b (fieldTag e).spell) h.h (q .x) (q .y) (q .z) s' → s = s') :
    s = .vacuum := by
  rcases pipe_made (nx := nx) (ny := ny) (nz := nz) (bt := bt) (b := b) (fc := h.h) (a := e) (i := q .x) (j := q .y) (l := q .z) with ⟨h1, -⟩ | ⟨-, h2⟩
  · exfalso
    obtain ⟨f, hf, hq⟩ := h1
    have := pipe_pec hp hf
    have := hp.axes.1
    unfold OnPlane at hq
    cases f <;> cases e <;> cases h <;> simp [Face.axis] at * <;> simp [samplePos, pos2, Face.axis, meshBox, mkBox, Axis.h] at hq <;> omega
  · exact hR _ _ hs h2

theorem pipe_line (k : Consts) {J : Junk} {R : Setup.Run} (hp : Pipe nx ny nz bt b e h p) (hs : setup k J (pipe nx ny nz bt b (fieldTag e).spell) = some R) :
    LineModel k (pipe nx ny nz bt b (fieldTag e).spell) R.dt e h p := by
  have nomur : ∀ f, bt f ≠ .mur := by
    intro f hf
    have h0 := hp.ends f
    rw [hf] at h0
    split_ifs at h0 with h1 h2
    have hh : f.axis = h := by
      obtain ⟨a1, a2, a3⟩ := hp.axes
      revert h1 h2 a1 a2 a3
      generalize f.axis = a
      cases a <;> cases e <;> cases h <;> cases p <;> simp
    rcases hp.sides f hh with h2 | h2 <;> rw [hf] at h2 <;> cases h2
  refine ⟨hp.axes, ?_, hp.sides, fun _ _ _ => ⟨pipe_sheets, pipe_waves⟩, fun _ _ _ => pipe_debye, fun _ _ _ => pipe_soft, ?_, ?_, ?_, ?_, ?_,
    fun _ _ _ => pipe_resistor, ?_⟩
  · intro f hf
    left
    have := hp.ends f
    rw [if_neg (by rw [hf]; exact hp.axes.2.2), if_pos hf] at this
    exact this
  · intro a q ha hq t
    obtain ⟨h1, h2⟩ := pipe_source (nx := nx) (ny := ny) (nz := nz) (bt := bt) (b := b) (a := e) R.dt t a.e q
    refine ⟨h1.trans (if_neg ?_), h2⟩
    rintro ⟨h3, -⟩
    cases a <;> cases e <;> simp [Axis.e] at h3 ha
  · intro a q ha hq t
    obtain ⟨h1, h2⟩ := pipe_source (nx := nx) (ny := ny) (nz := nz) (bt := bt) (b := b) (a := e) R.dt t a.h q
    refine ⟨h1.trans (if_neg ?_), h2⟩
    rintro ⟨h3, -⟩
    cases a <;> cases e <;> simp [Axis.e, Axis.h] at h3
  · intro f a q hq
    exact absurd hq.mur (nomur f)
  · intro f hf
    exact absurd hf (nomur f)
  · intro _
    rw [hp.cells]; norm_num
  · intro fc q hq s hst
    rcases pipe_made (nx := nx) (ny := ny) (nz := nz) (bt := bt) (b := b) (fc := fc) (a := e)
      (i := continued (pipe nx ny nz bt b (fieldTag e).spell) fc q .x) (j := continued (pipe nx ny nz bt b (fieldTag e).spell) fc q .y)
      (l := continued (pipe nx ny nz bt b (fieldTag e).spell) fc q .z) with ⟨-, h2⟩ | ⟨-, h2⟩ <;>
    · rw [C64.made_unique hs pipe_blocks hst h2]
      exact ⟨trivial, fun _ _ _ _ h => by cases h⟩

theorem pipe_same {k : Consts} {J J' : Junk} {R S : Setup.Run} {nx' ny' nz' : ℕ} {bt' : Face → BType} {b' : BBox} {e' h' p' : Axis}
    (hp : Pipe nx ny nz bt b e h p) (hs : setup k J (pipe nx ny nz bt b (fieldTag e).spell) = some R)
    (hp' : Pipe nx' ny' nz' bt' b' e' h' p') (hs' : setup k J' (pipe nx' ny' nz' bt' b' (fieldTag e').spell) = some S) (T : ℝ) :
    SameLine (pipe nx ny nz bt b (fieldTag e).spell) (pipe nx' ny' nz' bt' b' (fieldTag e').spell) T e h p e' h' p' := by
  have lo : ∀ (a : Axis), a.lo.axis = a ∧ a.hi.axis = a := by intro a; cases a <;> exact ⟨rfl, rfl⟩
  have b1 : ∀ f, f.axis = p → bt f = .pml := by intro f hf; have := hp.ends f; rw [if_pos hf] at this; exact this
  have b2 : ∀ f, f.axis = p' → bt' f = .pml := by intro f hf; have := hp'.ends f; rw [if_pos hf] at this; exact this
  have m1 : ∀ {fc : Fc} {q : Axis → Int} s s', MadeOf (pipe nx ny nz bt b (fieldTag e).spell) fc (q .x) (q .y) (q .z) s →
      MadeOf (pipe nx ny nz bt b (fieldTag e).spell) fc (q .x) (q .y) (q .z) s' → s = s' := fun s s' h h' => C64.made_unique hs pipe_blocks h h'
  have m2 : ∀ {fc : Fc} {q : Axis → Int} s s', MadeOf (pipe nx' ny' nz' bt' b' (fieldTag e').spell) fc (q .x) (q .y) (q .z) s →
      MadeOf (pipe nx' ny' nz' bt' b' (fieldTag e').spell) fc (q .x) (q .y) (q .z) s' → s = s' := fun s s' h h' => C64.made_unique hs' pipe_blocks h h'
  refine ⟨hp.cells.trans hp'.cells.symm, fun i => ?_, ?_, ?_, ⟨rfl, rfl⟩, ⟨rfl, rfl⟩, ?_, ?_, ?_, ?_⟩
  · rw [C73.unit_cell rfl, C73.unit_cell rfl]
  · exact (b1 _ (lo p).1).trans (b2 _ (lo p').1).symm
  · exact (b1 _ (lo p).2).trans (b2 _ (lo p').2).symm
  · intro q r _ _ _ s hst
    rw [pipe_vacuum_E hp hst m1]
    rcases pipe_made (nx := nx') (ny := ny') (nz := nz') (bt := bt') (b := b') (fc := e'.e) (a := e') (i := r .x) (j := r .y) (l := r .z) with ⟨-, h2⟩ | ⟨-, h2⟩
    · have := pipe_vacuum_E hp' h2 m2; cases this
    · exact h2
  · intro q r _ _ _ s hst
    rw [pipe_vacuum_H hp hst m1]
    rcases pipe_made (nx := nx') (ny := ny') (nz := nz') (bt := bt') (b := b') (fc := h'.h) (a := e') (i := r .x) (j := r .y) (l := r .z) with ⟨-, h2⟩ | ⟨-, h2⟩
    · have := pipe_vacuum_H hp' h2 m2; cases this
    · exact h2
  · intro q r hq hr hqr t
    obtain ⟨h1, h2⟩ := pipe_source (nx := nx) (ny := ny) (nz := nz) (bt := bt) (b := b) (a := e) T t e.e q
    obtain ⟨h3, h4⟩ := pipe_source (nx := nx') (ny := ny') (nz := nz') (bt := bt') (b := b') (a := e') T t e'.e r
    refine ⟨?_, h2.trans h4.symm⟩
    rw [h1, h3]
    by_cases h5 : q p = 5
    · rw [if_pos ⟨rfl, (hp.box q hq).2 h5⟩, if_pos ⟨rfl, (hp'.box r hr).2 (hqr ▸ h5)⟩]
    · rw [if_neg (fun h => h5 ((hp.box q hq).1 h.2)), if_neg (fun h => h5 (hqr ▸ (hp'.box r hr).1 h.2))]
  · intro q r hq hr hqr t
    obtain ⟨h1, h2⟩ := pipe_source (nx := nx) (ny := ny) (nz := nz) (bt := bt) (b := b) (a := e) T t h.h q
    obtain ⟨h3, h4⟩ := pipe_source (nx := nx') (ny := ny') (nz := nz') (bt := bt') (b := b') (a := e') T t h'.h r
    have n1 : ¬ (e.e = h.h) := by cases e <;> cases h <;> simp [Axis.e, Axis.h]
    have n2 : ¬ (e'.e = h'.h) := by cases e' <;> cases h' <;> simp [Axis.e, Axis.h]
    rw [h1, h2, h3, h4, if_neg (fun h => n1 h.1), if_neg (fun h => n2 h.1), mul_zero, mul_zero]
    exact ⟨rfl, rfl⟩

end

theorem guide_pipe : Pipe 20 1 1 guideEnds guideBox .y .z .x := by
  refine ⟨by decide, fun f => by cases f <;> rfl, fun f hf => by cases f <;> simp [Face.axis, guideEnds] at hf ⊢, rfl, fun q hq => ?_⟩
  have hq' : SampleIn (mkBox 0 20 0 1 0 1) .ey (q .x) (q .y) (q .z) := hq
  simp [SampleIn, pos2, mkBox, guideBox, Axis.e] at hq' ⊢
  omega

theorem wide_pipe : Pipe 2 20 3 wideEnds wideBox .x .z .y := by
  refine ⟨by decide, fun f => by cases f <;> rfl, fun f hf => by cases f <;> simp [Face.axis, wideEnds] at hf ⊢, rfl, fun q hq => ?_⟩
  have hq' : SampleIn (mkBox 0 2 0 20 0 3) .ex (q .x) (q .y) (q .z) := hq
  simp [SampleIn, pos2, mkBox, wideBox, Axis.e] at hq' ⊢
  omega

/-- The manual's parallel-plate model and the wider one carry the same wave: in every step the field between the plates is the same, the
magnetic fields differ in their sign, and there is no other field. -/
example (k : Consts) (hk : Physical k) (he : 0 < k.eta0) (hb : 1 < k.big) (J J' : Junk) : ∃ R S, setup k J guide = some R ∧ setup k J' wide = some S ∧ ∀ n,
    (∀ i x z, 0 ≤ i → i ≤ 20 → 0 ≤ x → x < 2 → 0 ≤ z → z ≤ 3 → value R n .ey (there i 0 0) = value S n .ex (there x i z)) ∧
    (∀ i x z, 0 ≤ i → i < 20 → 0 ≤ x → x < 2 → 0 ≤ z → z ≤ 3 → value R n .hz (there i 0 0) = - value S n .hz (there x i z)) ∧
    ∀ x y z, 0 ≤ x → x ≤ 2 → 0 ≤ y → y ≤ 20 → 0 ≤ z → z < 3 → value S n .ez (there x y z) = 0 := by
  obtain ⟨R, hR⟩ := guide_setup k J
  obtain ⟨S, hS⟩ := wide_setup k J'
  have step : ∀ {J : Junk} {R : Setup.Run} {X : Experiment}, setup k J X = some R → X.cn = 0.5 → X.lines = (fun (_ : Axis) (i : Int) => (i : ℝ)) → 0 < R.dt := by
    intro J R X hR hc hl
    refine C64.step_positive hk hR (by rw [hc]; norm_num) ?_ ?_
    · intro a m _ _; rw [hl]; show ((m : Int) : ℝ) < ((m + 1 : Int) : ℝ); push_cast; linarith
    · intro a m _ _; rw [hl]
      show ((m + 1 : Int) : ℝ) - ((m : Int) : ℝ) < k.big
      push_cast; linarith
  have hdt : S.dt = R.dt := C73.unit_step hb hS hR rfl rfl rfl
  have hT := step hR rfl rfl
  have hT' := step hS rfl rfl
  have g1 : GoodLayers k guide := ⟨he, fun b i => by rw [C73.unit_cell rfl]; exact one_pos, fun f _ => by simp [guide, pipe]⟩
  have g2 : GoodLayers k wide := ⟨he, fun b i => by rw [C73.unit_cell rfl]; exact one_pos, fun f _ => by simp [wide, pipe]⟩
  have l1 : LineModel k guide R.dt .y .z .x := pipe_line k guide_pipe hR
  have l2 : LineModel k wide S.dt .x .z .y := pipe_line k wide_pipe hS
  have u1 : Uniform guide R.dt .y .z .x := pipe_same guide_pipe hR guide_pipe hR _
  have u2 : Uniform wide S.dt .x .z .y := pipe_same wide_pipe hS wide_pipe hS _
  have sl : SameLine guide wide R.dt .y .z .x .x .z .y := pipe_same guide_pipe hR wide_pipe hS _
  have b1 : OrdinaryBlocks guide.file.cards := pipe_blocks
  have b2 : OrdinaryBlocks wide.file.cards := pipe_blocks
  refine ⟨R, S, hR, hS, fun n => ?_⟩
  obtain ⟨w1, w2⟩ := same_waves hk hR b1 hT g1 l1 u1 hS b2 g2 l2 u2 hdt sl n
  obtain ⟨d1, -, -, -⟩ := one_dimensional hk hS b2 hT' g2 l2 u2 n
  refine ⟨fun i x z h1 h2 h3 h4 h5 h6 => ?_, fun i x z h1 h2 h3 h4 h5 h6 => ?_, fun x y z h1 h2 h3 h4 h5 h6 => ?_⟩
  · refine w1 (there i 0 0) (there x i z) ?_ ?_ rfl
    · simp [OnGridBox, SampleIn, gridBox, pos2, meshBox, mkBox, guide, pipe, guideEnds, there, Axis.e, Face.isLo]; omega
    · simp [OnGridBox, SampleIn, gridBox, pos2, meshBox, mkBox, wide, pipe, wideEnds, there, Axis.e, Face.isLo]; omega
  · have := w2 (there i 0 0) (there x i z) ?_ ?_ rfl
    · have e1 : handed .y .x = -1 := by simp [handed, Axis.next]
      have e2 : handed .x .y = 1 := by simp [handed, Axis.next]
      rw [e1, e2] at this
      simp only [Axis.h] at this
      linarith
    · simp [OnGridBox, SampleIn, gridBox, pos2, meshBox, mkBox, guide, pipe, guideEnds, there, Axis.h, Face.isLo]; omega
    · simp [OnGridBox, SampleIn, gridBox, pos2, meshBox, mkBox, wide, pipe, wideEnds, there, Axis.h, Face.isLo]; omega
  · refine d1 .z (there x y z) (by decide) ?_
    simp [OnGridBox, SampleIn, gridBox, pos2, meshBox, mkBox, wide, pipe, wideEnds, there, Axis.e, Face.isLo]; omega

end Vulture.C84
