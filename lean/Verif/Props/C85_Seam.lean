import Verif.Props.C85_Repeat
import Verif.Props.C75_Circuit
import Verif.Props.C84_Guide
/- C85: why the first and the last cell of a periodic model have to be of one size. -/
set_option linter.unusedSimpArgs false
set_option linter.unusedVariables false
namespace Vulture.C85
open Vulture Spec Setup Deck CavityLemmas Scaling C72 C84

section
variable {k : Consts} {J : Junk} {X : Experiment} {R : Setup.Run} {a d t : Axis} {q : Axis → Int}

/-- C85, the other way round: if the first and the last cell along a periodic axis differ in size, then in no step in which the magnetic
field changes from the last cell to the first one can the two ends of the model carry the same fields, although they are one place. -/
theorem uneven_seam (hk : Physical k) (hT : 0 < R.dt) (h : setup k J X = some R) (ho : OrdinaryBlocks X.file.cards) (hm : PlainModel k X R.dt)
    (hp : X.file.bt d.lo = .periodic ∧ X.file.bt d.hi = .periodic) (had : a ≠ d) (hdt : d ≠ t) (hat : a ≠ t)
    (hq : SampleInMesh X a.e q) (h0 : q d = 0) (nm : ¬ OnMurSide X a.e q) (v0 : NoSource X a.e q) (v1 : NoSource X a.e (opposite X d q))
    (m0 : MadeOf X a.e (q .x) (q .y) (q .z) .vacuum) (m1 : MadeOf X a.e (opposite X d q .x) (opposite X d q .y) (opposite X d q .z) .vacuum)
    (hl : cellLength X d 0 ≠ cellLength X d (cellsOf X.file d - 1)) (hpos : ∀ i, 0 < cellLength X d i) (n : ℕ)
    (hj : value R n t.h q ≠ value R n t.h (back (opposite X d q) d)) :
    ¬ (value R n a.e q = value R n a.e (opposite X d q) ∧ value R (n + 1) a.e q = value R (n + 1) a.e (opposite X d q) ∧
      ∀ r, r d = 0 → value R n d.h r = value R n d.h (opposite X d r)) := by
  rintro ⟨e0, e1, eh⟩
  have hd : PlainSides X d := by
    intro f hf
    rcases face_cases f with e | e <;> rw [hf] at e <;> subst e
    · exact Or.inr (Or.inr hp.1)
    · exact Or.inr (Or.inr hp.2)
  have bx := box_d hd
  have N : 0 < cellsOf X.file d := by have := (grid_le h d).2.2; omega
  have od : opposite X d q d = cellsOf X.file d := by unfold opposite; rw [if_pos rfl, h0, zero_add]
  have oo : ∀ b, b ≠ d → opposite X d q b = q b := by intro b hb; unfold opposite; rw [if_neg hb]
  have hq' : SampleInMesh X a.e (opposite X d q) := by
    refine C81.in_iff.2 fun b => ?_
    by_cases hb : b = d
    · subst hb; rw [od, C81.pos2_e, if_neg had.symm]; omega
    · rw [oo b hb]; exact C81.in_iff.1 hq b
  have nm' : ¬ OnMurSide X a.e (opposite X d q) := by
    rintro ⟨f, hf, hpl⟩
    have ne : f.axis ≠ d := fun e => (plain_not hd e).2 hf
    rw [plane_iff, oo _ ne] at hpl
    exact nm ⟨f, hf, plane_iff.2 hpl⟩
  have only : ∀ {r}, NoSource X a.e r → OnlyCurrents X a.e r := fun hn m b nm tag w size delay rr hx tg tv ts tc hb => absurd hb (hn m b nm tag w size delay rr hx tg tv ts tc)
  have zero : ∀ {r}, NoSource X a.e r → totalCurrent X R.dt (n * R.dt) a.e r = 0 := fun hn => C75.no_current hn _ _
  have A0 := C72.ampere hk h ho hT hq nm (hm.simple _ _ hq) (hm.clear _ _ (mesh_grid h hq)).1 (hm.clear _ _ (mesh_grid h hq)).2 (only v0) m0 n
  have A1 := C72.ampere hk h ho hT hq' nm' (hm.simple _ _ hq') (hm.clear _ _ (mesh_grid h hq')).1 (hm.clear _ _ (mesh_grid h hq')).2 (only v1) m1 n
  rw [zero v0] at A0
  rw [zero v1, ← e0, ← e1] at A1
  have rot : rotH X (value R n) a q = rotH X (value R n) a (opposite X d q) := by
    unfold AmpereIn AmpereWithCurrent at A0 A1
    linarith
  have nb : ∀ {r}, SampleInMesh X a.e r → ¬ AtBack X a.e r := fun hr => mur_not_back h hr
  obtain ⟨i1, i2, i3, i4⟩ := per_image hd hp.1 hp.2
  obtain ⟨-, ⟨s2, q2, w2, -, -, o2, c2⟩⟩ := reach h (mesh_grid h hq) (nb hq) nm hat hdt.symm had n
  obtain ⟨⟨s1, q1, w1, -, -, o1, c1⟩, -⟩ := reach h (mesh_grid h hq') (nb hq') nm' hat hdt.symm had n
  have g1 : value R n t.h (opposite X d q) = value R n t.h q := by
    rcases c1 with ⟨c, -⟩ | ⟨-, c, c'⟩
    · exact absurd (od.trans bx.2.symm) c
    · rw [w1, c', i4, one_mul]
      congr 1
      funext b
      by_cases hb : b = d
      · subst hb; rw [c, i1, h0]
      · rw [o1 b hb, oo b hb]
  have g2 : value R n t.h (back q d) = value R n t.h (back (opposite X d q) d) := by
    rcases c2 with ⟨c, -⟩ | ⟨-, c, c'⟩
    · exact absurd (h0.trans bx.1.symm) c
    · rw [w2, c', i3, one_mul]
      congr 1
      funext b
      unfold back
      by_cases hb : b = d
      · subst hb; rw [if_pos rfl, c, i2, od]
      · rw [if_neg hb, o2 b hb, oo b hb]
  have b1 : value R n d.h q = value R n d.h (opposite X d q) := eh q h0
  have b2 : value R n d.h (back q t) = value R n d.h (back (opposite X d q) t) := by
    rw [eh (back q t) (by unfold back; rw [if_neg hdt]; exact h0)]
    congr 1
    funext b
    unfold back opposite
    by_cases h1 : b = d
    · have h2 : b ≠ t := by rw [h1]; exact hdt
      simp only [if_pos h1, if_neg h2]
    · simp only [if_neg h1]
  have md0 : middleDistance X d (q d) = cellLength X d 0 := by
    rw [h0]; unfold middleDistance
    have : cellLength X d (0 - 1) = cellLength X d 0 := by
      unfold cellLength; rw [show max 0 (min (cellsOf X.file d - 1) (0 - 1)) = max 0 (min (cellsOf X.file d - 1) 0) by omega]
    rw [this]; ring
  have md1 : middleDistance X d (opposite X d q d) = cellLength X d (cellsOf X.file d - 1) := by
    rw [od]; unfold middleDistance
    have : cellLength X d (cellsOf X.file d) = cellLength X d (cellsOf X.file d - 1) := by
      unfold cellLength
      rw [show max 0 (min (cellsOf X.file d - 1) (cellsOf X.file d)) = max 0 (min (cellsOf X.file d - 1) (cellsOf X.file d - 1)) by omega]
    rw [this]; ring
  rw [rotH_turn (b := d) (c := t) _ had hdt hat, rotH_turn (b := d) (c := t) _ had hdt hat, md0, md1, b1, b2, g1, g2, oo t hdt.symm] at rot
  have hh : handed a d ≠ 0 := by unfold handed; split_ifs <;> norm_num
  have r2 := mul_left_cancel₀ hh rot
  have p0 := hpos 0
  have p1 := hpos (cellsOf X.file d - 1)
  generalize cellLength X d 0 = x at *
  generalize cellLength X d (cellsOf X.file d - 1) = y at *
  generalize value R n t.h (back (opposite X d q) d) = u at *
  generalize value R n t.h q = v at *
  have r3 : (v - u) / x = (v - u) / y := by linarith
  rw [div_eq_div_iff p0.ne' p1.ne'] at r3
  exact hl (mul_left_cancel₀ (sub_ne_zero.2 hj) r3).symm

end

/-! ### A model with an uneven seam -/

def ringEnds : Face → BType
  | .xlo | .xhi | .ylo | .yhi => .pmc
  | .zlo | .zhi => .periodic
def hx : Tag := ⟨false, .H, .x, none⟩
theorem hx_valid : hx.Valid := by decide
def coil : Deck.Card := .ex 10 (mkBox 1 1 1 2 0 1) "coil" hx.spell "pulse" 1 0 0
/-- Three cells along z, the last one twice as long as the others; a magnetic field is driven in the first one. -/
noncomputable def ring : Experiment :=
  ⟨⟨2, 2, 3, ringEnds, fun _ => 6, [.wf "pulse", coil], false⟩, fun a i => if a = .z ∧ 3 ≤ i then (i : ℝ) + 1 else (i : ℝ), 0.5,
    fun _ => ⟨4, 1, -1, 1⟩, fun _ => .builtin ⟨.gaussian, 1, -1, -1, -1⟩⟩

theorem ring_setup (k : Consts) (J : Junk) : ∃ R, setup k J ring = some R := by
  have hl : Source.lookup hx.spell = some ⟨.hfield, .x, none, .hx, true⟩ := by decide +kernel
  obtain ⟨s, hs, hp⟩ : ∃ s, ring.file.stored = some s ∧ s.pws = [] := by
    have e : ring.file.stored = Deck.read (State.init (mkBox 0 2 0 2 0 3)) [.wf "pulse", coil] := rfl
    rw [e, C47.read_cons, C47.card_wf (by rfl), Option.bind_some, C47.read_cons]
    simp only [coil, State.card, hl]
    rw [if_pos (by decide +kernel)]; exact ⟨_, rfl, rfl⟩
  obtain ⟨cf, hc⟩ : ∃ cf, initExternalSurfaceParameters ring.file.cells ring.file.bt ring.file.layers = some cf :=
    Option.isSome_iff_exists.1 (by
      show (initExternalSurfaceParameters (fun a => match a with | .x => 2 | .y => 2 | .z => 3) ringEnds (fun _ => 6)).isSome = true
      decide +kernel)
  have hS : ∃ S, (fileOf k J ring cf).sim (Setup.de k J ring cf) (Setup.dh k J ring cf) = some S := by
    unfold File.sim
    have a1 : (fileOf k J ring cf).stored = some s := hs
    have a2 : initExternalSurfaceParameters (fileOf k J ring cf).cells (fileOf k J ring cf).bt (fileOf k J ring cf).layers = some cf := hc
    rw [a1, Option.bind_some, a2, Option.bind_some, hp]
    exact ⟨_, rfl⟩
  obtain ⟨S, hS⟩ := hS
  exact ⟨_, Scaling.setup_of hc hs hS⟩

theorem ring_cards {x : Deck.Card} (h : x ∈ ring.file.cards) : x = .wf "pulse" ∨ x = coil := by
  have : x ∈ [Deck.Card.wf "pulse", coil] := h
  simpa using this

theorem ring_blocks : OrdinaryBlocks ring.file.cards := by
  intro b hb; rcases ring_cards hb with h | h <;> cases h

theorem ring_resistor {fc : Fc} {i j l : Int} : ∀ x ∈ ring.file.cards, ∀ s, ¬ ResistorOf ring fc i j l x s := by
  rintro x hx s ⟨_, b', n, tag, w, size, delay, r, d, rfl, ht, -⟩
  rcases ring_cards hx with h | h
  · cases h
  · injection h with _ _ _ h4
    have e : lumpedAxis C85.hx.spell = none := rfl
    rw [h4, e] at ht
    cases ht

theorem ring_vacuum {fc : Fc} {i j l : Int} : MadeOf ring fc i j l .vacuum := by
  refine .vacuum ring_resistor ?_ ?_ ?_ ?_
  · rintro ⟨f, hf, -⟩; cases f <;> cases hf
  · rintro x hx s ⟨_, _, rfl, -⟩; rcases ring_cards hx with h | h <;> cases h
  · rintro x hx s ⟨_, rfl, -⟩; rcases ring_cards hx with h | h <;> cases h
  · rintro x hx s ⟨_, _, _, rfl, -⟩; rcases ring_cards hx with h | h <;> cases h

theorem ring_soft {fc : Fc} {q : Axis → Int} : ∀ x ∈ ring.file.cards, ¬ Overwrites x fc q := by
  rintro x hx ⟨m, b', n, w, size, delay, r, t, rfl, ht, -, -, hard⟩
  rcases ring_cards hx with h | h
  · cases h
  · injection h with _ _ _ h4
    have e : t = C85.hx := C27.spell_injective ht hx_valid h4
    subst e
    cases hard

theorem ring_quiet {a : Axis} {q : Axis → Int} : NoSource ring a.e q := by
  rintro m b n tag w size delay r hx t tv rfl tc -
  rcases ring_cards hx with h | h
  · cases h
  · injection h with _ _ _ h4
    have e : t = C85.hx := C27.spell_injective tv hx_valid h4
    subst e
    cases a <;> cases tc

theorem ring_plain (k : Consts) {J : Junk} {R : Setup.Run} (hs : setup k J ring = some R) : PlainModel k ring R.dt := by
  have nomur : ∀ f, ring.file.bt f ≠ .mur := by intro f hf; cases f <;> cases hf
  refine ⟨fun fc q _ => ⟨?_, ?_⟩, ?_, fun _ _ _ => ring_soft, fun f a q hq => absurd hq.mur (nomur f), ?_, fun f hf => absurd hf (nomur f),
    fun f g hf => absurd hf (nomur f), ?_, fun _ _ _ => ring_resistor, ?_⟩
  · intro b pr hb; rcases ring_cards hb with h | h <;> cases h
  · intro b pr hb; rcases ring_cards hb with h | h <;> cases h
  · rintro fc q - x hx e s u poles ⟨c, mask, rfl, -⟩
    rcases ring_cards hx with h | h <;> cases h
  · rintro a q ⟨-, f, g, -, hf, -⟩; exact absurd hf (nomur f)
  · intro b hb; cases b <;> cases hb
  · intro fc q hq s hst
    rw [C64.made_unique hs ring_blocks hst ring_vacuum]
    exact ⟨trivial, fun _ _ _ _ h => by cases h⟩

theorem ring_length : cellLength ring .z 0 = 1 ∧ cellLength ring .z 2 = 2 ∧ ∀ i, 0 < cellLength ring .z i := by
  have e : ∀ i, cellLength ring .z i = if 2 ≤ i then 2 else 1 := by
    intro i
    show (if Axis.z = .z ∧ 3 ≤ max 0 (min (3 - 1) i) + 1 then (((max 0 (min (3 - 1) i) + 1 : Int) : ℝ)) + 1 else ((max 0 (min (3 - 1) i) + 1 : Int) : ℝ)) -
      (if Axis.z = .z ∧ 3 ≤ max 0 (min (3 - 1) i) then ((max 0 (min (3 - 1) i) : Int) : ℝ) + 1 else ((max 0 (min (3 - 1) i) : Int) : ℝ)) = _
    rw [if_neg (c := Axis.z = .z ∧ 3 ≤ max 0 (min (3 - 1) i)) (by omega)]
    by_cases hi : 2 ≤ i
    · rw [if_pos ⟨rfl, by omega⟩, if_pos hi, show max 0 (min (3 - 1) i) = 2 by omega]; norm_num
    · rw [if_neg (by omega), if_neg hi]; push_cast; ring1
  refine ⟨by rw [e]; norm_num, by rw [e]; norm_num, fun i => ?_⟩
  rw [e]; split_ifs <;> norm_num

open Classical in
theorem ring_source (T t : ℝ) (fc : Fc) (q : Axis → Int) :
    sourceField ring T t fc q = (if fc = .hx ∧ q .x = 1 ∧ q .y = 1 ∧ q .z = 0 then waveValue T (.builtin ⟨.gaussian, 1, -1, -1, -1⟩) t else 0) ∧
    sourceCurrent ring T t fc q = 0 := by
  have ht := tagOf_spell hx_valid
  have pr : hx.prescribes 0 := trivial
  have co : hx.component = .hx := rfl
  have he : heldField ring hx (mkBox 1 1 1 2 0 1) 1 0 = 1 := rfl
  have hw : ring.waves = fun _ => .builtin ⟨.gaussian, 1, -1, -1, -1⟩ := rfl
  unfold sourceField sourceCurrent
  show ([addedField _ T t fc q (.wf "pulse"), addedField _ T t fc q coil] : List ℝ).sum = _ ∧
    ([addedCurrent _ T t fc q (.wf "pulse"), addedCurrent _ T t fc q coil] : List ℝ).sum = _
  simp only [coil, addedField, addedCurrent, ht, pr, co, he, hw, List.sum_cons, List.sum_nil, zero_add, add_zero, one_mul, and_true, not_true_eq_false, and_false, if_false, sub_zero]
  by_cases hf : fc = .hx
  · subst hf
    have e : SampleIn (mkBox 1 1 1 2 0 1) .hx (q .x) (q .y) (q .z) ↔ (q .x = 1 ∧ q .y = 1 ∧ q .z = 0) := by
      simp [SampleIn, pos2, mkBox]; omega
    simp only [e, true_and, and_true]
  · rw [if_neg (fun h => hf h.1.symm), if_neg (fun h => hf h.1)]

/-- After one step the driven field is in the first cell and the field of the last cell is zero: the hypotheses are met. -/
example (k : Consts) (hk : Physical k) (hb : 2 < k.big) (J : Junk) : ∃ R, setup k J ring = some R ∧
    ¬ (value R 1 .ey (there 1 1 0) = value R 1 .ey (opposite ring .z (there 1 1 0)) ∧ value R 2 .ey (there 1 1 0) = value R 2 .ey (opposite ring .z (there 1 1 0)) ∧
      ∀ r, r .z = 0 → value R 1 .hz r = value R 1 .hz (opposite ring .z r)) := by
  obtain ⟨R, hR⟩ := ring_setup k J
  have hT : 0 < R.dt := by
    refine C64.step_positive hk hR (by show (0 : ℝ) < 0.5; norm_num) ?_ ?_
    · intro a m _ _
      show (if a = .z ∧ 3 ≤ m then (m : ℝ) + 1 else (m : ℝ)) < (if a = .z ∧ 3 ≤ m + 1 then ((m + 1 : Int) : ℝ) + 1 else ((m + 1 : Int) : ℝ))
      push_cast
      by_cases ha : a = .z
      · simp only [ha, true_and]
        split_ifs <;> first | linarith | (exfalso; omega)
      · simp only [ha, false_and, if_false]; linarith
    · intro a m _ _
      show (if a = .z ∧ 3 ≤ m + 1 then ((m + 1 : Int) : ℝ) + 1 else ((m + 1 : Int) : ℝ)) - (if a = .z ∧ 3 ≤ m then (m : ℝ) + 1 else (m : ℝ)) < k.big
      push_cast
      by_cases ha : a = .z
      · simp only [ha, true_and]
        split_ifs <;> first | linarith | (exfalso; omega)
      · simp only [ha, false_and, if_false]; linarith
  have hm := ring_plain k hR
  have nomur : ∀ (fc : Fc) (q : Axis → Int), ¬ OnMurSide ring fc q := by rintro fc q ⟨f, hf, -⟩; cases f <;> cases hf
  have E1 : ∀ (a : Axis) (q : Axis → Int), SampleInMesh ring a.e q → value R 1 a.e q = 0 := by
    intro a q hi
    obtain ⟨c1, c2⟩ := hm.clear _ _ (mesh_grid hR hi)
    have r0 : rotH ring (value R 0) a q = 0 := by unfold rotH; simp only [value_zero, sub_zero, zero_div]
    have s0 : sourceField ring R.dt ((0 : ℕ) * R.dt) a.e q = 0 := by rw [(ring_source _ _ _ _).1, if_neg]; rintro ⟨e, -⟩; cases a <;> cases e
    rw [show (1 : ℕ) = 0 + 1 from rfl, electric_soft hR ring_blocks hi (nomur _ _) (hm.simple _ _ hi) c1 c2 (hm.soft _ _ hi) 0, value_zero, r0, s0, (ring_source _ _ _ _).2]
    ring
  have H1 : ∀ z : Int, 0 ≤ z → z < 3 → value R 1 .hx (there 1 1 z) = sourceField ring R.dt (((0 : ℕ) + 1 / 2) * R.dt) .hx (there 1 1 z) := by
    intro z h0 h1
    have hi : SampleInMesh ring Axis.x.h (there 1 1 z) := by
      show SampleIn (mkBox 0 2 0 2 0 3) .hx 1 1 z
      simp [SampleIn, pos2, mkBox]; omega
    obtain ⟨c1, c2⟩ := hm.clear _ _ (mesh_grid hR hi)
    have r0 : rotE ring (value R (0 + 1)) .x (there 1 1 z) = 0 := by
      have v1 : value R (0 + 1) .ez (ahead (there 1 1 z) .y) = 0 := E1 .z _ (by show SampleIn (mkBox 0 2 0 2 0 3) .ez 1 2 z; simp [SampleIn, pos2, mkBox]; omega)
      have v2 : value R (0 + 1) .ez (there 1 1 z) = 0 := E1 .z _ (by show SampleIn (mkBox 0 2 0 2 0 3) .ez 1 1 z; simp [SampleIn, pos2, mkBox]; omega)
      have v3 : value R (0 + 1) .ey (ahead (there 1 1 z) .z) = 0 := E1 .y _ (by show SampleIn (mkBox 0 2 0 2 0 3) .ey 1 1 (z + 1); simp [SampleIn, pos2, mkBox]; omega)
      have v4 : value R (0 + 1) .ey (there 1 1 z) = 0 := E1 .y _ (by show SampleIn (mkBox 0 2 0 2 0 3) .ey 1 1 z; simp [SampleIn, pos2, mkBox]; omega)
      unfold rotE
      show (value R (0 + 1) .ez (ahead (there 1 1 z) .y) - value R (0 + 1) .ez (there 1 1 z)) / _ - (value R (0 + 1) .ey (ahead (there 1 1 z) .z) - value R (0 + 1) .ey (there 1 1 z)) / _ = 0
      rw [v1, v2, v3, v4]; simp
    have := magnetic_soft hR ring_blocks hi c1 c2 (hm.soft _ _ hi) 0
    rw [r0, (ring_source _ _ _ _).2, value_zero] at this
    refine this.trans ?_
    show _ = sourceField ring R.dt (((0 : ℕ) + 1 / 2) * R.dt) .hx (there 1 1 z)
    simp only [add_zero, mul_zero, sub_zero, zero_add]
    rfl
  refine ⟨R, hR, uneven_seam (a := .y) (d := .z) (t := .x) hk hT hR ring_blocks hm ⟨rfl, rfl⟩ (by decide) (by decide) (by decide) ?_ rfl (nomur _ _) ring_quiet ring_quiet
    ring_vacuum ring_vacuum ?_ ring_length.2.2 1 ?_⟩
  · show SampleIn (mkBox 0 2 0 2 0 3) .ey 1 1 0; simp [SampleIn, pos2, mkBox]
  · show cellLength ring .z 0 ≠ cellLength ring .z 2
    rw [ring_length.1, ring_length.2.1]; norm_num
  · have e : back (opposite ring .z (there 1 1 0)) .z = there 1 1 2 := by funext b; cases b <;> rfl
    rw [e]
    show value R 1 .hx (there 1 1 0) ≠ value R 1 .hx (there 1 1 2)
    rw [H1 0 (by norm_num) (by norm_num), H1 2 (by norm_num) (by norm_num), (ring_source _ _ _ _).1, (ring_source _ _ _ _).1, if_pos ⟨rfl, rfl, rfl, rfl⟩,
      if_neg (by rintro ⟨-, -, -, h⟩; cases h)]
    have one : Waveform.dflt 1 1 = (1 : ℝ) := by unfold Waveform.dflt; rw [if_neg (by norm_num)]
    show Waveform.dflt 1 1 * Real.exp _ ≠ 0
    rw [one, one_mul]
    exact (Real.exp_pos _).ne'

end Vulture.C85
