import Verif.Spec.CardRules
import Verif.Props.C05_BoxClass
import Verif.Props.C06_FaceMask
import Mathlib.Tactic.Tauto
import Mathlib.Order.Defs.LinearOrder
import Mathlib.Algebra.Order.Ring.Rat
/-
C44  A geometry card is accepted exactly when it follows its rules: it names only declared things,
a new name where names must be new, a box of the right kind, and parameters in their ranges.
(The limits of the box itself are C04: `LimitsChecked` is what the code checks of them.)
-/
namespace Vulture.C44
open Spec

theorem limits_iff (mbox b : BBox) :
    (bboxIsNormal b = true ∧ bboxIsWithin b mbox = true) ↔ LimitsChecked mbox b := by
  have hall : ∀ P : Axis → Prop, (∀ a, P a) ↔ P .x ∧ P .y ∧ P .z :=
    fun P => ⟨fun h => ⟨h _, h _, h _⟩, fun h a => by cases a <;> simp [h]⟩
  simp only [LimitsChecked, Within, hall, bboxIsNormal, bboxIsWithin, Axis.lo, Axis.hi]
  simp
  omega

theorem sixBits_iff (s : List Char) : setFaceMaskFromString s ≠ FACE_MASK_ERROR ↔ SixBits s := by
  constructor
  · intro h
    refine ⟨_, ?_, (C06.mask_accepts_iff s _ h).1 rfl⟩
    unfold setFaceMaskFromString FACE_MASK_ERROR at h ⊢
    split at h
    · exact absurd rfl h
    · rename_i h2
      rw [if_neg h2]; omega
  · rintro ⟨v, hv, h⟩
    have := (C06.mask_accepts_iff s v (by unfold FACE_MASK_ERROR; omega)).2 h
    unfold FACE_MASK_ERROR; omega

theorem sixFlags_iff (s : List Char) :
    (s.length = 6 ∧ (decodeFaceMask s).isSome = true) ↔ SixFlags s := by
  unfold decodeFaceMask SixFlags
  rcases s with _ | ⟨a, _ | ⟨b, _ | ⟨c, _ | ⟨d, _ | ⟨e, _ | ⟨f, _ | ⟨g, t⟩⟩⟩⟩⟩⟩⟩ <;> simp

/-- **C44, blocks.** -/
theorem block_card (mbox : BBox) (n : Declared) (c : MBCard) (h8 : c.numScanned ≤ 8) :
    parseMB mbox n.medium c = true ↔ LimitsChecked mbox c.bbox ∧ BlockRules n c := by
  rw [← limits_iff]
  simp only [parseMB, BlockRules, Bool.and_eq_true, decide_eq_true_eq, Bool.or_eq_true,
    (C05.bboxType_geometric c.bbox).1, sixBits_iff]
  have : ¬ c.numScanned > 8 := by omega
  tauto

/-- **C44, surfaces.** -/
theorem surface_card (mbox : BBox) (n : Declared) (c : TBCard) :
    parseTB mbox n.boundary c = true ↔ LimitsChecked mbox c.bbox ∧ SurfaceRules n c := by
  rw [← limits_iff]
  simp only [parseTB, SurfaceRules, Bool.and_eq_true, decide_eq_true_eq, Bool.or_eq_true,
    (C05.bboxType_geometric c.bbox).2.1, Bool.not_eq_true', Bool.and_eq_false_iff,
    Bool.or_eq_false_iff, decide_eq_false_iff_not, not_lt, ne_eq, not_not, gt_iff_lt]
  tauto

/-- **C44, wires.** -/
theorem wire_card (mbox : BBox) (n : Declared) (c : TWCard) :
    parseTW mbox n.wire c = true ↔ LimitsChecked mbox c.bbox ∧ WireRules n c := by
  rw [← limits_iff]
  simp only [parseTW, WireRules, Bool.and_eq_true, decide_eq_true_eq,
    (C05.bboxType_geometric c.bbox).2.2.1]
  tauto

/-- **C44, sources.** -/
theorem source_card (mbox : BBox) (n : Declared) (c : EXCard) :
    parseEX mbox n.source n.waveform c = true ↔ LimitsChecked mbox c.bbox ∧ SourceRules n c := by
  rw [← limits_iff]
  have he : bboxIsElemental c.bbox = true := C05.bboxIsElemental_accepts_everything _
  simp only [parseEX, SourceRules, Bool.and_eq_true, decide_eq_true_eq, Bool.or_eq_true,
    Bool.not_eq_true', Bool.or_eq_false_iff, decide_eq_false_iff_not, not_not, ne_eq, he,
    (C05.bboxType_geometric c.bbox).2.2.1, Bool.not_true]
  cases c.lumped <;> simp <;> tauto

/-- **C44, observers.** -/
theorem observer_card (mbox : BBox) (n : Declared) (c : OPCard) :
    parseOP mbox n.observer n.waveform c = true ↔
      LimitsChecked mbox c.bbox ∧ ObserverRules n c := by
  rw [← limits_iff]
  simp only [parseOP, ObserverRules, Bool.and_eq_true, decide_eq_true_eq, Bool.or_eq_true,
    Bool.not_eq_true']
  cases c.ascii
  · simp
    tauto
  · simp [(C05.bboxType_geometric c.bbox).2.2.2]
    tauto

/-- **C44, plane waves.** -/
theorem planeWave_card (mbox : BBox) (n : Declared) (c : PWCard) :
    parsePW mbox n.planeWave n.waveform c = true ↔
      LimitsChecked mbox c.bbox ∧ PlaneWaveRules n c := by
  rw [← limits_iff]
  simp only [parsePW, PlaneWaveRules, Bool.and_eq_true, decide_eq_true_eq, Bool.or_eq_true,
    Bool.not_eq_true', Bool.or_eq_false_iff, Bool.and_eq_false_iff, decide_eq_false_iff_not,
    not_lt, sixFlags_iff, ge_iff_le, gt_iff_lt]
  have h : c.numScanned < 12 ↔ ¬ 12 ≤ c.numScanned := by omega
  have h' : c.eta < 360 ↔ ¬ 360 ≤ c.eta := not_le.symm
  rw [h, h']
  tauto

/-- **C44, mesh size.** A mesh is accepted exactly when it has at least one cell along every axis,
and its nodes then run from zero to the number of cells. -/
theorem mesh_card (n : Axis → Int) (b : BBox) :
    parseDM (n .x) (n .y) (n .z) = some b ↔
      (∀ a, 1 ≤ n a) ∧ ∀ a : Axis, b a.lo = 0 ∧ b a.hi = n a := by
  have hall : ∀ P : Axis → Prop, (∀ a, P a) ↔ P .x ∧ P .y ∧ P .z :=
    fun P => ⟨fun h => ⟨h _, h _, h _⟩, fun h a => by cases a <;> simp [h]⟩
  unfold parseDM
  rw [hall, hall]
  split
  · simp; omega
  · rw [Option.some.injEq]
    constructor
    · rintro rfl
      simp [mkBox, Axis.lo, Axis.hi]; omega
    · rintro ⟨_, h⟩
      funext f
      cases f <;> simp [mkBox, Axis.lo, Axis.hi] at h ⊢ <;> omega

-- Every rule can be followed: one accepted card of each kind.
example :
    let n : Declared := ⟨fun _ => true, fun _ => true, fun _ => true, fun _ => false,
      fun _ => true, fun _ => false, fun _ => false⟩
    let m := mkBox 0 4 0 4 0 4
    parseMB m n.medium { numScanned := 8, bbox := mkBox 1 2 0 3 1 4, medium := "m" } = true ∧
    parseTB m n.boundary { numScanned := 9, bbox := mkBox 1 1 0 3 1 4, boundary := "b", orient := -1, angle := -180 } = true ∧
    parseTW m n.wire { numScanned := 7, bbox := mkBox 1 1 0 3 1 1, wire := "w" } = true ∧
    parseEX m n.source n.waveform
      { numScanned := 9, bbox := mkBox 1 1 0 3 1 1, name := "s", knownTag := true, lumped := true,
        waveform := "f" } = true ∧
    parseOP m n.observer n.waveform
      { numScanned := 8, bbox := mkBox 1 1 2 2 1 1, name := "o", knownType := true, ascii := true } = true ∧
    parsePW m n.planeWave n.waveform
      { numScanned := 13, bbox := mkBox 1 2 0 3 1 4, name := "p", waveform := "f", theta := 180,
        phi := 359, eta := 0, mask := "101010".toList, size := 2 } = true := by decide

end Vulture.C44
