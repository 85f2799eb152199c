import Verif.Model.Cards
import Verif.Spec.Geometry
/-
C04  Only normal bounding boxes inside the mesh are accepted.
The full property is FALSE of the code (src/bounding_box.h:33 compares `bbox[ZLO]` with itself):
`*_accepts_abnormal` give witnesses for each card; `accept_box_partial` is what holds.
-/
namespace Vulture.C04
open Spec

/-- Any of the six cards that carry a bounding box. -/
inductive BoxCard
  | mb (c : MBCard) | tb (c : TBCard) | tw (c : TWCard)
  | ex (c : EXCard) | op (c : OPCard) | pw (c : PWCard)

def BoxCard.bbox : BoxCard → BBox
  | .mb c => c.bbox | .tb c => c.bbox | .tw c => c.bbox
  | .ex c => c.bbox | .op c => c.bbox | .pw c => c.bbox

/-- Names known when the card is read. -/
structure Names where
  medium : String → Bool
  boundary : String → Bool
  wire : String → Bool
  source : String → Bool
  waveform : String → Bool
  observer : String → Bool
  planeWave : String → Bool

/-- The parser of the card accepts it. -/
def Accepts (mbox : BBox) (n : Names) : BoxCard → Bool
  | .mb c => parseMB mbox n.medium c
  | .tb c => parseTB mbox n.boundary c
  | .tw c => parseTW mbox n.wire c
  | .ex c => parseEX mbox n.source n.waveform c
  | .op c => parseOP mbox n.observer n.waveform c
  | .pw c => parsePW mbox n.planeWave n.waveform c

/-- The full property. -/
def AcceptedBoxesAreValid : Prop :=
  ∀ (nx ny nz : Int) (mbox : BBox) (n : Names) (c : BoxCard),
    parseDM nx ny nz = some mbox → Accepts mbox n c = true →
    Normal c.bbox ∧ Within c.bbox mbox

/-- **Finding.** The full property fails: an MB card whose z limits are reversed is accepted. -/
theorem boxes_not_validated : ¬ AcceptedBoxesAreValid := by
  intro h
  have := (h 4 4 4 (mkBox 0 4 0 4 0 4) ⟨fun _ => true, fun _ => true, fun _ => true, fun _ => false,
    fun _ => true, fun _ => false, fun _ => false⟩
    (.mb { numScanned := 7, bbox := mkBox 0 1 0 1 3 1, medium := "m" }) rfl (by decide)).1 .z
  simp [BoxCard.bbox, mkBox, Axis.lo, Axis.hi] at this

/-- The defect is present in every one of the six cards, and the reversed box may even lie wholly
outside the mesh in z (here z from 100 down to -100 in a mesh of 4 cells). -/
theorem every_card_accepts_abnormal_box :
    let mbox := mkBox 0 4 0 4 0 4
    let n : Names := ⟨fun _ => true, fun _ => true, fun _ => true, fun _ => false,
      fun _ => true, fun _ => false, fun _ => false⟩
    Accepts mbox n (.mb { numScanned := 7, bbox := mkBox 0 1 0 1 100 (-100), medium := "m" }) = true ∧
    Accepts mbox n (.tb { numScanned := 7, bbox := mkBox 0 0 0 1 100 (-100), boundary := "b" }) = true ∧
    Accepts mbox n (.tw { numScanned := 7, bbox := mkBox 0 0 1 1 100 (-100), wire := "w" }) = true ∧
    Accepts mbox n (.ex
      { numScanned := 9, bbox := mkBox 0 0 1 1 100 (-100), name := "s",
        knownTag := true, lumped := false, waveform := "f" }) = true ∧
    Accepts mbox n (.op
      { numScanned := 8, bbox := mkBox 0 0 1 1 100 (-100), name := "o",
        knownType := true, ascii := false }) = true ∧
    Accepts mbox n (.pw
      { numScanned := 11, bbox := mkBox 0 1 0 1 100 (-100), name := "p",
        waveform := "f", theta := 90, phi := 0, eta := 0 }) = true := by
  decide

/-- **C04 (partial).** What the six parsers do guarantee, for every box and mesh: normal and
inside in x and y, and in z the low limit is not below the mesh and the high limit not above it;
so a box that is moreover given with zlo ≤ zhi is normal and inside. Missing: rejection of
zlo > zhi. -/
theorem accepted_box_partial (mbox : BBox) (n : Names) (c : BoxCard)
    (h : Accepts mbox n c = true) :
    (∀ a : Axis, a ≠ .z → c.bbox a.lo ≤ c.bbox a.hi) ∧ Within c.bbox mbox ∧
    (c.bbox .zlo ≤ c.bbox .zhi → Normal c.bbox ∧ ∀ p, InBox c.bbox p → InBox mbox p) := by
  have hb : bboxIsNormal c.bbox = true ∧ bboxIsWithin c.bbox mbox = true := by
    cases c <;>
      simp [Accepts, parseMB, parseTB, parseTW, parseEX, parseOP, parsePW] at h <;>
      simp only [BoxCard.bbox] <;> simp [h]
  obtain ⟨h1, h2⟩ := hb
  simp [bboxIsNormal] at h1
  simp [bboxIsWithin] at h2
  have hw : Within c.bbox mbox := by
    intro a; cases a <;> simp [Axis.lo, Axis.hi] <;> omega
  refine ⟨?_, hw, ?_⟩
  · intro a ha; cases a <;> simp [Axis.lo, Axis.hi] at * <;> omega
  · intro hz
    refine ⟨?_, ?_⟩
    · intro a; cases a <;> simp [Axis.lo, Axis.hi] <;> omega
    · intro p hp a
      have := hp a; have := hw a
      omega

/-- Conversely a valid box of the right kind is never rejected for its box. -/
theorem valid_box_accepted (mbox b : BBox) (hn : Normal b) (hw : Within b mbox) :
    bboxIsNormal b = true ∧ bboxIsWithin b mbox = true := by
  have hx := hn .x; have hy := hn .y
  have wx := hw .x; have wy := hw .y; have wz := hw .z
  simp only [Axis.lo, Axis.hi] at *
  constructor
  · simp [bboxIsNormal]; omega
  · simp [bboxIsWithin]; omega

/-- **Finding.** A lumped (resistive) source is accepted on a line of any length although the
parser's message says it must be a single edge. -/
theorem lumped_source_accepts_long_line (L : Int) (hL : 1 < L) :
    let b := mkBox 0 L 0 0 0 0
    ¬ Elemental b ∧
    parseEX (mkBox 0 L 0 1 0 1) (fun _ => false) (fun _ => true)
      { numScanned := 9, bbox := b, name := "s", knownTag := true, lumped := true,
        waveform := "f" } = true := by
  refine ⟨?_, ?_⟩
  · intro h; have := h .x; simp [mkBox, Axis.lo, Axis.hi] at this; omega
  · have h1 : bboxType (mkBox 0 L 0 0 0 0) = some .line := by
      have hx : ¬ (mkBox 0 L 0 0 0 0 .xlo = mkBox 0 L 0 0 0 0 .xhi) := by
        show ¬ ((0 : Int) = L); omega
      have hy : mkBox 0 L 0 0 0 0 .ylo = mkBox 0 L 0 0 0 0 .yhi := rfl
      have hz : mkBox 0 L 0 0 0 0 .zlo = mkBox 0 L 0 0 0 0 .zhi := rfl
      simp only [bboxType, degenerateMask, b2i, hx, hy, hz, if_true, if_false]; rfl
    have h2 : bboxIsElemental (mkBox 0 L 0 0 0 0) = true := by
      unfold bboxIsElemental; rw [h1]; simp
    have h3 : bboxIsNormal (mkBox 0 L 0 0 0 0) = true := by
      have : (0 : Int) ≤ L := by omega
      simp [bboxIsNormal, mkBox, this]
    have h4 : bboxIsWithin (mkBox 0 L 0 0 0 0) (mkBox 0 L 0 1 0 1) = true := by
      simp [bboxIsWithin, mkBox]
    simp [parseEX, h1, h2, h3, h4]

-- Non-vacuity of `accepted_box_partial`: an ordinary accepted card.
example : Accepts (mkBox 0 4 0 4 0 4) ⟨fun _ => true, fun _ => true, fun _ => true, fun _ => false,
    fun _ => true, fun _ => false, fun _ => false⟩
    (.mb { numScanned := 8, bbox := mkBox 1 2 0 3 1 4, medium := "m", mask := "000000".toList })
    = true := by decide

end Vulture.C04
