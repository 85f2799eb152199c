import Verif.Spec.Page
/-
What the statements of a mesh file ask for: cards of the model section, outer faces.
Uses the types of the model, none of its functions but the checks of media and sheets that have claims of their own
(C21, C19).
-/
namespace Vulture.Spec.Page
open Vulture.MeshFile (Raw FaceBnd BTag World)

/-- Name of an outer face. -/
def faceWord : Face → String
  | .xlo => "XLO" | .xhi => "XHI" | .ylo => "YLO" | .yhi => "YHI" | .zlo => "ZLO" | .zhi => "ZHI"

/-- The name a statement gives to a boundary. -/
def Stmt.boundaryName : Stmt → Option (List Char)
  | .boundary n _ | .absorber n _ _ _ | .absorberDefault n _ | .sheet n _ | .sheetFile n _ => some n
  | _ => none

/-- The statement is about this outer face: a `BR` card, or a `BT` card with the name of the face. -/
def Stmt.About (f : Face) (st : Stmt) : Prop :=
  (∃ t, st = .oldFaces t) ∨ st.boundaryName = some (faceWord f).toList

/-- What a boundary of a type does to an internal surface: `PEC` and `FREE_SPACE` act, the other plain ones do nothing. -/
def inside : BTag → Deck.Bnd
  | .pec => .pec
  | .free => .free
  | _ => .plain

/-- Type of boundary for the number of a `BR` card. -/
def oldTag (t : Int) : BTag := if t = -1 then .pec else if t = 0 then .pml else .pmc

/-- `st` asks for these items of the model section. -/
def Asks (eta0 : ℝ) (W : World) (st : Stmt) (cs : List Deck.Card) : Prop :=
  match st with
  | .simple n v => (1 : ℚ) ≤ v[0]?.getD 1 ∧ (0 : ℚ) ≤ v[1]?.getD 0 ∧ (1 : ℚ) ≤ v[2]?.getD 1 ∧
      cs = [.mt (String.ofList n) (.simple (v[0]?.getD 1 : ℚ) (v[1]?.getD 0 : ℚ) (v[2]?.getD 1 : ℚ))]
  -- a medium of type `PEC` or `FREE_SPACE` other than the two built-in ones has the parameters of free space
  | .plainMedium n _ => cs = [.mt (String.ofList n) (.simple 1 0 1)]
  | .debye n v => ∃ p, parseDebye (v.map fun q : ℚ => (q : ℝ)) = some p ∧
      cs = [.mt (String.ofList n) (.debye p.1 p.2.1 p.2.2.1 p.2.2.2)]
  | .debyeFile n f => ∃ d p, W.debye f = some d ∧ readDebyeFile d.1 d.2.1 d.2.2.1 d.2.2.2 = some p ∧
      cs = [.mt (String.ofList n) (.debye p.1 p.2.1 p.2.2.1 p.2.2.2)]
  | .oldFaces t => cs = [Face.xlo, .xhi, .ylo, .yhi, .zlo, .zhi].map fun f => .bt (faceWord f) (inside (oldTag (t f)))
  | .boundary n t => cs = [.bt (String.ofList n) (inside t)]
  | .absorber n _ _ _ => cs = [.bt (String.ofList n) .plain]
  | .absorberDefault n _ => cs = [.bt (String.ofList n) .plain]
  | .sheet n v => ∃ A B, ((∃ a b c d, v = [a, b, c, d] ∧ A = !![(a : ℝ), b; c, d] ∧ B = A) ∨
        (∃ a b c d e f g h, v = [a, b, c, d, e, f, g, h] ∧ A = !![(a : ℝ), b; c, d] ∧ B = !![(e : ℝ), f; g, h])) ∧
      SibcData.isPassiveS A ∧ SibcData.isPassiveS B ∧ ∃ Z : SibcData.M4,
        Z = !![SibcData.tportS2Z eta0 A 0 0, SibcData.tportS2Z eta0 A 0 1, 0, 0;
               SibcData.tportS2Z eta0 A 1 0, SibcData.tportS2Z eta0 A 1 1, 0, 0;
               0, 0, SibcData.tportS2Z eta0 B 0 0, SibcData.tportS2Z eta0 B 0 1;
               0, 0, SibcData.tportS2Z eta0 B 1 0, SibcData.tportS2Z eta0 B 1 1] ∧
        cs = [.bt (String.ofList n) (.sibc fun p q => ⟨Setup.entry Z p q, []⟩)]
  | .sheetFile n f => ∃ pr, W.sheet f = some pr ∧ cs = [.bt (String.ofList n) (.sibc pr)]
  | .wireType n => cs = [.wt (String.ofList n)]
  | .wave n _ _ => cs = [.wf (String.ofList n)]
  | .waveFile n _ _ => cs = [.wf (String.ofList n)]
  | .block b m k => cs = [.mb ⟨7 + k.toList.length, b, String.ofList m, k.getD "111111".toList⟩]
  | .surface b n => cs = [.tb ⟨7, b, String.ofList n, 1, 0⟩]
  | .surfaceTurned b n o a => cs = [.tb ⟨8 + a.toList.length, b, String.ofList n, o, a.getD 0⟩]
  | .wire b n e => cs = [.tw ⟨7 + e.length, b, String.ofList n⟩]
  | .source b n t w v => ∃ size delay resist : ℚ, cs = [.ex 9 b (String.ofList n) t (String.ofList w) size delay resist] ∧
      if isLumped t then resist = v[0]?.getD 0 ∧ size = v[1]?.getD 1 ∧ delay = v[2]?.getD 0
      else size = v[0]?.getD 1 ∧ delay = v[1]?.getD 0 ∧ resist = 0
  | .planeWave b n w t p e =>
      cs = [.pw ⟨11, b, String.ofList n, String.ofList w, t, p, e, "111111".toList, 1⟩ 0]
  | .planeWaveMask b n w t p e m v =>
      cs = [.pw ⟨12 + v.length, b, String.ofList n, String.ofList w, t, p, e, m, v[0]?.getD 1⟩ (v[1]?.getD 0 : ℚ)]
  | .observer b n f w =>
      cs = [.op ⟨8 + w.toList.length, b, String.ofList n, true, true, 1, 1, 1, String.ofList (w.getD []), f⟩]
  | .recorder b n s =>
      cs = [.op ⟨8 + s.length, b, String.ofList n, true, false, s[0]?.getD 1, s[1]?.getD 1, s[2]?.getD 1, "", false⟩]
  | _ => cs = []

end Vulture.Spec.Page
