import Verif.Spec.Output
import Verif.Spec.Probes
/-
Specification for C100: files of runs that are asked for other frequencies or for another window.
-/
namespace Vulture.Spec
open Setup

/-- The same file, or two spectra whose rows at equal frequencies are equal. -/
inductive SameAtFrequencies : Contents → Contents → Prop
  | same (K : Contents) (h : isSpectrum K = false) : SameAtFrequencies K K
  | rows (head : Option Head) (a b : List (ℝ × List (ℝ × ℝ))) (h : ∀ r ∈ a, ∀ r' ∈ b, r.1 = r'.1 → r = r') :
      SameAtFrequencies (.freq head a) (.freq head b)

/-- The lines whose step lies in the window. -/
def linesIn (t : BitVec 64 × BitVec 64) (l : List _root_.Vulture.Run.Line) : List _root_.Vulture.Run.Line :=
  l.filter fun x => t.1.toNat ≤ x.step.toNat ∧ x.step.toNat ≤ t.2.toNat

end Vulture.Spec
