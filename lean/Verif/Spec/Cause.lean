import Verif.Spec.Later
/-
Specification for C99: waveforms that agree up to some time; tables of numbers that agree up to some step.
-/
namespace Vulture.Spec
open Setup

/-- Two sets of waveforms agree up to and including time `T`. -/
def AgreeUntil (dt T : ℝ) (V W : String → Wave) : Prop := ∀ n t, t ≤ T → waveValue dt (V n) t = waveValue dt (W n) t

/-- Two lists of lines, one for each of the steps `l`, agree for every step up to `n`. -/
def SameUntil {α : Type} (n : ℕ) (l : List ℕ) (a b : List α) : Prop :=
  a.length = l.length ∧ b.length = l.length ∧ ∀ r q : ℕ, l[r]? = some q → q ≤ n → a[r]? = b[r]?

end Vulture.Spec
