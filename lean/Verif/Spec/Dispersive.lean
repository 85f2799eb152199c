import Verif.Spec.Passive
import Verif.Spec.Exchange
/- Specification for C92: closed models with dispersive media of any kind that do not grow by themselves. -/
namespace Vulture.Spec
open Setup Finset

/-- The edge is made of a dispersive medium with its numbers in the documented ranges and no pole in the right half plane; one block
card says so, nothing else acts on the edge. -/
def DispersiveEdge (k : Consts) (X : Experiment) (T : ℝ) (a : Axis) (q : Axis → Int) (stuff : Stuff) : Prop :=
  SampleIn (meshBox X) a.e (q .x) (q .y) (q .z) ∧ ¬ OnMurSide X a.e q ∧ OneDebyeCard X a.e q ∧ ClearOfSheets X a.e q ∧ ClearOfWaves X a.e q ∧
  NoSource X a.e q ∧ MadeOf X a.e (q .x) (q .y) (q .z) stuff ∧ InRange k T stuff ∧
    ∃ e s u poles, stuff = .dispersive e s u poles ∧ ∀ p ∈ poles, p.pole.re ≤ 0

/-- A closed model (see `SealedModel`) whose edges are plain, metal or made of dispersive media. -/
structure DispersiveModel (k : Consts) (X : Experiment) (T : ℝ) (M : Axis → (Axis → Int) → Stuff) (mu : Axis → (Axis → Int) → ℝ) : Prop where
  sides : ∀ f, X.file.bt f = .pec ∨ X.file.bt f = .pmc ∨ X.file.bt f = .periodic
  ends : ∀ d : Axis, X.file.bt d.lo = .periodic → SameEnds X T d
  edges : ∀ a q, (∀ d, q d ∈ meshRange X a.e d) → PlainEdge X a q (M a q) ∨ MetalEdge X a q (M a q) ∨ DispersiveEdge k X T a q (M a q)
  walls : ∀ a q, (∀ d, q d ∈ meshRange X a.e d) → OnPecSide X a.e (q .x) (q .y) (q .z) → M a q = .metal
  squares : ∀ a q, (∀ d, q d ∈ meshRange X a.h d) → MatterSquare k X T a q (mu a q)

end Vulture.Spec
