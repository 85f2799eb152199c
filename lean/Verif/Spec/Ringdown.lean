import Verif.Spec.Passive
import Mathlib.Topology.Instances.Real.Lemmas
import Mathlib.Topology.Algebra.InfiniteSum.Basic
/- Specification for C93: currents that fade away, models in which every edge conducts. -/
namespace Vulture.Spec
open Setup Filter

/-- The impressed currents fade away: their absolute values, sampled as the run does, have a finite sum. -/
structure Fading (X : Experiment) (T : ℝ) : Prop where
  electric : ∀ (a : Axis) (q : Axis → Int), (∀ d, q d ∈ meshRange X a.e d) → Summable fun n : ℕ => |totalCurrent X T (n * T) a.e q|
  magnetic : ∀ (a : Axis) (q : Axis → Int), (∀ d, q d ∈ meshRange X a.h d) → Summable fun n : ℕ => |totalCurrent X T ((n + 1 / 2) * T) a.h q|

/-- A sequence tends to zero. -/
def DiesOut (f : ℕ → ℝ) : Prop := Tendsto f atTop (nhds 0)

/-- Every edge of the mesh is metal or made of matter with a conductivity above zero. -/
def Conducting (X : Experiment) (M : Axis → (Axis → Int) → Stuff) : Prop :=
  ∀ a q, (∀ d, q d ∈ meshRange X a.e d) → M a q = .metal ∨ 0 < conductivity (M a q)

end Vulture.Spec
