import Verif.Spec.Passive
/- Specification for C91: boxes of the mesh that contain passive dispersive media. -/
namespace Vulture.Spec
open Setup Finset

/-- All edges strictly inside the box are plain, metal or made of passive dispersive media; `mu`: permeability of the squares. -/
structure RelaxingBox (k : Consts) (X : Experiment) (T : ℝ) (b : BBox) (M : Axis → (Axis → Int) → Stuff) (mu : Axis → (Axis → Int) → ℝ) : Prop where
  open_box : ∀ a : Axis, b a.lo < b a.hi
  edges : ∀ a q, (∀ d, q d ∈ innerRange b a.e d) → PlainEdge X a q (M a q) ∨ MetalEdge X a q (M a q) ∨ RelaxingEdge X a q (M a q)
  squares : ∀ a q, (∀ d, q d ∈ innerRange b a.h d) → MatterSquare k X T a q (mu a q)

end Vulture.Spec
