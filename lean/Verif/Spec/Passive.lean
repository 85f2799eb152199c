import Verif.Spec.Closed
/-
Specification for C90: dispersive media that take energy from a field of any frequency, and closed models that contain such media.
-/
namespace Vulture.Spec
open Setup Finset

/-- Mean power that a pole and its conjugate take per unit volume from a field of angular frequency `w`, in units of
`eps0 / 2` times the squared amplitude: the real part of `i w chi(i w)`. -/
noncomputable def absorbed (p : DPole) (w : ℝ) : ℝ :=
  (Complex.I * w * (p.res / (Complex.I * w - p.pole) + star p.res / (Complex.I * w - star p.pole))).re

/-- The pole dies out (or is a conductivity: a pole at zero) and takes energy from fields of all frequencies. -/
def PassivePole (p : DPole) : Prop := (p.pole.re < 0 ∨ p.pole = 0) ∧ ∀ w, 0 < w → 0 ≤ absorbed p w

/-- Permittivity at infinite frequency and conductivity of what an edge is made of. -/
noncomputable def instantPermittivity (k : Consts) : Stuff → ℝ
  | .dispersive e _ _ _ => e * k.eps0
  | s => permittivity k s
def staticConductivity : Stuff → ℝ
  | .dispersive _ s _ _ => s
  | s => conductivity s

/-- The edge is made of a dispersive medium with passive poles; one block card says so, nothing else acts on the edge. -/
def RelaxingEdge (X : Experiment) (a : Axis) (q : Axis → Int) (stuff : Stuff) : Prop :=
  SampleIn (meshBox X) a.e (q .x) (q .y) (q .z) ∧ ¬ OnMurSide X a.e q ∧ OneDebyeCard X a.e q ∧ ClearOfSheets X a.e q ∧ ClearOfWaves X a.e q ∧
  NoSource X a.e q ∧ MadeOf X a.e (q .x) (q .y) (q .z) stuff ∧
    match stuff with
    | .dispersive e s u poles => 1 ≤ e ∧ 0 ≤ s ∧ 1 ≤ u ∧ ∀ p ∈ poles, PassivePole p
    | _ => False

/-- The edge is metal and no source holds its field. -/
def MetalEdge (X : Experiment) (a : Axis) (q : Axis → Int) (stuff : Stuff) : Prop :=
  SampleIn (meshBox X) a.e (q .x) (q .y) (q .z) ∧ ¬ OnMurSide X a.e q ∧ MadeOf X a.e (q .x) (q .y) (q .z) .metal ∧
  (∀ x ∈ X.file.cards, ¬ Imposes a.e (q .x) (q .y) (q .z) x) ∧ stuff = .metal

/-- A closed model (see `SealedModel`) whose edges are plain, metal or made of passive dispersive media. -/
structure RelaxingModel (k : Consts) (X : Experiment) (T : ℝ) (M : Axis → (Axis → Int) → Stuff) (mu : Axis → (Axis → Int) → ℝ) : Prop where
  sides : ∀ f, X.file.bt f = .pec ∨ X.file.bt f = .pmc ∨ X.file.bt f = .periodic
  ends : ∀ d : Axis, X.file.bt d.lo = .periodic → SameEnds X T d
  edges : ∀ a q, (∀ d, q d ∈ meshRange X a.e d) → PlainEdge X a q (M a q) ∨ MetalEdge X a q (M a q) ∨ RelaxingEdge X a q (M a q)
  walls : ∀ a q, (∀ d, q d ∈ meshRange X a.e d) → OnPecSide X a.e (q .x) (q .y) (q .z) → M a q = .metal
  squares : ∀ a q, (∀ d, q d ∈ meshRange X a.h d) → MatterSquare k X T a q (mu a q)

end Vulture.Spec
