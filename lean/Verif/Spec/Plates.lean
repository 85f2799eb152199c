import Verif.Spec.Layers
import Verif.Spec.Held
/-
Specification for C84: models of plane waves between two plates (`PEC`, or periodic) with magnetic (or periodic) sides, as in the
manual's and the tests' one-dimensional examples. `e`, `h`, `p`: directions of the electric field, of the magnetic field, and along
the line.
-/
namespace Vulture.Spec
open Setup

/-- What all sources together add to a sample: field, and current density. -/
noncomputable def sourceField (X : Experiment) (T time : ℝ) (fc : Fc) (q : Axis → Int) : ℝ := (X.file.cards.map (addedField X T time fc q)).sum
noncomputable def sourceCurrent (X : Experiment) (T time : ℝ) (fc : Fc) (q : Axis → Int) : ℝ := (X.file.cards.map (addedCurrent X T time fc q)).sum

/-- +1 if `e`, `p`, and the third axis follow each other cyclically, -1 otherwise. -/
def handed (e p : Axis) : ℝ := if p = e.next then 1 else -1

/-- The mesh with the absorbing layers contains the sample. -/
def OnGridBox (X : Experiment) (fc : Fc) (q : Axis → Int) : Prop := SampleIn (gridBox X) fc (q .x) (q .y) (q .z)
def SampleInMesh (X : Experiment) (fc : Fc) (q : Axis → Int) : Prop := SampleIn (meshBox X) fc (q .x) (q .y) (q .z)
/-- The sample lies in the outermost plane of the layers of a `PML` side. -/
def AtBack (X : Experiment) (fc : Fc) (q : Axis → Int) : Prop := ∃ f, X.file.bt f = .pml ∧ OnPlane (gridBox X) f fc (q .x) (q .y) (q .z)

/-- The model of a line: plates across `e`, magnetic or periodic sides across `h`, any ends across `p`; no dispersive blocks,
impedance sheets, plane waves and overwriting sources; sources drive only the field components `e` (electric) and `h` (magnetic);
none acts at a `MUR` end; no lumped source at a `PML` end, where the material is in the documented ranges. -/
structure LineModel (k : Consts) (X : Experiment) (T : ℝ) (e h p : Axis) : Prop where
  axes : e ≠ h ∧ h ≠ p ∧ e ≠ p
  plates : ∀ f, f.axis = e → X.file.bt f = .pec ∨ X.file.bt f = .periodic
  sides : ∀ f, f.axis = h → X.file.bt f = .pmc ∨ X.file.bt f = .periodic
  clear : ∀ fc q, OnGridBox X fc q → ClearOfSheets X fc q ∧ ClearOfWaves X fc q
  simple : ∀ fc q, SampleInMesh X fc q → ∀ x ∈ X.file.cards, ∀ e s u poles, ¬ DebyeCard X fc q x e s u poles
  soft : ∀ fc q, SampleInMesh X fc q → ∀ x ∈ X.file.cards, ¬ Overwrites x fc q
  darkE : ∀ a q, a ≠ e → SampleInMesh X a.e q → ∀ t, sourceField X T t a.e q = 0 ∧ sourceCurrent X T t a.e q = 0
  darkH : ∀ a q, a ≠ h → SampleInMesh X a.h q → ∀ t, sourceField X T t a.h q = 0 ∧ sourceCurrent X T t a.h q = 0
  mur : ∀ f a q, InMurSide X f a q → Undisturbed X a q ∧ Undisturbed X a (inwards f q)
  thick : ∀ f, X.file.bt f = .mur → 2 ≤ cellsOf X.file f.axis ∨ X.file.bt f.opposite ≠ .mur
  second : X.file.bt p.lo = .pml → 2 ≤ cellsOf X.file p
  lumped : ∀ fc q, InLayer X fc q → ∀ x ∈ X.file.cards, ∀ s, ¬ ResistorOf X fc (continued X fc q .x) (continued X fc q .y) (continued X fc q .z) x s
  range : ∀ fc q, InLayer X fc q → ∀ s, MadeOf X fc (continued X fc q .x) (continued X fc q .y) (continued X fc q .z) s →
    InRange k T s ∧ ∀ e s' u poles, s ≠ .dispersive e s' u poles

/-- Two models say the same along their lines, whatever they look like across: ends, cells along the line, material and sources.
A magnetic current changes its sign with the handedness of the axes. -/
structure SameLine (X Y : Experiment) (T : ℝ) (e h p e' h' p' : Axis) : Prop where
  cells : cellsOf X.file p = cellsOf Y.file p'
  lengths : ∀ i, cellLength X p i = cellLength Y p' i
  low : X.file.bt p.lo = Y.file.bt p'.lo
  high : X.file.bt p.hi = Y.file.bt p'.hi
  layers : X.file.layers p.lo = Y.file.layers p'.lo ∧ X.file.layers p.hi = Y.file.layers p'.hi
  params : X.par p.lo = Y.par p'.lo ∧ X.par p.hi = Y.par p'.hi
  stuffE : ∀ q r, SampleInMesh X e.e q → SampleInMesh Y e'.e r → q p = r p' → ∀ s, MadeOf X e.e (q .x) (q .y) (q .z) s → MadeOf Y e'.e (r .x) (r .y) (r .z) s
  stuffH : ∀ q r, SampleInMesh X h.h q → SampleInMesh Y h'.h r → q p = r p' → ∀ s, MadeOf X h.h (q .x) (q .y) (q .z) s → MadeOf Y h'.h (r .x) (r .y) (r .z) s
  sourceE : ∀ q r, SampleInMesh X e.e q → SampleInMesh Y e'.e r → q p = r p' → ∀ t,
    sourceField X T t e.e q = sourceField Y T t e'.e r ∧ sourceCurrent X T t e.e q = sourceCurrent Y T t e'.e r
  sourceH : ∀ q r, SampleInMesh X h.h q → SampleInMesh Y h'.h r → q p = r p' → ∀ t,
    handed e p * sourceField X T t h.h q = handed e' p' * sourceField Y T t h'.h r ∧
    handed e p * sourceCurrent X T t h.h q = handed e' p' * sourceCurrent Y T t h'.h r

/-- The model is the same everywhere across its line. -/
def Uniform (X : Experiment) (T : ℝ) (e h p : Axis) : Prop := SameLine X X T e h p e h p

end Vulture.Spec
