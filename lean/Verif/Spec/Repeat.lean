import Verif.Spec.Plates
/-
Specification for C85 and C86: models without dispersive blocks, sheets, plane waves and overwriting sources; when a periodic model
repeats another one; and when two models agree up to their extent along an axis.
-/
namespace Vulture.Spec
open Setup

/-- Models of simple media with soft sources. None acts at a `MUR` side; no lumped source at a `PML` side, where the material is in
the documented ranges; `MUR` and `PML` sides are not mixed. -/
structure PlainModel (k : Consts) (X : Experiment) (T : ℝ) : Prop where
  clear : ∀ fc q, OnGridBox X fc q → ClearOfSheets X fc q ∧ ClearOfWaves X fc q
  simple : ∀ fc q, SampleInMesh X fc q → ∀ x ∈ X.file.cards, ∀ e s u poles, ¬ DebyeCard X fc q x e s u poles
  soft : ∀ fc q, SampleInMesh X fc q → ∀ x ∈ X.file.cards, ¬ Overwrites x fc q
  mur : ∀ f a q, InMurSide X f a q → Undisturbed X a q ∧ Undisturbed X a (inwards f q)
  murEdge : ∀ a q, OnMurEdges X a q → Undisturbed X a q
  thick : ∀ f, X.file.bt f = .mur → 2 ≤ cellsOf X.file f.axis ∨ X.file.bt f.opposite ≠ .mur
  unmixed : ∀ f g, X.file.bt f = .mur → X.file.bt g ≠ .pml
  second : ∀ b, X.file.bt b.lo = .pml → 2 ≤ cellsOf X.file b
  lumped : ∀ fc q, InLayer X fc q → ∀ x ∈ X.file.cards, ∀ s, ¬ ResistorOf X fc (continued X fc q .x) (continued X fc q .y) (continued X fc q .z) x s
  range : ∀ fc q, InLayer X fc q → ∀ s, MadeOf X fc (continued X fc q .x) (continued X fc q .y) (continued X fc q .z) s →
    InRange k T s ∧ ∀ e s' u poles, s ≠ .dispersive e s' u poles

/-- Two models have the same cells and sides across the axes other than `d`. -/
structure SameAcross (X Y : Experiment) (d : Axis) : Prop where
  cells : ∀ b, b ≠ d → cellsOf X.file b = cellsOf Y.file b
  lengths : ∀ b, b ≠ d → ∀ i, cellLength X b i = cellLength Y b i
  sides : ∀ f, f.axis ≠ d → X.file.bt f = Y.file.bt f ∧ X.file.layers f = Y.file.layers f ∧ X.par f = Y.par f

/-- The place `r` is the place `q`, moved by `s` cells along `d`, up to multiples of `N` cells. -/
def CopyOf (N : Int) (d : Axis) (s : Int) (q r : Axis → Int) : Prop := (∀ b, b ≠ d → r b = q b) ∧ N ∣ r d - q d - s

/-- Two models that are periodic along `d`: `Y` is some copies of `X` in a row, beginning anywhere in `X`. The first and the last cell
along `d` are of one size (the program takes no account of the last one at the first node). -/
structure Repeats (X Y : Experiment) (T : ℝ) (d : Axis) (s : Int) : Prop where
  periodic : X.file.bt d.lo = .periodic ∧ X.file.bt d.hi = .periodic ∧ Y.file.bt d.lo = .periodic ∧ Y.file.bt d.hi = .periodic
  copies : cellsOf X.file d ∣ cellsOf Y.file d
  lengths : ∀ i j, 0 ≤ i → i < cellsOf X.file d → 0 ≤ j → j < cellsOf Y.file d → cellsOf X.file d ∣ j - i - s → cellLength X d i = cellLength Y d j
  seam : cellLength X d 0 = cellLength X d (cellsOf X.file d - 1) ∧ cellLength Y d 0 = cellLength Y d (cellsOf Y.file d - 1)
  across : SameAcross X Y d
  stuff : ∀ fc q r, SampleInMesh X fc q → SampleInMesh Y fc r → CopyOf (cellsOf X.file d) d s q r →
    ∀ st, MadeOf X fc (q .x) (q .y) (q .z) st → MadeOf Y fc (r .x) (r .y) (r .z) st
  source : ∀ fc q r, SampleInMesh X fc q → SampleInMesh Y fc r → CopyOf (cellsOf X.file d) d s q r → ∀ t,
    sourceField X T t fc q = sourceField Y T t fc r ∧ sourceCurrent X T t fc q = sourceCurrent Y T t fc r

/-- The components of a field that does not change along `d`: the electric one along `d` and the magnetic ones across (`tm`), or the
magnetic one along `d` and the electric ones across. -/
def Lives (d : Axis) (tm : Bool) (fc : Fc) : Prop :=
  if tm then fc = d.e ∨ ∃ a, a ≠ d ∧ fc = a.h else fc = d.h ∨ ∃ a, a ≠ d ∧ fc = a.e

/-- The model drives the living components only; across `d` there are periodic sides or plates: `PEC` if the electric field is along
`d`, `PMC` otherwise. -/
structure Plated (X : Experiment) (T : ℝ) (d : Axis) (tm : Bool) : Prop where
  plates : ∀ f, f.axis = d → X.file.bt f = .periodic ∨ X.file.bt f = if tm then .pec else .pmc
  dark : ∀ fc q, ¬ Lives d tm fc → SampleInMesh X fc q → ∀ t, sourceField X T t fc q = 0 ∧ sourceCurrent X T t fc q = 0

/-- Two models have the same cross section: they say the same about places that differ along `d` only. -/
structure SameSection (X Y : Experiment) (T : ℝ) (d : Axis) (tm : Bool) : Prop where
  across : SameAcross X Y d
  stuff : ∀ fc q r, Lives d tm fc → SampleInMesh X fc q → SampleInMesh Y fc r → (∀ b, b ≠ d → r b = q b) →
    ∀ st, MadeOf X fc (q .x) (q .y) (q .z) st → MadeOf Y fc (r .x) (r .y) (r .z) st
  source : ∀ fc q r, Lives d tm fc → SampleInMesh X fc q → SampleInMesh Y fc r → (∀ b, b ≠ d → r b = q b) → ∀ t,
    sourceField X T t fc q = sourceField Y T t fc r ∧ sourceCurrent X T t fc q = sourceCurrent Y T t fc r

end Vulture.Spec
