import Verif.Spec.Closed
import Mathlib.Algebra.BigOperators.NatAntidiagonal
/- Specification for C88: two files that describe the same closed body, and currents on single edges. -/
namespace Vulture.Spec
open Setup Finset

/-- The files have the same mesh, the same sides and the same Courant number. -/
structure SameMesh (X Y : Experiment) : Prop where
  cells : ∀ a, cellsOf Y.file a = cellsOf X.file a
  lines : Y.lines = X.lines
  sides : Y.file.bt = X.file.bt
  courant : Y.cn = X.cn

/-- Reaction of the fields of a run on the currents of a file, up to step `N + 1`: field times current density, summed over the
mesh and over all pairs of times that add up to the same. -/
noncomputable def reactionOn (X : Experiment) (R : Setup.Run) (Y : Experiment) (N : ℕ) : ℝ :=
  ∑ x ∈ antidiagonal (N + 1), allE X (fun a q => edgeShare X a q * (value R x.1 a.e q * totalCurrent Y R.dt (x.2 * R.dt) a.e q)) -
  ∑ x ∈ antidiagonal N, allH X (fun a q => squareShare X a q * (value R x.1 a.h q * totalCurrent Y R.dt ((x.2 + 1 / 2) * R.dt) a.h q))

/-- The only current in the model is `I` through the edge `(a, q)`, spread over the cross section that belongs to the edge. -/
def OneEdge (X : Experiment) (T : ℝ) (a : Axis) (q : Axis → Int) (I : ℝ → ℝ) : Prop :=
  ∀ (t : ℝ) (fc : Fc) (p : Axis → Int), (fc = a.e ∧ p = q → totalCurrent X T t fc p = I t / edgeArea X a q) ∧
    (¬ (fc = a.e ∧ p = q) → totalCurrent X T t fc p = 0)

/-- Part of the cross section of an edge that lies in the mesh: one half for every side the edge lies in. -/
noncomputable def insidePart (X : Experiment) (a : Axis) (q : Axis → Int) : ℝ :=
  (if q a.next = 0 ∨ q a.next = cellsOf X.file a.next then 1 / 2 else 1) *
  (if q a.next.next = 0 ∨ q a.next.next = cellsOf X.file a.next.next then 1 / 2 else 1)

/-- Tag of a current along an axis. -/
def currentTag : Axis → List Char | .x => ['I', 'X'] | .y => ['I', 'Y'] | .z => ['I', 'Z']

/-- The file has one `EX` card, for a current through one edge of the mesh: tag `IX`, `IY` or `IZ`, box equal to the edge. -/
def OneEdgeCard (X : Experiment) (a : Axis) (q : Axis → Int) (w : String) (size delay : ℝ) : Prop :=
  ∃ before after m b name r, X.file.cards = before ++ Deck.Card.ex m b name (currentTag a) w size delay r :: after ∧
    (∀ d : Axis, b d.lo = q d ∧ b d.hi = if d = a then q d + 1 else q d) ∧
    ∀ c ∈ before ++ after, ∀ m b name tag w size delay r, c ≠ .ex m b name tag w size delay r

end Vulture.Spec
