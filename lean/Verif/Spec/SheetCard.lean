import Verif.Spec.SheetMesh
import Verif.Spec.Material
import Verif.Spec.Convolution
/-
What a surface card with an impedance boundary says about the fields on the two sides of its squares.
-/
namespace Vulture.Spec
open Setup Deck

/-- The card puts an impedance sheet into the mesh. -/
def IsSheet (X : Experiment) (x : Deck.Card) : Prop := ∃ c pr, x = .tb c ∧ BoundaryNamed X.file.cards c.boundary (.sibc pr)

open Classical in
/-- The surface card `c` is number `n` of the impedance sheets of the file, counted from zero; its boundary has the
responses `pr`. -/
def SheetCard (X : Experiment) (n : Nat) (c : TBCard) (pr : Nat → Nat → PoleResidue) : Prop :=
  ∃ pre post, X.file.cards = pre ++ .tb c :: post ∧ BoundaryNamed X.file.cards c.boundary (.sibc pr) ∧
    (pre.filter fun x => IsSheet X x).length = n

/-- A vector in the plane of a sheet: its components along the two axes that follow the normal in cyclic order. -/
structure InPlane where
  first : ℝ
  second : ℝ

/-- The two polarisations of the data of a sheet. -/
inductive Pol | tm | te
  deriving DecidableEq, Repr

/-- The electric field of a polarisation: the sheet is turned by `ang` about its normal; the TM field lies along the turned
first axis, the TE field along the turned second axis. -/
noncomputable def voltage (ang : ℝ) : Pol → InPlane → ℝ
  | .tm, E => Real.cos ang * E.first + Real.sin ang * E.second
  | .te, E => -(Real.sin ang * E.first) + Real.cos ang * E.second

/-- The magnetic field that goes with it, as a current into the sheet: `H` along the turned second axis for TM, against the
turned first axis for TE; the opposite on the high side. -/
noncomputable def current (ang : ℝ) (side : Side) (p : Pol) (H : InPlane) : ℝ :=
  (match side with | .a => 1 | .b => -1) * match p with
    | .tm => -(Real.sin ang * H.first) + Real.cos ang * H.second
    | .te => -(Real.cos ang * H.first + Real.sin ang * H.second)

/-- The side on which a port of the data lies: the first port on the low side for orientation 1, on the high side for
orientation -1. -/
def portSide (orient : Int) (second : Bool) : Side := if (orient = 1) = (second = false) then .a else .b

/-- Number of a port in the data. -/
def portNo (p : Pol) (second : Bool) : Nat := (match p with | .tm => 0 | .te => 2) + if second then 1 else 0

/-- Electric field of a square on a side. -/
def sideE (s : Loc → ℝ) (n : Nat) (w : SibcSurf) (side : Side) (t : Int × Int × Int) : InPlane :=
  ⟨squareField s n w .second side t, squareField s n w .first side t⟩

/-- The edges of a square on which the samples of a magnetic component lie. -/
def lowEdgeOf : Along → Edge | .first => .lowFirst | .second => .lowSecond
def highEdgeOf : Along → Edge | .first => .highFirst | .second => .highSecond

/-- A sheet stands on the edge of the square, on that side. -/
def Stands (l : List SibcSurf) (normal : Axis) (t : Int × Int × Int) (side : Side) (e : Edge) : Prop :=
  ∃ s ∈ l, Covers s (e.across normal) (standing normal t (side = .b) e)

open Classical in
/-- Magnetic field beside a square: the mean of the samples at its two edges; a sample inside a sheet that stands on its
edge is zero and does not count. -/
noncomputable def meanH (l : List SibcSurf) (s : Loc → ℝ) (w : SibcSurf) (side : Side) (t : Int × Int × Int) (al : Along) : ℝ :=
  let a := al.mag w.normal
  let q := match side with | .a => shift w.normal (-1) t | .b => t
  (1 + (if Stands l w.normal t side (lowEdgeOf al) then 1 else 0) + (if Stands l w.normal t side (highEdgeOf al) then 1 else 0)) / 2 *
    (s (fldAt a.h q) + s (fldAt a.h (shift a 1 q)))

noncomputable def sideH (l : List SibcSurf) (s : Loc → ℝ) (w : SibcSurf) (side : Side) (t : Int × Int × Int) : InPlane :=
  ⟨meanH l s w side t .first, meanH l s w side t .second⟩

/-- Electric field at a port: the responses of the sheet to the currents at its four ports since the start. -/
noncomputable def answer (pr : Nat → Nat → PoleResidue) (T : ℝ) (cur : Pol → Bool → List ℝ) (p : Pol) (second : Bool) (time : ℝ) : ℝ :=
  let z := fun p' second' => response (pr (portNo p second) (portNo p' second')).asymp (pr (portNo p second) (portNo p' second')).terms
    (interp T (cur p' second')) time
  z .tm false + z .tm true + z .te false + z .te true

end Vulture.Spec
