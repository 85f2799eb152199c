import Verif.Spec.Dispersion
import Verif.Spec.Grid
import Mathlib.Algebra.BigOperators.Group.Finset.Basic
/-
Specification for C27: the discrete laws with impressed currents, and what the letters of an EX card mean.
-/
namespace Vulture.Spec

/-- The neighbour one step ahead along an axis. -/
def ahead (q : Axis → Int) (a : Axis) : Axis → Int := fun b => if b = a then q b + 1 else q b

/-- Component `a` of the discrete curl of the electric field around the magnetic sample `q`, with primary edge
lengths `h`. -/
noncomputable def curlOfE (h : Axis → Int → ℝ) (s : Loc → ℝ) (a : Axis) (q : Axis → Int) : ℝ :=
  let b := a.next
  let c := b.next
  (at3 s c.e (ahead q b) - at3 s c.e q) / h b (q b) - (at3 s b.e (ahead q c) - at3 s b.e q) / h c (q c)

/-- Ampere's law over one step with an impressed current density `J`. -/
def AmpereWithCurrent (dt eps sigma E E' curl J : ℝ) : Prop :=
  eps * ((E' - E) / dt) + sigma * ((E' + E) / 2) + J = curl

/-- Faraday's law over one step with an impressed magnetic current density `M`. -/
def FaradayWithCurrent (dt mu H H' curl M : ℝ) : Prop := mu * ((H' - H) / dt) + M = -curl

/-- Length along an axis that belongs to a sample: a primary edge where the sample lies half-way between nodes, a dual
edge where it lies on a node. -/
def extent (de dh : Axis → Int → ℝ) (fc : Fc) (c : Axis) (i : Int) : ℝ :=
  if pos2 fc c 0 = 1 then de c i else dh c i

/-- Index triple with one coordinate replaced. -/
def setc (q : Axis → Int) (c : Axis) (i : Int) : Axis → Int := fun d => if d = c then i else q d

/-- The sample of the component at `q` lies in the closed box. -/
def InSource (b : BBox) (fc : Fc) (q : Axis → Int) : Prop := SampleIn b fc (q .x) (q .y) (q .z)

/-- Total over the plane through `q` normal to `a`: density times the area belonging to each sample of the box.
`T`: the samples of the plane inside the box. -/
noncomputable def fluxThrough (de dh : Axis → Int → ℝ) (fc : Fc) (a : Axis) (q : Axis → Int) (T : Finset (Int × Int))
    (J : (Axis → Int) → ℝ) : ℝ :=
  ∑ t ∈ T, J (setc (setc q a.next t.1) a.next.next t.2) *
    (extent de dh fc a.next t.1 * extent de dh fc a.next.next t.2)

/-- Sum along the line through `q` parallel to `c`: value times the length belonging to each sample of the box. -/
noncomputable def lineSum (de dh : Axis → Int → ℝ) (fc : Fc) (c : Axis) (q : Axis → Int) (T : Finset Int)
    (J : (Axis → Int) → ℝ) : ℝ :=
  ∑ i ∈ T, J (setc q c i) * extent de dh fc c i

/-- `T` are the samples of the plane (line) inside the box. -/
def PlaneOf (b : BBox) (fc : Fc) (a : Axis) (q : Axis → Int) (T : Finset (Int × Int)) : Prop :=
  ∀ j k, (j, k) ∈ T ↔ InSource b fc (setc (setc q a.next j) a.next.next k)
def LineOf (b : BBox) (fc : Fc) (c : Axis) (q : Axis → Int) (T : Finset Int) : Prop :=
  ∀ i, i ∈ T ↔ InSource b fc (setc q c i)

/-- Letters of an EX tag, in the manual's table (doc/UserManual, section on `EX`). -/
inductive Quantity
  | E | H | J | JM | JS | JMS | I | IM | ID | IMD | V | VR | IG
  deriving DecidableEq, Repr

def Quantity.letters : Quantity → List Char
  | .E => ['E'] | .H => ['H'] | .J => ['J'] | .JM => ['J', 'M'] | .JS => ['J', 'S'] | .JMS => ['J', 'M', 'S']
  | .I => ['I'] | .IM => ['I', 'M'] | .ID => ['I', 'D'] | .IMD => ['I', 'M', 'D'] | .V => ['V'] | .VR => ['V', 'R']
  | .IG => ['I', 'G']

/-- Driven on the electric (primary) edges. -/
def Quantity.electric : Quantity → Bool
  | .H | .JM | .JMS | .IM | .IMD => false
  | _ => true

def axisLetter : Axis → Char | .x => 'X' | .y => 'Y' | .z => 'Z'

/-- A tag: hard (`=`) or soft, quantity, polarisation and for surface currents the normal of the surface. -/
structure Tag where
  hard : Bool
  qty : Quantity
  pol : Axis
  norm : Option Axis
  deriving DecidableEq, Repr

/-- Which combinations exist: lumped circuits are never hard; surface currents, and only they, have a normal, which is
not the polarisation. -/
def Tag.Valid (t : Tag) : Prop :=
  (t.hard = true → t.qty ≠ .VR ∧ t.qty ≠ .IG) ∧
  (match t.norm with
   | none => t.qty ≠ .JS ∧ t.qty ≠ .JMS
   | some n => (t.qty = .JS ∨ t.qty = .JMS) ∧ n ≠ t.pol)

def Tag.spell (t : Tag) : List Char :=
  (if t.hard then ['='] else []) ++ t.qty.letters ++ [axisLetter t.pol] ++
    (match t.norm with | none => [] | some n => [axisLetter n])

end Vulture.Spec
