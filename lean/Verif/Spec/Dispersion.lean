import Verif.Model.Sim
import Mathlib.Analysis.Complex.Basic
/- What a dispersive medium has to satisfy, written without the code's coefficients. -/
namespace Vulture.Spec

/-- Field value at an index triple. -/
def at3 {K : Type*} (s : Loc → K) (fc : Fc) (q : Axis → Int) : K := s (.fld fc (q .x) (q .y) (q .z))

/-- The neighbour one step back along an axis. -/
def back (q : Axis → Int) (a : Axis) : Axis → Int := fun b => if b = a then q b - 1 else q b

/-- Component `a` of the discrete curl of the magnetic field around the electric sample `q`:
the circulation of the four magnetic samples next to it divided by the dual edge lengths `h`. -/
noncomputable def curlOfH (h : Axis → Int → ℝ) (s : Loc → ℝ) (a : Axis) (q : Axis → Int) : ℝ :=
  let b := a.next
  let c := b.next
  (at3 s c.h q - at3 s c.h (back q b)) / h b (q b) - (at3 s b.h q - at3 s b.h (back q c)) / h c (q c)

/-- A residue with its pole; together with its complex conjugate it contributes
`r/(s-p) + r*/(s-p*)` to the relative permittivity (doc/UserManual, eq. for `DEBYE`). -/
structure Pole where
  res : ℂ
  pole : ℂ

/-- Trapezoidal discretisation of `dJ/dt = p J + eps0 r dE/dt` over one time step. -/
def PoleEquation (dt eps0 : ℝ) (q : Pole) (J J' : ℂ) (E E' : ℝ) : Prop :=
  (J' - J) / dt = q.pole * ((J' + J) / 2) + eps0 * q.res * (((E' - E : ℝ) : ℂ) / dt)

/-- Centred Ampere law with the mean over the step of the polarisation currents of all poles and of their
complex conjugates. -/
def DispersiveAmpere (dt eps0 eps_r sigma : ℝ) (E E' curl : ℝ) (J J' : List ℂ) : Prop :=
  eps_r * eps0 * ((E' - E) / dt) + sigma * ((E' + E) / 2) +
    ((J'.map fun z => (z + star z).re).sum + (J.map fun z => (z + star z).re).sum) / 2 = curl

end Vulture.Spec
