import Verif.Spec.Drive
import Verif.Spec.Grid
/-
Unbounded space cut into cells, images in mirror planes, and periodic repetition: what the outer walls of a model stand for
(C49).

A lattice point is an index triple; the component `a` of the electric field at `q` sits half a cell from the node `q` along `a`,
the component `a` of the magnetic field half a cell along the two other axes.
-/
namespace Vulture.Spec.Unbounded
open Vulture Vulture.Spec

/-- A value for every component and lattice point. -/
abbrev Comp := Axis → (Axis → Int) → ℝ

/-- Electric and magnetic field in all space. -/
structure Field where
  E : Comp
  H : Comp

/-- Space filled with media: edge lengths `de` and dual edge lengths `dh` along each axis, and the coefficients of Ampere's and
Faraday's laws. -/
structure Space where
  alpha : Comp
  beta : Comp
  gamma : Comp
  de : Axis → Int → ℝ
  dh : Axis → Int → ℝ

/-- Circulation of the magnetic field around an electric sample. -/
noncomputable def curlH (dh : Axis → Int → ℝ) (H : Comp) (a : Axis) (q : Axis → Int) : ℝ :=
  let b := a.next
  let c := b.next
  (H c q - H c (back q b)) / dh b (q b) - (H b q - H b (back q c)) / dh c (q c)

/-- Circulation of the electric field around a magnetic sample. -/
noncomputable def curlE (de : Axis → Int → ℝ) (E : Comp) (a : Axis) (q : Axis → Int) : ℝ :=
  let b := a.next
  let c := b.next
  (E c (ahead q b) - E c q) / de b (q b) - (E b (ahead q c) - E b q) / de c (q c)

/-- The electric field after one step with the impressed current density `J`. -/
noncomputable def Space.electric (X : Space) (J : Comp) (F : Field) : Comp := fun a q =>
  X.alpha a q * F.E a q + X.beta a q * (curlH X.dh F.H a q - J a q)

/-- One step: Ampere's law, then Faraday's law with the magnetic current density `M`. -/
noncomputable def Space.step (X : Space) (J M : Comp) (F : Field) : Field where
  E := X.electric J F
  H := fun a q => F.H a q - X.gamma a q * (curlE X.de (X.electric J F) a q + M a q)

/-- The fields after `n` steps from zero fields. -/
noncomputable def Space.run (X : Space) (J M : Nat → Comp) : Nat → Field
  | 0 => ⟨fun _ _ => 0, fun _ _ => 0⟩
  | n + 1 => X.step (J n) (M n) (X.run J M n)

/-- Image of an index in the node plane `m`: of a node, and of a sample half a cell beyond its node. -/
def mirrorIndex (half : Bool) (m i : Int) : Int := if half then 2 * m - 1 - i else 2 * m - i

/-- Image of a lattice point in the node plane `m` of axis `d`. -/
def mirror (half : Bool) (d : Axis) (m : Int) (q : Axis → Int) : Axis → Int :=
  fun b => if b = d then mirrorIndex half m (q b) else q b

/-- Image of the point of an electric sample, of a magnetic sample. -/
def imageE (d : Axis) (m : Int) (a : Axis) (q : Axis → Int) : Axis → Int := mirror (decide (a = d)) d m q
def imageH (d : Axis) (m : Int) (a : Axis) (q : Axis → Int) : Axis → Int := mirror (decide (a ≠ d)) d m q

/-- The two kinds of mirror: the electric one changes the sign of tangential electric fields and currents, the magnetic one that of
tangential magnetic fields and currents. -/
inductive Wall | electric | magnetic

/-- Sign of the image of an electric component. -/
def Wall.signE (w : Wall) (d a : Axis) : ℝ :=
  match w with
  | .electric => if a = d then 1 else -1
  | .magnetic => if a = d then -1 else 1

/-- Sign of the image of a magnetic component. -/
def Wall.signH (w : Wall) (d a : Axis) : ℝ :=
  match w with
  | .electric => if a = d then -1 else 1
  | .magnetic => if a = d then 1 else -1

/-- An electric (magnetic) quantity is its own image. -/
def SymmetricE (w : Wall) (d : Axis) (m : Int) (V : Comp) : Prop := ∀ a q, V a (imageE d m a q) = w.signE d a * V a q
def SymmetricH (w : Wall) (d : Axis) (m : Int) (V : Comp) : Prop := ∀ a q, V a (imageH d m a q) = w.signH d a * V a q

/-- The media and the mesh are their own image. -/
structure Space.Mirrors (X : Space) (d : Axis) (m : Int) : Prop where
  alpha : ∀ a q, X.alpha a (imageE d m a q) = X.alpha a q
  beta : ∀ a q, X.beta a (imageE d m a q) = X.beta a q
  gamma : ∀ a q, X.gamma a (imageH d m a q) = X.gamma a q
  de : ∀ i, X.de d (mirrorIndex true m i) = X.de d i
  dh : ∀ i, X.dh d (mirrorIndex false m i) = X.dh d i

/-- The point `N` cells further along axis `d`. -/
def shifted (d : Axis) (N : Int) (q : Axis → Int) : Axis → Int := fun b => if b = d then q b + N else q b

def Repeats (d : Axis) (N : Int) (V : Comp) : Prop := ∀ a q, V a (shifted d N q) = V a q

/-- The media and the mesh repeat. -/
structure Space.Repeats (X : Space) (d : Axis) (N : Int) : Prop where
  alpha : Unbounded.Repeats d N X.alpha
  beta : Unbounded.Repeats d N X.beta
  gamma : Unbounded.Repeats d N X.gamma
  de : ∀ i, X.de d (i + N) = X.de d i
  dh : ∀ i, X.dh d (i + N) = X.dh d i

end Vulture.Spec.Unbounded
