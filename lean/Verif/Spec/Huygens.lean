import Verif.Spec.Grid
import Verif.Model.Sim
/-
Specification for C31: an incident wave and the separation into total and scattered field.
-/
namespace Vulture.Spec
variable {K : Type*} [CommRing K]

/-- Field values by component and indices. -/
abbrev FieldOf (K : Type*) := Fc → Int → Int → Int → K

/-- The discrete curl of the magnetic field at an electric sample; `d` are the reciprocal dual edge lengths. -/
def curlAtE (d : Axis → Int → K) (F : FieldOf K) (i j k : Int) : Axis → K
  | .x => d .y j * (F .hz i j k - F .hz i (j-1) k) - d .z k * (F .hy i j k - F .hy i j (k-1))
  | .y => d .z k * (F .hx i j k - F .hx i j (k-1)) - d .x i * (F .hz i j k - F .hz (i-1) j k)
  | .z => d .x i * (F .hy i j k - F .hy (i-1) j k) - d .y j * (F .hx i j k - F .hx i (j-1) k)

/-- The discrete curl of the electric field at a magnetic sample; `d` are the reciprocal edge lengths. -/
def curlAtH (d : Axis → Int → K) (F : FieldOf K) (i j k : Int) : Axis → K
  | .x => d .y j * (F .ez i (j+1) k - F .ez i j k) - d .z k * (F .ey i j (k+1) - F .ey i j k)
  | .y => d .z k * (F .ex i j (k+1) - F .ex i j k) - d .x i * (F .ez (i+1) j k - F .ez i j k)
  | .z => d .x i * (F .ey (i+1) j k - F .ey i j k) - d .y j * (F .ex i (j+1) k - F .ex i j k)

/-- A wave, given as the field `I n` before each step `n`, that satisfies the discrete field equations at every sample
of the closed box: first the electric field is advanced with the old magnetic field, then the magnetic field with the
new electric field. -/
structure IncidentWave (C : CRef → K) (b : BBox) (I : Nat → FieldOf K) : Prop where
  electric : ∀ n (a : Axis) i j k, SampleIn b a.e i j k → I (n+1) a.e i j k =
    C (.alpha a.e i j k) * I n a.e i j k +
      C (.beta a.e i j k) * curlAtE (fun a i => C (.idh a i)) (I n) i j k a
  magnetic : ∀ n (a : Axis) i j k, SampleIn b a.h i j k → I (n+1) a.h i j k =
    I n a.h i j k - C (.gamma a.h i j k) * curlAtH (fun a i => C (.ide a i)) (I (n+1)) i j k a

open Classical in
/-- Total field inside the closed box, nothing outside. -/
noncomputable def separated (b : BBox) (I : FieldOf K) : FieldOf K := fun fc i j k =>
  if SampleIn b fc i j k then I fc i j k else 0

/-- The box keeps clear of the outer faces: at least one cell, two from a Mur face. -/
def ClearOf (c : Cfg) (b : BBox) : Prop :=
  ∀ a : Axis, c.gibox a.lo + (if c.bt a.lo = .mur then 2 else 1) ≤ b a.lo ∧ b a.lo ≤ b a.hi ∧
    b a.hi ≤ c.gibox a.hi - (if c.bt a.hi = .mur then 2 else 1)

/-- The background is free of electric loss on the faces of the box. -/
def LosslessFaces (C : CRef → K) (b : BBox) : Prop :=
  ∀ (f : Face) (a : Axis) i j k, a ≠ f.axis → SampleIn b a.e i j k →
    (match f.axis with | .x => i | .y => j | .z => k) = b f → C (.alpha a.e i j k) = 1

end Vulture.Spec
