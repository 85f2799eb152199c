import Verif.Spec.Maxwell
/-
Specification for C73: two mesh files that are the same around a sample, except perhaps for a shift of the coordinates.
-/
namespace Vulture.Spec
open Setup

/-- Samples to which the equations of C72 apply: inside the mesh, not in a `MUR` side, not in a dispersive block, not next to
an impedance sheet or to a side of a plane wave's box, and not held by a field or voltage source. -/
def OrdinaryE (X : Experiment) (a : Axis) (q : Axis → Int) : Prop :=
  SampleIn (meshBox X) a.e (q .x) (q .y) (q .z) ∧ ¬ OnMurSide X a.e q ∧
  (∀ x ∈ X.file.cards, ∀ e s u poles, ¬ DebyeCard X a.e q x e s u poles) ∧
  ClearOfSheets X a.e q ∧ ClearOfWaves X a.e q ∧ OnlyCurrents X a.e q
def OrdinaryH (X : Experiment) (a : Axis) (q : Axis → Int) : Prop :=
  SampleIn (meshBox X) a.h (q .x) (q .y) (q .z) ∧ ClearOfSheets X a.h q ∧ ClearOfWaves X a.h q ∧ OnlyCurrents X a.h q

/-- The sample in the coordinates of the other file. -/
def moved (q d : Axis → Int) : Axis → Int := fun a => q a + d a

/-- Both files say the same about a sample: what it is made of, and the current impressed on it at all times. -/
def SaySame (X Y : Experiment) (d : Axis → Int) (T : ℝ) (fc : Fc) (q : Axis → Int) : Prop :=
  (∀ s, MadeOf X fc (q .x) (q .y) (q .z) s ↔ MadeOf Y fc (moved q d .x) (moved q d .y) (moved q d .z) s) ∧
  ∀ t, totalCurrent X T t fc q = totalCurrent Y T t fc (moved q d)

/-- The files are the same at an electric sample, including the distances of the magnetic samples around it. -/
def SameE (X Y : Experiment) (d : Axis → Int) (T : ℝ) (a : Axis) (q : Axis → Int) : Prop :=
  OrdinaryE X a q ∧ OrdinaryE Y a (moved q d) ∧ SaySame X Y d T a.e q ∧
  ∀ b, b ≠ a → middleDistance X b (q b) = middleDistance Y b (moved q d b)
/-- The files are the same at a magnetic sample, including the distances of the electric samples around it. -/
def SameH (X Y : Experiment) (d : Axis → Int) (T : ℝ) (a : Axis) (q : Axis → Int) : Prop :=
  OrdinaryH X a q ∧ OrdinaryH Y a (moved q d) ∧ SaySame X Y d T a.h q ∧
  ∀ b, b ≠ a → cellLength X b (q b) = cellLength Y b (moved q d b)

/-- The two coordinates are at most `n` cells apart. -/
def Close (n : ℕ) (q p : Axis → Int) : Prop := ∀ a, |p a - q a| ≤ n

/-- A part of space that the files describe alike, enclosed by metal: every electric sample in it is metal in both files,
or the same in both and surrounded by magnetic samples of this part; every magnetic sample in it is the same in both and
surrounded by electric samples of this part. -/
structure Enclosed (X Y : Experiment) (d : Axis → Int) (T : ℝ) (P : Fc → (Axis → Int) → Prop) : Prop where
  electric : ∀ a q, P a.e q →
    (OrdinaryE X a q ∧ MadeOf X a.e (q .x) (q .y) (q .z) .metal ∧
      OrdinaryE Y a (moved q d) ∧ MadeOf Y a.e (moved q d .x) (moved q d .y) (moved q d .z) .metal) ∨
    (SameE X Y d T a q ∧ ∀ b c, b ≠ a → c ≠ a → b ≠ c → P b.h q ∧ P b.h (back q c))
  magnetic : ∀ a q, P a.h q → SameH X Y d T a q ∧ ∀ b c, b ≠ a → c ≠ a → b ≠ c → P b.e q ∧ P b.e (ahead q c)

end Vulture.Spec
