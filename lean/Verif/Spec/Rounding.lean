import Verif.Model.Setup
import Verif.Spec.Energy
/-
Runs of a machine that rounds: after every time step the memory may differ a little from the result of the exact
arithmetic applied to the memory before the step.
-/
namespace Vulture.Spec
open Setup

/-- What the machine holds before step `n` of a run `R`, for all `n`: the arrays are cleared first, and samples in perfect
conductors stay zero (zero times anything is zero in floating point, too). Nothing else is assumed. -/
structure Machine (R : Run) (c : ℕ → Loc → ℝ) : Prop where
  cleared : ∀ fc i j l, SampleIn R.sim.cfg.gibox fc i j l → c 0 (.fld fc i j l) = 0
  metal : ∀ n, FieldFree R.coefs R.sim.cfg.gibox (c n)

/-- Rounding error of step `n`: difference from the exact step with the same memory and the same drive values. -/
noncomputable def slip (R : Run) (c : ℕ → Loc → ℝ) (n : ℕ) : Loc → ℝ :=
  fun l => c (n + 1) l - R.sim.step.run R.coefs (setInputs (R.drive n) (c n)) l

/-- Accumulated error before step `n`: difference from the run in exact arithmetic. -/
noncomputable def drift (R : Run) (c : ℕ → Loc → ℝ) (n : ℕ) : Loc → ℝ := fun l => c n l - R.fields n l

end Vulture.Spec
