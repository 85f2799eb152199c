import Verif.Spec.Grid
import Verif.Spec.Geometry
import Verif.Model.SimAlloc
import Verif.Model.PlaneWave
/-
What the set-up guarantees about the items of a run: every item lies in the user's mesh. Stated without reference to
the update loops.
-/
namespace Vulture.Spec
open PlaneWave

/-- The box has its sides in order. -/
def Ordered (b : BBox) : Prop := ∀ a : Axis, b a.lo ≤ b a.hi

/-- A run as the set-up builds it from accepted cards with ordered boxes. -/
structure ValidSim (S : Sim) : Prop where
  cfg : ValidCfg S.cfg
  debye : ∀ d ∈ S.debye, ∃ (b : BBox) (mask : Face → Bool), Within b S.cfg.gibox ∧ d.flim = setFieldLimits b mask
  sibc : ∀ s ∈ S.sibc, Within s.gbbox S.cfg.gibox ∧ Ordered s.gbbox ∧ s.gbbox s.normal.lo = s.gbbox s.normal.hi
  srcs : ∀ s ∈ S.srcs, Within s.gbbox S.cfg.gibox
  pws : ∀ w ∈ S.pws, Within w.gbbox S.cfg.gibox ∧ Ordered w.gbbox
  aux : ∀ w ∈ S.pws, ∀ g, w.aux = some g → ∃ theta phi eta q0, anglesOk theta phi eta ∧
    ijk0 theta phi w.gbbox = some q0 ∧ g = auxGridOf theta phi w.gbbox q0

/-- No analytic plane wave has an active low face on the low side of the mesh. -/
def AnalyticInside (S : Sim) : Prop :=
  ∀ w ∈ S.pws, w.aux = none → ∀ f : Face, f.isLo = true → w.active f = true → S.cfg.gibox f < w.gbbox f

end Vulture.Spec
