import Mathlib.Analysis.SpecialFunctions.Trigonometric.Basic
/-
Model of src/waveform.c over `ℝ` (`real` is float or double there): the shapes, the parameters taken from a WF card,
`initWaveforms`, spline tables and their evaluation.
-/
namespace Vulture.Waveform
open Real

/-- `gaussianPulse`. src/waveform.c:412-417 -/
noncomputable def gaussianPulse (time width : ℝ) : ℝ := exp (-(1 / 2) * (time / width) ^ 2)

/-- `differentiatedGaussianPulse`. src/waveform.c:420-425 -/
noncomputable def differentiatedGaussianPulse (time width : ℝ) : ℝ := -time / width * exp (-(1 / 2) * (time / width) ^ 2)

/-- `rickerWavelet`. src/waveform.c:428-433 -/
noncomputable def rickerWavelet (time width : ℝ) : ℝ := (1 - (time / width) ^ 2) * exp (-(1 / 2) * (time / width) ^ 2)

/-- `modulatedGaussianPulse`. src/waveform.c:436-441 -/
noncomputable def modulatedGaussianPulse (time width frequency : ℝ) : ℝ :=
  exp (-(1 / 2) * (time / width) ^ 2) * sin (2 * π * frequency * time)

/-- The trigonometric polynomial of the compact pulse. src/waveform.c:450-452, 485-487, 500-502 -/
noncomputable def compactPoly (time width : ℝ) : ℝ :=
  1 / 32 * (10 - 15 * cos (π / width * time) + 6 * cos (2 * π / width * time) - cos (3 * π / width * time))

/-- `compactPulse`. src/waveform.c:444-456 -/
noncomputable def compactPulse (time width : ℝ) : ℝ :=
  if time ≤ 0 then 0 else if time < 2 * width then compactPoly time width else 0

/-- `differentiatedCompactPulse`. src/waveform.c:459-471 -/
noncomputable def differentiatedCompactPulse (time width : ℝ) : ℝ :=
  if time ≤ 0 then 0
  else if time < 2 * width then
    1 / 32 * (15 * sin (π / width * time) - 12 * sin (2 * π / width * time) + 3 * sin (3 * π / width * time))
  else 0

/-- `modulatedCompactPulse`. src/waveform.c:474-490 -/
noncomputable def modulatedCompactPulse (time width frequency : ℝ) : ℝ :=
  (if time ≤ 0 then 0 else if time < 2 * width then compactPoly time width else 0) * sin (2 * π * frequency * time)

/-- `rampedSinusoid`. src/waveform.c:493-509 -/
noncomputable def rampedSinusoid (time width frequency : ℝ) : ℝ :=
  (if time ≤ 0 then 0 else if time < 1 * width then compactPoly time width else 1) * sin (2 * π * frequency * time)

/-! ### Spline tables

A table is three arrays of `n` entries: times `x`, values `y` and second derivatives. -/

/-- Local variable `sign` of the loop. src/waveform.c:710 -/
noncomputable def sig (x : ℕ → ℝ) (i : ℕ) : ℝ := (x i - x (i - 1)) / (x (i + 1) - x (i - 1))

/-- `table[i][2]` and `u[i]` after the forward sweep with `deriv1 = 0` (the only value passed, line 333).
src/waveform.c:694-717 -/
noncomputable def sweep (x y : ℕ → ℝ) : ℕ → ℝ × ℝ
  | 0 => (-(1 / 2), 3 / (x 1 - x 0) * ((y 1 - y 0) / (x 1 - x 0) - 0))
  | i + 1 =>
    let s := sig x (i + 1)
    let prev := sweep x y i
    let p := s * prev.1 + 2
    let d := (y (i + 2) - y (i + 1)) / (x (i + 2) - x (i + 1)) - (y (i + 1) - y i) / (x (i + 1) - x i)
    ((s - 1) / p, (6 * d / (x (i + 2) - x i) - s * prev.2) / p)

/-- `table[tableSize-1][2]`, with `deriv2 = 0`. src/waveform.c:720-733 -/
noncomputable def lastM (x y : ℕ → ℝ) (n : ℕ) : ℝ :=
  let qn : ℝ := 1 / 2
  let un := 3 / (x (n - 1) - x (n - 2)) * (0 - (y (n - 1) - y (n - 2)) / (x (n - 1) - x (n - 2)))
  (un - qn * (sweep x y (n - 2)).2) / (qn * (sweep x y (n - 2)).1 + 1)

/-- Back recursion from `k = n-2` down to 0; argument: number of entries above. src/waveform.c:737-738 -/
noncomputable def backM (x y : ℕ → ℝ) (n : ℕ) : ℕ → ℝ
  | 0 => lastM x y n
  | j + 1 => (sweep x y (n - 2 - j)).1 * backM x y n j + (sweep x y (n - 2 - j)).2

/-- `table[k][2]` after `createSplines`. src/waveform.c:662-744 -/
noncomputable def second (x y : ℕ → ℝ) (n k : ℕ) : ℝ := backM x y n (n - 1 - k)

/-- Binary search. src/waveform.c:779-786 -/
noncomputable def search (x : ℕ → ℝ) (time : ℝ) (klo khi : ℕ) : ℕ × ℕ :=
  if h : khi - klo > 1 then
    let k := (khi + klo) / 2
    if x k > time then search x time klo k else search x time k khi
  else (klo, khi)
termination_by khi - klo
decreasing_by all_goals omega

/-- `evalSpline`: value and new `lastIdx`; `none` is the error exit. src/waveform.c:747-806 -/
noncomputable def evalSpline (x y m : ℕ → ℝ) (n : ℕ) (time : ℝ) (lastIdx : ℕ) : Option (ℝ × ℕ) :=
  let khi0 := lastIdx + 1
  let klo0 := if lastIdx ≥ n - 1 then 0 else lastIdx
  let kk := if x klo0 > time ∨ x (klo0 + 1) < time then search x time 0 (n - 1) else (klo0, khi0)
  let klo := kk.1
  let khi := kk.2
  let h := x khi - x klo
  if h ≤ 0 then none
  else
    let a := (x khi - time) / h
    let b := (time - x klo) / h
    some (a * y klo + b * y khi + ((a * a * a - a) * m klo + (b * b * b - b) * m khi) * (h * h) / 6, klo)

/-- `externalWaveform`. src/waveform.c:560-571 -/
noncomputable def externalWaveform (x y m : ℕ → ℝ) (n : ℕ) (time : ℝ) (lastIdx : ℕ) : Option (ℝ × ℕ) :=
  if time < x 0 ∨ time > x (n - 1) then some (0, lastIdx) else evalSpline x y m n time lastIdx

/-! ### Cards -/

/-- `WaveformType`. src/waveform.h:44-58 -/
inductive WType
  | gaussian | narrowGaussian | diffGaussian | ricker | modGaussian | compact | diffCompact | modCompact | ramped | external
  deriving DecidableEq, Repr

/-- Parameters of a waveform. src/waveform.c:42-57 -/
structure Wf where
  type : WType
  size : ℝ
  delay : ℝ
  width : ℝ
  frequency : ℝ

/-- Second part of `parseWF` for the built-in types: `vals` are the numbers found on the card, at most four. A missing
value stays -1. `none`: card rejected. src/waveform.c:163-167, 223-248 -/
noncomputable def parseWF (t : WType) (vals : List ℝ) : Option Wf :=
  if (∃ s, vals[0]? = some s ∧ s < 0) ∨ (∃ w, vals[2]? = some w ∧ w ≤ 0) ∨ (∃ f, vals[3]? = some f ∧ f ≤ 0) then none
  else some ⟨t, vals[0]?.getD (-1), vals[1]?.getD (-1), vals[2]?.getD (-1), vals[3]?.getD (-1)⟩

/-- `if( item->v < 0 ) item->v = d`. -/
noncomputable def dflt (v d : ℝ) : ℝ := if v < 0 then d else v

/-- The loop body of `initWaveforms`; `dt` is the time step. src/waveform.c:269-334 -/
noncomputable def initWaveform (dt : ℝ) (w : Wf) : Wf :=
  let size := dflt w.size 1
  match w.type with
  | .gaussian | .diffGaussian | .ricker => ⟨w.type, size, dflt w.delay (40 * dt), dflt w.width (5 * √2 * dt), 0⟩
  | .narrowGaussian => ⟨w.type, size, dflt w.delay (12 * dt), dflt w.width (8 * dt), 0⟩
  | .modGaussian => ⟨w.type, size, dflt w.delay (120 * dt), dflt w.width (20 * √2 * dt), dflt w.frequency (5 / 100 / dt)⟩
  | .compact | .diffCompact => ⟨w.type, size, dflt w.delay 0, dflt w.width (20 * dt), 0⟩
  | .modCompact => ⟨w.type, size, dflt w.delay 0, dflt w.width (80 * dt), dflt w.frequency (5 / 100 / dt)⟩
  | .ramped => ⟨w.type, size, dflt w.delay 0, dflt w.width (20 * dt), dflt w.frequency (5 / 100 / dt)⟩
  | .external => ⟨w.type, size, dflt w.delay 0, w.width, w.frequency⟩

/-- The built-in shape of a type (`external` is handled apart). src/waveform.c:597-627 -/
noncomputable def shape (t : WType) (width frequency time : ℝ) : ℝ :=
  match t with
  | .gaussian | .narrowGaussian => gaussianPulse time width
  | .diffGaussian => differentiatedGaussianPulse time width
  | .ricker => rickerWavelet time width
  | .modGaussian => modulatedGaussianPulse time width frequency
  | .compact => compactPulse time width
  | .diffCompact => differentiatedCompactPulse time width
  | .modCompact => modulatedCompactPulse time width frequency
  | .ramped => rampedSinusoid time width frequency
  | .external => 0

/-- `getWaveformValue` for the built-in types. src/waveform.c:585-639 -/
noncomputable def value (w : Wf) (t delay : ℝ) : ℝ := w.size * shape w.type w.width w.frequency (t - delay - w.delay)

end Vulture.Waveform
