import Verif.Model.Reader
import Mathlib.Analysis.SpecialFunctions.Complex.Circle
/-
Model of the post-processing scripts m/xfreq.m, m/tdfdFFT.m and the last case of m/tdfdReadExciteDat.m.
Simplifications: `fft` is the exact discrete transform; the text files are given as the rows of numbers they contain; a complex quotient is
given as a complex number instead of modulus and angle; `none` is an error exit.
-/
namespace Vulture.PostProc
open Vulture.Run Complex

/-- `fft( x )`, element `k` counted from zero. -/
noncomputable def fft (x : List ℝ) (k : Nat) : ℂ :=
  ((List.range x.length).map fun n => (x.getD n 0 : ℂ) * exp (-I * (2 * Real.pi * (k * n / x.length) : ℝ))).sum

/-- `fft( x ) ./ fft( w )`, element `k`: a single value on the left is repeated, other lengths must agree. m/xfreq.m:58-64 -/
noncomputable def divide (x w : List ℝ) : Option (Nat → ℂ) :=
  if x.length = w.length then some fun k => fft x k / fft w k
  else if x.length = 1 then some fun k => fft x 0 / fft w k
  else none

/-- One row of `data_fd`: frequency and the six normalised fields. -/
structure Row where
  freq : ℝ
  vals : List ℂ

/-- `xfreq`: `wf` and `td` are the rows of the two time files. m/xfreq.m:38-88 -/
noncomputable def xfreq (wf td : List Line) : Option (List Row) :=
  (wf[0]?).bind fun r0 =>
  (wf[1]?).bind fun r1 =>
  ([0, 1, 2, 3, 4, 5].mapM fun c => divide (td.map fun r => r.values.getD c 0) (wf.map fun r => r.values.getD 0 0)).map fun qs =>
  (List.range (wf.length / 10)).map fun (k : Nat) =>
    ⟨k / (r1.time - r0.time) / wf.length, qs.map fun q => q k⟩

/-- `tdfdFFT( a , wf , t )` at one position: normalised transforms and frequencies. m/tdfdFFT.m:43-57 -/
noncomputable def tdfdFFT (a wf t : List ℝ) : Option (List (ℂ × ℝ)) :=
  (t[0]?).bind fun t0 =>
  (t[1]?).bind fun t1 =>
  if a.length < t.length / 10 ∨ wf.length < t.length / 10 then none else
  some ((List.range (t.length / 10)).map fun (k : Nat) => (fft a k / fft wf k, 1 / (t.length * (t1 - t0)) * k))

/-- The waveform `tdfdReadExciteDat( t )` reads from the values of `excite.dat` (type 8). m/tdfdReadExciteDat.m:94-98 -/
def readExcite (values : List ℝ) (t : List ℝ) : Option (List ℝ) :=
  if (values.take t.length).length = t.length then some (values.take t.length) else none

end Vulture.PostProc
