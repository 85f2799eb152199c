import Verif.Model.ProcessDat
import Verif.Model.Setup
import Mathlib.Analysis.SpecialFunctions.Log.Base
/-
Models of the small companion scripts in m/: `tdfdReadLines`, `tdfdGaussianPulse`, `tdfdCompactPulse`, `db10`, `db20`,
and of the writer of the files the first of them reads, `writeLines` (src/grid.c:1164-1178).
Simplifications: numbers are real, not floating point; the digits `%e` prints for a number are a parameter `fmt` and
the value a reader gives to such a word a parameter `val` (every word is taken for a number, so the error exit for text
that is not a number is only reached where a line number is expected); errors opening a file are not modelled.
-/
namespace Vulture.Scripts
open Vulture.ProcessDat Real

/-- `fprintf( fp , "%d %e\n" , i , v[i] )`. src/grid.c:1174 -/
def lineOf (fmt : ℝ → List Char) (v : Nat → ℝ) (i : Nat) : List Char := decNat i ++ ' ' :: fmt (v i) ++ ['\n']

/-- `writeLines`. src/grid.c:1164-1178 -/
def writeLines (fmt : ℝ → List Char) (n : Nat) (v : Nat → ℝ) : List Char := (List.range n).flatMap (lineOf fmt v)

/-- `xlines.dat`, `ylines.dat`, `zlines.dat`: `numLines` lines, the mesh lines of one axis. src/grid.c:942-944 -/
def linesDat (fmt : ℝ → List Char) (c : Cfg) (X : Setup.Experiment) (a : Axis) : List Char :=
  writeLines fmt (c.numLines a).toNat fun i => X.lines a i

/-- One loop of `tdfdReadLines`: `fscanf( fd , '%d %e' , 2 )` until the end of the file. An incomplete pair ends the loop
without a message at the end of the file and is an error elsewhere; the line number is not used. The first argument bounds
the number of passes (every pass but the last takes at least one character). m/tdfdReadLines.m:54-68, 78-92, 102-116 -/
def readLoop (val : List Char → ℝ) : Nat → List Char → Option (List ℝ)
  | 0, _ => some []
  | n + 1, s =>
    if s.dropWhile isWhite = [] then some []
    else match scanInt s with
      | none => none
      | some (_, t) => match scanWord t with
        | none => some []
        | some (w, u) => (readLoop val n u).map (val w :: ·)

/-- `tdfdReadLines` on one of the three files. m/tdfdReadLines.m:42-120 -/
def readLines (val : List Char → ℝ) (s : List Char) : Option (List ℝ) := readLoop val (s.length + 1) s

/-- `t(2) - t(1)`. m/tdfdGaussianPulse.m:30, m/tdfdCompactPulse.m:30 -/
def stepOf (t : List ℝ) : ℝ := t.getD 1 0 - t.getD 0 0

/-- `tdfdGaussianPulse( t , width , delay )`; a missing argument is `none`. m/tdfdGaussianPulse.m:28-41 -/
noncomputable def gaussianScript (t : List ℝ) (width delay : Option ℝ) : List ℝ :=
  let dt := stepOf t
  t.map fun s => exp (-(1 / 2) * ((s - delay.getD (40 * dt)) / width.getD (5 * √2 * dt)) ^ 2)

/-- `tdfdCompactPulse( t , width , delay )`. m/tdfdCompactPulse.m:28-48 -/
noncomputable def compactScript (t : List ℝ) (width delay : Option ℝ) : List ℝ :=
  let dt := stepOf t
  t.map fun s =>
    if s - delay.getD 0 < 2 * width.getD (20 * dt) then
      let wt := π / width.getD (20 * dt) * (s - delay.getD 0)
      1 / 32 * (10 - 15 * cos wt + 6 * cos (2 * wt) - cos (3 * wt))
    else 0

/-- `db10( linearValue , minDBvalue )` for one value. m/db10.m:5-13 -/
noncomputable def db10 (v : ℝ) (least : ℝ := -500) : ℝ := 10 * logb 10 |max ((10 : ℝ) ^ (least / 10)) v|

/-- `db20( linearValue , minDBvalue )` for one value. m/db20.m:5-13 -/
noncomputable def db20 (v : ℝ) (least : ℝ := -500) : ℝ := 20 * logb 10 |max ((10 : ℝ) ^ (least / 20)) v|

end Vulture.Scripts
