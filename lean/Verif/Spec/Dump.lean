import Verif.Model.Dump
import Verif.Spec.Material
/-
How a user reads the dump of the media arrays: which character belongs to a sample, and what it tells.
-/
namespace Vulture.Spec
open Setup

/-- The files, one for each component. -/
def dumpName : Fc → String
  | .ex => "mediaEx.dat" | .ey => "mediaEy.dat" | .ez => "mediaEz.dat"
  | .hx => "mediaHx.dat" | .hy => "mediaHy.dat" | .hz => "mediaHz.dat"

/-- A file has the character at line `r` and column `q`, both from 0. -/
def CharAt (f : List (List Char)) (r q : Nat) (x : Char) : Prop := ∃ l, f[r]? = some l ∧ l[q]? = some x

/-- Lines of the dump per plane: the cells of the grid with its layers, and one more at each end. -/
def dumpRows (c : Cfg) (a : Axis) : Int := c.layers a.lo + c.n a + c.layers a.hi + 2

/-- Line and column of a mesh sample. Planes come from the highest to the lowest, with the highest line first; a line is
shifted to the right by one character for every line below it, like a picture in perspective. -/
def dumpLine (c : Cfg) (j k : Int) : Int :=
  (c.n .z + c.layers .zhi - k) * dumpRows c .y + (c.n .y + c.layers .yhi - j)
def dumpColumn (c : Cfg) (i j : Int) : Int := (c.layers .ylo + 1 + j) + (c.layers .xlo + 1 + i)

/-- What stands at the end of a line. Rows and planes are counted from 1 at the outer face of the absorbing layers: the last
row of cells and the first are numbered, and the row in the middle carries the number of the plane. -/
def endLabel (c : Cfg) (j k : Int) : List Char :=
  (if j = c.n .y + c.layers .yhi - 1 then " y=".toList ++ ProcessDat.dec (c.layers .ylo + c.n .y + c.layers .yhi) else []) ++
  (if c.layers .ylo + 1 + j = (c.layers .ylo + c.n .y + c.layers .yhi + 1) / 2 then
    "       z=".toList ++ ProcessDat.dec (c.layers .zlo + 1 + k) else []) ++
  (if j = -c.layers .ylo then " y=".toList ++ ProcessDat.dec 1 else [])

/-- The relative distance of a lossy dielectric from vacuum and from metal, as the decoder measures it. -/
noncomputable def offVacuum (k : Consts) (T e s : ℝ) : ℝ × ℝ :=
  (2 * s * T / (2 * e * k.eps0 + s * T), T / k.eps0 - 2 * T / (2 * e * k.eps0 + s * T))
noncomputable def offMetal (k : Consts) (T e s : ℝ) : ℝ × ℝ :=
  (4 * e * k.eps0 / (2 * e * k.eps0 + s * T), 2 * T / (2 * e * k.eps0 + s * T))

end Vulture.Spec
