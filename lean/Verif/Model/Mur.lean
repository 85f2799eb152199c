import Verif.Model.Prog
import Mathlib.Analysis.Real.Sqrt
/- The coefficient of the Mur boundaries. Real numbers stand for `real`. -/
namespace Vulture

/-- `zeta[face]` of `initMurBoundaries`. `de` = `dex`, `dey`, `dez`. The index is
`murbox[face][XLO]` for both faces of the axis: `murbox[XHI][XHI-1]` in the code is the box element
with number `XHI-1 = XLO` (on the high face both limits are equal). `murbox` of a face that is not Mur
is never set (static storage, zero). src/mur.c:46, 110-127 -/
noncomputable def murZeta (c0 dt : ℝ) (c : Cfg) (de : Axis → Int → ℝ) (f : Face) : ℝ :=
  let box : BBox := if c.bt f = .mur then getFaceOfBoundingBox c.gibox f else fun _ => 0
  let d := de f.axis (box f.axis.lo)
  (c0 * dt - d) / (c0 * dt + d)

end Vulture
