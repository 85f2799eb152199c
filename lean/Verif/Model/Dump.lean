import Verif.Model.Setup
import Verif.Model.ProcessDat
/-
The dump of the media arrays (`vulture -g`).
Models: `dumpMediaOnGrid`, `decodeAlphaBeta`, `decodeGamma` of src/grid.c:1620-1724, and the six calls in src/vulture.c:155-163.
Simplified: exact numbers; build without scaled fields and without indexed media, where `UNSCALE_beta..` and
`UNSCALE_gamma..` are the identity (src/grid.h:316-321); `none` of the failures of `fopen`.
-/
namespace Vulture.Dump

/-- `decodeAlphaBeta`. src/grid.c:1702-1713 -/
noncomputable def decodeAlphaBeta (dt eps0 alpha beta : ℝ) : Char :=
  if |alpha - 1| < 1 / 10 ^ 6 ∧ |beta - dt / eps0| < 1 / 10 ^ 6 then '.'
  else if |alpha + 1| < 1 / 10 ^ 6 ∧ |beta| < 1 / 10 ^ 6 then '*'
  else 'o'

/-- `decodeGamma`. src/grid.c:1717-1724 -/
noncomputable def decodeGamma (dt mu0 gamma : ℝ) : Char :=
  if |gamma - dt / mu0| < 1 / 10 ^ 6 then '.' else 'o'

/-- The character of a sample. src/grid.c:1667-1687 -/
noncomputable def mark (dt eps0 mu0 : ℝ) (A : MArr (Coef ℝ)) (fc : Fc) (i j k : Int) : Char :=
  if fc.isE then decodeAlphaBeta dt eps0 (A fc i j k).alpha (A fc i j k).beta else decodeGamma dt mu0 (A fc i j k).gamma

/-- A loop that counts up; one that counts down. -/
def upTo (lo hi : Int) : List Int := (List.range (hi + 1 - lo).toNat).map fun (m : Nat) => lo + m
def downTo (hi lo : Int) : List Int := (List.range (hi + 1 - lo).toNat).map fun (m : Nat) => hi - m

/-- The labels at the end of a line. src/grid.c:1689-1691 -/
def labels (o : BBox) (j k : Int) : List Char :=
  (if j = o .yhi - 1 then " y=".toList ++ ProcessDat.dec j else []) ++
  (if j = (o .yhi + o .ylo - 1).tdiv 2 then "       z=".toList ++ ProcessDat.dec k else []) ++
  (if j = o .ylo then " y=".toList ++ ProcessDat.dec j else [])

/-- One line, without the line feed: spaces, the characters of the samples, labels. src/grid.c:1662-1692 -/
def line (o : BBox) (g : Int → Int → Int → Char) (j k : Int) : List Char :=
  (upTo (o .ylo - 1) (j - 1)).map (fun _ => ' ') ++ (upTo (o .xlo - 1) (o .xhi)).map (fun i => g i j k) ++ labels o j k

/-- The lines of a file. src/grid.c:1658-1694 -/
def file (o : BBox) (g : Int → Int → Int → Char) : List (List Char) :=
  (downTo (o .zhi) (o .zlo - 1)).flatMap fun k => (downTo (o .yhi) (o .ylo - 1)).map fun j => line o g j k

/-- Name of the file of a component. src/grid.c:1629-1650 -/
def fileName : Fc → String
  | .ex => "mediaEx.dat" | .ey => "mediaEy.dat" | .ez => "mediaEz.dat"
  | .hx => "mediaHx.dat" | .hy => "mediaHy.dat" | .hz => "mediaHz.dat"

/-- The six calls. src/vulture.c:155-163 -/
noncomputable def dump (dt eps0 mu0 : ℝ) (o : BBox) (A : MArr (Coef ℝ)) : List (String × List (List Char)) :=
  [Fc.ex, .ey, .ez, .hx, .hy, .hz].map fun fc => (fileName fc, file o (mark dt eps0 mu0 A fc))

/-- The dump of a run. src/vulture.c:140-163 -/
noncomputable def ofRun (k : Setup.Consts) (J : Setup.Junk) (X : Setup.Experiment) (R : Setup.Run) :
    List (String × List (List Char)) :=
  dump R.dt k.eps0 k.mu0 R.cfg.gobox (mediaArrays R.cfg (Setup.medSetup k J X R.cfg R.state) J.med)

end Vulture.Dump
