import Verif.Model.Gmsh
import Verif.Model.Edges
import Verif.Model.PlaneWave
/-
Model of the gnuplot export of `gvulture -g`: src/gnuplot.c and the callers in block.c, line.c, surface.c, source.c,
planewave.c, observer.c and grid.c. A data file is a list of records (the parts between blank lines), a record the list of
its points; gnuplot joins consecutive points of a record with `w l`. Coordinates are exact: the digits of `%g` are not
modelled.
-/
namespace Vulture.Gnuplot

/-- A line `%g %g %g`. -/
abbrev Pt (K : Type) := K × K × K

/-- A file: records of points. -/
abbrev Dat (K : Type) := List (List (Pt K))

/-- `isPhysicalUnits` and the mesh lines: the coordinate of line `i` of an axis, `bboxInRealUnits` and `indexInRealUnits`.
src/gnuplot.c:519-552; src/grid.c:1181-1192, 1226-1249 -/
def units {K : Type} [IntCast K] (physical : Bool) (lines : Axis → Int → K) (a : Axis) (i : Int) : K :=
  if physical then lines a i else (i : K)

section
variable {K : Type} (u : Axis → Int → K)

/-- One `fprintf( "%g %g %g" )` of three line indices. -/
def at3 (i j k : Int) : Pt K := (u .x i, u .y j, u .z k)

/-- `gnuplotPoint`. src/gnuplot.c:203-214 -/
def point (b : BBox) : Dat K := [[at3 u (b .xlo) (b .ylo) (b .zlo)]]

/-- `gnuplotLine`. src/gnuplot.c:217-247 -/
def line (b : BBox) : Axis → Dat K
  | .x => [[at3 u (b .xlo) (b .ylo) (b .zlo), at3 u (b .xhi) (b .ylo) (b .zlo)]]
  | .y => [[at3 u (b .xlo) (b .ylo) (b .zlo), at3 u (b .xlo) (b .yhi) (b .zlo)]]
  | .z => [[at3 u (b .xlo) (b .ylo) (b .zlo), at3 u (b .xlo) (b .ylo) (b .zhi)]]

/-- `for( i = lo ; i <= hi ; i++ )`. -/
def upTo (lo hi : Int) : List Int := Gmsh.below lo (hi + 1)

/-- `gnuplotSurface`. src/gnuplot.c:250-307 -/
def surface (b : BBox) : Axis → Dat K
  | .x => (upTo (b .xlo) (b .xhi)).map fun i =>
      [at3 u i (b .ylo) (b .zlo), at3 u i (b .ylo) (b .zhi), at3 u i (b .yhi) (b .zhi), at3 u i (b .yhi) (b .zlo),
       at3 u i (b .ylo) (b .zlo)]
  | .y => (upTo (b .ylo) (b .yhi)).map fun j =>
      [at3 u (b .xlo) j (b .zlo), at3 u (b .xlo) j (b .zhi), at3 u (b .xhi) j (b .zhi), at3 u (b .xhi) j (b .zlo),
       at3 u (b .xlo) j (b .zlo)]
  | .z => (upTo (b .zlo) (b .zhi)).map fun k =>
      [at3 u (b .xlo) (b .ylo) k, at3 u (b .xlo) (b .yhi) k, at3 u (b .xhi) (b .yhi) k, at3 u (b .xhi) (b .ylo) k,
       at3 u (b .xlo) (b .ylo) k]

/-- `gnuplotVolume`: two records of three faces each. src/gnuplot.c:310-352 -/
def volume (b : BBox) : Dat K :=
  [[at3 u (b .xlo) (b .ylo) (b .zlo), at3 u (b .xlo) (b .yhi) (b .zlo), at3 u (b .xhi) (b .yhi) (b .zlo),
    at3 u (b .xhi) (b .ylo) (b .zlo), at3 u (b .xlo) (b .ylo) (b .zlo), at3 u (b .xlo) (b .yhi) (b .zlo),
    at3 u (b .xlo) (b .yhi) (b .zhi), at3 u (b .xlo) (b .ylo) (b .zhi), at3 u (b .xlo) (b .ylo) (b .zlo),
    at3 u (b .xhi) (b .ylo) (b .zlo), at3 u (b .xhi) (b .ylo) (b .zhi), at3 u (b .xlo) (b .ylo) (b .zhi),
    at3 u (b .xlo) (b .ylo) (b .zlo)],
   [at3 u (b .xhi) (b .yhi) (b .zhi), at3 u (b .xlo) (b .yhi) (b .zhi), at3 u (b .xlo) (b .ylo) (b .zhi),
    at3 u (b .xhi) (b .ylo) (b .zhi), at3 u (b .xhi) (b .yhi) (b .zhi), at3 u (b .xhi) (b .yhi) (b .zlo),
    at3 u (b .xhi) (b .ylo) (b .zlo), at3 u (b .xhi) (b .ylo) (b .zhi), at3 u (b .xhi) (b .yhi) (b .zhi),
    at3 u (b .xhi) (b .yhi) (b .zlo), at3 u (b .xlo) (b .yhi) (b .zlo), at3 u (b .xlo) (b .yhi) (b .zhi),
    at3 u (b .xhi) (b .yhi) (b .zhi)]]

/-- `gnuplotBoundingBox`; `none`: `assert( 0 )`. src/gnuplot.c:156-178 -/
def box? (b : BBox) : Option (Dat K) :=
  match bboxType b, bboxDirection b with
  | some .point, _ => some (point u b)
  | some .line, some (some a) => some (line u b a)
  | some .surface, some (some a) => some (surface u b a)
  | some .volume, _ => some (volume u b)
  | none, _ => some []
  | _, _ => none

/-- The records written for a box; never an assertion, see `C60.box_defined`. -/
def box (b : BBox) : Dat K := (box? u b).getD []

/-- `gnuplotBoundingBoxNodes`: one point per record; `none`: endless loop. src/gnuplot.c:181-200 -/
def nodes (b : BBox) (step : Axis → Int) : Option (Dat K) :=
  (Run.boxNodes b step).map fun l => l.map fun t => [at3 u t.1 t.2.1 t.2.2]

/-- The six boxes of mesh lines drawn for `gnuplotGridLines`. src/grid.c:1308-1373 -/
def gridBoxes (m : BBox) (numLines : Axis → Int) : List BBox :=
  ((upTo 0 (numLines .x - 1)).map fun i => mkBox i i (m .ylo) (m .yhi) (m .zlo) (m .zlo)) ++
  ((upTo 0 (numLines .x - 1)).map fun i => mkBox i i (m .yhi) (m .yhi) (m .zlo) (m .zhi)) ++
  ((upTo 0 (numLines .y - 1)).map fun j => mkBox (m .xlo) (m .xhi) j j (m .zlo) (m .zlo)) ++
  ((upTo 0 (numLines .y - 1)).map fun j => mkBox (m .xlo) (m .xlo) j j (m .zlo) (m .zhi)) ++
  ((upTo 0 (numLines .z - 1)).map fun k => mkBox (m .xlo) (m .xhi) (m .yhi) (m .yhi) k k) ++
  ((upTo 0 (numLines .z - 1)).map fun k => mkBox (m .xlo) (m .xlo) (m .ylo) (m .yhi) k k)

/-- The faces of the mesh in the order of `gnuplotExternalSurfaces`. src/surface.c:864-876 -/
def outerFaces (m : BBox) : List BBox := [.zlo, .xlo, .ylo, .zhi, .xhi, .yhi].map (getFaceOfBoundingBox m)

end

section
variable {K : Type} [Field K] (u : Axis → Int → K)

/-- `gnuplotProblemSize`: two records that fix the ranges. src/gnuplot.c:137-153 -/
def problemSize (m : BBox) : Dat K :=
  [[at3 u (m .xlo) (m .ylo) (m .zlo), at3 u (m .xlo) (m .ylo) (m .zlo),
    (99995 / 100000 * u .x (m .xlo), 99995 / 100000 * u .y (m .ylo), 99995 / 100000 * u .z (m .zlo))],
   [at3 u (m .xhi) (m .yhi) (m .zhi),
    (100005 / 100000 * u .x (m .xhi), 100005 / 100000 * u .y (m .yhi), 100005 / 100000 * u .z (m .zhi))]]

/-- `gnuplotBlocks`, `gnuplotLines`, `gnuplotInternalSurfaces`, `gnuplotExternalSurfaces`, `gnuplotGridLines`: the ranges
and then the boxes. src/block.c:313-333, src/line.c:271-290, src/surface.c:851-907, src/grid.c:1294-1378 -/
def boxesFile (m : BBox) (l : List BBox) : Dat K := problemSize u m ++ l.flatMap (box u)

/-- `gnuplotObservers`. src/observer.c:1219-1240 -/
def observerFile (m : BBox) (l : List (BBox × (Axis → Int))) : Option (Dat K) :=
  (l.mapM fun o => nodes u o.1 o.2).map fun r => problemSize u m ++ r.flatten

/-- The box after the `if` of `gnuplotBoundingBoxArrow`: the item's own box is changed. src/gnuplot.c:366-370, 383-387,
400-404 -/
def widened (b : BBox) (a : Axis) : BBox :=
  fun f => if f = a.hi ∧ b a.hi = b a.lo then b a.hi + 2 else b f

/-- The middle of the box along an axis. -/
def mid (b : BBox) (a : Axis) : K := (u a (b a.lo) + u a (b a.hi)) * (1 / 2)

/-- `gnuplotBoundingBoxArrow` along axis `a`: shaft and head. src/gnuplot.c:355-420 -/
def boxArrow (b0 : BBox) (a : Axis) : Dat K :=
  let b := widened b0 a
  let length : K := (u a (b a.hi) - u a (b a.lo)) / ((b a.hi - b a.lo : Int) : K)
  let h : K := 1 / 2 * length
  match a with
  | .x => [[(u .x (b .xlo), mid u b .y, mid u b .z), (u .x (b .xhi), mid u b .y, mid u b .z),
      (u .x (b .xhi) - length, mid u b .y - h, mid u b .z - h), (u .x (b .xhi) - length, mid u b .y + h, mid u b .z + h),
      (u .x (b .xhi), mid u b .y, mid u b .z)]]
  | .y => [[(mid u b .x, u .y (b .ylo), mid u b .z), (mid u b .x, u .y (b .yhi), mid u b .z),
      (mid u b .x - h, u .y (b .yhi) - length, mid u b .z - h), (mid u b .x + h, u .y (b .yhi) - length, mid u b .z + h),
      (mid u b .x, u .y (b .yhi), mid u b .z)]]
  | .z => [[(mid u b .x, mid u b .y, u .z (b .zlo)), (mid u b .x, mid u b .y, u .z (b .zhi)),
      (mid u b .x - h, mid u b .y - h, u .z (b .zhi) - length), (mid u b .x + h, mid u b .y + h, u .z (b .zhi) - length),
      (mid u b .x, mid u b .y, u .z (b .zhi))]]

/-- The axis of a field component. src/gnuplot.c:364, 381, 398 -/
def axisOf : Fc → Axis
  | .ex | .hx => .x | .ey | .hy => .y | .ez | .hz => .z

/-- `gnuplotSources`. src/source.c:825-848 -/
def sourceFile (m : BBox) (l : List (BBox × Fc)) : Dat K :=
  problemSize u m ++ l.flatMap fun s => box u s.1 ++ boxArrow u s.1 (axisOf s.2)

/-- The mesh-line indices the arrow of a source reads in physical units, per axis. src/gnuplot.c:362-404;
src/grid.c:1181-1192 -/
def arrowReads (b0 : BBox) (a : Axis) : List (Axis × Int) :=
  let r (b : BBox) : List (Axis × Int) := [(.x, b .xlo), (.x, b .xhi), (.y, b .ylo), (.y, b .yhi), (.z, b .zlo), (.z, b .zhi)]
  r b0 ++ if b0 a.hi = b0 a.lo then r (widened b0 a) else []

end

/-! ### Arrows of a plane wave -/

/-- The start and end points of `gnuplotArrow`: indices or interpolated mesh lines. src/gnuplot.c:432-445;
src/grid.c:1252-1281 -/
noncomputable def location (physical : Bool) (numLines : Axis → Int) (lines : Axis → Int → ℝ) (r : Axis → ℝ) (a : Axis) : ℝ :=
  if physical then nodeInPhysicalUnits (numLines a) (lines a) (r a) else r a

/-- A line `%g %g %g`. -/
def pt (r : Axis → ℝ) : Pt ℝ := (r .x, r .y, r .z)

/-- `gnuplotArrow`: `f` is `headLengthFraction`, one record. Styles 1: closed, 2: open, 3: double open head.
src/gnuplot.c:422-516 -/
noncomputable def arrow (start stop norm : Axis → ℝ) (style : Nat) : List (Pt ℝ) :=
  let f : ℝ := 1 / 4
  let w : ℝ := f * Real.sqrt ((stop .x - start .x) * (stop .x - start .x) + (stop .y - start .y) * (stop .y - start .y) +
    (stop .z - start .z) * (stop .z - start .z))
  let barb (t s : ℝ) : Pt ℝ := pt fun a => (1 - t) * stop a + t * start a + s * norm a
  [pt start, pt stop] ++
    match style with
    | 1 => [barb f w, barb f (-w), pt stop]
    | 2 => [barb f w, pt stop, barb f (-w)]
    | 3 => [barb f w, pt stop, barb f (-w), pt stop, barb (2 * f) (1 / 2 * w), pt stop, barb (2 * f) (-(1 / 2 * w))]
    | _ => []

/-- Length of a vector. src/planewave.c:1132, 1136 -/
noncomputable def magnitude (v : Axis → ℝ) : ℝ := Real.sqrt (v .x * v .x + v .y * v .y + v .z * v .z)

/-- The E and H parts of `Finc` by axis. src/planewave.c:1133-1139 -/
noncomputable def einc (eta0 theta phi eta : ℝ) (a : Axis) : ℝ := PlaneWave.finc eta0 1 theta phi eta a.e
noncomputable def hinc (eta0 theta phi eta : ℝ) (a : Axis) : ℝ := PlaneWave.finc eta0 1 theta phi eta a.h

/-- `scale`: 0.3 of the shortest side of the box in cells. src/planewave.c:1119-1124 -/
noncomputable def arrowScale (b : BBox) : ℝ :=
  3 / 10 * min (min ((b .xhi - b .xlo : Int) : ℝ) ((b .yhi - b .ylo : Int) : ℝ)) ((b .zhi - b .zlo : Int) : ℝ)

/-- The three arrows of a plane wave; `none`: `assert( 0 )`. src/planewave.c:1127-1162 -/
noncomputable def waveArrows (place : (Axis → ℝ) → Axis → ℝ) (eta0 : ℝ) (b : BBox) (theta phi eta : ℝ) : Option (Dat ℝ) :=
  (PlaneWave.ijk0 theta phi b).map fun q =>
    let k := PlaneWave.kinc theta phi
    let e (a : Axis) : ℝ := einc eta0 theta phi eta a / magnitude (einc eta0 theta phi eta)
    let h (a : Axis) : ℝ := hinc eta0 theta phi eta a / magnitude (hinc eta0 theta phi eta)
    let tip (v : Axis → ℝ) (a : Axis) : ℝ := q a + arrowScale b * v a
    [arrow (place fun a => q a) (place (tip k)) e 2, arrow (place fun a => q a) (place (tip e)) k 1,
     arrow (place fun a => q a) (place (tip h)) e 3]

/-! ### The script -/

/-- What the script depends on. -/
structure Present where
  external : Bool
  surfaces : Bool
  blocks : Bool
  lines : Bool
  sources : Bool
  waves : Bool
  observers : Bool

/-- A line of the script: a complete line that is not part of the plot command, or a file name in the plot command (its
first with `splot`), whether the line starts with `#`, and whether it ends in `, \`. -/
inductive SLine
  | text (s : String)
  | plot (first : Bool) (file : String) (commented continued : Bool)
  deriving DecidableEq, Repr

/-- Whether the line ends in a backslash; whether it starts with `#`; the file it names. src/gnuplot.c:110-128 -/
def SLine.continued : SLine → Bool | .text _ => false | .plot _ _ _ c => c
def SLine.commented : SLine → Bool | .text _ => false | .plot _ _ c _ => c
def SLine.file : SLine → Option String | .text _ => none | .plot _ f _ _ => some f

/-- The lines from `splot` on. src/gnuplot.c:110-128 -/
def plotLines (p : Present) : List SLine :=
  [.plot true "gnuplot-lines.dat" false true] ++
  [.plot false "gnuplot-external.dat" (!p.external) true] ++
  (if p.surfaces then [.plot false "gnuplot-surface.dat" false true] else []) ++
  (if p.blocks then [.plot false "gnuplot-block.dat" false true] else []) ++
  (if p.lines then [.plot false "gnuplot-wires.dat" false true] else []) ++
  (if p.sources then [.plot false "gnuplot-source.dat" false true] else []) ++
  (if p.waves then [.plot false "gnuplot-planewave.dat" false true] else []) ++
  (if p.observers then [.plot false "gnuplot-observer.dat" false false] else []) ++
  [.text "set output", .text "set term pop", .text "replot"]

/-- `equalBoundaries`: C division. src/gnuplot.c:555-575 -/
def equalBoundaries (m : BBox) : Bool :=
  let side : Axis → Int := fun a => m a.hi - m a.lo
  let small : Axis := if side .z < side (if side .y < side .x then .y else .x) then .z else (if side .y < side .x then .y else .x)
  let large : Axis := if side .z > side (if side .y > side .x then .y else .x) then .z else (if side .y > side .x then .y else .x)
  decide (side large - side small ≤ (side small).tdiv 10)

end Vulture.Gnuplot
