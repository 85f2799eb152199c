import Verif.Model.Msh
import Verif.Model.Message
/-
Models: src/gvulture.c (the command), `gnuplotMesh` of src/gnuplot.c:46-65 and the writers it calls.
Left out: the text of the usage, the version and the messages; the digits of `%g`; the lines of the script before `splot`
except the request for equal scales.
-/
namespace Vulture.Gvulture
open Deck Gnuplot Msg

/-- `options` and their defaults. src/gvulture.c:61-69 -/
structure Options where
  logLevel : Level := .log
  physical : Bool := false
  gmsh : Bool := false
  external : Bool := true
  deriving DecidableEq

/-- Outcome of `parseOption`: exit, or go on with a mesh file name (empty unless exactly one argument is left). -/
inductive CmdLine
  | exit (status : Nat)
  | go (o : Options) (mesh : String)
  deriving DecidableEq

/-- `parseOption` on the arguments after the program name. The name of the mesh file is cut at `PATH_SIZE` characters by
`strncpy`; this is left out. src/gvulture.c:121-175 -/
def parseOption : List String → Options → CmdLine
  | [], o => .go o ""
  | a :: l, o =>
    if isPre a "-" then
      if isPre a "-h" || isPre a "--help" then .exit 0
      else if isPre a "-V" || isPre a "--version" then .exit 0
      else if isPre a "-v" || isPre a "--verbose" then parseOption l { o with logLevel := .debug3 }
      else if isPre a "-p" || isPre a "--physical" then parseOption l { o with physical := true }
      else if isPre a "-e" || isPre a "--no-ext-surf" then parseOption l { o with external := false }
      else if isPre a "-g" || isPre a "--gnuplot" then parseOption l { o with gmsh := false }
      else if isPre a "-m" || isPre a "--gmsh" then parseOption l { o with gmsh := true }
      else .exit 1
    else if l = [] then .go o a else .go o ""

/-! ### The pictures -/

/-- The boxes of `gnuplotPlaneWaves`: the edges of the box and the three arrows, wave by wave; `none`: `assert( 0 )` of
`calcIncidentFieldVectors`. `gnuplotArrow` takes its ends to physical units. src/planewave.c:1085-1168 -/
noncomputable def waveFile (physical : Bool) (numLines : Axis → Int) (lines : Axis → Int → ℝ) (eta0 : ℝ) (m : BBox)
    (l : List PwItem) : Option (Dat ℝ) :=
  (l.mapM fun w => (waveArrows (Gnuplot.location physical numLines lines) eta0 w.mbbox w.theta w.phi w.eta).map fun g =>
    box (units physical lines) w.mbbox ++ g).map fun r => problemSize (units physical lines) m ++ r.flatten

/-- What the script depends on: the flags the parsers set and the numbers of waves and observers are those of the lists.
src/surface.c:231-232, src/block.c:140, src/line.c:156-157, src/source.c:343, src/planewave.c:1010-1018,
src/observer.c:535-547 -/
def present (external : Bool) (s : Deck.State) : Present :=
  ⟨external, s.surfs ≠ [], s.blocks ≠ [], s.lines ≠ [], s.srcs ≠ [], s.pws ≠ [], s.obs ≠ []⟩

/-- What `gnuplotMesh` writes: data files, the lines of the script from `splot` on, and whether equal scales are asked for. -/
structure Plot where
  files : List (String × Dat ℝ)
  script : List SLine
  equal : Bool

/-- `gnuplotMesh`; `none`: assertion or endless loop. src/gnuplot.c:46-65 -/
noncomputable def gnuplotMesh (physical external : Bool) (eta0 : ℝ) (lines : Axis → Int → ℝ) (f : File) (s : Deck.State) :
    Option Plot :=
  let u : Axis → Int → ℝ := units physical lines
  let m := s.mbox
  let numLines : Axis → Int := fun a => f.cells a + 1
  (waveFile physical numLines lines eta0 m s.pws).bind fun waves =>
    (observerFile u m (s.obs.map fun o => (o.mbbox, o.step))).map fun nodes =>
      ⟨[("gnuplot-external.dat", boxesFile u m (outerFaces m)),
        ("gnuplot-surface.dat", boxesFile u m (s.surfs.map Surf.mbbox)),
        ("gnuplot-block.dat", boxesFile u m (s.blocks.map Blk.mbbox)),
        ("gnuplot-wires.dat", boxesFile u m (s.lines.map Wire.mbbox)),
        ("gnuplot-source.dat", sourceFile u m (s.srcs.map fun x => (x.mbbox, x.info.field))),
        ("gnuplot-planewave.dat", waves),
        ("gnuplot-observer.dat", nodes),
        ("gnuplot-lines.dat", boxesFile u m (gridBoxes m numLines))],
       plotLines (present external s), equalBoundaries m⟩

/-- What a call of the command leaves behind. -/
inductive Outcome
  | exit (status : Nat)
  | plot (p : Plot)
  | msh (m : Gmsh.Msh ℝ)

/-- `main`: `opened` gives the sections and mesh lines of the file of that name, if it can be read. A rejected file is an
error exit. `none`: assertion or endless loop. src/gvulture.c:78-118, src/message.c:100-104 -/
noncomputable def main (eta0 : ℝ) (opened : String → Option (File × (Axis → Int → ℝ))) (args : List String) : Option Outcome :=
  match parseOption args {} with
  | .exit n => some (.exit n)
  | .go o mesh =>
    match opened mesh with
    | none => some (.exit 6)
    | some (f, lines) =>
      match f.stored with
      | none => some (.exit 6)
      | some s =>
        if o.gmsh then (Gmsh.gmshMesh o.physical o.external lines f).map .msh
        else (gnuplotMesh o.physical o.external eta0 lines f s).map .plot

end Vulture.Gvulture
