import Verif.Model.Deck
import Verif.Model.Gmsh
import Verif.Model.Gnuplot
/-
Model of `gvulture -m`: which requests the items of a mesh file make of src/gmsh.c, and the lines of the file `mesh.msh`.
The names of media, boundaries and wires are those of the cards: an item keeps the number the card's name has, and
`getMediumName`, `getBoundaryName`, `getWireName` give the name back (src/medium.c:467-479 and the like).
Coordinates are exact: the digits of `%e` are not modelled.
-/
namespace Vulture.Gmsh
open Deck

/-- `gmshInternalSurfaces`: one request per item of the list, in the order of the cards. src/surface.c:942-959 -/
def sheetRequest : Card → Option Request
  | .tb c => some ⟨.surface, "BT_" ++ c.boundary, c.bbox, unitStep⟩
  | _ => none

/-- `gmshBlocks`. src/block.c:339-356 -/
def blockRequest : Card → Option Request
  | .mb c => some ⟨.volume, "MT_" ++ c.medium, c.bbox, unitStep⟩
  | _ => none

/-- `gmshLines`. src/line.c:296-313 -/
def wireRequest : Card → Option Request
  | .tw c => some ⟨.line, "WT_" ++ c.wire, c.bbox, unitStep⟩
  | _ => none

/-- `gmshObservers`. src/observer.c:1244-1266 -/
def observerRequest (o : ObsItem) : Request := ⟨.point, "OP_" ++ o.name, o.mbbox, o.step⟩

/-- The requests of `gmshMesh` in order; `none`: the assertion of `gmshSources`. src/gmsh.c:160-172 -/
def requests (external : Bool) (cards : List Card) (s : Deck.State) : Option (List Request) :=
  (s.srcs.mapM fun x => sourceRequest x.name x.mbbox).map fun ex =>
    (if external then externalRequests s.mbox else []) ++ cards.filterMap sheetRequest ++ cards.filterMap blockRequest ++
      cards.filterMap wireRequest ++ ex ++ (s.pws.flatMap fun w => planeWaveRequests w.name w.mbbox w.active) ++
      s.obs.map observerRequest

/-- A line of `$Elements`: number, type code, tags (their count is printed before them), nodes. src/gmsh.c:277-284 -/
structure MshElement where
  number : Nat
  code : Nat
  tags : List Nat
  nodes : List Int

/-- The sections of the file: dimension, number and name of the groups; number and position of the nodes; elements.
src/gmsh.c:217-286 -/
structure Msh (K : Type) where
  names : List (Nat × Nat × String)
  nodes : List (Int × (K × K × K))
  elements : List MshElement

/-- `ELEM_TYPE_CODE`. src/gmsh.c:48 -/
def ET.code : ET → Nat
  | .node1 => 15 | .bar2 => 1 | .quad4 => 3 | .hex8 => 5

/-- `gmshWrite`. src/gmsh.c:203-300; `u`: `getMeshNodeCoords` or the indices, src/gmsh.c:250-262, src/grid.c:1214-1223 -/
def write {K : Type} (u : Axis → Int → K) (nx ny nz : Int) (s : State) : Msh K :=
  { names := s.groups.map fun g => (g.dim, g.number, g.name)
    nodes := (nodeSection nx ny nz s).map fun x => (x.1, (u .x x.2.1, u .y x.2.2.1, u .z x.2.2.2))
    elements := s.elems.zipIdx.map fun x => ⟨x.2 + 1, x.1.type.code, [x.1.group, x.1.entity], x.1.nodes⟩ }

/-- `readMesh` and `gmshMesh`; `none`: error exit, assertion or endless loop. src/gvulture.c:92-108, src/gmsh.c:139-176 -/
def gmshMesh {K : Type} [IntCast K] (physical external : Bool) (lines : Axis → Int → K) (f : File) : Option (Msh K) :=
  f.stored.bind fun s => (requests external f.cards s).bind fun rs =>
    (export_ (f.nx + 1) (f.ny + 1) rs State.init).map
      (write (Gnuplot.units physical lines) (f.nx + 1) (f.ny + 1) (f.nz + 1))

end Vulture.Gmsh
