import Verif.Model.Run
/-
Model of the geometry export of src/gmsh.c. `int` arithmetic is exact here; C36 shows when it does not overflow.
Names are the full strings: the callers print a tag of at most 31 characters after a three-letter prefix into 48 bytes.
-/
namespace Vulture.Gmsh

/-- `ElementType`. src/gmsh.h:39-47 -/
inductive ET | node1 | bar2 | quad4 | hex8
  deriving DecidableEq, Repr

/-- `ELEM_TYPE_DIMS`. src/gmsh.c:51 -/
def ET.dim : ET → Nat
  | .node1 => 0 | .bar2 => 1 | .quad4 => 2 | .hex8 => 3

/-- `ELEMENT_NUM_NODES`. src/gmsh.c:45 -/
def ET.numNodes : ET → Nat
  | .node1 => 1 | .bar2 => 2 | .quad4 => 4 | .hex8 => 8

abbrev GNode := Int × Int × Int

/-- `ElementItem`. src/gmsh.c:58-70 -/
structure Elem where
  type : ET
  nodes : List Int
  group : Nat
  entity : Nat

/-- `GroupItem`. src/gmsh.c:75-88 -/
structure Group where
  name : String
  number : Nat
  dim : Nat

/-- The file-static data. `none` in the node map is `NODE_UNUSED`. src/gmsh.c:94-124 -/
structure State where
  map : GNode → Option Int
  elems : List Elem
  groups : List Group
  nextEntity : Nat

/-- Before the export. src/gmsh.c:101, 108, 116, 155-158 -/
def State.init : State := ⟨fun _ => none, [], [], 1⟩

/-- `encodeNodeNumber`; `nx`, `ny` are `numMeshNodes`. src/gmsh.c:628-635 -/
def encode (nx ny : Int) (t : GNode) : Int := (t.1 + 1) + t.2.1 * nx + t.2.2 * nx * ny

/-- `isGroup`. src/gmsh.c:303-320 -/
def findGroup (l : List Group) (name : String) : Option Group := l.find? fun g => g.name = name

/-- `addGroupIfNew`: groups and number; `none` for an incompatible dimension. src/gmsh.c:324-370 -/
def addGroupIfNew (l : List Group) (name : String) (dim : Nat) : Option (List Group × Nat) :=
  match findGroup l name with
  | some g => if g.dim ≠ dim then none else some (l, g.number)
  | none => some (l ++ [⟨name, l.length + 1, dim⟩], l.length + 1)

/-- Mark the nodes of an element and append it. src/gmsh.c:373-400 and the assignments before each call -/
def addElem (nx ny : Int) (ty : ET) (grp ent : Nat) (s : State) (c : List GNode) : State :=
  { map := fun t => if t ∈ c then some (encode nx ny t) else s.map t
    elems := s.elems ++ [⟨ty, c.map (encode nx ny), grp, ent⟩]
    groups := s.groups
    nextEntity := s.nextEntity }

/-- `for( i = lo ; i < hi ; i++ )`. -/
def below (lo hi : Int) : List Int := (List.range (hi - lo).toNat).map fun (m : Nat) => lo + m

/-- Corner lists of the elements added for a box; `none` for an assertion or an endless loop. src/gmsh.c:421-622 -/
def corners (typeToAdd : BBType) (b : BBox) (step : Axis → Int) : Option (ET × List (List GNode)) :=
  match bboxType b, typeToAdd with
  | some .point, .point => some (.node1, [[(b .xlo, b .ylo, b .zlo)]])
  | some .line, .point | some .surface, .point | some .volume, .point =>
    (Run.forStep (b .xlo) (b .xhi) (step .x)).bind fun is =>
    (Run.forStep (b .ylo) (b .yhi) (step .y)).bind fun js =>
    (Run.forStep (b .zlo) (b .zhi) (step .z)).map fun ks =>
      (.node1, is.flatMap fun i => js.flatMap fun j => ks.map fun k => [(i, j, k)])
  | some .line, .line =>
    match bboxDirection b with
    | some (some .x) => some (.bar2, (below (b .xlo) (b .xhi)).map fun i => [(i, b .ylo, b .zlo), (i + 1, b .ylo, b .zlo)])
    | some (some .y) => some (.bar2, (below (b .ylo) (b .yhi)).map fun j => [(b .xlo, j, b .zlo), (b .xlo, j + 1, b .zlo)])
    | some (some .z) => some (.bar2, (below (b .zlo) (b .zhi)).map fun k => [(b .xlo, b .ylo, k), (b .xlo, b .ylo, k + 1)])
    | _ => none
  | some .surface, .surface =>
    match bboxDirection b with
    | some (some .x) => some (.quad4, (below (b .ylo) (b .yhi)).flatMap fun j => (below (b .zlo) (b .zhi)).map fun k =>
        [(b .xlo, j, k), (b .xlo, j + 1, k), (b .xlo, j + 1, k + 1), (b .xlo, j, k + 1)])
    | some (some .y) => some (.quad4, (below (b .xlo) (b .xhi)).flatMap fun i => (below (b .zlo) (b .zhi)).map fun k =>
        [(i, b .ylo, k), (i + 1, b .ylo, k), (i + 1, b .ylo, k + 1), (i, b .ylo, k + 1)])
    | some (some .z) => some (.quad4, (below (b .xlo) (b .xhi)).flatMap fun i => (below (b .ylo) (b .yhi)).map fun j =>
        [(i, j, b .zlo), (i + 1, j, b .zlo), (i + 1, j + 1, b .zlo), (i, j + 1, b .zlo)])
    | _ => none
  | some .volume, .volume => some (.hex8, (below (b .xlo) (b .xhi)).flatMap fun i => (below (b .ylo) (b .yhi)).flatMap fun j =>
      (below (b .zlo) (b .zhi)).map fun k =>
        [(i, j, k), (i + 1, j, k), (i + 1, j + 1, k), (i, j + 1, k),
          (i, j, k + 1), (i + 1, j, k + 1), (i + 1, j + 1, k + 1), (i, j + 1, k + 1)])
  | _, _ => none

/-- `gmshGetEntityNumber` and `gmshAddEntity`. src/gmsh.c:403-646 -/
def addEntity (nx ny : Int) (s : State) (typeToAdd : BBType) (name : String) (b : BBox) (step : Axis → Int) : Option State :=
  (corners typeToAdd b step).bind fun tc =>
  (addGroupIfNew s.groups name tc.1.dim).map fun gn =>
    tc.2.foldl (addElem nx ny tc.1 gn.2 s.nextEntity) { s with groups := gn.1, nextEntity := s.nextEntity + 1 }

/-- One request of the callers. -/
structure Request where
  type : BBType
  name : String
  bbox : BBox
  step : Axis → Int

/-- A sequence of requests. src/gmsh.c:162-170 -/
def export_ (nx ny : Int) : List Request → State → Option State
  | [], s => some s
  | r :: l, s => (addEntity nx ny s r.type r.name r.bbox r.step).bind (export_ nx ny l)

/-- The `$Nodes` section: number and indices of every used node, i outermost. src/gmsh.c:237-264 -/
def nodeSection (nx ny nz : Int) (s : State) : List (Int × GNode) :=
  (below 0 nx).flatMap fun i => (below 0 ny).flatMap fun j => (below 0 nz).filterMap fun k =>
    (s.map (i, j, k)).map fun n => (n, (i, j, k))

/-- `gmshBlocks`, `gmshLines`, `gmshInternalSurfaces`: one request per item. src/block.c:339-356,
src/line.c:296-313, src/surface.c:942-959 -/
def unitStep : Axis → Int := fun _ => 1

/-- `gmshExternalSurfaces`. src/surface.c:910-939 -/
def externalRequests (mbox : BBox) : List Request :=
  [⟨.surface, "BT_ZLO", getFaceOfBoundingBox mbox .zlo, unitStep⟩,
   ⟨.surface, "BT_XLO", getFaceOfBoundingBox mbox .xlo, unitStep⟩,
   ⟨.surface, "BT_YLO", getFaceOfBoundingBox mbox .ylo, unitStep⟩,
   ⟨.surface, "BT_ZHI", getFaceOfBoundingBox mbox .zhi, unitStep⟩,
   ⟨.surface, "BT_XHI", getFaceOfBoundingBox mbox .xhi, unitStep⟩,
   ⟨.surface, "BT_YHI", getFaceOfBoundingBox mbox .yhi, unitStep⟩]

/-- `gmshPlaneWaves`: one request per active face. src/planewave.c:1172-1197 -/
def planeWaveRequests (name : String) (b : BBox) (active : Face → Bool) : List Request :=
  (Face.all.filter active).map fun f => ⟨.surface, "PW_" ++ name, getFaceOfBoundingBox b f, unitStep⟩

/-- `gmshSources`: the type of the box itself. src/source.c:851-900 -/
def sourceRequest (name : String) (b : BBox) : Option Request :=
  (bboxType b).map fun t => ⟨t, "EX_" ++ name, b, unitStep⟩

end Vulture.Gmsh
