import Mathlib.Data.Nat.Digits.Defs
import Verif.Model.Basic
/-
Named things of a mesh file: media, boundaries, wires, waveforms, sources, plane waves, observers.
Models: src/medium.c:75-117, 187-205, 255-311; src/boundary.c:109-137, 215, 222-282; src/wire.c:78-183;
src/waveform.c:119-182, 570-586; src/source.c:307-347, 376-384, 437-465, 805-821;
src/planewave.c:142-206, 220, 269, 1065-1081; src/observer.c:201-209, 268-334, 702-718;
src/surface.c:124-174, 211, 252-263; src/block.c:97; src/line.c:129; src/mesh.c:246-266;
uthash/uthash.h (lookup by key).
The remaining fields of each record, and the checks on them, are represented by an arbitrary payload `D`:
a card in a history is one whose other fields were accepted. Names have at most 31 characters (`%31s`) and
are stored without truncation (`TAG_SIZE` 32).
-/
namespace Vulture.Names

abbrev Name := List Char

/-- The common part of `MediumItem`, `BoundaryItem`, .. : number, name, and the rest. -/
structure Item (D : Type*) where
  number : Nat
  name : Name
  data : D

/-- The list of one kind of thing, in order of declaration (`DL_APPEND`). -/
abbrev Reg (D : Type*) := List (Item D)

variable {D : Type*}

/-- `addMedium`, `addBoundary`, ..: append with the running count as number, after checking the count
against the limit of the number type. `none`: error exit. src/medium.c:255-311 and the like. -/
def Reg.add (max : Nat) (r : Reg D) (name : Name) (d : D) : Option (Reg D) :=
  if r.length = max then none else some (r ++ [⟨r.length, name, d⟩])

/-- `HASH_FIND_STR`: the most recently added entry with the key (new entries are put at the head of
their bucket). src/medium.c:187-205; uthash/uthash.h -/
def Reg.find (r : Reg D) (name : Name) : Option Nat := (r.reverse.find? fun x => x.name = name).map Item.number

/-- `isMedium` .. followed by `addMedium` .., as in the parser of a declaring card. `none`: card rejected. -/
def Reg.declare (max : Nat) (r : Reg D) (name : Name) (d : D) : Option (Reg D) :=
  match r.find name with
  | some _ => none
  | none => r.add max name d

/-- Limits: `UINT_MAX` for media, waveforms, sources, plane waves and observers, `ULONG_MAX` for
boundaries and wires. src/medium.h:36, src/waveform.h:34, src/source.h:32, src/boundary.h:39, .. -/
def uintMax : Nat := 2 ^ 32 - 1
def ulongMax : Nat := 2 ^ 64 - 1

/-- Kinds of named things. -/
inductive Kind | medium | boundary | wire | waveform | source | planeWave | observer
  deriving DecidableEq

/-- A stored reference: what was named and the number it was resolved to. -/
structure Ref where
  kind : Kind
  name : Name
  number : Nat

/-- All registries and the references stored so far. -/
structure State (D : Type*) where
  reg : Kind → Reg D
  refs : List Ref

def Kind.max : Kind → Nat
  | .boundary | .wire => ulongMax
  | _ => uintMax

def State.set (s : State D) (k : Kind) (r : Reg D) : State D :=
  { s with reg := fun k' => if k' = k then r else s.reg k' }

def State.declare (s : State D) (k : Kind) (name : Name) (d : D) : Option (State D) :=
  ((s.reg k).declare k.max name d).map (s.set k)

def State.add (s : State D) (k : Kind) (name : Name) (d : D) : Option (State D) :=
  ((s.reg k).add k.max name d).map (s.set k)

/-- A card naming something that must exist; the number found is stored. -/
def State.refer (s : State D) (k : Kind) (name : Name) : Option (State D) :=
  ((s.reg k).find name).map fun n => { s with refs := s.refs ++ [⟨k, name, n⟩] }

/-- `__VR_RS_%d__` with the source number plus one. src/source.c:438, 550 -/
def resistName (n : Nat) : Name :=
  "__VR_RS_".toList ++ ((Nat.digits 10 (n + 1)).reverse.map Nat.digitChar) ++ "__".toList

/-- Cards that declare or name something. `lumped`: type VR or IR. -/
inductive Card (D : Type*)
  | mt (name : Name) (d : D)
  | bt (name : Name) (d : D)
  | wt (name : Name) (d : D)
  | wf (name : Name) (d : D)
  | ex (name wf : Name) (lumped : Bool) (d : D)
  | pw (name wf : Name) (d : D)
  | op (name : Name) (wf : Option Name) (d : D)
  | br (d : Face → D)
  | mb (medium : Name)
  | tb (boundary : Name)
  | tw (wire : Name)

/-- `FACE`. src/fdtd_types.c:29 -/
def faceName : Face → Name
  | .xlo => "XLO".toList | .xhi => "XHI".toList | .ylo => "YLO".toList | .yhi => "YHI".toList
  | .zlo => "ZLO".toList | .zhi => "ZHI".toList

/-- The placeholder medium of a lumped source. src/source.c:437-439 -/
def State.placeholder (blank : D) (s : State D) (lumped : Bool) : Option (State D) :=
  if lumped then s.add .medium (resistName (s.reg .source).length) blank else some s

/-- The waveform an observer may name. src/observer.c:268-275 -/
def State.referOpt (s : State D) (k : Kind) (name : Option Name) : Option (State D) :=
  match name with
  | some w => s.refer k w
  | none => some s

/-- Effect of one card; `none`: rejected. `blank`: payload of the placeholder medium of a lumped source.
Declarations check the name first; `EX` adds the placeholder before the waveform is looked up and the
source is added last; `BR` adds six boundaries without looking for the names.
src/medium.c:75-184, src/source.c:350-465, src/planewave.c:176-273, src/observer.c:177-281,
src/surface.c:124-174, 177-236, src/block.c:63-117, src/line.c:92-161 -/
def State.card (blank : D) (s : State D) : Card D → Option (State D)
  | .mt n d => s.declare .medium n d
  | .bt n d => s.declare .boundary n d
  | .wt n d => s.declare .wire n d
  | .wf n d => s.declare .waveform n d
  | .ex n w lumped d =>
    match (s.reg .source).find n with
    | some _ => none
    | none => (s.placeholder blank lumped).bind fun s => (s.refer .waveform w).bind fun s => s.add .source n d
  | .pw n w d =>
    match (s.reg .planeWave).find n with
    | some _ => none
    | none => (s.refer .waveform w).bind fun s => s.add .planeWave n d
  | .op n w d =>
    match (s.reg .observer).find n with
    | some _ => none
    | none => (s.referOpt .waveform w).bind fun s => s.add .observer n d
  | .br d => Face.all.foldlM (fun s f => s.add .boundary (faceName f) (d f)) s
  | .mb m => s.refer .medium m
  | .tb b => s.refer .boundary b
  | .tw w => s.refer .wire w

/-- `initMesh`: predefined things. src/mesh.c:246-266 -/
def State.init (blank : D) : State D where
  reg
    | .boundary => [⟨0, "PEC".toList, blank⟩, ⟨1, "PMC".toList, blank⟩, ⟨2, "FREE_SPACE".toList, blank⟩]
    | .wire => [⟨0, "PEC".toList, blank⟩, ⟨1, "FREE_SPACE".toList, blank⟩]
    | .medium => [⟨0, "FREE_SPACE".toList, blank⟩, ⟨1, "PEC".toList, blank⟩]
    | _ => []
  refs := []

/-- A history of cards from a given state. -/
def State.run (blank : D) (s : State D) (h : List (Card D)) : Option (State D) :=
  h.foldlM (fun s c => s.card blank c) s

/-- `initExternalSurfaceParameters`: external boundaries not declared get default ones.
src/surface.c:252-263 -/
def State.finish (dflt : D) (s : State D) : Option (State D) :=
  Face.all.foldlM (fun s f => match (s.reg .boundary).find (faceName f) with
    | some n => some { s with refs := s.refs ++ [⟨.boundary, faceName f, n⟩] }
    | none => (s.add .boundary (faceName f) dflt).bind fun s => s.refer .boundary (faceName f)) s

end Vulture.Names
