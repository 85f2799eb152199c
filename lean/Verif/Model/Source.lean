import Verif.Model.Sim
import Verif.Model.Media
import Mathlib.Data.Int.Interval
import Mathlib.Data.Real.Basic
import Mathlib.Algebra.BigOperators.Group.Finset.Basic
/-
Model of the source set-up: src/source.c:92-280 (tables), 350-465 (`parseEX`), 469-599 (`initSources`),
933-1003 (source sizes).  `real` is modelled by `ℝ`; the two accumulation loops by finite sums.
-/
namespace Vulture.Source

/-- `SourceType`. src/source.h:35-52 -/
inductive SType
  | efield | hfield | ecurrDens | mcurrDens | esurfDens | msurfDens | ecurrent | mcurrent | emoment | mmoment
  | voltage | thevenin | norton
  deriving DecidableEq, Repr

/-- Tags are compared as strings; here a string is its list of characters. Three tags that differ in the axis. -/
def t3 (pre : List Char) : List (List Char) := [pre ++ ['X'], pre ++ ['Y'], pre ++ ['Z']]

/-- The six surface tags of one row pair: `pre` followed by XY, YZ, ZX, XZ, YX, ZY. -/
def t6 (pre : List Char) : List (List Char) :=
  [pre ++ ['X', 'Y'], pre ++ ['Y', 'Z'], pre ++ ['Z', 'X'], pre ++ ['X', 'Z'], pre ++ ['Y', 'X'], pre ++ ['Z', 'Y']]

/-- `SOURCE_TAG_STR`, row by row. src/source.c:97-125 -/
def tagStr : List (List Char) :=
  t3 ['E'] ++ t3 ['H'] ++ t3 ['=', 'E'] ++ t3 ['=', 'H'] ++
  t3 ['J'] ++ t3 ['J', 'M'] ++ t3 ['=', 'J'] ++ t3 ['=', 'J', 'M'] ++
  t6 ['J', 'S'] ++ t6 ['J', 'M', 'S'] ++ t6 ['=', 'J', 'S'] ++ t6 ['=', 'J', 'M', 'S'] ++
  t3 ['I'] ++ t3 ['I', 'M'] ++ t3 ['=', 'I'] ++ t3 ['=', 'I', 'M'] ++
  t3 ['I', 'D'] ++ t3 ['I', 'M', 'D'] ++ t3 ['=', 'I', 'D'] ++ t3 ['=', 'I', 'M', 'D'] ++
  t3 ['V'] ++ t3 ['=', 'V'] ++ t3 ['V', 'R'] ++ t3 ['I', 'G']

/-- `n` rows of three equal entries. -/
def rows {α : Type} (n : Nat) (v : α) : List α := List.replicate (3 * n) v

/-- `sourceTypeMap`. src/source.c:128-157 -/
def typeMap : List SType :=
  rows 1 .efield ++ rows 1 .hfield ++ rows 1 .efield ++ rows 1 .hfield ++
  rows 1 .ecurrDens ++ rows 1 .mcurrDens ++ rows 1 .ecurrDens ++ rows 1 .mcurrDens ++
  rows 2 .esurfDens ++ rows 2 .msurfDens ++ rows 2 .esurfDens ++ rows 2 .msurfDens ++
  rows 1 .ecurrent ++ rows 1 .mcurrent ++ rows 1 .ecurrent ++ rows 1 .mcurrent ++
  rows 1 .emoment ++ rows 1 .mmoment ++ rows 1 .emoment ++ rows 1 .mmoment ++
  rows 2 .voltage ++ rows 1 .thevenin ++ rows 1 .norton

/-- `EX , EY , EZ` and `HX , HY , HZ` rows. -/
def e3 : List Fc := [.ex, .ey, .ez]
def h3 : List Fc := [.hx, .hy, .hz]

/-- `sourceFieldCompMap`. src/source.c:160-188 -/
def fieldMap : List Fc :=
  e3 ++ h3 ++ e3 ++ h3 ++ e3 ++ h3 ++ e3 ++ h3 ++ e3 ++ e3 ++ h3 ++ h3 ++ e3 ++ e3 ++ h3 ++ h3 ++
  e3 ++ h3 ++ e3 ++ h3 ++ e3 ++ h3 ++ e3 ++ h3 ++ e3 ++ e3 ++ e3 ++ e3

/-- `sourcePolarisationMap`: 28 rows `XDIR , YDIR , ZDIR`. src/source.c:191-219 -/
def polMap : List Axis := (List.replicate 28 [Axis.x, Axis.y, Axis.z]).flatten

/-- `sourceSurfaceNormal`; `none` is `CA_UNDEFINED`. src/source.c:222-250 -/
def normMap : List (Option Axis) :=
  rows 8 none ++ (List.replicate 4 [some Axis.y, some .z, some .x, some .z, some .x, some .y]).flatten ++ rows 12 none

/-- `sourceSoftnessMap`. src/source.c:253-281 -/
def softMap : List Bool :=
  rows 2 true ++ rows 2 false ++ rows 2 true ++ rows 2 false ++ rows 4 true ++ rows 4 false ++
  rows 2 true ++ rows 2 false ++ rows 2 true ++ rows 2 false ++ rows 1 true ++ rows 1 false ++ rows 2 true

/-- One row of the five parallel tables. -/
structure TagInfo where
  type : SType
  pol : Axis
  norm : Option Axis
  field : Fc
  soft : Bool
  deriving DecidableEq, Repr

def tables : List (List Char × TagInfo) :=
  (tagStr.zip (typeMap.zip (polMap.zip (normMap.zip (fieldMap.zip softMap))))).map fun t =>
    (t.1, ⟨t.2.1, t.2.2.1, t.2.2.2.1, t.2.2.2.2.1, t.2.2.2.2.2⟩)

/-- The search loop of `parseEX`: every matching row overwrites the result. src/source.c:387-398 -/
def lookup (s : List Char) : Option TagInfo :=
  tables.foldl (fun r t => if s = t.1 then some t.2 else r) none

/-! ### Sizes -/

/-- `length`, `area`, `side[3]` of a source. -/
structure Size where
  length : ℝ
  area : ℝ
  side : Axis → ℝ

/-- `getElectricSourceSize`. src/source.c:933-968 -/
def electricSize (de dh : Axis → Int → ℝ) (b : BBox) (d : Axis) : Size :=
  let side : Axis → ℝ := fun a => if a = d then 0 else ∑ i ∈ Finset.Icc (b a.lo) (b a.hi), dh a i
  ⟨∑ i ∈ Finset.Icc (b d.lo) (b d.hi - 1), de d i, side d.next * side d.next.next, side⟩

/-- `getMagneticSourceSize`. src/source.c:971-1006 -/
def magneticSize (de dh : Axis → Int → ℝ) (b : BBox) (d : Axis) : Size :=
  let side : Axis → ℝ := fun a => if a = d then 0 else ∑ i ∈ Finset.Icc (b a.lo) (b a.hi - 1), de a i
  ⟨∑ i ∈ Finset.Icc (b d.lo) (b d.hi), dh d i, side d.next * side d.next.next, side⟩

/-- What `initSources` does to the medium on the source's edges. src/source.c:566-567, 574 -/
inductive MedAct
  | keep
  | resistor (sigma : ℝ)
  | pec

/-- Result of `initSources` for one source: what kind it is updated as, its size and the medium action. -/
structure Init where
  kind : SrcKind
  size : ℝ
  med : MedAct

/-- `MIN_RESISTANCE`. src/source.c:284 -/
noncomputable def minResistance : ℝ := 1 / 100

/-- The Thevenin branch. src/source.c:553-577 -/
noncomputable def initThevenin (sz : Size) (size R : ℝ) : Init :=
  if R > minResistance then ⟨.ecurr, size / sz.area / R, .resistor (sz.length / (sz.area * R))⟩
  else ⟨.efield, -(1 / 2) * size / sz.length, .pec⟩

/-- The switch of `initSources`. `pol`, `norm`, `size`, `R`: polarisation, surface normal, size and resistance of the
card (`norm` is defined for the surface types, see `C27.tag_meaning`). src/source.c:491-580 -/
noncomputable def initSource (de dh : Axis → Int → ℝ) (b : BBox) (t : SType) (pol norm : Axis) (size R : ℝ) : Init :=
  let ez := electricSize de dh b pol
  let mz := magneticSize de dh b pol
  match t with
  | .efield => ⟨.efield, size, .keep⟩
  | .hfield => ⟨.hfield, size, .keep⟩
  | .ecurrDens => ⟨.ecurr, size, .keep⟩
  | .mcurrDens => ⟨.hcurr, size, .keep⟩
  | .esurfDens => ⟨.ecurr, size / ez.side norm, .keep⟩
  | .msurfDens => ⟨.hcurr, size / mz.side norm, .keep⟩
  | .ecurrent => ⟨.ecurr, size / ez.area, .keep⟩
  | .mcurrent => ⟨.hcurr, size / mz.area, .keep⟩
  | .emoment => ⟨.ecurr, size / ez.area / ez.length, .keep⟩
  | .mmoment => ⟨.hcurr, size / mz.area / mz.length, .keep⟩
  | .voltage => ⟨.efield, -size / ez.length, .keep⟩
  | .thevenin => initThevenin ez size R
  | .norton => initThevenin ez (R * size) R

end Vulture.Source
