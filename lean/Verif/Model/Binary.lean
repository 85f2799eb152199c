import Verif.Model.Run
/-
Model of the binary output files of src/observer.c: `impulse.dat` byte by byte and the box lines of `process.dat`.
Assumed platform: 8-bit bytes, little-endian, `int` and `float` of 4 bytes, `unsigned long` of 8. The conversion of a
`real` to its 4 bytes is a parameter `bits`.
-/
namespace Vulture.Run

abbrev Byte := BitVec 8

/-- Four bytes of a 32-bit object in memory order. -/
def le32 (b : BitVec 32) : List Byte :=
  [b.extractLsb' 0 8, b.extractLsb' 8 8, b.extractLsb' 16 8, b.extractLsb' 24 8]

/-- The first `sizeof( int )` bytes of `numOutTimeSteps`, an `unsigned long`. src/observer.c:1146 -/
def headCount (n : BitVec 64) : List Byte := le32 (n.extractLsb' 0 32)

/-- `initImpulseDat`: header. src/observer.c:1137-1152 -/
def header (n : BitVec 64) (dt : BitVec 32) : List Byte := headCount n ++ le32 dt

/-- Nine `fwrite` calls of `updateImpulseDat`. src/observer.c:1183-1194 -/
def encRec (bits : ℝ → BitVec 32) (r : Rec) : List Byte :=
  le32 (BitVec.ofInt 32 r.node.1) ++ le32 (BitVec.ofInt 32 r.node.2.1) ++ le32 (BitVec.ofInt 32 r.node.2.2) ++
    r.values.flatMap fun v => le32 (bits v)

/-- `impulse.dat` at the end of the run. -/
def impulseDat (bits : ℝ → BitVec 32) (e : Env) (dt : BitVec 32) (out : Out) : List Byte :=
  header (numOut e.win) dt ++ out.impulse.flatMap (encRec bits)

/-- One box line of `process.dat`: low, high and step for each axis, in mesh coordinates. -/
structure BoxLine where
  lo : Axis → Int
  hi : Axis → Int
  step : Axis → Int

/-- `writeProcessDat`: box lines. src/observer.c:1089-1109 -/
def boxLines (e : Env) : List BoxLine := (e.items.filter fun x => x.kind = .binary).map fun x =>
  ⟨fun a => x.gbbox a.lo - e.giboxLo a, fun a => x.gbbox a.hi - e.giboxLo a, x.step⟩

/-- `writeProcessDat`: first and last step, counted from one. src/observer.c:1112 -/
def stepLine (e : Env) : BitVec 64 × BitVec 64 := (e.win.1 + 1, e.win.2 + 1)

end Vulture.Run
