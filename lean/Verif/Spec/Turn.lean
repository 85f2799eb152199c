import Verif.Model.Sim
/-
Specification: the same experiment with its axes renamed x → y → z → x.
A point (i,j,k) of the original becomes the point (k,i,j); the components, faces, box limits and
coefficient arrays are renamed accordingly. Nothing else is changed.
-/
namespace Vulture.Spec

/-- The new name of a face. -/
def _root_.Vulture.Face.next : Face → Face
  | .xlo => .ylo | .xhi => .yhi | .ylo => .zlo | .yhi => .zhi | .zlo => .xlo | .zhi => .xhi
/-- The face that gets this name. -/
def _root_.Vulture.Face.prev : Face → Face
  | .xlo => .zlo | .xhi => .zhi | .ylo => .xlo | .yhi => .xhi | .zlo => .ylo | .zhi => .yhi
/-- The axis that gets this name. -/
def _root_.Vulture.Axis.prev : Axis → Axis
  | .x => .z | .y => .x | .z => .y
/-- The new name of a field component. -/
def _root_.Vulture.Fc.next : Fc → Fc
  | .ex => .ey | .ey => .ez | .ez => .ex | .hx => .hy | .hy => .hz | .hz => .hx
/-- The component that gets this name. -/
def _root_.Vulture.Fc.prev : Fc → Fc
  | .ex => .ez | .ey => .ex | .ez => .ey | .hx => .hz | .hy => .hx | .hz => .hy

/-- The turned mesh: cells, boundary types and layers of the axis that gets the name. -/
def _root_.Vulture.Cfg.turn (c : Cfg) : Cfg :=
  ⟨fun a => c.n a.prev, fun f => c.bt f.prev, fun f => c.layers f.prev⟩

/-- A turned dispersive block. -/
def _root_.Vulture.DebyeBlk.turn (d : DebyeBlk) : DebyeBlk :=
  ⟨fun fc f => d.flim fc.prev f.prev, d.numPoles⟩

/-- A turned source. -/
def _root_.Vulture.Src.turn (s : Src) : Src := ⟨s.kind, s.field.next, fun f => s.gbbox f.prev⟩

/-- A turned plane wave. -/
def _root_.Vulture.PW.turn (w : PW) : PW :=
  ⟨fun f => w.gbbox f.prev, fun f => w.active f.prev,
   w.aux.map fun g => ⟨g.nx, g.xb, fun fc i j k => g.idx fc.prev j k i⟩⟩

/-- The turned experiment (without impedance sheets). -/
def _root_.Vulture.Sim.turn (S : Sim) : Sim :=
  { cfg := S.cfg.turn, debye := S.debye.map DebyeBlk.turn, sibc := [], srcs := S.srcs.map Src.turn,
    pws := S.pws.map PW.turn }

/-- The new name of a coefficient. -/
def turnRef : CRef → CRef
  | .alpha c i j k => .alpha c.next k i j
  | .beta c i j k => .beta c.next k i j
  | .gamma c i j k => .gamma c.next k i j
  | .ide a i => .ide a.next i
  | .idh a i => .idh a.next i
  | .ad a i => .ad a.next i
  | .bd a i => .bd a.next i
  | .ibd a i => .ibd a.next i
  | .ah a i => .ah a.next i
  | .bh a i => .bh a.next i
  | .ibh a i => .ibh a.next i
  | .zeta f => .zeta f.next
  | .auxW n hi c i j k => .auxW n hi c.next k i j
  | r => r

/-- The new name of an excitation value. -/
def turnInput : Loc → Loc
  | .inc h n c i j k => .inc h n c.next k i j
  | l => l

end Vulture.Spec
