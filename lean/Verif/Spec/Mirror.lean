import Verif.Model.Sim
/-
Specification: the same experiment seen in a mirror perpendicular to one axis `a`.
The two outer faces of the axis change places; a node with index `i` along the axis becomes the node
`lo + hi - i`, and a point halfway between nodes `i` and `i+1` becomes the point halfway between the
images of these nodes, whose index is `lo + hi - i - 1`. Nothing is moved along the other axes.
Under reflection the electric component along the axis and the magnetic components across it change
sign: these are exactly the components sampled halfway between the nodes of the axis.
-/
namespace Vulture.Spec

/-- The component is sampled on the nodes of the axis (otherwise halfway between them): an electric
component lies halfway along its own axis, a magnetic one halfway along the two others. -/
def onNodes : Fc → Axis → Bool
  | .ex, a => a != .x | .ey, a => a != .y | .ez, a => a != .z
  | .hx, a => a == .x | .hy, a => a == .y | .hz, a => a == .z

/-- Sum of the first and last node of the mesh along an axis (absorbing layers included). -/
def span (c : Cfg) (a : Axis) : Int := c.gobox a.lo + c.gobox a.hi

/-- Image of a node index along axis `b`. -/
def nodeImage (c : Cfg) (a b : Axis) (i : Int) : Int := if b = a then span c a - i else i
/-- Image of the index of a point halfway between nodes. -/
def cellImage (c : Cfg) (a b : Axis) (i : Int) : Int := if b = a then span c a - i - 1 else i
/-- Image of the index of a sample of a component. -/
def image (c : Cfg) (a : Axis) (fc : Fc) (b : Axis) (i : Int) : Int :=
  if onNodes fc a then nodeImage c a b i else cellImage c a b i

/-- Sign of a component in the mirror. -/
def parity {K : Type*} [CommRing K] (a : Axis) (fc : Fc) : K := if onNodes fc a then 1 else -1

/-- Image of a face. -/
def _root_.Vulture.Face.mirror (a : Axis) (f : Face) : Face := if f.axis = a then f.opposite else f

/-- Image of the mesh: boundary types and layers of the two faces exchanged. -/
def _root_.Vulture.Cfg.mirror (c : Cfg) (a : Axis) : Cfg :=
  ⟨c.n, fun f => c.bt (f.mirror a), fun f => c.layers (f.mirror a)⟩

/-- Image of a box of nodes: its low end is the image of its high end. -/
def boxImage (c : Cfg) (a : Axis) (b : BBox) : BBox := fun f =>
  if f.axis = a then span c a - b f.opposite else b f

/-- Image of the limits of the samples of a component. -/
def limImage (c : Cfg) (a : Axis) (fc : Fc) (lim : Face → Int) : Face → Int := fun f =>
  if f.axis = a then image c a fc a (lim f.opposite) else lim f

/-- Image of a dispersive block. -/
def _root_.Vulture.DebyeBlk.mirror (c : Cfg) (a : Axis) (d : DebyeBlk) : DebyeBlk :=
  ⟨fun fc => limImage c a fc (d.flim fc), d.numPoles⟩

/-- Image of a source. -/
def _root_.Vulture.Src.mirror (c : Cfg) (a : Axis) (s : Src) : Src :=
  ⟨s.kind, s.field, boxImage c a s.gbbox⟩

/-- Image of a plane wave. -/
def _root_.Vulture.PW.mirror (c : Cfg) (a : Axis) (w : PW) : PW :=
  ⟨boxImage c a w.gbbox, fun f => w.active (f.mirror a),
   w.aux.map fun g => ⟨g.nx, g.xb, fun fc i j k =>
     g.idx fc (image c a fc .x i) (image c a fc .y j) (image c a fc .z k)⟩⟩

/-- Image of the experiment (without impedance sheets). -/
def _root_.Vulture.Sim.mirror (S : Sim) (a : Axis) : Sim :=
  { cfg := S.cfg.mirror a, debye := S.debye.map (DebyeBlk.mirror S.cfg a), sibc := [],
    srcs := S.srcs.map (Src.mirror S.cfg a), pws := S.pws.map (PW.mirror S.cfg a) }

/-- Where a coefficient is found in the mirrored experiment. -/
def mirrorRef (c : Cfg) (a : Axis) : CRef → CRef
  | .alpha f i j k => .alpha f (image c a f .x i) (image c a f .y j) (image c a f .z k)
  | .beta f i j k => .beta f (image c a f .x i) (image c a f .y j) (image c a f .z k)
  | .gamma f i j k => .gamma f (image c a f .x i) (image c a f .y j) (image c a f .z k)
  | .ide b i => .ide b (cellImage c a b i)
  | .idh b i => .idh b (nodeImage c a b i)
  | .ad b i => .ad b (nodeImage c a b i)
  | .bd b i => .bd b (nodeImage c a b i)
  | .ibd b i => .ibd b (nodeImage c a b i)
  | .ah b i => .ah b (cellImage c a b i)
  | .bh b i => .bh b (cellImage c a b i)
  | .ibh b i => .ibh b (cellImage c a b i)
  | .zeta f => .zeta (f.mirror a)
  | .auxW n hi f i j k => .auxW n hi f (image c a f .x i) (image c a f .y j) (image c a f .z k)
  | r => r

/-- Coefficients keep their value, except that the polarisation of a plane wave is reflected. -/
def refSign {K : Type*} [CommRing K] (a : Axis) : CRef → K
  | .auxW _ _ f _ _ _ => parity a f
  | _ => 1

/-- Where an excitation value is found in the mirrored experiment. -/
def mirrorInput (c : Cfg) (a : Axis) : Loc → Loc
  | .inc h n f i j k => .inc h n f (image c a f .x i) (image c a f .y j) (image c a f .z k)
  | l => l

/-- Sign of an excitation value in the mirror: that of the component it drives. -/
def inputSign {K : Type*} [CommRing K] (S : Sim) (a : Axis) : Loc → K
  | .inc _ _ f _ _ _ => parity a f
  | .src _ n => match S.srcs[n]? with | some s => parity a s.field | none => 1
  | _ => 1

/-- The index of a sample of a component along an axis lies in the mesh. -/
def InMesh (c : Cfg) (a : Axis) (fc : Fc) (i : Int) : Prop :=
  c.gobox a.lo ≤ i ∧ if onNodes fc a then i ≤ c.gobox a.hi else i < c.gobox a.hi

end Vulture.Spec
