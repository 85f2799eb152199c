import Verif.Model.Cards
import Verif.Model.Source
import Verif.Model.PlaneWave
import Verif.Model.Registry
import Verif.Model.Edges
import Verif.Model.Debye
import Verif.Model.Filter
/-
From the cards of a mesh file to the items of a run and the values they are driven with.
Models: the storing half of the parsers of MT, BT, WT, WF, MB, TB, TW, EX, PW, OP (the checks are those of
Model/Cards.lean), src/surface.c:240-326 (outer surfaces), src/block.c:148-250 and src/debye.c:76-196 (Debye blocks),
src/surface.c:350-405 and src/sibc.c:211-397 (sheets), src/source.c:469-599, src/planewave.c:277-447 (items), and the
values `updateSources..`, `updatePlaneWaves..` and `updateAuxGridEfield` compute from the waveforms
(src/source.c:614, 690; src/planewave.c:557-573, 1341-1347; src/simulation.c:150-222).
Left out: the checks on the numbers of an `MT` or `BT` card (Model/Media.lean, Model/Debye.lean, Model/SibcData.lean).
-/
namespace Vulture.Deck

/-- A medium as stored: the predefined ones (numbers 0 and 1, whose coefficients are forced), and those of `MT` cards. A
card of type `FREE_SPACE` or `PEC` is stored with the parameters 1, 0, 1 and treated like `SIMPLE`.
src/medium.c:75-184, 255-311, 381-441; src/mesh.c:262-263 -/
inductive Med
  | free
  | pec
  | simple (eps sigma mu : ℝ)
  | debye (eps sigma mu : ℝ) (poles : List DPole)

/-- A boundary as stored: what matters to an internal surface. `plain`: types that do nothing there (`PMC`, `PML`,
`PERIODIC`, `MUR`). An impedance sheet has the pole-residue data that `initSibcBoundary` makes of its scattering
parameters or its file. src/boundary.c:109-219; src/surface.c:363-397; src/sibc.c:126-197 -/
inductive Bnd
  | pec
  | free
  | plain
  | sibc (pr : Nat → Nat → PoleResidue)

/-- Cards of the second section. The tokens of `EX` that follow the waveform are given as numbers. -/
inductive Card
  | mt (name : String) (m : Med)
  | bt (name : String) (b : Bnd)
  | wt (name : String)
  | wf (name : String)
  | mb (c : MBCard)
  | tb (c : TBCard)
  | tw (c : TWCard)
  | ex (numScanned : Nat) (bbox : BBox) (name : String) (tag : List Char) (wave : String) (size delay resist : ℝ)
  | pw (c : PWCard) (delay : ℝ)
  | op (c : OPCard)

/-- `BlockItem`. src/block.h:37-50 -/
structure Blk where
  mbbox : BBox
  med : Med
  mask : Nat

/-- `SurfaceItem`. src/surface.h -/
structure Surf where
  mbbox : BBox
  bnd : Bnd
  orient : Int
  angle : ℝ

/-- `LineItem` with the type of its wire: `WT` cards only make PEC wires. src/line.h, src/wire.c:111-119 -/
structure Wire where
  mbbox : BBox
  free : Bool

/-- `SourceItem` as stored by the parser. src/source.c:48-75, 307-347 -/
structure SrcItem where
  mbbox : BBox
  name : String
  info : Source.TagInfo
  wave : String
  size : ℝ
  delay : ℝ
  resist : ℝ

/-- `PlaneWaveItem` as stored by the parser. src/planewave.c:45-93, 142-172 -/
structure PwItem where
  mbbox : BBox
  name : String
  active : Face → Bool
  theta : ℝ
  phi : ℝ
  eta : ℝ
  size : ℝ
  delay : ℝ
  wave : String

/-- `ObserverItem` as stored by the parser: `ascii` is the format, `freq` the domain, `wave` the number of the reference
waveform. src/observer.c:51-86, 284-318 -/
structure ObsItem where
  name : String
  mbbox : BBox
  ascii : Bool
  freq : Bool
  step : Axis → Int
  wave : Nat

/-- The lists the parsers fill. -/
structure State where
  mbox : BBox
  media : List (String × Med)
  bnds : List (String × Bnd)
  wires : List String
  waves : List String
  blocks : List Blk
  surfs : List Surf
  lines : List Wire
  srcs : List SrcItem
  pws : List PwItem
  obs : List ObsItem

/-- Predefined names. src/mesh.c:246-266 -/
def State.init (mbox : BBox) : State :=
  ⟨mbox, [("FREE_SPACE", .free), ("PEC", .pec)], [("PEC", .pec), ("PMC", .plain), ("FREE_SPACE", .free)],
   ["PEC", "FREE_SPACE"], [], [], [], [], [], [], []⟩

/-- Hash lookup of a name: the entry added last. src/medium.c:187-205 and the like -/
def find {α : Type} (l : List (String × α)) (n : String) : Option α := (l.reverse.find? fun x => x.1 == n).map Prod.snd

/-- `numScanned`, box, name, tag and waveform as `parseEX` checks them. src/source.c:371-403, 418-421 -/
def exCard (k : Nat) (b : BBox) (name : String) (tag : List Char) (wave : String) : EXCard :=
  ⟨k, b, name, (Source.lookup tag).isSome,
   (match Source.lookup tag with | some i => i.type == .thevenin || i.type == .norton | none => false), wave⟩

/-- The face flags of a `PW` card: all active when there is no mask token. src/planewave.c:184, 246-258 -/
def pwActive (c : PWCard) : Face → Bool :=
  if c.numScanned < 12 then fun _ => true else (decodeFaceMask c.mask).getD fun _ => true

/-- The block mask: the mask token, or the default string. src/block.c:68-69, 103-112 -/
def mbMask (c : MBCard) : Nat := if c.numScanned ≤ 8 then setFaceMaskFromString c.mask else 63

/-- What `parseOP` stores: the steps of a binary observer, 1 otherwise; the number of the named waveform (its position among
the waveforms declared so far), 0 without a name. src/observer.c:188-194, 237-276; src/waveform.c:570-586 -/
def obsOf (s : State) (c : OPCard) : ObsItem :=
  ⟨c.name, c.bbox, c.ascii, c.freq,
   fun a => if c.ascii then 1 else match a with | .x => c.stepX | .y => c.stepY | .z => c.stepZ,
   if c.waveform = "" then 0 else s.waves.idxOf c.waveform⟩

/-- Effect of one card; `none`: rejected, the program stops. src/mesh.c:330-345 and the parsers named above -/
def State.card (s : State) : Card → Option State
  | .mt n m => if (find s.media n).isSome then none else some { s with media := s.media ++ [(n, m)] }
  | .bt n b => if (find s.bnds n).isSome then none else some { s with bnds := s.bnds ++ [(n, b)] }
  | .wt n => if s.wires.contains n then none else some { s with wires := s.wires ++ [n] }
  | .wf n => if s.waves.contains n then none else some { s with waves := s.waves ++ [n] }
  | .mb c =>
    match find s.media c.medium with
    | none => none
    | some m => if parseMB s.mbox (fun n => (find s.media n).isSome) c then
        some { s with blocks := s.blocks ++ [⟨c.bbox, m, mbMask c⟩] } else none
  | .tb c =>
    match find s.bnds c.boundary with
    | none => none
    | some b => if parseTB s.mbox (fun n => (find s.bnds n).isSome) c then
        some { s with surfs := s.surfs ++ [⟨c.bbox, b, c.orient, (c.angle : ℝ)⟩] } else none
  | .tw c => if parseTW s.mbox (fun n => s.wires.contains n) c then
      some { s with lines := s.lines ++ [⟨c.bbox, c.wire == "FREE_SPACE"⟩] } else none
  | .ex k b n tag w size delay resist =>
    match Source.lookup tag with
    | none => none
    | some i => if parseEX s.mbox (fun n => (s.srcs.map SrcItem.name).contains n) (fun n => s.waves.contains n)
          (exCard k b n tag w) then
        some { s with
          media := if (exCard k b n tag w).lumped then
            s.media ++ [(String.ofList (Names.resistName s.srcs.length), Med.simple 1 0 1)] else s.media
          srcs := s.srcs ++ [⟨b, n, i, w, size, delay, resist⟩] } else none
  | .pw c delay =>
    if parsePW s.mbox (fun n => (s.pws.map PwItem.name).contains n) (fun n => s.waves.contains n) c then
      some { s with pws := s.pws ++ [⟨c.bbox, c.name, pwActive c, c.theta, c.phi, c.eta,
        (if c.numScanned ≥ 13 then c.size else 1 : ℚ), delay, c.waveform⟩] } else none
  | .op c => if parseOP s.mbox (fun n => (s.obs.map ObsItem.name).contains n) (fun n => s.waves.contains n) c then
      some { s with obs := s.obs ++ [obsOf s c] } else none

/-- The cards of the second section in order. src/mesh.c:292-384 -/
def read (s : State) (l : List Card) : Option State := l.foldlM State.card s

/-! ### Items of the run -/

/-- `offsetBoundingBox( item->gbbox , item->mbbox , gibox )`. src/bounding_box.h:45-57 -/
def place (c : Cfg) (b : BBox) : BBox := offsetBoundingBox b c.gibox

/-- Debye blocks in the order of the block cards. src/debye.c:98-127 -/
def debyeItems (c : Cfg) (l : List Blk) : List DebyeBlk :=
  l.filterMap fun b => match b.med with
    | .debye _ _ _ p => some ⟨setFieldLimits (place c b.mbbox) (faceMask2boolArray b.mask), p.length⟩
    | _ => none

/-- Impedance sheets in the order of the surface cards. The normal is that of the card's box; the box is kept flat here
(the code adds one along the normal for its loops, Model/Sim.lean does that in the loops). src/sibc.c:238-259 -/
def sibcItems (c : Cfg) (l : List Surf) : List SibcSurf :=
  l.filterMap fun b => match b.bnd with
    | .sibc pr => some ⟨((bboxDirection b.mbbox).join).getD .x, place c b.mbbox, fun p q => (pr p q).terms.length⟩
    | _ => none

/-- Sources in the order of the source cards; `de`, `dh`: edge lengths. src/source.c:469-599 -/
noncomputable def srcItem (de dh : Axis → Int → ℝ) (c : Cfg) (s : SrcItem) : Src × ℝ :=
  let r := Source.initSource de dh (place c s.mbbox) s.info.type s.info.pol (s.info.norm.getD .x) s.size s.resist
  (⟨r.kind, s.info.field, place c s.mbbox⟩, r.size)

/-- One plane wave; `none`: `assert( 0 )`. `cubic`: the mesh is cubic. src/planewave.c:292-310, 335-357 -/
noncomputable def pwItem (cubic : Bool) (c : Cfg) (w : PwItem) : Option PW :=
  (PlaneWave.ijk0 w.theta w.phi (place c w.mbbox)).map fun q0 =>
    ⟨place c w.mbbox, w.active,
      if cubic then some (PlaneWave.auxGridOf w.theta w.phi (place c w.mbbox) q0) else none⟩

/-- The first section: cells, outer boundaries and their layers; the second section; whether the mesh lines make a cubic
mesh. -/
structure File where
  nx : Int
  ny : Int
  nz : Int
  bt : Face → BType
  layers : Face → Int
  cards : List Card
  cubic : Bool

/-- Cells per axis. src/grid.c:196-198 -/
def File.cells (f : File) : Axis → Int | .x => f.nx | .y => f.ny | .z => f.nz

/-- What the parsers have stored when the second section ends; `none`: error exit. -/
def File.stored (f : File) : Option State := (parseDM f.nx f.ny f.nz).bind fun m => read (State.init m) f.cards

/-- The run set up from a file; `none`: error exit or `assert( 0 )`. src/vulture.c:108-190 -/
noncomputable def File.sim (de dh : Axis → Int → ℝ) (f : File) : Option Sim :=
  f.stored.bind fun s => (initExternalSurfaceParameters f.cells f.bt f.layers).bind fun c =>
    (s.pws.mapM (pwItem f.cubic c)).map fun pws =>
      ⟨c, debyeItems c s.blocks, sibcItems c s.surfs, (s.srcs.map (srcItem de dh c)).map Prod.fst, pws⟩

/-! ### Driving values -/

/-- `timeE`, `timeH`. src/simulation.c:150-152, 172, 197 -/
noncomputable def time (dt : ℝ) (h : Bool) (n : Nat) : ℝ := if h then (n + 1 / 2) * dt else n * dt

/-- What the driving values depend on besides the cards: time step, impedance of free space, mesh lines, edge and dual edge
lengths of the grid, the phase velocity given to a wave, and `getWaveformValue` as a function of the waveform and of the
time less the item's delay (every branch uses `t - delay`, src/waveform.c:585-639). -/
structure Env where
  dt : ℝ
  eta0 : ℝ
  lines : Axis → Int → ℝ
  de : Axis → Int → ℝ
  dh : Axis → Int → ℝ
  v : PwItem → ℝ
  wave : String → ℝ → ℝ

/-- `rcomp` of a sample. src/planewave.c:564, src/grid.c:1395-1443 -/
noncomputable def location (e : Env) (c : Cfg) (fc : Fc) (q : Axis → Int) : Axis → ℝ := fun a =>
  getFieldPhysicalLocation (c.gibox a.lo) (e.lines a) (e.de a) fc a (q a)

/-- Indices of a sample. -/
def triple (i j k : Int) : Axis → Int | .x => i | .y => j | .z => k

/-- Values computed from the waveforms in step `n`. The analytic field is computed on meshes that are not cubic only, the
boundary value of an auxiliary grid on cubic ones only; a value that is not computed is 0 here.
src/source.c:614, 690; src/planewave.c:291-310, 557-573, 585-586, 1341-1347 -/
noncomputable def drive (e : Env) (cubic : Bool) (c : Cfg) (s : State) (n : Nat) : Loc → ℝ
  | .src h m => match s.srcs[m]? with
    | some x => (srcItem e.de e.dh c x).2 * e.wave x.wave (time e.dt h n - x.delay)
    | none => 0
  | .wav m => match cubic, s.pws[m]? with
    | true, some x => e.wave x.wave (time e.dt false n - x.delay)
    | _, _ => 0
  | .inc h m fc i j k => match cubic, s.pws[m]? with
    | false, some x => match PlaneWave.ijk0 x.theta x.phi (place c x.mbbox) with
      | some q0 => PlaneWave.analytic (PlaneWave.finc e.eta0 x.size x.theta x.phi x.eta fc) (PlaneWave.kinc x.theta x.phi)
          (location e c fc (triple i j k)) (PlaneWave.nodeLocation c e.lines q0) (e.v x)
          (fun t => e.wave x.wave (t - x.delay)) (time e.dt h n)
      | none => 0
    | _, _ => 0
  | _ => 0

end Vulture.Deck
