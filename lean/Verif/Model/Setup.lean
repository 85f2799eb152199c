import Verif.Model.Deck
import Verif.Model.PmlProfile
import Verif.Model.Media
import Verif.Model.Mur
import Verif.Model.SibcData
import Verif.Model.Adjacency
import Verif.Model.Waveform
import Mathlib.Analysis.SpecialFunctions.Pow.Real
/-
Set-up as a whole: from a mesh file to the coefficient arrays of the update loops and the values that drive them, with
the functions of the other model files put together in the order of the program.
Models: src/vulture.c:108-190 (calls), src/grid.c:146-175 (`initGrid`), src/medium.c:381-441, src/source.c:469-599,
src/sibc.c:211-397, 444-776 (factors), src/planewave.c:277-360, 1226-1296, src/surface.c:1028-1050.
Numbers in scanned cards are real numbers. Left out: observers (Model/Run.lean), text (Model/MeshText.lean), messages.
-/
namespace Vulture.Setup

/-- Physical constants, `GRID_TYPE_TOL` and `REAL_MAX`. src/physical.c:41-44, src/grid.c:47, 591 -/
structure Consts where
  c0 : ℝ
  eps0 : ℝ
  mu0 : ℝ
  eta0 : ℝ
  tol : ℝ
  big : ℝ

/-- A waveform as its `WF` card and, for type `EXTERNAL`, the table file give it. src/waveform.c:42-57, 642-662 -/
inductive Wave
  | builtin (w : Waveform.Wf)
  | table (size delay : ℝ) (x y : ℕ → ℝ) (n : ℕ)

/-- What the user supplies: the cards (whether the mesh is cubic is found out, not supplied), mesh lines, Courant number,
parameters of absorbing boundaries, waveforms by name. -/
structure Experiment where
  file : Deck.File
  lines : Axis → Int → ℝ
  cn : ℝ
  par : Face → PmlParams
  waves : String → Wave

/-- Memory as `malloc` leaves it: edge arrays, absorbing layer arrays, media arrays, the array `isSibcFace`. -/
structure Junk where
  edges : Axis → EdgeArrays ℝ
  pml : Axis → PmlArrays
  med : MArr (Coef ℝ)
  adj : Int → Int → Int → Axis → Bool

section
variable (k : Consts) (J : Junk) (X : Experiment) (c : Cfg)

/-- `initCellEdges`. src/grid.c:583-668 -/
noncomputable def edges (a : Axis) : EdgeArrays ℝ := initCellEdges c a (X.lines a) k.big (J.edges a)

/-- `dex`, `dey`, `dez`; `dhx`, `dhy`, `dhz`. -/
noncomputable def de (a : Axis) : Int → ℝ := (edges k J X c a).de
noncomputable def dh (a : Axis) : Int → ℝ := (edges k J X c a).dh

/-- Time step. src/grid.c:671-673 -/
noncomputable def dt : ℝ := timeStep X.cn k.c0 fun a => (edges k J X c a).dmin

/-- `gridType`. src/grid.c:1503-1549 -/
noncomputable def gridType : GridType := setGridType k.tol c.gibox (de k J X c)

/-- `duni`. src/grid.c:1537-1539, 1544-1546 -/
noncomputable def duni : Axis → ℝ := fun a =>
  if gridType k J X c = .nonuniform then -1 else de k J X c a (c.gibox a.lo)

/-- `setPmlParameters`. src/pml.c:305-425 -/
noncomputable def pml (a : Axis) : PmlArrays :=
  setPmlParameters (dt k J X c) k.eps0 k.eta0 c a (de k J X c a) (dh k J X c a) X.par (J.pml a)

/-- Coefficients of a medium. src/medium.c:381-441 -/
noncomputable def medCoef (T : ℝ) : Deck.Med → Coef ℝ
  | .free => ⟨1, T / k.eps0, T / k.mu0⟩
  | .pec => ⟨-1, 0, T / k.mu0⟩
  | .simple e s m => calcCoeff T k.eps0 k.mu0 ⟨.simple, e, s, m, 0⟩
  | .debye e s m q => calcCoeff T k.eps0 k.mu0 (debyeMedium T k.eps0 e s m q)

/-- What an internal surface puts on the grid. src/surface.c:363-397 -/
noncomputable def surfFill (T : ℝ) (b : Deck.Surf) : Option (BBox × Coef ℝ) :=
  match b.bnd with
  | .pec | .sibc _ => some (b.mbbox, medCoef k T .pec)
  | .free => some (b.mbbox, medCoef k T .free)
  | .plain => none

/-- What a source puts on the grid. src/source.c:553-577 -/
noncomputable def srcFill (T : ℝ) (x : Deck.SrcItem) : Option (BBox × Coef ℝ) :=
  match (Source.initSource (de k J X c) (dh k J X c) (Deck.place c x.mbbox) x.info.type x.info.pol
      (x.info.norm.getD .x) x.size x.resist).med with
  | .keep => none
  | .resistor sigma => some (x.mbbox, resistCoef T k.eps0 k.mu0 sigma)
  | .pec => some (x.mbbox, medCoef k T .pec)

/-- The media of a run. src/vulture.c:140-170 -/
noncomputable def medSetup (s : Deck.State) : MedSetup (Coef ℝ) :=
  let T := dt k J X c
  { free := medCoef k T .free
    pec := medCoef k T .pec
    blocks := s.blocks.map fun b => (b.mbbox, faceMask2boolArray b.mask, medCoef k T b.med)
    lines := s.lines.map fun l => (l.mbbox, medCoef k T (if l.free then .free else .pec))
    surfaces := s.surfs.filterMap (surfFill k T)
    resist := s.srcs.filterMap (srcFill k J X c T) }

/-- Poles of the Debye blocks in the order of the blocks. src/debye.c:98-127 -/
def blockPoles (s : Deck.State) : List (List DPole) :=
  s.blocks.filterMap fun b => match b.med with
    | .debye _ _ _ p => some p
    | _ => none

/-- The impedance sheets: their data, orientation, angle. src/sibc.c:238-250 -/
def sheetData (s : Deck.State) : List ((Nat → Nat → PoleResidue) × Int × ℝ) :=
  s.surfs.filterMap fun b => match b.bnd with
    | .sibc pr => some (pr, b.orient, b.angle)
    | _ => none

/-- Real or imaginary part. -/
def part (im : Bool) (z : ℂ) : ℝ := if im then z.im else z.re

/-- `isPmcEdge`. src/surface.c:1028-1050 -/
def isPmcEdge (a : Axis) (i : Int) : Bool :=
  ((c.bt a.lo == .pmc || c.bt a.lo == .periodic) && i == c.gibox a.lo) ||
  ((c.bt a.hi == .pmc || c.bt a.hi == .periodic) && i == c.gibox a.hi)

/-- The array `isSibcFace` as read: elements never written hold what was there. src/sibc.c:229-316 -/
def sibcFace (s : Deck.State) : Int → Int → Int → Axis → Bool := fun i j l a =>
  (Adj.faceMap c.gobox (Deck.sibcItems c s.surfs) i j l a).getD (J.adj i j l a)

/-- The same as an array of written elements, to be used with `Adj.isAdjA`, `Adj.isAdjB`. -/
def faceMapRead (s : Deck.State) : Adj.FaceMap := fun i j l a => some (sibcFace J c s i j l a)

/-- `isAdjA[..][f]`, `isAdjB[..][f]` of a sheet as 0 or 1. src/sibc.c:335-373 -/
def adjFlag (s : Deck.State) (upper : Bool) (n : Nat) (i j l : Int) (f : Nat) : Bool :=
  match (Deck.sibcItems c s.surfs)[n]? with
  | some w => ((if upper then Adj.isAdjB else Adj.isAdjA) (faceMapRead J c s) w.normal i j l f).getD false
  | none => false

def bit (b : Bool) : ℝ := if b then 1 else 0

/-- The factor of `Htan[q]`. src/sibc.c:491-498, 524-531, 556-563 -/
noncomputable def hFactor (s : Deck.State) (n q : Nat) (i j l : Int) : ℝ :=
  let f := if q < 2 then 0 else 2
  let u := q % 2 = 1
  0.5 * (1 + bit (adjFlag J c s u n i j l f) + bit (adjFlag J c s u n i j l (f + 1)))

/-- Edge weights: 0, 1 low and high edge along the first tangential axis, 2, 3 along the second. src/sibc.c:637-640,
670-673, 703-706 -/
noncomputable def edgeWeight (s : Deck.State) (n m : Nat) (i j l : Int) : ℝ :=
  match (Deck.sibcItems c s.surfs)[n]? with
  | some w =>
    let a := if m < 2 then w.normal.next.next else w.normal.next
    0.5 * (1 + bit (isPmcEdge c a (coord a (i, j, l) + if m % 2 = 1 then 1 else 0)))
  | none => 0

/-- Matrices of a sheet. src/sibc.c:247-248, 462-476 -/
noncomputable def sheetMat (s : Deck.State) (n : Nat) : SibcData.M4 × SibcData.M4 :=
  match (sheetData s)[n]? with
  | some d => SibcData.orient (d.2.1 == 1) (Real.cos (Real.pi * d.2.2 / 180)) (Real.sin (Real.pi * d.2.2 / 180))
  | none => (0, 0)

/-- Matrix entry with natural indices. -/
noncomputable def entry (M : SibcData.M4) (p q : Nat) : ℝ := if h : p < 4 ∧ q < 4 then M ⟨p, h.1⟩ ⟨q, h.2⟩ else 0

/-- Filter `(p,q)` of a sheet. src/sibc.c:188 -/
noncomputable def sheetFilter (s : Deck.State) (n p q : Nat) : RecConv :=
  match (sheetData s)[n]? with
  | some d => toRecConv (d.1 p q) (dt k J X c)
  | none => ⟨0, []⟩

/-- `q[m][pole]`. src/filter.h:46 -/
noncomputable def rcqAt (r : RecConv) (m pole : Nat) : ℂ :=
  match r.q[pole]? with
  | some q => if m = 0 then q.q0 else if m = 1 then q.q1 else q.q2
  | none => 0

/-- Pole `p` of Debye block `b`. -/
def poleAt (s : Deck.State) (b p : Nat) : Option DPole := ((blockPoles s)[b]?).bind fun l => l[p]?

/-- Loss of the auxiliary grid's absorbing layer. src/planewave.c:1281-1289 -/
noncomputable def auxLoss (depth : ℝ) : ℝ :=
  0.5 * dt k J X c / k.eps0 * depth ^ (3.77 : ℝ) * 4 / k.eta0 / duni k J X c .x

/-- A quantity of plane wave `n`. -/
def ofWave (s : Deck.State) (n : Nat) (f : Deck.PwItem → ℝ) : ℝ :=
  match s.pws[n]? with
  | some w => f w
  | none => 0

/-- A quantity of the auxiliary grids: they are set up on cubic meshes only, and not used on others.
src/planewave.c:291-310, 354-357 -/
noncomputable def onCubic (v : ℝ) : ℝ := if gridType k J X c = .cubic then v else 0

/-- Weight of an auxiliary grid element in an incident field value. src/planewave.c:1375-1419 -/
noncomputable def waveWeight (s : Deck.State) (n : Nat) (hi : Bool) (fc : Fc) (i j l : Int) : ℝ :=
  ofWave s n fun w => match PlaneWave.ijk0 w.theta w.phi (Deck.place c w.mbbox) with
    | some q0 => PlaneWave.auxWeight k.eta0 (PlaneWave.finc k.eta0 w.size w.theta w.phi w.eta fc) fc
        (PlaneWave.auxDist (PlaneWave.kinc w.theta w.phi) q0 fc (Deck.triple i j l)) hi
    | none => 0

/-- All coefficients except those of the media arrays. -/
noncomputable def otherCoef (s : Deck.State) : CRef → ℝ
  | .ide a i => (edges k J X c a).ide i
  | .idh a i => (edges k J X c a).idh i
  | .ad a i => ((pml k J X c a).node i).a
  | .bd a i => ((pml k J X c a).node i).b
  | .ibd a i => ((pml k J X c a).node i).ib
  | .ah a i => ((pml k J X c a).half i).a
  | .bh a i => ((pml k J X c a).half i).b
  | .ibh a i => ((pml k J X c a).half i).ib
  | .zeta f => murZeta k.c0 (dt k J X c) c (de k J X c) f
  | .dal im b p => match poleAt s b p with
    | some q => part im (dalpha (dt k J X c) q)
    | none => 0
  | .dbe im b p => match poleAt s b p with
    | some q => part im (dbeta (dt k J X c) k.eps0 q)
    | none => 0
  | .soft n => match s.srcs[n]? with
    | some x => bit x.info.soft
    | none => 0
  | .sibH n q i j l => hFactor J c s n q i j l
  | .sibA n p q => entry (sheetMat s n).1 p q
  | .sibB n p q => entry (sheetMat s n).2 p q
  | .rca n p q => (sheetFilter k J X c s n p q).asymp
  | .rcq im m n p q pole => part im (rcqAt (sheetFilter k J X c s n p q) m pole)
  | .sibW n m i j l => edgeWeight c s n m i j l
  | .sibN n f i j l => bit (!(adjFlag J c s (4 ≤ f) n i j l (f % 4)))
  | .half => 0.5
  | .auxBeta n => onCubic k J X c <| ofWave s n fun w => PlaneWave.betaEyi (dt k J X c) k.eps0 (duni k J X c .x)
      (PlaneWave.relPhaseVelocity k.c0 (dt k J X c) (duni k J X c) w.theta w.phi)
  | .auxGamma n => onCubic k J X c <| ofWave s n fun w => PlaneWave.gammaHzi (dt k J X c) k.mu0 (duni k J X c .x)
      (PlaneWave.relPhaseVelocity k.c0 (dt k J X c) (duni k J X c) w.theta w.phi)
  | .auxAd _ i => onCubic k J X c <| (1 - auxLoss k J X c (|(i : ℝ)| / 10)) / (1 + auxLoss k J X c (|(i : ℝ)| / 10))
  | .auxBd _ i => onCubic k J X c <| 1 / (1 + auxLoss k J X c (|(i : ℝ)| / 10))
  | .auxAh _ i => onCubic k J X c <| (1 - auxLoss k J X c ((|(i : ℝ)| + 0.5) / 10)) / (1 + auxLoss k J X c ((|(i : ℝ)| + 0.5) / 10))
  | .auxBh _ i => onCubic k J X c <| 1 / (1 + auxLoss k J X c ((|(i : ℝ)| + 0.5) / 10))
  | .auxW n hi fc i j l => waveWeight k c s n hi fc i j l
  | .alpha _ _ _ _ => 0
  | .beta _ _ _ _ => 0
  | .gamma _ _ _ _ => 0

/-- Coefficient arrays when `propagate` starts. -/
noncomputable def coefs (s : Deck.State) : CRef → ℝ :=
  coefRef (mediaArrays c (medSetup k J X c s) J.med) (otherCoef k J X c s)

/-- `getWaveformValue` as a function of the time less the item's delay; the position in a table that is remembered between
calls does not matter (C29) and is taken as 0. src/waveform.c:257-346, 585-639 -/
noncomputable def waveValue (T : ℝ) : Wave → ℝ → ℝ
  | .builtin w, t => Waveform.value (Waveform.initWaveform T w) t 0
  | .table size delay x y n, t => Waveform.dflt size 1 *
      ((Waveform.externalWaveform x y (Waveform.second x y n) n (t - Waveform.dflt delay 0) 0).map Prod.fst).getD 0

/-- `phaseVelocity` of a plane wave. src/planewave.c:343-352 -/
noncomputable def waveSpeed (w : Deck.PwItem) : ℝ :=
  if gridType k J X c = .uniform then
    PlaneWave.phaseVelocity k.c0 (dt k J X c) (duni k J X c) (PlaneWave.rad w.theta) (PlaneWave.rad w.phi)
  else k.c0

/-- What the driving values depend on. -/
noncomputable def env : Deck.Env :=
  ⟨dt k J X c, k.eta0, X.lines, de k J X c, dh k J X c, waveSpeed k J X c, fun n => waveValue (dt k J X c) (X.waves n)⟩

/-- The file with the grid type filled in. src/planewave.c:291-310 -/
noncomputable def fileOf : Deck.File := { X.file with cubic := gridType k J X c == .cubic }

end

/-- A run: the items, the coefficients, and the values computed from waveforms in each step. -/
structure Run where
  cfg : Cfg
  state : Deck.State
  sim : Sim
  dt : ℝ
  coefs : CRef → ℝ
  drive : Nat → Loc → ℝ

/-- Set-up of a run; `none`: error exit or `assert( 0 )`. src/vulture.c:108-190 -/
noncomputable def setup (k : Consts) (J : Junk) (X : Experiment) : Option Run :=
  (initExternalSurfaceParameters X.file.cells X.file.bt X.file.layers).bind fun c =>
    X.file.stored.bind fun s =>
      ((fileOf k J X c).sim (de k J X c) (dh k J X c)).map fun S =>
        ⟨c, s, S, dt k J X c, coefs k J X c s, Deck.drive (env k J X c) (gridType k J X c == .cubic) c s⟩

/-- Memory before step `n`: all arrays of fields and auxiliary quantities are cleared first.
src/grid.c:682-706, src/pml.c:793-857, src/simulation.c:136-230 -/
noncomputable def Run.fields (R : Run) (n : Nat) : Loc → ℝ := R.sim.state R.coefs R.drive (fun _ => 0) n

end Vulture.Setup
