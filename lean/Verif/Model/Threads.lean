import Verif.Model.Sim
/-
The loops of a time step in the order of the code, with a mark on those that carry `#pragma omp parallel for`.
-/
namespace Vulture

/-- A loop nest; `par`: its iterations are shared out among threads. -/
structure Loop where
  par : Bool
  body : Prog

/-- A loop with `#pragma omp parallel for`, over the limits of one component. -/
def parLoop (lim : Face → Int) (body : Int → Int → Int → Block) : Loop := ⟨true, loopOver lim body⟩
/-- Code that one thread executes. -/
def seqPart (p : Prog) : Loop := ⟨false, p⟩

/-- `updatePmlEfield`: pragmas at src/pml.c:890, 934, 979 -/
def loopsPmlE (c : Cfg) : List Loop := Face.all.flatMap fun r =>
  if c.bt r = .pml then
    [parLoop (c.fplim r .ex) (pmlExBlock r (c.fplim r .ex)), parLoop (c.fplim r .ey) (pmlEyBlock r (c.fplim r .ey)),
     parLoop (c.fplim r .ez) (pmlEzBlock r (c.fplim r .ez))]
  else []
/-- `updatePmlHfield`: pragmas at src/pml.c:1054, 1094, 1135 -/
def loopsPmlH (c : Cfg) : List Loop := Face.all.flatMap fun r =>
  if c.bt r = .pml then
    [parLoop (c.fplim r .hx) (pmlHxBlock r (c.fplim r .hx)), parLoop (c.fplim r .hy) (pmlHyBlock r (c.fplim r .hy)),
     parLoop (c.fplim r .hz) (pmlHzBlock r (c.fplim r .hz))]
  else []
/-- `updateMurEfield`: twelve pragmas, src/mur.c:147-375 -/
def loopsMurE (c : Cfg) : List Loop := Face.all.flatMap fun f =>
  if c.bt f = .mur then (murComponents f).map fun fc => parLoop (c.fmlim f fc) (murE f fc) else []
/-- `updateGridEfield`: pragmas at src/grid.c:719, 744, 770 -/
def loopsGridE (c : Cfg) : List Loop :=
  [parLoop (c.gfilim .ex) (fun i j k => [⟨.fld .ex i j k, ampereX i j k⟩]),
   parLoop (c.gfilim .ey) (fun i j k => [⟨.fld .ey i j k, ampereY i j k⟩]),
   parLoop (c.gfilim .ez) (fun i j k => [⟨.fld .ez i j k, ampereZ i j k⟩])]
/-- `updateGridHfield`: pragmas at src/grid.c:810, 835, 861 -/
def loopsGridH (c : Cfg) : List Loop :=
  [parLoop (c.gfilim .hx) (fun i j k => [⟨.fld .hx i j k, faradayX i j k⟩]),
   parLoop (c.gfilim .hy) (fun i j k => [⟨.fld .hy i j k, faradayY i j k⟩]),
   parLoop (c.gfilim .hz) (fun i j k => [⟨.fld .hz i j k, faradayZ i j k⟩])]
/-- `updatePlaneWavesEfield`: twelve pragmas, src/planewave.c:594-772; the auxiliary grid is updated by one thread. -/
def loopsPwE (c : Cfg) (l : List PW) : List Loop := l.zipIdx.flatMap fun x =>
  seqPart (match x.1.aux with | some g => auxE x.2 g | none => []) ::
  pwTableE.flatMap fun r =>
    if x.1.active r.1 then [parLoop (x.1.flim c r.1 r.2.1) (pwEBlock x.2 x.1 r.1 r.2.1 r.2.2.1 r.2.2.2)] else []
/-- `updatePlaneWavesHfield`: twelve pragmas, src/planewave.c:811-990 -/
def loopsPwH (c : Cfg) (l : List PW) : List Loop := l.zipIdx.flatMap fun x =>
  seqPart (match x.1.aux with | some g => auxH x.2 g | none => []) ::
  pwTableH.flatMap fun r =>
    if x.1.active r.1 then [parLoop (x.1.flim c r.1 r.2.1) (pwHBlock x.2 x.1 r.1 r.2.1 r.2.2.1 r.2.2.2)] else []

/-- The loop body of `propagate`. The other updates have no pragma. src/simulation.c:156-222 -/
def Sim.loops (S : Sim) : List Loop :=
  loopsPmlE S.cfg ++ loopsMurE S.cfg ++ loopsGridE S.cfg ++ [seqPart (updateDebye S.debye), seqPart (updateSibcE S.sibc),
    seqPart (updateSourcesE S.srcs)] ++ loopsPwE S.cfg S.pws ++ [seqPart (updateGhostEfield S.cfg)] ++
  (loopsPmlH S.cfg ++ [seqPart (updateMurHfield S.cfg)] ++ loopsGridH S.cfg ++ [seqPart (updateSibcH S.sibc),
    seqPart (updateSourcesH S.srcs)] ++ loopsPwH S.cfg S.pws ++ [seqPart (updateGhostHfield S.cfg)])

end Vulture
