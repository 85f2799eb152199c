import Verif.Model.Alloc
import Verif.Model.Sim
/-
Sizes of the arrays of Debye blocks, impedance sheets, sources and plane waves.
Models: src/debye.c:88-186, src/sibc.c:221-286, src/planewave.c:1248-1275, 45-93 (per-item storage),
src/grid.c:1395-1443 (the mesh lines `getFieldPhysicalLocation` reads).
-/
namespace Vulture

/-- `npml`. src/planewave.c:115 -/
def npml : Int := 10

/-- Elements of `Jpolx`, `lastEx` .. of a block: `flim[..HI] - flim[..LO] + 1` per direction, electric components only.
src/debye.c:122-186 -/
def InDebye (l : List DebyeBlk) (b : Nat) (fc : Fc) (i j k : Int) : Prop :=
  ∃ d, l[b]? = some d ∧ fc.isE = true ∧
    (0 ≤ i ∧ i < d.flim fc .xhi - d.flim fc .xlo + 1) ∧
    (0 ≤ j ∧ j < d.flim fc .yhi - d.flim fc .ylo + 1) ∧
    (0 ≤ k ∧ k < d.flim fc .zhi - d.flim fc .zlo + 1)

/-- Extent of the arrays of a sheet along an axis, with the extra layer along its normal.
src/sibc.c:251-286 -/
def sheetExtent (s : SibcSurf) (a : Axis) : Int := s.gbbox a.hi - s.gbbox a.lo + if a = s.normal then 1 else 0

/-- Elements of `rcm_s`, `Etan`, `isAdjA`, `isAdjB` of a sheet. src/sibc.c:271-286 -/
def InSheet (l : List SibcSurf) (n : Nat) (i j k : Int) : Prop :=
  ∃ s, l[n]? = some s ∧ (0 ≤ i ∧ i < sheetExtent s .x) ∧ (0 ≤ j ∧ j < sheetExtent s .y) ∧
    (0 ≤ k ∧ k < sheetExtent s .z)

/-- The same for grid indices `i`, `j`, `k`. src/sibc.c:481-483 -/
def OnSheet (l : List SibcSurf) (n : Nat) (i j k : Int) : Prop :=
  ∃ s, l[n]? = some s ∧ InSheet l n (i - s.gbbox .xlo) (j - s.gbbox .ylo) (k - s.gbbox .zlo)

/-- Allocated elements. The analytic incident field of a sample reads one mesh line per axis, `numLines` of which
exist, and one edge. src/grid.c:1395-1443 -/
def SAllocated (S : Sim) : Loc → Prop
  | .dj _ b pole fc i j k => InDebye S.debye b fc i j k ∧ ∃ d, S.debye[b]? = some d ∧ pole < d.numPoles
  | .dl b fc i j k => InDebye S.debye b fc i j k
  | .et n m i j k => m < 4 ∧ InSheet S.sibc n i j k
  | .rz _ n p q pole i j k => p < 4 ∧ q < 4 ∧ InSheet S.sibc n i j k ∧ ∃ s, S.sibc[n]? = some s ∧ pole < s.numPoles p q
  | .ro n p q i j k => p < 4 ∧ q < 4 ∧ InSheet S.sibc n i j k
  | .aux n arr i => ∃ w g, S.pws[n]? = some w ∧ w.aux = some g ∧
      (match arr with
       | .ey | .hz => 0 ≤ i ∧ i < g.nx + 1
       | .py | .ppy | .bz => 0 ≤ i ∧ i < npml)
  | .src _ n => n < S.srcs.length
  | .wav n => n < S.pws.length
  | .inc _ n _ i j k => n < S.pws.length ∧ InGrid S.cfg i j k ∧
      (0 ≤ i - S.cfg.giboxLo .x ∧ i - S.cfg.giboxLo .x < S.cfg.numLines .x) ∧
      (0 ≤ j - S.cfg.giboxLo .y ∧ j - S.cfg.giboxLo .y < S.cfg.numLines .y) ∧
      (0 ≤ k - S.cfg.giboxLo .z ∧ k - S.cfg.giboxLo .z < S.cfg.numLines .z)
  | l => Allocated S.cfg l

/-- Allocated coefficients. src/debye.c:263-267, src/sibc.c:63-109, src/filter.h:42-48,
src/planewave.c:1262-1265 -/
def SCAllocated (S : Sim) : CRef → Prop
  | .dal _ b pole => ∃ d, S.debye[b]? = some d ∧ pole < d.numPoles
  | .dbe _ b pole => ∃ d, S.debye[b]? = some d ∧ pole < d.numPoles
  | .soft n => n < S.srcs.length
  | .sibH n q i j k => q < 4 ∧ OnSheet S.sibc n i j k
  | .sibA n p q => n < S.sibc.length ∧ p < 4 ∧ q < 4
  | .sibB n p q => n < S.sibc.length ∧ p < 4 ∧ q < 4
  | .rca n p q => n < S.sibc.length ∧ p < 4 ∧ q < 4
  | .rcq _ m n p q pole => m < 3 ∧ p < 4 ∧ q < 4 ∧ ∃ s, S.sibc[n]? = some s ∧ pole < s.numPoles p q
  | .sibW n m i j k => m < 4 ∧ OnSheet S.sibc n i j k
  | .sibN n f i j k => f < 8 ∧ OnSheet S.sibc n i j k
  | .half => True
  | .auxBeta n => n < S.pws.length
  | .auxGamma n => n < S.pws.length
  | .auxAd n i => n < S.pws.length ∧ 0 ≤ i ∧ i < npml
  | .auxBd n i => n < S.pws.length ∧ 0 ≤ i ∧ i < npml
  | .auxAh n i => n < S.pws.length ∧ 0 ≤ i ∧ i < npml
  | .auxBh n i => n < S.pws.length ∧ 0 ≤ i ∧ i < npml
  | .auxW n _ _ _ _ _ => n < S.pws.length
  | r => CAllocated S.cfg r

/-- Every element a program touches is allocated. -/
def SimSafe (S : Sim) (p : Prog) : Prop :=
  ∀ b ∈ p, (∀ l ∈ b.writes, SAllocated S l) ∧ (∀ l ∈ b.reads, SAllocated S l) ∧
    (∀ r ∈ b.coefs, SCAllocated S r)

end Vulture
