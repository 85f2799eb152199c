import Verif.Model.Prog
/-
The remaining field-update code and one full time step.
Models: src/debye.c:243-307, src/sibc.c:444-776, src/filter.c:307-326, src/source.c:602-753,
src/planewave.c:313-443 (limits), 576-1005, 1314-1419, src/simulation.c:156-222.
Scaling macros are the identity in the default build (src/grid.h:290-330).
-/
namespace Vulture
open Expr

/-- Sum of a list of terms, accumulated left to right from zero. -/
def Expr.sum (l : List Expr) : Expr := l.foldl Expr.add .zero

/-! ### Debye blocks -/

/-- `DebyeItem`: field limits and the number of poles of the medium. src/debye.c:44-55 -/
structure DebyeBlk where
  flim : Fc → Face → Int
  numPoles : Nat

/-- Real part of `Jpol..[pole]`, and imaginary part. -/
def djR (b pole : Nat) (fc : Fc) (i j k : Int) : Expr := rd (.dj false b pole fc i j k)
def djI (b pole : Nat) (fc : Fc) (i j k : Int) : Expr := rd (.dj true b pole fc i j k)

/-- `Ex[i][j][k] - BETA_EX(i,j,k) * creal( Jsum )` with `Jsum` the sum over poles of
`( 1 + dalpha ) * Jpolx`. src/debye.c:261-264 -/
def debyeE (b np : Nat) (fc : Fc) (i j k ii jj kk : Int) : Expr :=
  sub (rd (.fld fc i j k)) (mul (.beta fc i j k) (Expr.sum ((List.range np).map fun p =>
    add (djR b p fc ii jj kk)
      (sub (mul (.dal false b p) (djR b p fc ii jj kk)) (mul (.dal true b p) (djI b p fc ii jj kk))))))

/-- One iteration of `updateDebyeBlocksEfield`; the new currents and the cache use the new electric
field. src/debye.c:260-269 (and 276-285, 292-301) -/
def debyeBlock (b : Nat) (d : DebyeBlk) (fc : Fc) (i j k : Int) : Block :=
  let ii := i - d.flim fc .xlo
  let jj := j - d.flim fc .ylo
  let kk := k - d.flim fc .zlo
  let newE := debyeE b d.numPoles fc i j k ii jj kk
  let dE := sub newE (rd (.dl b fc ii jj kk))
  ⟨.fld fc i j k, newE⟩ :: ⟨.dl b fc ii jj kk, newE⟩ ::
  (List.range d.numPoles).flatMap fun p =>
    [⟨.dj false b p fc ii jj kk, add (sub (mul (.dal false b p) (djR b p fc ii jj kk))
        (mul (.dal true b p) (djI b p fc ii jj kk))) (mul (.dbe false b p) dE)⟩,
     ⟨.dj true b p fc ii jj kk, add (add (mul (.dal false b p) (djI b p fc ii jj kk))
        (mul (.dal true b p) (djR b p fc ii jj kk))) (mul (.dbe true b p) dE)⟩]

/-- `updateDebyeBlocksEfield`. src/debye.c:243-307 -/
def updateDebye (l : List DebyeBlk) : Prog :=
  l.zipIdx.flatMap fun x =>
    [Fc.ex, .ey, .ez].flatMap fun fc => loopOver (x.1.flim fc) (debyeBlock x.2 x.1 fc)

/-! ### Internal impedance (SIBC) surfaces -/

/-- `SibcItem`: normal, node box before the extra layer in the normal direction, poles of the 16
filters. src/sibc.c:45-58 -/
structure SibcSurf where
  normal : Axis
  gbbox : BBox
  numPoles : Nat → Nat → Nat

/-- Cyclic successor of an axis: the first tangential axis of a surface with that normal. -/
def Axis.next : Axis → Axis | .x => .y | .y => .z | .z => .x

/-- Electric and magnetic component along an axis. -/
def Axis.e : Axis → Fc | .x => .ex | .y => .ey | .z => .ez
def Axis.h : Axis → Fc | .x => .hx | .y => .hy | .z => .hz

/-- Move a grid point along an axis. -/
def shift (a : Axis) (d : Int) (t : Int × Int × Int) : Int × Int × Int :=
  match a with
  | .x => (t.1 + d, t.2.1, t.2.2) | .y => (t.1, t.2.1 + d, t.2.2) | .z => (t.1, t.2.1, t.2.2 + d)

/-- Coordinate along an axis. -/
def coord (a : Axis) (t : Int × Int × Int) : Int :=
  match a with | .x => t.1 | .y => t.2.1 | .z => t.2.2

/-- Loop over the faces of a surface: `< gbbox[..HI]` with one added in the normal direction.
src/sibc.c:251-265, 481-483 -/
def sibcLim (s : SibcSurf) : Face → Int := fun f =>
  if f.isLo then s.gbbox f else if f.axis = s.normal then s.gbbox f else s.gbbox f - 1

/-- `Htan[n]`. src/sibc.c:491-498, 524-531, 556-563 -/
def sibcHtan (n : Nat) (s : SibcSurf) (t : Int × Int × Int) (q : Nat) : Expr :=
  let b := s.normal.next
  let c := b.next
  let a := if q < 2 then b else c
  let t0 := if q % 2 = 0 then shift s.normal (-1) t else t
  mul (.sibH n q t.1 t.2.1 t.2.2) (add (rd (fldAt a.h t0)) (rd (fldAt a.h (shift a 1 t0))))

/-- `Hin[q]`: `matMulVector( Hin , A , Htan )`. src/sibc.c:500, 589-601 -/
def sibcHin (n : Nat) (s : SibcSurf) (t : Int × Int × Int) (p : Nat) : Expr :=
  Expr.sum ((List.range 4).map fun q => mul (.sibA n p q) (sibcHtan n s t q))

/-- Relative indices of the surface arrays. src/sibc.c:481-483 -/
def sibcRel (s : SibcSurf) (t : Int × Int × Int) : Int × Int × Int :=
  (t.1 - s.gbbox .xlo, t.2.1 - s.gbbox .ylo, t.2.2 - s.gbbox .zlo)

/-- New `zeta[pole]` of filter `(p,q)` on input `x`, real (imaginary) part. src/filter.c:317 -/
def rcZeta (im : Bool) (n p q m : Nat) (r : Int × Int × Int) (x : Expr) : Expr :=
  let zr := rd (.rz false n p q m r.1 r.2.1 r.2.2)
  let zi := rd (.rz true n p q m r.1 r.2.1 r.2.2)
  let o := rd (.ro n p q r.1 r.2.1 r.2.2)
  let lin := if im then add (mul (.rcq false 0 n p q m) zi) (mul (.rcq true 0 n p q m) zr)
    else sub (mul (.rcq false 0 n p q m) zr) (mul (.rcq true 0 n p q m) zi)
  add (add lin (mul (.rcq im 1 n p q m) o)) (mul (.rcq im 2 n p q m) x)

/-- `yfRecConvStep`: the output is real, so the real part of each `zeta` is added.
src/filter.c:307-326 -/
def rcOut (n p q np : Nat) (r : Int × Int × Int) (x : Expr) : Expr :=
  ((List.range np).map fun m => rcZeta false n p q m r x).foldl Expr.add (mul (.rca n p q) x)

/-- One iteration of `updateSibcSurfacesEfield`. src/sibc.c:484-511 (and 517-543, 549-575) -/
def sibcEBlock (n : Nat) (s : SibcSurf) (t : Int × Int × Int) : Block :=
  let b := s.normal.next
  let c := b.next
  let r := sibcRel s t
  let x := sibcHin n s t
  let eout (p : Nat) := Expr.sum ((List.range 4).map fun q => rcOut n p q (s.numPoles p q) r (x q))
  [⟨fldAt b.e t, .zero⟩, ⟨fldAt b.e (shift c 1 t), .zero⟩,
   ⟨fldAt c.e t, .zero⟩, ⟨fldAt c.e (shift b 1 t), .zero⟩] ++
  ((List.range 4).map fun m =>
    ⟨.et n m r.1 r.2.1 r.2.2, Expr.sum ((List.range 4).map fun p => mul (.sibB n m p) (eout p))⟩) ++
  (List.range 4).flatMap fun p => (List.range 4).flatMap fun q =>
    ⟨.ro n p q r.1 r.2.1 r.2.2, x q⟩ ::
    (List.range (s.numPoles p q)).flatMap fun m =>
      [⟨.rz false n p q m r.1 r.2.1 r.2.2, rcZeta false n p q m r (x q)⟩,
       ⟨.rz true n p q m r.1 r.2.1 r.2.2, rcZeta true n p q m r (x q)⟩]

/-- `updateSibcSurfacesEfield`. src/sibc.c:444-586 -/
def updateSibcE (l : List SibcSurf) : Prog :=
  l.zipIdx.flatMap fun x => loopOver (sibcLim x.1) fun i j k => sibcEBlock x.2 x.1 (i, j, k)

/-- `H + GAMMA_H * weight * d( E )` with sign, at one sample. src/sibc.c:646-653 -/
def sibcCorr (neg : Bool) (h : Fc) (t : Int × Int × Int) (w : CRef) (e : Expr) : Asg :=
  let d := mul (.gamma h t.1 t.2.1 t.2.2) (mul w e)
  ⟨fldAt h t, if neg then sub (rd (fldAt h t)) d else add (rd (fldAt h t)) d⟩

/-- `E` value of the surface times `ide` of the normal axis. src/sibc.c:641-646 -/
def sibcD (n : Nat) (s : SibcSurf) (r : Int × Int × Int) (m : Nat) (at_ : Int) : Expr :=
  mul (.ide s.normal at_) (rd (.et n m r.1 r.2.1 r.2.2))

/-- The four "parallel adjacent" corrections: components of `Etan` used on the two sides and sign
depend on the orientation as coded. src/sibc.c:656-659 (x), 689-692 (y), 722-725 (z) -/
def sibcAdj (n : Nat) (s : SibcSurf) (t : Int × Int × Int) : Block :=
  let a := s.normal
  let b := a.next
  let c := b.next
  let r := sibcRel s t
  let v := coord a t
  let pair (f : Nat) (mA mB : Nat) : Expr :=
    add (mul (.sibN n f t.1 t.2.1 t.2.2) (sibcD n s r mA (v-1)))
        (mul (.sibN n (f+4) t.1 t.2.1 t.2.2) (sibcD n s r mB v))
  let go (neg : Bool) (u : Int × Int × Int) (w : Nat) (e : Expr) : Asg :=
    sibcCorr neg a.h u .half (mul (.sibW n w t.1 t.2.1 t.2.2) e)
  match a with
  | .x => [go true (shift b 1 t) 3 (pair 0 2 3), go false (shift b (-1) t) 2 (pair 1 2 3),
           go true (shift c 1 t) 1 (pair 2 0 1), go false (shift c (-1) t) 0 (pair 3 0 1)]
  | .y => [go false (shift b 1 t) 1 (pair 0 0 3), go true (shift b (-1) t) 0 (pair 1 0 3),
           go false (shift c 1 t) 3 (pair 2 2 3), go true (shift c (-1) t) 2 (pair 3 2 3)]
  | .z => [go false (shift b 1 t) 3 (pair 0 2 3), go true (shift b (-1) t) 2 (pair 1 2 3),
           go false (shift c 1 t) 1 (pair 2 0 1), go true (shift c (-1) t) 0 (pair 3 0 1)]

/-- One iteration of `updateSibcSurfacesHfield`, first pass. Edge weights: 0, 1 = low, high of the
edges along the first tangential axis, 2, 3 = along the second. src/sibc.c:633-660 (and 666-693,
699-726) -/
def sibcHBlock (n : Nat) (s : SibcSurf) (t : Int × Int × Int) : Block :=
  let a := s.normal
  let b := a.next
  let c := b.next
  let r := sibcRel s t
  let v := coord a t
  let w (m : Nat) : CRef := .sibW n m t.1 t.2.1 t.2.2
  let d := sibcD n s r
  let t' := shift a (-1) t
  [⟨fldAt a.h t, .zero⟩,
   sibcCorr false b.h t' (w 2) (d 2 (v-1)), sibcCorr false b.h (shift b 1 t') (w 3) (d 2 (v-1)),
   sibcCorr true b.h t (w 2) (d 3 v), sibcCorr true b.h (shift b 1 t) (w 3) (d 3 v),
   sibcCorr true c.h t' (w 0) (d 0 (v-1)), sibcCorr true c.h (shift c 1 t') (w 1) (d 0 (v-1)),
   sibcCorr false c.h t (w 0) (d 1 v), sibcCorr false c.h (shift c 1 t) (w 1) (d 1 v)] ++
  sibcAdj n s t

/-- `updateSibcSurfacesHfield`: corrections, then a second pass that zeroes the normal magnetic
field of every face again. src/sibc.c:616-776 -/
def updateSibcH (l : List SibcSurf) : Prog :=
  (l.zipIdx.flatMap fun x => loopOver (sibcLim x.1) fun i j k => sibcHBlock x.2 x.1 (i, j, k)) ++
  (l.zipIdx.flatMap fun x => loopOver (sibcLim x.1) fun i j k =>
    [⟨fldAt x.1.normal.h (i, j, k), .zero⟩])

/-! ### Sources -/

/-- Source types left after `initSources`. src/source.c:491-573 -/
inductive SrcKind | efield | ecurr | hfield | hcurr
  deriving DecidableEq, Repr

/-- `SourceItem`. src/source.c:48-75 -/
structure Src where
  kind : SrcKind
  field : Fc
  gbbox : BBox

/-- `item->flim`: all faces included. src/source.c:475, 489 -/
def Src.flim (s : Src) : Fc → Face → Int := setFieldLimits s.gbbox (fun _ => true)

/-- The component is one the electric (magnetic) switch knows. src/source.c:620-641, 697-718 -/
def Fc.isE : Fc → Bool | .ex | .ey | .ez => true | _ => false

/-- `isSoft * E + source`, `isSoft * E - BETA * source`. src/source.c:626, 651 -/
def srcEBlock (n : Nat) (s : Src) (i j k : Int) : Block :=
  let old := mul (.soft n) (rd (.fld s.field i j k))
  match s.kind with
  | .efield => [⟨.fld s.field i j k, add old (rd (.src false n))⟩]
  | _ => [⟨.fld s.field i j k, sub old (mul (.beta s.field i j k) (rd (.src false n)))⟩]

/-- `isSoft * H + source`, `isSoft * H - GAMMA * source`. src/source.c:703, 728 -/
def srcHBlock (n : Nat) (s : Src) (i j k : Int) : Block :=
  let old := mul (.soft n) (rd (.fld s.field i j k))
  match s.kind with
  | .hfield => [⟨.fld s.field i j k, add old (rd (.src true n))⟩]
  | _ => [⟨.fld s.field i j k, sub old (mul (.gamma s.field i j k) (rd (.src true n)))⟩]

/-- `updateSourcesEfield`. src/source.c:602-676 -/
def updateSourcesE (l : List Src) : Prog :=
  l.zipIdx.flatMap fun x =>
    if (x.1.kind = .efield ∨ x.1.kind = .ecurr) ∧ x.1.field.isE = true then
      loopOver (x.1.flim x.1.field) (srcEBlock x.2 x.1)
    else []

/-- `updateSourcesHfield`. src/source.c:679-753 -/
def updateSourcesH (l : List Src) : Prog :=
  l.zipIdx.flatMap fun x =>
    if (x.1.kind = .hfield ∨ x.1.kind = .hcurr) ∧ x.1.field.isE = false then
      loopOver (x.1.flim x.1.field) (srcHBlock x.2 x.1)
    else []

/-! ### Plane waves -/

/-- Auxiliary grid of a plane wave: `nx`, `xb` and the lookup index `m0 + id` (electric) or
`m0 - 1 + id` (magnetic) of every sample. src/planewave.c:1248-1255, 1384-1409 -/
structure AuxGrid where
  nx : Int
  xb : Int
  idx : Fc → Int → Int → Int → Int

/-- `PlaneWaveItem`; `aux = none` when the incident field is computed analytically.
src/planewave.c:45-93, 292-310 -/
structure PW where
  gbbox : BBox
  active : Face → Bool
  aux : Option AuxGrid

/-- `edgeIsActive`. src/planewave.c:361-366 -/
def PW.edgeActive (c : Cfg) (w : PW) (f : Face) : Bool :=
  w.active f || (w.gbbox f == c.gibox f && (c.bt f == .pmc || c.bt f == .periodic))

/-- Two-plane box around one face. src/planewave.c:369-417 -/
def PW.faceBox (w : PW) (f : Face) : BBox := fun g =>
  if g.axis = f.axis then
    if f.isLo then (if g.isLo then w.gbbox f - 1 else w.gbbox f)
    else (if g.isLo then w.gbbox f else w.gbbox f + 1)
  else w.gbbox g

/-- Inclusion flags of that box. src/planewave.c:373-420 -/
def PW.faceIncl (c : Cfg) (w : PW) (f g : Face) : Bool :=
  if g.axis = f.axis then !(g.isLo == f.isLo) else w.edgeActive c g

/-- `item->flim[face]`. src/planewave.c:376-421 -/
def PW.flim (c : Cfg) (w : PW) (f : Face) : Fc → Face → Int :=
  setFieldLimits (w.faceBox f) (w.faceIncl c f)

/-- Corrections of the electric phase in the order of the code: face, component corrected, sign
(`true` = minus), incident component. src/planewave.c:589-783 -/
def pwTableE : List (Face × Fc × Bool × Fc) :=
  [(.ylo, .ex, true, .hz), (.ylo, .ez, false, .hx), (.yhi, .ex, false, .hz), (.yhi, .ez, true, .hx),
   (.zlo, .ex, false, .hy), (.zlo, .ey, true, .hx), (.zhi, .ex, true, .hy), (.zhi, .ey, false, .hx),
   (.xlo, .ey, false, .hz), (.xlo, .ez, true, .hy), (.xhi, .ey, true, .hz), (.xhi, .ez, false, .hy)]

/-- Corrections of the magnetic phase. src/planewave.c:805-1000 -/
def pwTableH : List (Face × Fc × Bool × Fc) :=
  [(.ylo, .hz, true, .ex), (.ylo, .hx, false, .ez), (.yhi, .hz, false, .ex), (.yhi, .hx, true, .ez),
   (.zlo, .hy, false, .ex), (.zlo, .hx, true, .ey), (.zhi, .hy, true, .ex), (.zhi, .hx, false, .ey),
   (.xlo, .hz, false, .ey), (.xlo, .hy, true, .ez), (.xhi, .hz, true, .ey), (.xhi, .hy, false, .ez)]

/-- `incidentField( field , i , j , k , time , item )`: analytic value, or linear interpolation in the
auxiliary grid. src/planewave.c:557-573, 1375-1419 -/
def incField (h : Bool) (n : Nat) (w : PW) (fc : Fc) (t : Int × Int × Int) : Expr :=
  match w.aux with
  | none => rd (.inc h n fc t.1 t.2.1 t.2.2)
  | some g =>
    let m := g.idx fc t.1 t.2.1 t.2.2
    let arr := if fc.isE then AuxArr.ey else AuxArr.hz
    add (mul (.auxW n false fc t.1 t.2.1 t.2.2) (rd (.aux n arr m)))
        (mul (.auxW n true fc t.1 t.2.1 t.2.2) (rd (.aux n arr (m+1))))

/-- One electric correction: the incident magnetic sample lies one cell below a low face, at the same
index on a high face. src/planewave.c:600-601, 632-633 etc. -/
def pwEBlock (n : Nat) (w : PW) (f : Face) (fc : Fc) (neg : Bool) (ic : Fc) (i j k : Int) : Block :=
  let t := (i, j, k)
  let e := mul (.alpha fc i j k) (rd (.fld fc i j k))
  let d := mul (.beta fc i j k) (mul (.idh f.axis (coord f.axis t))
    (incField false n w ic (if f.isLo then shift f.axis (-1) t else t)))
  [⟨.fld fc i j k, if neg then sub e d else add e d⟩]

/-- One magnetic correction: the incident electric sample lies on the face: one cell above on a low
face, at the same index on a high face. src/planewave.c:817-818, 850-851 etc. -/
def pwHBlock (n : Nat) (w : PW) (f : Face) (fc : Fc) (neg : Bool) (ic : Fc) (i j k : Int) : Block :=
  let t := (i, j, k)
  let d := mul (.gamma fc i j k) (mul (.ide f.axis (coord f.axis t))
    (incField true n w ic (if f.isLo then shift f.axis 1 t else t)))
  [⟨.fld fc i j k, if neg then sub (rd (.fld fc i j k)) d else add (rd (.fld fc i j k)) d⟩]

/-- `updateAuxGridEfield`. src/planewave.c:1315-1349 -/
def auxE (n : Nat) (g : AuxGrid) : Prog :=
  ((intRange 1 (g.xb - 1)).map fun i =>
    [⟨.aux n .ey i, add (rd (.aux n .ey i)) (mul (.auxBeta n)
      (sub (rd (.aux n .hz (i-1))) (rd (.aux n .hz i))))⟩]) ++
  ((intRange g.xb (g.nx - 1)).map fun i =>
    let lp := i - g.xb
    let newPP := add (rd (.aux n .ppy lp)) (mul (.auxBeta n)
      (sub (rd (.aux n .hz (i-1))) (rd (.aux n .hz i))))
    let newP := add (rd (.aux n .py lp)) (sub newPP (rd (.aux n .ppy lp)))
    [⟨.aux n .ppy lp, newPP⟩, ⟨.aux n .py lp, newP⟩,
     ⟨.aux n .ey i, add (mul (.auxAd n lp) (rd (.aux n .ey i)))
        (mul (.auxBd n lp) (sub newP (rd (.aux n .py lp))))⟩]) ++
  [[⟨.aux n .ey 0, rd (.wav n)⟩]]

/-- `updateAuxGridHfield`. src/planewave.c:1352-1372 -/
def auxH (n : Nat) (g : AuxGrid) : Prog :=
  ((intRange 0 (g.xb - 1)).map fun i =>
    [⟨.aux n .hz i, add (rd (.aux n .hz i)) (mul (.auxGamma n)
      (sub (rd (.aux n .ey i)) (rd (.aux n .ey (i+1)))))⟩]) ++
  ((intRange g.xb (g.nx - 1)).map fun i =>
    let lp := i - g.xb
    let newB := add (mul (.auxAh n lp) (rd (.aux n .bz lp))) (mul (.auxGamma n) (mul (.auxBh n lp)
      (sub (rd (.aux n .ey i)) (rd (.aux n .ey (i+1))))))
    [⟨.aux n .bz lp, newB⟩,
     ⟨.aux n .hz i, add (rd (.aux n .hz i)) (sub newB (rd (.aux n .bz lp)))⟩])

/-- `updatePlaneWavesEfield`. Both limits of the face axis are equal, so the triple loop is the double
loop of the code. src/planewave.c:576-789 -/
def updatePlaneWavesE (c : Cfg) (l : List PW) : Prog :=
  l.zipIdx.flatMap fun x =>
    (match x.1.aux with | some g => auxE x.2 g | none => []) ++
    pwTableE.flatMap fun r =>
      if x.1.active r.1 then
        loopOver (x.1.flim c r.1 r.2.1) (pwEBlock x.2 x.1 r.1 r.2.1 r.2.2.1 r.2.2.2)
      else []

/-- `updatePlaneWavesHfield`. src/planewave.c:792-1005 -/
def updatePlaneWavesH (c : Cfg) (l : List PW) : Prog :=
  l.zipIdx.flatMap fun x =>
    (match x.1.aux with | some g => auxH x.2 g | none => []) ++
    pwTableH.flatMap fun r =>
      if x.1.active r.1 then
        loopOver (x.1.flim c r.1 r.2.1) (pwHBlock x.2 x.1 r.1 r.2.1 r.2.2.1 r.2.2.2)
      else []

/-! ### One time step -/

/-- Everything a time step depends on besides the coefficient arrays and the field values. -/
structure Sim where
  cfg : Cfg
  debye : List DebyeBlk
  sibc : List SibcSurf
  srcs : List Src
  pws : List PW

/-- Electric half of the loop body. Thin wires and blocks have no own updates (src/line.c:236-249,
src/block.c:295-311). src/simulation.c:172-195, src/surface.c:511-525 -/
def Sim.stepE (S : Sim) : Prog :=
  updatePmlEfield S.cfg ++ updateMurEfield S.cfg ++ updateGridEfield S.cfg ++ updateDebye S.debye ++
  updateSibcE S.sibc ++ updateSourcesE S.srcs ++ updatePlaneWavesE S.cfg S.pws ++
  updateGhostEfield S.cfg

/-- Magnetic half of the loop body. src/simulation.c:197-220, src/surface.c:527-541 -/
def Sim.stepH (S : Sim) : Prog :=
  updatePmlHfield S.cfg ++ updateMurHfield S.cfg ++ updateGridHfield S.cfg ++ updateSibcH S.sibc ++
  updateSourcesH S.srcs ++ updatePlaneWavesH S.cfg S.pws ++ updateGhostHfield S.cfg

/-- The loop body of `propagate` (observers only read). src/simulation.c:156-222 -/
def Sim.step (S : Sim) : Prog := S.stepE ++ S.stepH

/-- Values computed outside the field arrays: waveform and analytic incident field values. -/
def Loc.isInput : Loc → Bool
  | .src .. | .wav .. | .inc .. => true
  | _ => false

/-- Make this step's excitation values available. -/
def setInputs {K : Type*} (u s : Loc → K) : Loc → K := fun l => if l.isInput then u l else s l

/-- `propagate`: memory before step `n`, from initial memory `s0`, with excitation values `u n` in
step `n`. src/simulation.c:136-230 -/
def Sim.state {K : Type*} [CommRing K] (S : Sim) (C : CRef → K) (u : Nat → Loc → K) (s0 : Loc → K) :
    Nat → Loc → K
  | 0 => s0
  | n + 1 => S.step.run C (setInputs (u n) (S.state C u s0 n))

end Vulture
