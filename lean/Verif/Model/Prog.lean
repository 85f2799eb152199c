import Verif.Model.Extents
import Mathlib.Algebra.Ring.Basic
/-
Field-update code as programs of array assignments.  An expression is built from array reads,
sums, differences, sign changes and products with a coefficient-array element: this is all the
update code uses, so the syntax below covers it.  Keeping reads and coefficient references as syntax
lets memory safety, data races, locality and linearity be stated about the same object.
-/
namespace Vulture

/-- The arrays of a plane wave's auxiliary grid. src/planewave.c:73-79 -/
inductive AuxArr | ey | hz | py | ppy | bz
  deriving DecidableEq, Repr

/-- A field or auxiliary array element. `fld` = `Ex[i][j][k]` .. `Hz[i][j][k]` (src/grid.c:66-71);
`pp`, `p`, `b` = `PPx[r]`.., `Px[r]`.., `Bx[r]`.. (src/pml.c:46-54);
`dj`, `dl` = real/imaginary part of `Jpolx[ii][jj][kk][pole]`.. and `lastEx[ii][jj][kk]`.. of a Debye
block (src/debye.c:44-55); `et`, `rz`, `ro` = `Etan[ii][jj][kk][n]`, the real/imaginary part of
`rcm_s[ii][jj][kk].rc_s[p][q].zeta[pole]` and its `.old` of an internal surface (src/sibc.c:45-58);
`aux` = `Eyi`/`Hzi`/`Pyi`/`PPyi`/`Bzi` of a plane wave (src/planewave.c:72-79).
Inputs of a step: `src h n` = `item->size * getWaveformValue(...)` of source `n` in the electric
(`h = false`, src/source.c:614) or magnetic phase (src/source.c:691); `wav n` = the waveform value of
plane wave `n` (src/planewave.c:1343); `inc h n c i j k` = the value of `incidentFieldAnalytic` for
plane wave `n` (src/planewave.c:557-573). -/
inductive Loc
  | fld (c : Fc) (i j k : Int)
  | pp (r : Face) (c : Fc) (i j k : Int)
  | p (r : Face) (c : Fc) (i j k : Int)
  | b (r : Face) (c : Fc) (i j k : Int)
  | dj (im : Bool) (blk pole : Nat) (c : Fc) (i j k : Int)
  | dl (blk : Nat) (c : Fc) (i j k : Int)
  | et (surf n : Nat) (i j k : Int)
  | rz (im : Bool) (surf p q pole : Nat) (i j k : Int)
  | ro (surf p q : Nat) (i j k : Int)
  | aux (pw : Nat) (arr : AuxArr) (i : Int)
  | src (h : Bool) (n : Nat)
  | wav (pw : Nat)
  | inc (h : Bool) (pw : Nat) (c : Fc) (i j k : Int)
  deriving DecidableEq, Repr

/-- An element of a coefficient array: `ALPHA_EX(i,j,k)` .., `idex[i]` .., `idhx[i]` ..,
`adx[i]` .. `ibhz[k]`, `zeta[face]` (src/grid.h:146-156, 90-99; src/pml.c:55-84; src/mur.c:52);
`dalpha[pole]`, `dbeta[pole]` (src/debye.c:263-267); `isSoft` of a source (src/source.c:615);
of an internal surface: the factor `0.5 * ( 1 + isAdj.. )` of `Htan[n]` (src/sibc.c:491-498), matrix
entries `A[p][q]`, `B[p][q]` (src/sibc.c:466-471), filter coefficients `asymp`, `q[m][pole]`
(src/filter.c:313-318), edge weight `n` = low/high of the first, low/high of the second tangential axis
(src/sibc.c:637-640), the flags `!isAdjA[0..3]`, `!isAdjB[0..3]` (`n = 0..7`, src/sibc.c:656-659);
`half` = `0.5`; of a plane wave: `betaEyi`, `gammaHzi`, `adx`, `bdx`, `ahx`, `bhx` and the products
`Finc[c] * (1 - dp)` / `Finc[c] * dp` (times `eta0` for a magnetic component)
(src/planewave.c:75-83, 1392-1417). -/
inductive CRef
  | alpha (c : Fc) (i j k : Int)
  | beta (c : Fc) (i j k : Int)
  | gamma (c : Fc) (i j k : Int)
  | ide (a : Axis) (i : Int)
  | idh (a : Axis) (i : Int)
  | ad (a : Axis) (i : Int)
  | bd (a : Axis) (i : Int)
  | ibd (a : Axis) (i : Int)
  | ah (a : Axis) (i : Int)
  | bh (a : Axis) (i : Int)
  | ibh (a : Axis) (i : Int)
  | zeta (f : Face)
  | dal (im : Bool) (blk pole : Nat)
  | dbe (im : Bool) (blk pole : Nat)
  | soft (n : Nat)
  | sibH (surf n : Nat) (i j k : Int)
  | sibA (surf p q : Nat)
  | sibB (surf p q : Nat)
  | rca (surf p q : Nat)
  | rcq (im : Bool) (m surf p q pole : Nat)
  | sibW (surf n : Nat) (i j k : Int)
  | sibN (surf n : Nat) (i j k : Int)
  | half
  | auxBeta (pw : Nat)
  | auxGamma (pw : Nat)
  | auxAd (pw : Nat) (i : Int)
  | auxBd (pw : Nat) (i : Int)
  | auxAh (pw : Nat) (i : Int)
  | auxBh (pw : Nat) (i : Int)
  | auxW (pw : Nat) (hi : Bool) (c : Fc) (i j k : Int)
  deriving DecidableEq, Repr

/-- Right-hand sides. -/
inductive Expr
  | zero
  | rd (l : Loc)
  | add (a b : Expr)
  | sub (a b : Expr)
  | neg (a : Expr)
  | mul (c : CRef) (e : Expr)
  deriving DecidableEq, Repr

/-- Value of an expression under coefficient arrays `C` and memory `s`. -/
def Expr.eval {K : Type*} [CommRing K] (C : CRef → K) (s : Loc → K) : Expr → K
  | .zero => 0
  | .rd l => s l
  | .add a b => a.eval C s + b.eval C s
  | .sub a b => a.eval C s - b.eval C s
  | .neg a => - a.eval C s
  | .mul c e => C c * e.eval C s

/-- Memory locations read. -/
def Expr.reads : Expr → List Loc
  | .zero => []
  | .rd l => [l]
  | .add a b => a.reads ++ b.reads
  | .sub a b => a.reads ++ b.reads
  | .neg a => a.reads
  | .mul _ e => e.reads

/-- Coefficient elements read. -/
def Expr.coefs : Expr → List CRef
  | .zero => []
  | .rd _ => []
  | .add a b => a.coefs ++ b.coefs
  | .sub a b => a.coefs ++ b.coefs
  | .neg a => a.coefs
  | .mul c e => c :: e.coefs

/-- One assignment. -/
structure Asg where
  tgt : Loc
  rhs : Expr
  deriving DecidableEq, Repr

/-- One loop iteration: its assignments, with every right-hand side expressed in the values the
arrays had before the iteration (the C code keeps those in `old...` temporaries or has not
overwritten them yet). -/
abbrev Block := List Asg

/-- A sequence of iterations. -/
abbrev Prog := List Block

def Block.writes (b : Block) : List Loc := b.map Asg.tgt
def Block.reads (b : Block) : List Loc := b.flatMap (fun a => a.rhs.reads)
def Block.coefs (b : Block) : List CRef := b.flatMap (fun a => a.rhs.coefs)

/-- Effect of one iteration. -/
def Block.exec {K : Type*} [CommRing K] (C : CRef → K) (b : Block) (s : Loc → K) : Loc → K :=
  fun l => match b.find? (fun a => a.tgt = l) with
    | some a => a.rhs.eval C s
    | none => s l

/-- Effect of a program, iteration after iteration on the same memory. -/
def Prog.run {K : Type*} [CommRing K] (C : CRef → K) (p : Prog) (s : Loc → K) : Loc → K :=
  p.foldl (fun s b => b.exec C s) s

open Expr in
/-- `curl_Hx( Hz_ijk , Hz_ij1k , Hy_ijk1 , Hy_ijk , i , j , k )`. src/grid.h:264 -/
def curlHx (hz hz1 hy1 hy : Expr) (_i j k : Int) : Expr :=
  add (mul (.idh .y j) (sub hz hz1)) (mul (.idh .z k) (sub hy1 hy))
open Expr in
/-- `curl_Hy( Hx_ijk , Hx_ijk1 , Hz_i1jk , Hz_ijk , i , j , k )`. src/grid.h:265 -/
def curlHy (hx hx1 hz1 hz : Expr) (i _j k : Int) : Expr :=
  add (mul (.idh .z k) (sub hx hx1)) (mul (.idh .x i) (sub hz1 hz))
open Expr in
/-- `curl_Hz( Hy_ijk , Hy_i1jk , Hx_ij1k , Hx_ijk , i , j , k )`. src/grid.h:266 -/
def curlHz (hy hy1 hx1 hx : Expr) (i j _k : Int) : Expr :=
  add (mul (.idh .x i) (sub hy hy1)) (mul (.idh .y j) (sub hx1 hx))
open Expr in
/-- `curl_Ex( Ey_ijk1 , Ey_ijk , Ez_ijk , Ez_ij1k , i , j , k )`. src/grid.h:267 -/
def curlEx (ey1 ey ez ez1 : Expr) (_i j k : Int) : Expr :=
  add (mul (.ide .z k) (sub ey1 ey)) (mul (.ide .y j) (sub ez ez1))
open Expr in
/-- `curl_Ey( Ez_i1jk , Ez_ijk , Ex_ijk , Ex_ijk1 , i , j , k )`. src/grid.h:268 -/
def curlEy (ez1 ez ex ex1 : Expr) (i _j k : Int) : Expr :=
  add (mul (.ide .x i) (sub ez1 ez)) (mul (.ide .z k) (sub ex ex1))
open Expr in
/-- `curl_Ez( Ex_ij1k , Ex_ijk , Ey_ijk , Ey_i1jk , i , j , k )`. src/grid.h:269 -/
def curlEz (ex1 ex ey ey1 : Expr) (i j _k : Int) : Expr :=
  add (mul (.ide .y j) (sub ex1 ex)) (mul (.ide .x i) (sub ey ey1))

/-- Field reads. -/
def EX (i j k : Int) : Expr := .rd (.fld .ex i j k)
def EY (i j k : Int) : Expr := .rd (.fld .ey i j k)
def EZ (i j k : Int) : Expr := .rd (.fld .ez i j k)
def HX (i j k : Int) : Expr := .rd (.fld .hx i j k)
def HY (i j k : Int) : Expr := .rd (.fld .hy i j k)
def HZ (i j k : Int) : Expr := .rd (.fld .hz i j k)

open Expr in
/-- `ALPHA * Ex + BETA * curl_Hx(...)` at one sample. src/grid.c:735-736 (and src/mur.c:239) -/
def ampereX (i j k : Int) : Expr :=
  add (mul (.alpha .ex i j k) (EX i j k)) (mul (.beta .ex i j k)
    (curlHx (HZ i j k) (HZ i (j-1) k) (HY i j (k-1)) (HY i j k) i j k))
open Expr in
/-- Same for `Ey`. src/grid.c:761-762 (and src/mur.c:155) -/
def ampereY (i j k : Int) : Expr :=
  add (mul (.alpha .ey i j k) (EY i j k)) (mul (.beta .ey i j k)
    (curlHy (HX i j k) (HX i j (k-1)) (HZ (i-1) j k) (HZ i j k) i j k))
open Expr in
/-- Same for `Ez`. src/grid.c:788-789 (and src/mur.c:173) -/
def ampereZ (i j k : Int) : Expr :=
  add (mul (.alpha .ez i j k) (EZ i j k)) (mul (.beta .ez i j k)
    (curlHz (HY i j k) (HY (i-1) j k) (HX i (j-1) k) (HX i j k) i j k))
open Expr in
/-- `Hx + GAMMA * curl_Ex(...)` at one sample. src/grid.c:826-827 -/
def faradayX (i j k : Int) : Expr :=
  add (HX i j k) (mul (.gamma .hx i j k)
    (curlEx (EY i j (k+1)) (EY i j k) (EZ i j k) (EZ i (j+1) k) i j k))
open Expr in
/-- Same for `Hy`. src/grid.c:852-853 -/
def faradayY (i j k : Int) : Expr :=
  add (HY i j k) (mul (.gamma .hy i j k)
    (curlEy (EZ (i+1) j k) (EZ i j k) (EX i j k) (EX i j (k+1)) i j k))
open Expr in
/-- Same for `Hz`. src/grid.c:879-880 -/
def faradayZ (i j k : Int) : Expr :=
  add (HZ i j k) (mul (.gamma .hz i j k)
    (curlEz (EX i (j+1) k) (EX i j k) (EY i j k) (EY (i+1) j k) i j k))

/-- The loop over the limits of one component with a given body. -/
def loopOver (lim : Face → Int) (body : Int → Int → Int → Block) : Prog :=
  (boxLoop lim).map (fun t => body t.1 t.2.1 t.2.2)

/-- `updateGridEfield`. src/grid.c:709-797 -/
def updateGridEfield (c : Cfg) : Prog :=
  loopOver (c.gfilim .ex) (fun i j k => [⟨.fld .ex i j k, ampereX i j k⟩]) ++
  loopOver (c.gfilim .ey) (fun i j k => [⟨.fld .ey i j k, ampereY i j k⟩]) ++
  loopOver (c.gfilim .ez) (fun i j k => [⟨.fld .ez i j k, ampereZ i j k⟩])

/-- `updateGridHfield`. src/grid.c:800-888 -/
def updateGridHfield (c : Cfg) : Prog :=
  loopOver (c.gfilim .hx) (fun i j k => [⟨.fld .hx i j k, faradayX i j k⟩]) ++
  loopOver (c.gfilim .hy) (fun i j k => [⟨.fld .hy i j k, faradayY i j k⟩]) ++
  loopOver (c.gfilim .hz) (fun i j k => [⟨.fld .hz i j k, faradayZ i j k⟩])

/-! ### PML slabs -/

section pml
open Expr

/-- Relative indices `ir`, `jr`, `kr`. src/pml.c:894, 904, 915 -/
def PPr (r : Face) (fc : Fc) (lim : Face → Int) (i j k : Int) : Loc :=
  .pp r fc (i - lim .xlo) (j - lim .ylo) (k - lim .zlo)
def Pr (r : Face) (fc : Fc) (lim : Face → Int) (i j k : Int) : Loc :=
  .p r fc (i - lim .xlo) (j - lim .ylo) (k - lim .zlo)
def Br (r : Face) (fc : Fc) (lim : Face → Int) (i j k : Int) : Loc :=
  .b r fc (i - lim .xlo) (j - lim .ylo) (k - lim .zlo)

/-- Body of the `Ex` loop. src/pml.c:915-923 -/
def pmlExBlock (r : Face) (lim : Face → Int) (i j k : Int) : Block :=
  let PP := PPr r .ex lim i j k
  let P := Pr r .ex lim i j k
  let newPP := add (mul (.alpha .ex i j k) (rd PP)) (mul (.beta .ex i j k)
    (curlHx (HZ i j k) (HZ i (j-1) k) (HY i j (k-1)) (HY i j k) i j k))
  let newP := add (mul (.ad .y j) (rd P)) (mul (.bd .y j) (sub newPP (rd PP)))
  [⟨PP, newPP⟩, ⟨P, newP⟩,
   ⟨.fld .ex i j k, add (mul (.ad .z k) (EX i j k))
      (mul (.bd .z k) (mul (.ibh .x i) (sub newP (mul (.ah .x i) (rd P)))))⟩]

/-- Body of the `Ey` loop. src/pml.c:960-968 -/
def pmlEyBlock (r : Face) (lim : Face → Int) (i j k : Int) : Block :=
  let PP := PPr r .ey lim i j k
  let P := Pr r .ey lim i j k
  let newPP := add (mul (.alpha .ey i j k) (rd PP)) (mul (.beta .ey i j k)
    (curlHy (HX i j k) (HX i j (k-1)) (HZ (i-1) j k) (HZ i j k) i j k))
  let newP := add (mul (.ad .z k) (rd P)) (mul (.bd .z k) (sub newPP (rd PP)))
  [⟨PP, newPP⟩, ⟨P, newP⟩,
   ⟨.fld .ey i j k, add (mul (.ad .x i) (EY i j k))
      (mul (.bd .x i) (mul (.ibh .y j) (sub newP (mul (.ah .y j) (rd P)))))⟩]

/-- Body of the `Ez` loop. src/pml.c:1006-1014 -/
def pmlEzBlock (r : Face) (lim : Face → Int) (i j k : Int) : Block :=
  let PP := PPr r .ez lim i j k
  let P := Pr r .ez lim i j k
  let newPP := add (mul (.alpha .ez i j k) (rd PP)) (mul (.beta .ez i j k)
    (curlHz (HY i j k) (HY (i-1) j k) (HX i (j-1) k) (HX i j k) i j k))
  let newP := add (mul (.ad .x i) (rd P)) (mul (.bd .x i) (sub newPP (rd PP)))
  [⟨PP, newPP⟩, ⟨P, newP⟩,
   ⟨.fld .ez i j k, add (mul (.ad .y j) (EZ i j k))
      (mul (.bd .y j) (mul (.ibh .z k) (sub newP (mul (.ah .z k) (rd P)))))⟩]

/-- Body of the `Hx` loop. src/pml.c:1077-1083 -/
def pmlHxBlock (r : Face) (lim : Face → Int) (i j k : Int) : Block :=
  let B := Br r .hx lim i j k
  let newB := add (mul (.ah .y j) (rd B)) (mul (.gamma .hx i j k) (mul (.bh .y j)
    (curlEx (EY i j (k+1)) (EY i j k) (EZ i j k) (EZ i (j+1) k) i j k)))
  [⟨B, newB⟩,
   ⟨.fld .hx i j k, add (mul (.ah .z k) (HX i j k))
      (mul (.bh .z k) (mul (.ibd .x i) (sub newB (mul (.ad .x i) (rd B)))))⟩]

/-- Body of the `Hy` loop. src/pml.c:1118-1124 -/
def pmlHyBlock (r : Face) (lim : Face → Int) (i j k : Int) : Block :=
  let B := Br r .hy lim i j k
  let newB := add (mul (.ah .z k) (rd B)) (mul (.gamma .hy i j k) (mul (.bh .z k)
    (curlEy (EZ (i+1) j k) (EZ i j k) (EX i j k) (EX i j (k+1)) i j k)))
  [⟨B, newB⟩,
   ⟨.fld .hy i j k, add (mul (.ah .x i) (HY i j k))
      (mul (.bh .x i) (mul (.ibd .y j) (sub newB (mul (.ad .y j) (rd B)))))⟩]

/-- Body of the `Hz` loop. src/pml.c:1160-1166 -/
def pmlHzBlock (r : Face) (lim : Face → Int) (i j k : Int) : Block :=
  let B := Br r .hz lim i j k
  let newB := add (mul (.ah .x i) (rd B)) (mul (.gamma .hz i j k) (mul (.bh .x i)
    (curlEz (EX i (j+1) k) (EX i j k) (EY i j k) (EY (i+1) j k) i j k)))
  [⟨B, newB⟩,
   ⟨.fld .hz i j k, add (mul (.ah .y j) (HZ i j k))
      (mul (.bh .y j) (mul (.ibd .z k) (sub newB (mul (.ad .z k) (rd B)))))⟩]

/-- One region of `updatePmlEfield`; the arrays exist (are not `NULL`) exactly for PML faces
(src/pml.c:640-690). src/pml.c:881-1018 -/
def pmlRegionE (c : Cfg) (r : Face) : Prog :=
  if c.bt r = .pml then
    loopOver (c.fplim r .ex) (pmlExBlock r (c.fplim r .ex)) ++
    loopOver (c.fplim r .ey) (pmlEyBlock r (c.fplim r .ey)) ++
    loopOver (c.fplim r .ez) (pmlEzBlock r (c.fplim r .ez))
  else []

/-- One region of `updatePmlHfield`. src/pml.c:1046-1170 -/
def pmlRegionH (c : Cfg) (r : Face) : Prog :=
  if c.bt r = .pml then
    loopOver (c.fplim r .hx) (pmlHxBlock r (c.fplim r .hx)) ++
    loopOver (c.fplim r .hy) (pmlHyBlock r (c.fplim r .hy)) ++
    loopOver (c.fplim r .hz) (pmlHzBlock r (c.fplim r .hz))
  else []

/-- `updatePmlEfield`. src/pml.c:859-1023 -/
def updatePmlEfield (c : Cfg) : Prog := Face.all.flatMap (pmlRegionE c)
/-- `updatePmlHfield`. src/pml.c:1026-1176 -/
def updatePmlHfield (c : Cfg) : Prog := Face.all.flatMap (pmlRegionH c)

end pml

/-! ### Mur faces -/

section mur
open Expr

/-- The neighbour of `(i,j,k)` one cell inside a face. src/mur.c:155-160 etc. -/
def inward (f : Face) (i j k : Int) : Int × Int × Int :=
  match f with
  | .xlo => (i+1, j, k) | .xhi => (i-1, j, k)
  | .ylo => (i, j+1, k) | .yhi => (i, j-1, k)
  | .zlo => (i, j, k+1) | .zhi => (i, j, k-1)

/-- The predicted value `Extemp`/`Eytemp`/`Eztemp` at a sample: the ordinary update. -/
def ampere (fc : Fc) (i j k : Int) : Expr :=
  match fc with
  | .ex => ampereX i j k | .ey => ampereY i j k | _ => ampereZ i j k

/-- `E[face] = E[in] + zeta * ( Etemp[in] - E[face] )`. src/mur.c:155-160 and the ten copies of it
up to line 385 -/
def murE (f : Face) (fc : Fc) (i j k : Int) : Block :=
  let q := inward f i j k
  [⟨.fld fc i j k, add (rd (.fld fc q.1 q.2.1 q.2.2))
      (mul (.zeta f) (sub (ampere fc q.1 q.2.1 q.2.2) (rd (.fld fc i j k))))⟩]

/-- The two tangential components of a face in the order the code visits them.
src/mur.c:145-180 (x: Ey, Ez), 225-263 (y: Ex, Ez), 310-345 (z: Ey, Ex) -/
def murComponents : Face → List Fc
  | .xlo | .xhi => [.ey, .ez]
  | .ylo | .yhi => [.ex, .ez]
  | .zlo | .zhi => [.ey, .ex]

/-- `updateMurEfield`: the fixed index is the low limit on low faces and the high limit on high
faces; both limits of that axis are equal on a face box, so the triple loop is the double loop of
the code. src/mur.c:135-392 -/
def updateMurEfield (c : Cfg) : Prog :=
  Face.all.flatMap fun f =>
    if c.bt f = .mur then (murComponents f).flatMap fun fc => loopOver (c.fmlim f fc) (murE f fc)
    else []

/-- Normal magnetic component of a face. src/mur.c:411-545 -/
def murNormal : Face → Fc
  | .xlo | .xhi => .hx | .ylo | .yhi => .hy | .zlo | .zhi => .hz

/-- Ordinary magnetic update of a component. -/
def faraday (fc : Fc) (i j k : Int) : Expr :=
  match fc with
  | .hx => faradayX i j k | .hy => faradayY i j k | _ => faradayZ i j k

/-- `updateMurHfield`. src/mur.c:401-549 -/
def updateMurHfield (c : Cfg) : Prog :=
  Face.all.flatMap fun f =>
    if c.bt f = .mur then
      loopOver (c.fmlim f (murNormal f))
        (fun i j k => [⟨.fld (murNormal f) i j k, faraday (murNormal f) i j k⟩])
    else []

end mur

/-! ### Ghost fields -/

section ghost
open Expr

/-- Signed copy. -/
def ghostVal (neg : Bool) (l : Loc) : Expr := if neg then .neg (rd l) else rd l

/-- Replace the coordinate along an axis. -/
def setAx (a : Axis) (v : Int) (t : Int × Int × Int) : Int × Int × Int :=
  match a with
  | .x => (v, t.2.1, t.2.2) | .y => (t.1, v, t.2.2) | .z => (t.1, t.2.1, v)

/-- Location of a component at a triple. -/
def fldAt (fc : Fc) (t : Int × Int × Int) : Loc := .fld fc t.1 t.2.1 t.2.2

/-- The double loop of one face: the other two coordinates run over `gobox lo - 1 .. gobox hi`.
The fixed coordinate takes one value. src/surface.c:577-579 etc. -/
def ghostFaceLim (c : Cfg) (a : Axis) (v : Int) : Face → Int := fun f =>
  if f.axis = a then v else if f.isLo then c.gobox f - 1 else c.gobox f

/-- Index of the ghost plane of a face and of the plane it copies from, for a boundary type:
PEC and PMC mirror, PERIODIC takes the plane one period away. Tangential H and normal E samples lie
at half cells, so low ghost = `gobox lo - 1`, high ghost = `gobox hi`.
src/surface.c:575-600, 673-722 -/
def ghostTarget (c : Cfg) (f : Face) : Int := if f.isLo then c.gobox f - 1 else c.gobox f
def ghostSource (c : Cfg) (f : Face) : Int :=
  match c.bt f with
  | .periodic => if f.isLo then c.gobox f.opposite - 1 else c.gobox f.opposite
  | _ => if f.isLo then c.gobox f else c.gobox f - 1

/-- Components whose ghosts are set by `updateGhostEfield` (normal E) and `updateGhostHfield`
(tangential H, in the order of the code). src/surface.c:569-657, 667-810 -/
def ghostEcomps : Face → List Fc
  | .xlo | .xhi => [.ex] | .ylo | .yhi => [.ey] | .zlo | .zhi => [.ez]
def ghostHcomps : Face → List Fc
  | .xlo | .xhi => [.hy, .hz] | .ylo | .yhi => [.hz, .hx] | .zlo | .zhi => [.hx, .hy]

/-- Ghost copies of one face: nothing for PML and Mur; sign change for PMC.
One block per loop iteration. src/surface.c:575-600, 673-722 -/
def ghostFace (c : Cfg) (comps : List Fc) (f : Face) : Prog :=
  match c.bt f with
  | .pml | .mur => []
  | t => (boxLoop (ghostFaceLim c f.axis (ghostTarget c f))).flatMap fun q => comps.map fun fc =>
      [⟨fldAt fc q, ghostVal (t == .pmc) (fldAt fc (setAx f.axis (ghostSource c f) q))⟩]

/-- `updateGhostEfield`. src/surface.c:569-659 -/
def updateGhostEfield (c : Cfg) : Prog := Face.all.flatMap fun f => ghostFace c (ghostEcomps f) f
/-- `updateGhostHfield`. src/surface.c:667-812 -/
def updateGhostHfield (c : Cfg) : Prog := Face.all.flatMap fun f => ghostFace c (ghostHcomps f) f

end ghost

end Vulture
