import Verif.Model.Scan
import Verif.Model.Output
/-
The mesh file as text: from its characters to the input of a run (`Experiment` and `Request` of Model/Setup.lean and
Model/Output.lean).
Models: src/mesh.c:211-222, 269-405, 489-505 (reading loop, `VM`, mesh lines) and the scanning half of all card parsers:
src/block.c:63-117, src/surface.c:124-236, src/boundary.c:79-219, src/line.c:92-161, src/medium.c:75-184, src/wire.c:78-119,
src/waveform.c:157-252, src/source.c:350-465, src/planewave.c:176-273, src/observer.c:177-281, 322-395,
src/simulation.c:63-104, src/grid.c:177-311; outer surfaces: src/surface.c:240-326, src/pml.c:1326-1337.
Simplified: see Model/Scan.lean; checks that need what earlier cards have stored are those of Model/Deck.lean; the files
named on cards are given by their contents (`World`). An error exit and `assert( 0 )` are not told apart here.
-/
namespace Vulture.MeshFile
open Vulture.Scan Vulture.Setup
open Vulture.Mesh (Card Res RState)

/-- `BoundaryType`. src/boundary.h, src/boundary.c:45 -/
inductive BTag | pmc | pml | pec | free | periodic | mur | sibc
  deriving DecidableEq, Repr

/-- Parameters of a boundary that is not an impedance sheet. src/boundary.c:222-262 -/
structure FaceBnd where
  tag : BTag
  layers : Int
  order : Int
  nEff : ℚ
  refCoeff : ℚ
  kmax : ℚ

/-- What the parsers have found on a card. -/
inductive Raw
  | vm (major minor patch : Int)
  | ce (comment : List Char)
  | dm (nx ny nz : Int)
  | br (types : BBox)
  | be (depths : BBox)
  | mt (name : List Char) (type : MType) (nums : List ℚ)
  | mtFile (name file : List Char)
  | bt (name : List Char) (b : FaceBnd)
  | btS (name : List Char) (nums : List ℚ)
  | btFile (name file : List Char)
  | wt (name : List Char)
  | wf (name : List Char) (type : Waveform.WType) (nums : List ℚ)
  | wfFile (name file : List Char) (nums : List ℚ)
  | mb (c : MBCard)
  | tb (c : TBCard)
  | tw (c : TWCard)
  | ex (bbox : BBox) (name tag wave : List Char) (size delay resist : ℚ)
  | pw (c : PWCard) (delay : ℚ)
  | op (c : OPCard)
  | ff
  | mark (c : Card)
  | nt (n : BitVec 64)
  | ot (start stop : BitVec 64)
  | of (start stop : ℚ) (num : BitVec 64)
  | cn (c : ℚ)
  | ms (nums : List ℚ)
  | lines (a : Axis) (nums : List ℚ)

/-! ### Tokens -/

/-- The numbers among scanned values. -/
def reals (l : List Val) : List ℚ := l.filterMap fun | .real q => some q | _ => none

/-- Six integers into `mbbox[XLO]` .. `mbbox[ZHI]`, and the other values. src/block.c:73-74 and the like -/
def sixInts : List Val → Option (BBox × List Val)
  | .int a :: .int b :: .int c :: .int d :: .int e :: .int f :: r => some (mkBox a b c d e f, r)
  | _ => none

/-- The six integers alone: `sscanf( .. ) != 6` is rejected. src/surface.c:136, src/boundary.c:85 -/
def justSix (s : List Char) : Option BBox := (sixInts (sscanf (spaced (List.replicate 6 .int)) s)).map Prod.fst

/-- A table of type strings searched from the front, every match overwriting. All strings differ. -/
def typeOf {α : Type} (table : List (String × α)) (w : List Char) : Option α :=
  (table.find? fun t => t.1.toList == w).map Prod.snd

/-- `MEDIUM_TYPE_STR`. src/medium.c:47 -/
def mediumTypes : List (String × MType) := [("FREE_SPACE", .freeSpace), ("PEC", .pec), ("SIMPLE", .simple), ("DEBYE", .debye)]

/-- `BOUNDARY_TYPE_STR`. src/boundary.c:45 -/
def boundaryTypes : List (String × BTag) :=
  [("PMC", .pmc), ("PML", .pml), ("PEC", .pec), ("FREE_SPACE", .free), ("PERIODIC", .periodic), ("MUR", .mur), ("SIBC", .sibc)]

/-- `WAVEFORM_TYPE_STR`. src/waveform.c:75-84 -/
def waveTypes : List (String × Waveform.WType) :=
  [("GAUSSIAN_PULSE", .gaussian), ("NARROW_GAUSSIAN_PULSE", .narrowGaussian), ("DIFF_GAUSSIAN_PULSE", .diffGaussian),
   ("RICKER_WAVELET", .ricker), ("MOD_GAUSSIAN_PULSE", .modGaussian), ("COMPACT_PULSE", .compact),
   ("DIFF_COMPACT_PULSE", .diffCompact), ("MOD_COMPACT_PULSE", .modCompact), ("RAMPED_SINUSOID", .ramped),
   ("EXTERNAL", .external)]

/-- `WIRE_END_TYPE_STR`. src/wire.c:44 -/
def wireEnds : List (String × Unit) := [("THRU", ()), ("END", ()), ("CORNER", ())]

/-- `OBSERVER_TYPE_STR`, `obsFormat` (ASCII), `obsDomain` (frequency). src/observer.c:179-181 -/
def observerTypes : List (String × Bool × Bool) :=
  [("TDOM_ASCII", true, false), ("FDOM_ASCII", true, true), ("TDOM_BINARY", false, false)]

/-- Name and type at the head of an `MT`, `BT`, `WT` or `WF` card. src/medium.c:92, src/boundary.c:127 -/
def nameType (s : List Char) : Option (List Char × List Char) :=
  match sscanf (spaced [.word, .word]) s with
  | [.word n, .word t] => some (n, t)
  | _ => none

/-- The values that follow name and type with the given conversions. -/
def after2 (f : List Conv) (s : List Char) : List Val := (sscanf (spaced (.word :: .word :: f)) s).drop 2

/-- The file name that follows name and type. src/medium.c:167, src/boundary.c:202 -/
def file2 (s : List Char) : Option (List Char) :=
  match sscanf (spaced [.word, .word] ++ .space :: quoted) s with
  | [.word _, .word _, .text f] => some f
  | _ => none

/-! ### Cards -/

/-- `parseVM` and `meshVersionNumber`. src/mesh.c:211-234 -/
def textVM (s : List Char) : Option Raw :=
  match sscanf [.conv .int, .lit '.', .conv .int, .lit '.', .conv .int] s with
  | [.int a, .int b, .int c] => if a ≥ 2000 ∨ b ≥ 1000 ∨ c ≥ 1000 then none else some (.vm a b c)
  | _ => none

/-- `parseDM`. src/grid.c:177-205; the sizes are checked in `Deck.File.stored` too. -/
def textDM (s : List Char) : Option Raw :=
  match sscanf (spaced [.int, .int, .int]) s with
  | [.int a, .int b, .int c] => if a < 1 ∨ b < 1 ∨ c < 1 then none else some (.dm a b c)
  | _ => none

def faces : List Face := [.xlo, .xhi, .ylo, .yhi, .zlo, .zhi]

/-- `parseBR`. src/surface.c:124-174 -/
def textBR (s : List Char) : Option Raw :=
  (justSix s).bind fun t => if faces.all fun f => t f == -1 || t f == 0 || t f == 1 then some (.br t) else none

/-- `parseBE`. src/boundary.c:79-106 -/
def textBE (s : List Char) : Option Raw :=
  (justSix s).bind fun d => if faces.all fun f => decide (0 ≤ d f) then some (.be d) else none

/-- `parseMT`; a `DEBYE` card without 5, 7 or 9 numbers must name a file. src/medium.c:75-184 -/
def textMT (s : List Char) : Option Raw :=
  (nameType s).bind fun h => (typeOf mediumTypes h.2).bind fun t =>
    match t with
    | .freeSpace | .pec => some (.mt h.1 t [])
    | .simple => some (.mt h.1 t (reals (after2 (List.replicate 3 .real) s)))
    | .debye =>
      let nums := reals (after2 (List.replicate 9 .real) s)
      if nums.length = 5 ∨ nums.length = 7 ∨ nums.length = 9 then some (.mt h.1 t nums)
      else (file2 s).map fun f => .mtFile h.1 f

/-- `setPmlDefaults`. src/pml.c:1326-1337 -/
def pmlDefaults : FaceBnd := ⟨.pml, 6, 4, 1, -1, 1⟩

/-- The parameters of a `BT .. PML` card: defaults, overwritten from the front. src/boundary.c:172-177 -/
def pmlOf (l : List Val) : FaceBnd :=
  let d := pmlDefaults
  match l with
  | [.int n] => { d with layers := n }
  | [.int n, .int o] => { d with layers := n, order := o }
  | [.int n, .int o, .real e] => { d with layers := n, order := o, nEff := e }
  | [.int n, .int o, .real e, .real r] => { d with layers := n, order := o, nEff := e, refCoeff := r }
  | [.int n, .int o, .real e, .real r, .real k] => ⟨.pml, n, o, e, r, k⟩
  | _ => d

/-- `parseBT`. src/boundary.c:109-219 -/
def textBT (s : List Char) : Option Raw :=
  (nameType s).bind fun h => (typeOf boundaryTypes h.2).bind fun t =>
    match t with
    | .pec => some (.bt h.1 ⟨.pec, 0, 0, 0, -1, 0⟩)
    | .pmc => some (.bt h.1 ⟨.pmc, 0, 0, 0, 1, 0⟩)
    | .free => some (.bt h.1 ⟨.free, 0, 0, 0, 0, 0⟩)
    | .periodic => some (.bt h.1 ⟨.periodic, 0, 0, 0, 1, 0⟩)
    | .mur => some (.bt h.1 ⟨.mur, 0, 0, 0, 0, 0⟩)
    | .pml => some (.bt h.1 (pmlOf (after2 [.int, .int, .real, .real, .real] s)))
    | .sibc =>
      let nums := reals (after2 (List.replicate 8 .real) s)
      if nums.length = 8 ∨ nums.length = 4 then some (.btS h.1 nums)
      else (file2 s).map fun f => .btFile h.1 f

/-- `parseWT`: any type but `PEC` is rejected or ends in `assert( 0 )`. src/wire.c:78-128 -/
def textWT (s : List Char) : Option Raw :=
  (nameType s).bind fun h => if h.2 = "PEC".toList then some (.wt h.1) else none

/-- The format of an `EXTERNAL` waveform. src/waveform.c:202 -/
def externalFormat : List Dir :=
  spaced [.word, .word] ++ .space :: quoted ++ [.space, .conv .real, .space, .conv .real]

/-- `parseWF`. src/waveform.c:157-252 -/
def textWF (s : List Char) : Option Raw :=
  (nameType s).bind fun h => (typeOf waveTypes h.2).bind fun t =>
    if t = .external then
      match sscanf externalFormat s with
      | .word _ :: .word _ :: .text f :: r => some (.wfFile h.1 f (reals r))
      | _ => none
    else some (.wf h.1 t (reals (after2 (List.replicate 4 .real) s)))

/-- Box format with further conversions. -/
def boxed (f : List Conv) (s : List Char) : Option (BBox × List Val) :=
  sixInts (sscanf (spaced (List.replicate 6 .int ++ f)) s)

/-- `parseMB`. src/block.c:63-74 -/
def textMB (s : List Char) : Option Raw :=
  (boxed [.word, .word] s).bind fun b =>
    match b.2 with
    | [.word m] => some (.mb ⟨7, b.1, String.ofList m, "111111".toList⟩)
    | [.word m, .word k] => some (.mb ⟨8, b.1, String.ofList m, k⟩)
    | _ => none

/-- `parseTB`. src/surface.c:177-191 -/
def textTB (s : List Char) : Option Raw :=
  (boxed [.word, .int, .real] s).bind fun b =>
    match b.2 with
    | [.word n] => some (.tb ⟨7, b.1, String.ofList n, 1, 0⟩)
    | [.word n, .int o] => some (.tb ⟨8, b.1, String.ofList n, o, 0⟩)
    | [.word n, .int o, .real a] => some (.tb ⟨9, b.1, String.ofList n, o, a⟩)
    | _ => none

/-- `parseTW`, with its check of the wire ends. src/line.c:92-152 -/
def textTW (s : List Char) : Option Raw :=
  (boxed [.word, .word, .word] s).bind fun b =>
    match b.2 with
    | [.word n] => some (.tw ⟨7, b.1, String.ofList n⟩)
    | [.word n, .word l] => (typeOf wireEnds l).map fun _ => .tw ⟨8, b.1, String.ofList n⟩
    | [.word n, .word l, .word h] => (typeOf wireEnds l).bind fun _ => (typeOf wireEnds h).map fun _ =>
        .tw ⟨9, b.1, String.ofList n⟩
    | _ => none

/-- Whether the tag is that of a lumped source. src/source.c:418-421 -/
def lumped (tag : List Char) : Bool :=
  match Source.lookup tag with
  | some i => i.type == .thevenin || i.type == .norton
  | none => false

/-- `parseEX`: name, tag and waveform, then the numbers, whose meaning depends on the tag. src/source.c:350-449 -/
def textEX (s : List Char) : Option Raw :=
  (boxed [.word, .word, .word] s).bind fun b =>
    match b.2 with
    | [.word n, .word t, .word w] =>
      if lumped t then
        let v := (((boxed ([.word, .word, .word] ++ List.replicate 3 .real) s).map fun x => reals x.2)).getD []
        some (.ex b.1 n t w (v[1]?.getD 1) (v[2]?.getD 0) (v[0]?.getD 0))
      else
        let v := (((boxed ([.word, .word, .word] ++ List.replicate 2 .real) s).map fun x => reals x.2)).getD []
        some (.ex b.1 n t w (v[0]?.getD 1) (v[1]?.getD 0) 0)
    | _ => none

/-- `parsePW`. src/planewave.c:176-198 -/
def textPW (s : List Char) : Option Raw :=
  (boxed [.word, .word, .real, .real, .real, .word, .real, .real] s).bind fun b =>
    match b.2 with
    | [.word n, .word w, .real t, .real p, .real e] =>
      some (.pw ⟨11, b.1, String.ofList n, String.ofList w, t, p, e, "111111".toList, 1⟩ 0)
    | [.word n, .word w, .real t, .real p, .real e, .word m] =>
      some (.pw ⟨12, b.1, String.ofList n, String.ofList w, t, p, e, m, 1⟩ 0)
    | [.word n, .word w, .real t, .real p, .real e, .word m, .real z] =>
      some (.pw ⟨13, b.1, String.ofList n, String.ofList w, t, p, e, m, z⟩ 0)
    | [.word n, .word w, .real t, .real p, .real e, .word m, .real z, .real d] =>
      some (.pw ⟨14, b.1, String.ofList n, String.ofList w, t, p, e, m, z⟩ d)
    | _ => none

/-- The steps of a binary observer. src/observer.c:189, 253-255 -/
def stepsOf (l : List Val) : Int × Int × Int :=
  match l with
  | [.word _, .word _, .int i] => (i, 1, 1)
  | [.word _, .word _, .int i, .int j] => (i, j, 1)
  | [.word _, .word _, .int i, .int j, .int k] => (i, j, k)
  | _ => (1, 1, 1)

/-- The waveform of an ASCII observer. src/observer.c:184, 247-249 -/
def waveOf (l : List Val) : String :=
  match l with
  | [.word _, .word _, .word w] => String.ofList w
  | _ => ""

/-- `parseOP`. src/observer.c:177-258 -/
def textOP (s : List Char) : Option Raw :=
  (boxed [.word, .word] s).bind fun b =>
    match b.2 with
    | [.word n, .word t] => (typeOf observerTypes t).map fun y =>
      if y.1 then
        let l := ((boxed [.word, .word, .word] s).map Prod.snd).getD []
        .op ⟨6 + l.length, b.1, String.ofList n, true, true, 1, 1, 1, waveOf l, y.2⟩
      else
        let l := ((boxed [.word, .word, .int, .int, .int] s).map Prod.snd).getD []
        let k := stepsOf l
        .op ⟨6 + l.length, b.1, String.ofList n, true, false, k.1, k.2.1, k.2.2, "", y.2⟩
    | _ => none

/-- `parseNT`. src/simulation.c:83-104 -/
def textNT (s : List Char) : Option Raw :=
  match sscanf [.conv .uns] s with
  | [.uns n] => some (.nt n)
  | _ => none

/-- `parseOT`. src/observer.c:332-348 -/
def textOT (s : List Char) : Option Raw :=
  match sscanf (spaced [.uns, .uns]) s with
  | [.uns a, .uns b] => some (.ot a b)
  | _ => none

/-- `parseOF`. src/observer.c:351-359 -/
def textOF (s : List Char) : Option Raw :=
  match sscanf (spaced [.real, .real, .uns]) s with
  | [.real a, .real b, .uns n] => some (.of a b n)
  | _ => none

/-- `parseCN`. src/simulation.c:63-70 -/
def textCN (s : List Char) : Option Raw :=
  match sscanf [.conv .real] s with
  | [.real c] => some (.cn c)
  | _ => none

/-- `parseMS`: one or three numbers. src/grid.c:208-233 -/
def textMS (s : List Char) : Option Raw :=
  let v := reals (sscanf (spaced (List.replicate 3 .real)) s)
  if v.length = 1 ∨ v.length = 3 then some (.ms v) else none

/-- The parser of a card on the rest of its line; the cards `XL`, `YL`, `ZL` are in `handle`. src/mesh.c:181-191 -/
def parseText : Card → List Char → Option Raw
  | .VM, s => textVM s
  | .CE, s => some (.ce s)
  | .DM, s => textDM s
  | .BR, s => textBR s
  | .BE, s => textBE s
  | .GS, _ => some (.mark .GS)
  | .MT, s => textMT s
  | .BT, s => textBT s
  | .WT, s => textWT s
  | .MB, s => textMB s
  | .TB, s => textTB s
  | .TW, s => textTW s
  | .WF, s => textWF s
  | .EX, s => textEX s
  | .PW, s => textPW s
  | .OP, s => textOP s
  | .FF, _ => some .ff
  | .GE, _ => some (.mark .GE)
  | .NT, s => textNT s
  | .OT, s => textOT s
  | .OF, s => textOF s
  | .CN, s => textCN s
  | .MS, s => textMS s
  | .XL, _ => none
  | .YL, _ => none
  | .ZL, _ => none
  | .EN, _ => some (.mark .EN)

/-! ### The reading loop -/

/-- `fgets( rawLine , n + 1 , meshFilePointer )`: the piece and the rest of the stream. src/mesh.c:301 -/
def fgets : Nat → List Char → List Char × List Char
  | 0, s => ([], s)
  | _, [] => ([], [])
  | n + 1, c :: s => if c = '\n' then ([c], s) else (c :: (fgets n s).1, (fgets n s).2)

/-- What the loop has so far: the flags, `numLines`, the cards found. -/
structure St where
  flags : RState
  numLines : Axis → Nat
  out : List Raw

/-- Before the first line. `numLines` is a zeroed static. src/mesh.c:168-178, src/grid.c:53 -/
def St.init : St := ⟨RState.init, fun _ => 0, []⟩

/-- The axis of a card of mesh lines. src/mesh.c:190 -/
def axisOf : Card → Option Axis
  | .XL => some .x
  | .YL => some .y
  | .ZL => some .z
  | _ => none

/-- Call of the card's parser: what it has found and the rest of the stream. src/mesh.c:343-345, src/grid.c:257-311 -/
def handle (numLines : Axis → Nat) (c : Card) (text rest : List Char) : Option (Raw × List Char) :=
  match axisOf c with
  | some a => (readReals (numLines a) rest).map fun r => (.lines a r.1, r.2)
  | none => (parseText c text).map fun r => (r, rest)

/-- `numLines` after a card. src/grid.c:183-196 -/
def linesAfter (m : Axis → Nat) : Raw → Axis → Nat
  | .dm nx ny nz => fun | .x => (nx + 1).toNat | .y => (ny + 1).toNat | .z => (nz + 1).toNat
  | _ => m

/-- One line. A line of white space makes `strtrim` read in front of its buffer, which is undefined; `front` says that
the byte there is not white space: then the line comes out empty, otherwise the outcome is not defined.
src/mesh.c:309-327, 425-439 -/
def lineCard (front : Bool) (raw : List Char) : Res (Option (Card × List Char)) :=
  match Mesh.processLine raw with
  | .ub => if front then .ok none else .ub
  | r => r

/-- The flags and what the parser has found, put together: `step` sees whether the parser succeeded.
src/mesh.c:329-395 -/
def stepLine (s : St) (c : Card) (h : Option (Raw × List Char)) : Res (St × List Char) :=
  match Mesh.step s.flags c h.isSome, h with
  | .ok f, some x => .ok (⟨f, linesAfter s.numLines x.1, s.out ++ [x.1]⟩, x.2)
  | .ub, _ => .ub
  | _, _ => .error

/-- The loop over the stream; the first argument is larger than its length. src/mesh.c:298-397 -/
def go (front : Bool) : Nat → St → List Char → Res St
  | _, s, [] => .ok s
  | 0, _, _ :: _ => .ub
  | f + 1, s, x :: t =>
    match lineCard front (fgets 1022 (x :: t)).1 with
    | .ub => .ub
    | .error => .error
    | .ok none => go front f s (fgets 1022 (x :: t)).2
    | .ok (some ct) =>
      match stepLine s ct.1 (handle s.numLines ct.1 ct.2 (fgets 1022 (x :: t)).2) with
      | .ub => .ub
      | .error => .error
      | .ok r => go front f r.1 r.2

/-- `readMesh`: the cards found. src/mesh.c:269-405 -/
def readMesh (front : Bool) (text : List Char) : Res (List Raw) :=
  match go front (text.length + 1) St.init text with
  | .ok s => .ok s.out
  | .error => .error
  | .ub => .ub

/-! ### What the cards amount to -/

/-- Contents of the files that cards can name, as numbers: a waveform table, the parameters of a Debye medium, the filters
of a sheet. `none`: no such file, or not readable. src/waveform.c:662-744, src/medium.c:314-378, src/sibc.c:157-197 -/
structure World where
  wave : List Char → Option ((ℕ → ℝ) × (ℕ → ℝ) × ℕ)
  debye : List Char → Option (ℝ × ℝ × ℝ × List (ℝ × ℝ × ℝ × ℝ))
  sheet : List Char → Option (Nat → Nat → PoleResidue)

/-- `FACE`. src/fdtd_types.c -/
def faceName : Face → String
  | .xlo => "XLO" | .xhi => "XHI" | .ylo => "YLO" | .yhi => "YHI" | .zlo => "ZLO" | .zhi => "ZHI"

/-- The boundary a `BR` card puts on a face. src/surface.c:143-164 -/
def brFace (t : Int) : FaceBnd :=
  if t = -1 then ⟨.pec, 0, 0, 0, -1, 0⟩ else if t = 0 then pmlDefaults else ⟨.pmc, 0, 0, 0, 1, 0⟩

/-- A boundary as an internal surface sees it. src/surface.c:363-397 -/
def bndOf : BTag → Deck.Bnd
  | .pec => .pec
  | .free => .free
  | _ => .plain

/-- The boundaries named after the outer faces, after one more card: `BR` makes all six; `BE` sets the layers of those that
exist (for the others it sets the layers of boundary number 0, which is of type PEC); a `BT` card makes one.
src/surface.c:141-167, src/boundary.c:88-104, 266-284 -/
def faceStep (m : Face → Option FaceBnd) : Raw → Face → Option FaceBnd
  | .br t => fun f => some (brFace (t f))
  | .be d => fun f => (m f).map fun b => { b with layers := d f }
  | .bt n b => fun f => if n = (faceName f).toList ∧ m f = none then some b else m f
  | .btS n _ => fun f => if n = (faceName f).toList ∧ m f = none then some ⟨.sibc, 0, 0, 0, 0, 0⟩ else m f
  | .btFile n _ => fun f => if n = (faceName f).toList ∧ m f = none then some ⟨.sibc, 0, 0, 0, 0, 0⟩ else m f
  | _ => m

/-- The outer faces: a face without a boundary gets the default absorbing one. src/surface.c:252-270 -/
def outer (l : List Raw) (f : Face) : FaceBnd := (l.foldl faceStep (fun _ => none) f).getD pmlDefaults

/-- Type of an outer face; `none`: `assert( 0 )`. src/surface.c:283-323 -/
def BTag.outer? : BTag → Option BType
  | .pmc => some .pmc
  | .pml => some .pml
  | .pec => some .pec
  | .periodic => some .periodic
  | .mur => some .mur
  | .free | .sibc => none

open Classical in
/-- The cards of the second section that one card gives; `BR` makes six boundaries. `none`: rejected.
src/surface.c:166, src/medium.c:118-172, src/sibc.c:136-197 -/
noncomputable def deckCards (eta0 : ℝ) (W : World) : Raw → Option (List Deck.Card)
  | .br t => some (faces.map fun f => .bt (faceName f) (bndOf (brFace (t f)).tag))
  | .mt n t nums =>
    let v := nums.map fun q : ℚ => (q : ℝ)
    if t = .debye then (parseDebye v).map fun p => [.mt (String.ofList n) (.debye p.1 p.2.1 p.2.2.1 p.2.2.2)]
    else (parseMT t v).map fun m => [.mt (String.ofList n) (.simple m.eps_r m.sigma m.mu_r)]
  | .mtFile n f => (W.debye f).bind fun d => (readDebyeFile d.1 d.2.1 d.2.2.1 d.2.2.2).map fun p =>
      [.mt (String.ofList n) (.debye p.1 p.2.1 p.2.2.1 p.2.2.2)]
  | .bt n b => some [.bt (String.ofList n) (bndOf b.tag)]
  | .btS n nums => (SibcData.parseS (nums.map fun q : ℚ => (q : ℝ))).bind fun S =>
      (SibcData.initFromS eta0 S.1 S.2).map fun Z =>
        [.bt (String.ofList n) (.sibc fun p q => ⟨entry Z p q, []⟩)]
  | .btFile n f => (W.sheet f).map fun pr => [.bt (String.ofList n) (.sibc pr)]
  | .wt n => some [.wt (String.ofList n)]
  | .wf n _ _ => some [.wf (String.ofList n)]
  | .wfFile n _ _ => some [.wf (String.ofList n)]
  | .mb c => some [.mb c]
  | .tb c => some [.tb c]
  | .tw c => some [.tw c]
  | .ex b n t w size delay resist => some [.ex 9 b (String.ofList n) t (String.ofList w) size delay resist]
  | .pw c d => some [.pw c d]
  | .op c => some [.op c]
  | _ => some []

open Classical in
/-- The waveform of a card; `none`: rejected. src/waveform.c:198-248, 269-346 -/
noncomputable def waveCard (W : World) : Raw → Option (Option (List Char × Wave))
  | .wf n t nums => (Waveform.parseWF t (nums.map fun q : ℚ => (q : ℝ))).map fun w => some (n, .builtin w)
  | .wfFile n f nums =>
    if (∃ z, nums[0]? = some z ∧ z < 0) then none
    else (W.wave f).map fun t => some (n, .table (nums[0]?.getD (-1) : ℚ) (nums[1]?.getD (-1) : ℚ) t.1 t.2.1 t.2.2)
  | _ => some none

/-- A waveform by its name. -/
def findWave (l : List (Option (List Char × Wave))) (n : String) : Wave :=
  (l.findSome? fun x => x.bind fun y => if String.ofList y.1 = n then some y.2 else none).getD
    (.table 0 0 (fun _ => 0) (fun _ => 0) 0)

/-- Mesh lines; an element outside the array is 0 here. src/grid.c:235-250, 257-322 -/
noncomputable def meshLines (l : List Raw) (a : Axis) (i : Int) : ℝ :=
  (l.findSome? fun
    | .ms [d] => some ((i : ℝ) * (d : ℝ))
    | .ms [dx, dy, dz] => some ((i : ℝ) * ((match a with | .x => dx | .y => dy | .z => dz : ℚ) : ℝ))
    | .lines b v => if b = a then some (((v[i.toNat]?.getD 0 : ℚ) : ℝ)) else none
    | _ => none).getD 0

/-- The numbers of the `MS` card are positive. src/grid.c:236-243 -/
def spacingOk (l : List Raw) : Bool := l.all fun
  | .ms v => (parseMSValues v).isSome
  | _ => true

open Classical in
/-- The input of a run that a list of cards amounts to: `none` if the program stops on one of them or on the outer faces,
or if there is no `DM` or no `NT`. Negative orders of absorbing layers are not modelled and taken as 0. -/
noncomputable def experiment (eta0 : ℝ) (W : World) (l : List Raw) : Option (Experiment × Request) :=
  (l.findSome? fun | .dm x y z => some (x, y, z) | _ => none).bind fun n =>
  (l.findSome? fun | .nt n => some n | _ => none).bind fun steps =>
  (l.mapM (deckCards eta0 W)).bind fun cards =>
  (l.mapM (waveCard W)).bind fun waves =>
  if ∀ f, ((outer l f).tag.outer?).isSome then
    if spacingOk l ∧ (∀ c, Raw.cn c ∈ l → (Run.parseCN (some (c : ℝ))).isSome) then
      some
        (⟨⟨n.1, n.2.1, n.2.2, fun f => ((outer l f).tag.outer?).getD .pec, fun f => (outer l f).layers, cards.flatten, false⟩,
          meshLines l,
          Run.courant (l.findSome? fun | .cn c => some (c : ℝ) | _ => none),
          fun f => ⟨(outer l f).order.toNat, (outer l f).nEff, (outer l f).refCoeff, (outer l f).kmax⟩,
          findWave waves⟩,
         ⟨steps, l.findSome? fun | .ot a b => some (a, b) | _ => none,
          l.findSome? fun | .of a b n => some ((a : ℝ), (b : ℝ), n.toNat) | _ => none⟩)
    else none
  else none

/-- The program, given this text as its mesh file, runs to its end and leaves these files. src/vulture.c:77-190 -/
def LeavesText (k : Consts) (J : Junk) (W : World) (front : Bool) (text : List Char) (files : List (String × Contents)) :
    Prop :=
  ∃ l X Q, readMesh front text = .ok l ∧ experiment k.eta0 W l = some (X, Q) ∧ Leaves k J X Q files

end Vulture.MeshFile
