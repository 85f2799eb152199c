import Verif.Model.MeshFile
import Verif.Spec.Text
import Verif.Spec.MeshFile
/-
What a user writes: how numbers, names and file names are spelled, how the fields of a card follow each other, how cards
are laid out on lines, and what a card says (user manual, doc/UserManual/UserManual.tex, section "Mesh format").
Uses the types of values of the model, none of its functions.
-/
namespace Vulture.Spec.Page
open Vulture.MeshFile (Raw FaceBnd BTag)
open Vulture.Mesh (Card)

/-! ### Spelling -/

/-- Value of a string of decimal digits. -/
def value : List Char → Nat
  | [] => 0
  | c :: t => (c.toNat - 48) * 10 ^ t.length + value t

/-- Only digits. -/
def Digits (s : List Char) : Prop := ∀ c ∈ s, '0' ≤ c ∧ c ≤ '9'

/-- `s` is `body` with an optional sign in front; `neg` if it is a minus. -/
def Signed (s body : List Char) (neg : Bool) : Prop :=
  (s = body ∧ neg = false) ∨ (s = '+' :: body ∧ neg = false) ∨ (s = '-' :: body ∧ neg = true)

/-- `s` spells the whole number `i`: an optional sign and at least one digit. -/
def SpellsInt (i : Int) (s : List Char) : Prop :=
  ∃ ds neg, ds ≠ [] ∧ Digits ds ∧ Signed s ds neg ∧ i = if neg then -(value ds : Int) else value ds

/-- An exponent: nothing, or `e` or `E` and a whole number. -/
def SpellsExp (e : Int) (s : List Char) : Prop :=
  (s = [] ∧ e = 0) ∨ ∃ t, (s = 'e' :: t ∨ s = 'E' :: t) ∧ SpellsInt e t

/-- `s` spells the number `q` in decimal or scientific notation: sign, digits, optional point and digits (at least one
digit in all), optional exponent. -/
def SpellsReal (q : ℚ) (s : List Char) : Prop :=
  ∃ ip fp pt x body e neg, Digits ip ∧ Digits fp ∧ ip ++ fp ≠ [] ∧ (pt = '.' :: fp ∨ pt = [] ∧ fp = []) ∧ SpellsExp e x ∧
    body = ip ++ pt ++ x ∧ Signed s body neg ∧
    q = (if neg then -1 else 1) * ((value ip : ℚ) + value fp / 10 ^ fp.length) * 10 ^ e

/-- A name: up to 31 characters, no white space. -/
def Name (w : List Char) : Prop := w ≠ [] ∧ w.length ≤ 31 ∧ ∀ c ∈ w, ¬ White c

/-- A file name: up to 1023 characters, no quotation mark. -/
def FileName (f : List Char) : Prop := f ≠ [] ∧ f.length ≤ 1023 ∧ '"' ∉ f

/-- A field of a card: a number of type `int`, a number, a word, a file name in quotation marks, a number of type `unsigned long`. -/
inductive Field
  | int (i : Int)
  | real (q : ℚ)
  | word (w : List Char)
  | file (f : List Char)
  | count (n : Nat)

/-- `s` is a way to write the field. -/
def Spells : Field → List Char → Prop
  | .int i, s => SpellsInt i s ∧ -2 ^ 31 ≤ i ∧ i < 2 ^ 31
  | .real q, s => SpellsReal q s
  | .word w, s => s = w ∧ Name w
  | .file f, s => s = '"' :: (f ++ ['"']) ∧ FileName f
  | .count n, s => SpellsInt n s ∧ n < 2 ^ 64

/-- `s` is the fields one after the other with white space between them, and perhaps in front. -/
inductive Writes : List Field → List Char → Prop
  | nil : Writes [] []
  | cons {t ts gap s rest} : (∀ c ∈ gap, White c) → Spells t s → Writes ts rest →
      (rest = [] ∨ ∃ c r, rest = c :: r ∧ White c) → Writes (t :: ts) (gap ++ (s ++ rest))

/-! ### Cards -/

/-- The six fields of a box. -/
def boxFields (b : BBox) : List Field :=
  [.int (b .xlo), .int (b .xhi), .int (b .ylo), .int (b .yhi), .int (b .zlo), .int (b .zhi)]

/-- Cards as a user writes them. Fields that may be left out are options or lists. -/
inductive Stmt
  | version (a b c : Nat)
  | comment (text : List Char)
  | size (nx ny nz : Int)
  | oldFaces (t : BBox)
  | depths (d : BBox)
  | close (c : Card)
  | simple (name : List Char) (nums : List ℚ)
  | debye (name : List Char) (nums : List ℚ)
  | debyeFile (name file : List Char)
  | plainMedium (name : List Char) (pec : Bool)
  | boundary (name : List Char) (tag : BTag)
  | absorber (name : List Char) (layers : Int) (order : Int) (nums : List ℚ)
  | absorberDefault (name : List Char) (layers : Option Int)
  | sheet (name : List Char) (nums : List ℚ)
  | sheetFile (name file : List Char)
  | wireType (name : List Char)
  | wave (name : List Char) (type : Waveform.WType) (nums : List ℚ)
  | waveFile (name file : List Char) (nums : List ℚ)
  | block (b : BBox) (medium : List Char) (mask : Option (List Char))
  | surface (b : BBox) (name : List Char)
  | surfaceTurned (b : BBox) (name : List Char) (orient : Int) (angle : Option ℚ)
  | wire (b : BBox) (name : List Char) (ends : List (List Char))
  | source (b : BBox) (name tag wave : List Char) (nums : List ℚ)
  | planeWave (b : BBox) (name wave : List Char) (theta phi eta : ℚ)
  | planeWaveMask (b : BBox) (name wave : List Char) (theta phi eta : ℚ) (mask : List Char) (nums : List ℚ)
  | observer (b : BBox) (name : List Char) (freq : Bool) (wave : Option (List Char))
  | recorder (b : BBox) (name : List Char) (steps : List Int)
  | steps (n : Nat)
  | times (start stop : Nat)
  | freqs (start stop : ℚ) (num : Nat)
  | courant (c : ℚ)
  | spacing (nums : List ℚ)
  | lines (a : Axis) (nums : List ℚ)

/-- The card of a statement. -/
def Stmt.card : Stmt → Card
  | .version .. => .VM
  | .comment .. => .CE
  | .size .. => .DM
  | .oldFaces .. => .BR
  | .depths .. => .BE
  | .close c => c
  | .simple .. | .debye .. | .debyeFile .. | .plainMedium .. => .MT
  | .boundary .. | .absorber .. | .absorberDefault .. | .sheet .. | .sheetFile .. => .BT
  | .wireType .. => .WT
  | .wave .. | .waveFile .. => .WF
  | .block .. => .MB
  | .surface .. | .surfaceTurned .. => .TB
  | .wire .. => .TW
  | .source .. => .EX
  | .planeWave .. | .planeWaveMask .. => .PW
  | .observer .. | .recorder .. => .OP
  | .steps .. => .NT
  | .times .. => .OT
  | .freqs .. => .OF
  | .courant .. => .CN
  | .spacing .. => .MS
  | .lines .x _ => .XL
  | .lines .y _ => .YL
  | .lines .z _ => .ZL

def boundaryWord : BTag → String
  | .pmc => "PMC" | .pml => "PML" | .pec => "PEC" | .free => "FREE_SPACE" | .periodic => "PERIODIC" | .mur => "MUR"
  | .sibc => "SIBC"

def waveWord : Waveform.WType → String
  | .gaussian => "GAUSSIAN_PULSE" | .narrowGaussian => "NARROW_GAUSSIAN_PULSE" | .diffGaussian => "DIFF_GAUSSIAN_PULSE"
  | .ricker => "RICKER_WAVELET" | .modGaussian => "MOD_GAUSSIAN_PULSE" | .compact => "COMPACT_PULSE"
  | .diffCompact => "DIFF_COMPACT_PULSE" | .modCompact => "MOD_COMPACT_PULSE" | .ramped => "RAMPED_SINUSOID"
  | .external => "EXTERNAL"

/-- Tags of sources with a resistance. -/
def isLumped (tag : List Char) : Bool := ["VRX", "VRY", "VRZ", "IGX", "IGY", "IGZ"].any fun t => t.toList == tag

/-- A keyword as a field. -/
def kw (s : String) : Field := .word s.toList

/-- The fields of a card; those of `VM` and `CE` are written otherwise. -/
def Stmt.fields : Stmt → List Field
  | .size nx ny nz => [.int nx, .int ny, .int nz]
  | .oldFaces t => boxFields t
  | .depths d => boxFields d
  | .simple n v => .word n :: kw "SIMPLE" :: v.map .real
  | .debye n v => .word n :: kw "DEBYE" :: v.map .real
  | .debyeFile n f => [.word n, kw "DEBYE", .file f]
  | .plainMedium n p => [.word n, kw (if p then "PEC" else "FREE_SPACE")]
  | .boundary n t => [.word n, kw (boundaryWord t)]
  | .absorber n l o v => .word n :: kw "PML" :: .int l :: .int o :: v.map .real
  | .absorberDefault n l => .word n :: kw "PML" :: l.toList.map .int
  | .sheet n v => .word n :: kw "SIBC" :: v.map .real
  | .sheetFile n f => [.word n, kw "SIBC", .file f]
  | .wireType n => [.word n, kw "PEC"]
  | .wave n t v => .word n :: kw (waveWord t) :: v.map .real
  | .waveFile n f v => .word n :: kw "EXTERNAL" :: .file f :: v.map .real
  | .block b m k => boxFields b ++ .word m :: k.toList.map .word
  | .surface b n => boxFields b ++ [.word n]
  | .surfaceTurned b n o a => boxFields b ++ .word n :: .int o :: a.toList.map .real
  | .wire b n e => boxFields b ++ .word n :: e.map .word
  | .source b n t w v => boxFields b ++ .word n :: .word t :: .word w :: v.map .real
  | .planeWave b n w t p e => boxFields b ++ [.word n, .word w, .real t, .real p, .real e]
  | .planeWaveMask b n w t p e m v => boxFields b ++ .word n :: .word w :: .real t :: .real p :: .real e :: .word m :: v.map .real
  | .observer b n f w => boxFields b ++ .word n :: kw (if f then "FDOM_ASCII" else "TDOM_ASCII") :: w.toList.map .word
  | .recorder b n s => boxFields b ++ .word n :: kw "TDOM_BINARY" :: s.map .int
  | .steps n => [.count n]
  | .times a b => [.count a, .count b]
  | .freqs a b n => [.real a, .real b, .count n]
  | .courant c => [.real c]
  | .spacing v => v.map .real
  | _ => []

/-- The statement has the number of fields the manual allows, and values in the range its card allows. -/
def Stmt.Ok : Stmt → Prop
  | .version a b c => a < 2000 ∧ b < 1000 ∧ c < 1000
  | .size nx ny nz => 1 ≤ nx ∧ 1 ≤ ny ∧ 1 ≤ nz
  | .oldFaces t => ∀ f, t f = -1 ∨ t f = 0 ∨ t f = 1
  | .depths d => ∀ f, 0 ≤ d f
  | .close c => c = .GS ∨ c = .GE ∨ c = .EN
  | .simple _ v => v.length ≤ 3
  | .debye _ v => v.length = 5 ∨ v.length = 7 ∨ v.length = 9
  | .boundary _ t => t ≠ .pml ∧ t ≠ .sibc
  | .absorber _ _ _ v => v.length ≤ 3
  | .sheet _ v => v.length = 4 ∨ v.length = 8
  | .wave _ t v => t ≠ .external ∧ v.length ≤ 4
  | .waveFile _ _ v => v.length ≤ 2
  | .wire _ _ e => e.length ≤ 2 ∧ ∀ w ∈ e, w = "THRU".toList ∨ w = "END".toList ∨ w = "CORNER".toList
  | .source _ _ t _ v => v.length ≤ if isLumped t then 3 else 2
  | .planeWaveMask _ _ _ _ _ _ _ v => v.length ≤ 2
  | .recorder _ _ s => s.length ≤ 3
  | .spacing v => v.length = 1 ∨ v.length = 3
  | .lines _ _ => False
  | _ => True

/-- What the card says: values not written have their documented default. -/
def Stmt.says : Stmt → Raw
  | .version a b c => .vm a b c
  | .comment t => .ce t
  | .size nx ny nz => .dm nx ny nz
  | .oldFaces t => .br t
  | .depths d => .be d
  | .close c => .mark c
  | .simple n v => .mt n .simple v
  | .debye n v => .mt n .debye v
  | .debyeFile n f => .mtFile n f
  | .plainMedium n p => .mt n (if p then .pec else .freeSpace) []
  | .boundary n t => .bt n ⟨t, 0, 0, 0, match t with | .pec => -1 | .pmc | .periodic => 1 | _ => 0, 0⟩
  | .absorber n l o v => .bt n ⟨.pml, l, o, v[0]?.getD 1, v[1]?.getD (-1), v[2]?.getD 1⟩
  | .absorberDefault n l => .bt n ⟨.pml, l.getD 6, 4, 1, -1, 1⟩
  | .sheet n v => .btS n v
  | .sheetFile n f => .btFile n f
  | .wireType n => .wt n
  | .wave n t v => .wf n t v
  | .waveFile n f v => .wfFile n f v
  | .block b m k => .mb ⟨7 + k.toList.length, b, String.ofList m, k.getD "111111".toList⟩
  | .surface b n => .tb ⟨7, b, String.ofList n, 1, 0⟩
  | .surfaceTurned b n o a => .tb ⟨8 + a.toList.length, b, String.ofList n, o, a.getD 0⟩
  | .wire b n e => .tw ⟨7 + e.length, b, String.ofList n⟩
  | .source b n t w v =>
    if isLumped t then .ex b n t w (v[1]?.getD 1) (v[2]?.getD 0) (v[0]?.getD 0)
    else .ex b n t w (v[0]?.getD 1) (v[1]?.getD 0) 0
  | .planeWave b n w t p e => .pw ⟨11, b, String.ofList n, String.ofList w, t, p, e, "111111".toList, 1⟩ 0
  | .planeWaveMask b n w t p e m v =>
    .pw ⟨12 + v.length, b, String.ofList n, String.ofList w, t, p, e, m, v[0]?.getD 1⟩ (v[1]?.getD 0)
  | .observer b n f w => .op ⟨8 + w.toList.length, b, String.ofList n, true, true, 1, 1, 1, String.ofList (w.getD []), f⟩
  | .recorder b n s =>
    .op ⟨8 + s.length, b, String.ofList n, true, false, s[0]?.getD 1, s[1]?.getD 1, s[2]?.getD 1, "", false⟩
  | .steps n => .nt n
  | .times a b => .ot a b
  | .freqs a b n => .of a b n
  | .courant c => .cn c
  | .spacing v => .ms v
  | .lines a v => .lines a v

/-- `s` is a way to write what follows the two letters of the card. `GS`, `GE` and `EN` take no notice of it. -/
def Stmt.Written : Stmt → List Char → Prop
  | .version a b c, s => ∃ gap x y z, (∀ w ∈ gap, White w) ∧ SpellsInt a x ∧ SpellsInt b y ∧ SpellsInt c z ∧
      s = gap ++ (x ++ '.' :: (y ++ '.' :: z))
  | .comment t, s => s = t
  | .close _, _ => True
  | st, s => Writes st.fields s

/-! ### Lines -/

/-- `raw` is a line at the front of the text `raw ++ rest`: its contents `l` and a newline, which only the last line may
lack; no longer than the reader's buffer. -/
def IsLine (raw l rest : List Char) : Prop :=
  '\n' ∉ l ∧ l.length < 1022 ∧ (raw = l ++ ['\n'] ∨ raw = l ∧ l ≠ [] ∧ rest = [])

/-- The two letters of a card. -/
def letters (c : Card) : List Char := c.tag

/-- A line that holds a card: two letters and text, padded, perhaps with a comment. -/
def CardLine (c : Card) (text raw rest : List Char) : Prop :=
  ∃ l, IsLine raw l rest ∧ Padded raw (letters c ++ text) ∧ '\x00' ∉ letters c ++ text

/-- A line without a card: a comment from the first character on; or (if `blank`) white space, perhaps with a comment. -/
def EmptyLine (blank : Bool) (raw rest : List Char) : Prop :=
  ∃ l, IsLine raw l rest ∧ ((∃ t, raw = '#' :: t) ∨
    blank = true ∧ ∃ ws com, raw = ws ++ com ∧ ws ≠ [] ∧ (∀ c ∈ ws, White c) ∧ (com = [] ∨ ∃ t, com = '#' :: t))

/-- Mesh lines per axis after a statement. -/
def counted (m : Axis → Nat) : Stmt → Axis → Nat
  | .size nx ny nz => fun | .x => (nx + 1).toNat | .y => (ny + 1).toNat | .z => (nz + 1).toNat
  | _ => m

/-- `text` is a layout of the statements. The numbers of a card of mesh lines follow its line, as many as announced by the
`DM` card, over any number of lines. `m`: the numbers announced so far; `blank`: lines of white space are allowed. -/
inductive Lays (blank : Bool) : (Axis → Nat) → List Stmt → List Char → Prop
  | nil {m} : Lays blank m [] []
  | card {m st ss text raw rest} : st.Ok → st.Written text → CardLine st.card text raw rest →
      Lays blank (counted m st) ss rest → Lays blank m (st :: ss) (raw ++ rest)
  | lines {m a v ss text raw nums rest} : v.length = m a → CardLine (Stmt.lines a v).card text raw (nums ++ rest) →
      Writes (v.map .real) nums → (rest = [] ∨ ∃ c r, rest = c :: r ∧ (White c ∨ c = '#')) → Lays blank m ss rest →
      Lays blank m (Stmt.lines a v :: ss) (raw ++ (nums ++ rest))
  | empty {m ss raw rest} : EmptyLine blank raw rest → Lays blank m ss rest → Lays blank m ss (raw ++ rest)

end Vulture.Spec.Page
