import Verif.Model.MeshText
import Mathlib.Data.Rat.Defs
import Mathlib.Algebra.Order.Field.Basic
/-
C `sscanf` and `fscanf` as the card parsers use them: the directives `%d`, `%lu`, `%lf`/`%e`, `%31s`, `%1023[^"]`, a
literal character, and white space. C11 7.21.6.2; uses: src/block.c:73, src/medium.c:92-167, src/mesh.c:214, 489-505 ...
Simplified: numbers are exact (no overflow of `int`, no rounding of `float`); hexadecimal floating point numbers,
`inf` and `nan` are not numbers here; text has no NUL.
-/
namespace Vulture.Scan
open Vulture.Mesh (isSpace)

/-- Conversions: `%d`, `%lu`, `%31s`, `%lf` or `%e`, `%1023[^"]`. -/
inductive Conv | int | uns | word | real | unquoted
  deriving DecidableEq, Repr

/-- Directives of a format. -/
inductive Dir | conv (c : Conv) | lit (c : Char) | space
  deriving DecidableEq, Repr

/-- Converted values, in the order of the arguments of the call. -/
inductive Val
  | int (i : Int)
  | uns (n : BitVec 64)
  | word (w : List Char)
  | real (q : ℚ)
  | text (t : List Char)
  deriving DecidableEq, Repr

/-- `TAG_SIZE - 1`, the width of `%31s`. src/fdtd_types.h:41 -/
def WORD : Nat := 31

/-- `PATH_SIZE - 1`, the width of `%1023[^"]`. src/fdtd_types.h:44 -/
def PATH : Nat := 1023

def isDigit (c : Char) : Bool := '0' ≤ c && c ≤ '9'

/-- Decimal digits to their value. -/
def natVal (ds : List Char) : Nat := ds.foldl (fun n c => 10 * n + (c.toNat - '0'.toNat)) 0

/-- White space is skipped by a white-space directive and by every conversion except `%[`. -/
def skip (s : List Char) : List Char := s.dropWhile isSpace

/-- Optional sign: whether it is `-`, and what follows. -/
def sign : List Char → Bool × List Char
  | '-' :: s => (true, s)
  | '+' :: s => (false, s)
  | s => (false, s)

/-- A digit sequence of at least one digit. -/
def digits (s : List Char) : Option (List Char × List Char) :=
  if s.takeWhile isDigit = [] then none else some (s.takeWhile isDigit, s.dropWhile isDigit)

/-- `%d`. -/
def scanInt (s : List Char) : Option (Int × List Char) :=
  let t := sign (skip s)
  (digits t.2).map fun d => (if t.1 then -(natVal d.1 : Int) else natVal d.1, d.2)

/-- `%lu`: a sign is allowed, `-` negates in the unsigned type. -/
def scanUns (s : List Char) : Option (BitVec 64 × List Char) :=
  (scanInt s).map fun r => (BitVec.ofInt 64 r.1, r.2)

/-- `%31s`. -/
def scanWord (s : List Char) : Option (List Char × List Char) :=
  let t := skip s
  let w := (t.takeWhile fun c => !isSpace c).take WORD
  if w = [] then none else some (w, t.drop w.length)

/-- `%1023[^"]`. -/
def scanUnquoted (s : List Char) : Option (List Char × List Char) :=
  let w := (s.takeWhile fun c => c != '"').take PATH
  if w = [] then none else some (w, s.drop w.length)

/-- The fractional part: a point and digits, possibly none. -/
def fraction : List Char → List Char × List Char
  | '.' :: t => (t.takeWhile isDigit, t.dropWhile isDigit)
  | t => ([], t)

/-- The exponent after `e` or `E`: `none` if there is the letter but no number. -/
def expTail (t : List Char) : Option (Int × List Char) :=
  (digits (sign t).2).map fun d => (if (sign t).1 then -(natVal d.1 : Int) else natVal d.1, d.2)

/-- The exponent; 0 if there is none. -/
def exponent : List Char → Option (Int × List Char)
  | 'e' :: t => expTail t
  | 'E' :: t => expTail t
  | t => some (0, t)

/-- `m * 10^e`. -/
def scale10 (m : ℚ) : Int → ℚ
  | .ofNat n => m * 10 ^ n
  | .negSucc n => m / 10 ^ (n + 1)

/-- `%lf`, `%e`. -/
def scanReal (s : List Char) : Option (ℚ × List Char) :=
  let t := sign (skip s)
  let ip := t.2.takeWhile isDigit
  let fp := fraction (t.2.dropWhile isDigit)
  if ip = [] ∧ fp.1 = [] then none else
  (exponent fp.2).map fun e =>
    let m := scale10 ((natVal (ip ++ fp.1) : ℚ) / 10 ^ fp.1.length) e.1
    (if t.1 then -m else m, e.2)

/-- One conversion. -/
def scan : Conv → List Char → Option (Val × List Char)
  | .int, s => (scanInt s).map fun r => (.int r.1, r.2)
  | .uns, s => (scanUns s).map fun r => (.uns r.1, r.2)
  | .word, s => (scanWord s).map fun r => (.word r.1, r.2)
  | .real, s => (scanReal s).map fun r => (.real r.1, r.2)
  | .unquoted, s => (scanUnquoted s).map fun r => (.text r.1, r.2)

/-- The values assigned before the first failure or the end of the format; their number is the return value (`EOF`, which
is negative, in place of 0 makes no difference to the callers). -/
def sscanf : List Dir → List Char → List Val
  | [], _ => []
  | .space :: f, s => sscanf f (skip s)
  | .lit c :: f, s => match s with
    | d :: t => if c = d then sscanf f t else []
    | [] => []
  | .conv k :: f, s => match scan k s with
    | some (v, r) => v :: sscanf f r
    | none => []

/-- Conversions separated by single spaces. -/
def spaced : List Conv → List Dir
  | [] => []
  | [c] => [.conv c]
  | c :: l => .conv c :: .space :: spaced l

/-- `"%1023[^"]"` with its quotation marks. -/
def quoted : List Dir := [.lit '"', .conv .unquoted, .lit '"']

/-- `fscanf( file , "%lf" , .. )` repeated `n` times; what is left of the stream. src/mesh.c:489-505 -/
def readReals : Nat → List Char → Option (List ℚ × List Char)
  | 0, s => some ([], s)
  | n + 1, s => (scanReal s).bind fun r => (readReals n r.2).map fun q => (r.1 :: q.1, q.2)

end Vulture.Scan
