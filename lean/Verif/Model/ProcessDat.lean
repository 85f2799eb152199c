import Verif.Model.Reader
/-
Model of the text file `process.dat`: its writer `writeProcessDat` (src/observer.c:1062-1133), the companion
reader m/tdfdReadProcessDat.m and the companion writer m/tdfdWriteProcessDat.m, character by character.
Simplifications: integers are unbounded; the digits `%g` prints for a real number are a parameter `fmt`,
and the value a reader gives to such a word a parameter `val`; errors opening a file are not modelled.
-/
namespace Vulture.ProcessDat
open Vulture.Run

/-- `%lu`: decimal digits. -/
def decNat (n : Nat) : List Char :=
  if n < 10 then [Char.ofNat (48 + n)] else decNat (n / 10) ++ [Char.ofNat (48 + n % 10)]

/-- `%d`. -/
def dec (i : Int) : List Char := if i < 0 then '-' :: decNat i.natAbs else decNat i.natAbs

/-- `fprintf( processFile , " %d" , ... )` for several numbers. -/
def spaced (l : List Int) : List Char := l.flatMap fun i => ' ' :: dec i

/-- The nine numbers of a box line in file order. src/observer.c:1097-1105 -/
def row (b : BoxLine) : List Int :=
  [b.lo .x, b.hi .x, b.step .x, b.lo .y, b.hi .y, b.step .y, b.lo .z, b.hi .z, b.step .z]

/-- The last line: box of the first observer and `EX + 1`. src/observer.c:1118-1124 -/
def lastRow (b : BoxLine) : List Int := [b.lo .x, b.hi .x, b.lo .y, b.hi .y, b.lo .z, b.hi .z, 1]

/-- The last line is missing when there is no observer. src/observer.c:1116-1129 -/
def lastLine : List BoxLine → List Char
  | b :: _ => spaced (lastRow b) ++ ['\n']
  | [] => []

/-- `writeProcessDat`. `snprintf` keeps 68 characters of the comment (`COMMENT_BUFFER_SIZE - 1` includes the
terminating zero); the count is that of the binary observers, all of which are time-domain observers
(src/observer.c:179-182). `N` is the number of steps. src/observer.c:1062-1133 -/
noncomputable def writeProcess (fmt : ℝ → List Char) (comment : List Char) (e : Env) (N : Nat) (dt c0 : ℝ) : List Char :=
  let fstep := 1 / (N * dt)
  'C' :: 'E' :: ' ' :: comment.take 68 ++ '\n' ::
  decNat (e.items.filter fun x => x.kind = .binary).length ++ '\n' ::
  (boxLines e).flatMap (fun b => spaced (row b) ++ ['\n']) ++
  decNat (stepLine e).1.toNat ++ ' ' :: decNat (stepLine e).2.toNat ++ '\n' ::
  fmt 0 ++ ' ' :: fmt (N * fstep) ++ ' ' :: fmt fstep ++ '\n' ::
  fmt (dt * (2 * c0)) ++ '\n' ::
  lastLine (boxLines e)

/-- White space of `fscanf`. -/
def isWhite (c : Char) : Bool := c = ' ' || c = '\n' || c = '\t' || c = '\r'

/-- Value of a digit. -/
def digitVal (c : Char) : Int := (c.toNat : Int) - 48

/-- Unsigned part of `%d`: the longest run of digits, not empty. -/
def scanNat (s : List Char) : Option (Int × List Char) :=
  let d := s.takeWhile Char.isDigit
  if d = [] then none else some (d.foldl (fun a c => 10 * a + digitVal c) 0, s.dropWhile Char.isDigit)

/-- `fscanf( fd , '%d' , 1 )`: skips white space, optional sign, digits. -/
def scanInt (s : List Char) : Option (Int × List Char) :=
  match s.dropWhile isWhite with
  | '-' :: t => (scanNat t).map fun r => (-r.1, r.2)
  | '+' :: t => scanNat t
  | t => scanNat t

/-- `fscanf( fd , '%d' , [ 1 , n ] )`; the assignments that follow fail if fewer numbers are found. -/
def scanInts : Nat → List Char → Option (List Int × List Char)
  | 0, s => some ([], s)
  | n + 1, s => (scanInt s).bind fun r => (scanInts n r.2).map fun q => (r.1 :: q.1, q.2)

/-- `fscanf( fd , '%e' , 1 )`: the next word. -/
def scanWord (s : List Char) : Option (List Char × List Char) :=
  let t := s.dropWhile isWhite
  let w := t.takeWhile fun c => !isWhite c
  if w = [] then none else some (w, t.dropWhile fun c => !isWhite c)

/-- `fscanf( fd , '%e' , [ 1 , n ] )`. -/
def scanReals (val : List Char → ℝ) : Nat → List Char → Option (List ℝ × List Char)
  | 0, s => some ([], s)
  | n + 1, s => (scanWord s).bind fun r => (scanReals val n r.2).map fun q => (val r.1 :: q.1, q.2)

/-- Rows of `io`. m/tdfdReadProcessDat.m:86-89 -/
def scanRows : Nat → List Char → Option (List (List Int) × List Char)
  | 0, s => some ([], s)
  | n + 1, s => (scanInts 9 s).bind fun r => (scanRows n r.2).map fun q => (r.1 :: q.1, q.2)

/-- What `tdfdReadProcessDat` returns. -/
structure Process where
  header : List Char
  ko : Int
  io : List (List Int)
  nt : List Int
  freqs : List ℝ
  meshSize : List ℝ
  points : List Int

/-- `tdfdReadProcessDat`: `fgets` takes the first line with its end. m/tdfdReadProcessDat.m:68-122 -/
def readProcess (val : List Char → ℝ) (s : List Char) : Option Process :=
  if s = [] then none else
  let header := s.takeWhile (· ≠ '\n') ++ (s.dropWhile (· ≠ '\n')).take 1
  (scanInt ((s.dropWhile (· ≠ '\n')).drop 1)).bind fun ko =>
  (scanRows ko.1.toNat ko.2).bind fun io =>
  (scanInts 2 io.2).bind fun nt =>
  (scanReals val 3 nt.2).bind fun fr =>
  (scanReals val 1 fr.2).bind fun ms =>
  (scanInts 7 ms.2).map fun pt => ⟨header, ko.1, io.1, nt.1, fr.1, ms.1, pt.1⟩

/-- `fprintf( fd , '%d ' , io(no,:) )`: every number followed by a space. -/
def trailed (l : List Int) : List Char := l.flatMap fun i => dec i ++ [' ']

/-- Numbers of one call with a format such as `'%d %d\n'`. -/
def joined (f : List (List Char)) : List Char := (f.intersperse [' ']).flatten

/-- `tdfdWriteProcessDat`. m/tdfdWriteProcessDat.m:68-110 -/
def rewriteProcess (fmt : ℝ → List Char) (p : Process) : List Char :=
  p.header ++ dec p.ko ++ '\n' :: p.io.flatMap (fun r => trailed r ++ ['\n']) ++
  joined (p.nt.map dec) ++ '\n' :: joined (p.freqs.map fmt) ++ '\n' :: joined (p.meshSize.map fmt) ++ '\n' ::
  joined (p.points.map dec) ++ ['\n']

/-- A row of `io` as the impulse reader uses it: columns 1 to 9 are low, high and step for x, y and z.
m/tdfdReadImpulseDat3D.m:120-124, 142-155 -/
def boxOf (r : List Int) : BoxLine where
  lo | .x => r.getD 0 0 | .y => r.getD 3 0 | .z => r.getD 6 0
  hi | .x => r.getD 1 0 | .y => r.getD 4 0 | .z => r.getD 7 0
  step | .x => r.getD 2 0 | .y => r.getD 5 0 | .z => r.getD 8 0

/-- `tdfdReadImpulseDat3D( op + 1 , timeNum )` on the two files of a run: `process.dat` is read first.
m/tdfdReadImpulseDat3D.m:60-246 -/
noncomputable def readFiles (val : List Char → ℝ) (real : BitVec 32 → ℝ) (process : List Char) (impulse : List (BitVec 8))
    (op : Nat) (timeNum : List Int) : Option Reader.Result :=
  (readProcess val process).bind fun p =>
  if (op : Int) + 1 > p.ko then none else Reader.readImpulse3D real impulse (p.io.map boxOf) op timeNum

end Vulture.ProcessDat
