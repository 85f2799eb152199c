import Verif.Model.Mesh
/-
Line processing of the mesh reader: src/mesh.c:298-330, 408-487.
Strings are lists of characters without the terminating NUL. The parameter lines that the XL, YL and
ZL handlers read from the stream themselves (`meshReadRealArray`) are not modelled.
-/
namespace Vulture.Mesh

/-- C `isspace` in the C locale. -/
def isSpace (c : Char) : Bool :=
  c == ' ' || c == '\t' || c == '\n' || c == '\x0b' || c == '\x0c' || c == '\r'

/-- `removeComments`: overwrite the first `#` with NUL. src/mesh.c:447-468 -/
def removeComments : List Char → List Char
  | [] => []
  | c :: s => if c == '#' then [] else c :: removeComments s

/-- `while( isspace( *(++startPointer) ) );` from `string - 1`: the index of the first non-space, the
terminating NUL counting as non-space. src/mesh.c:425 -/
def startScan : List Char → Nat
  | [] => 0
  | c :: s => if isSpace c then startScan s + 1 else 0

/-- `while( isspace( *(--endPointer) ) && endPointer != startPointer );` with `endPointer = e` before
the decrement; `none` = the pointer left the buffer (undefined behaviour). The buffer holds the
string and its NUL. src/mesh.c:426 -/
def endScan (s : List Char) (start : Nat) : Nat → Option Nat
  | 0 => none
  | e + 1 =>
    match s[e]? with
    | none => some e
    | some c => if isSpace c && e != start then endScan s start e else some e

/-- The C string starting at the head of a buffer. -/
def cstr (b : List Char) : List Char := b.takeWhile (fun c => c != '\x00')

/-- `strtrim`. src/mesh.c:408-444 -/
def strtrim (s : List Char) : Res (List Char) :=
  if s = [] then .ok []                                     -- line 417
  else
    let start := startScan s
    match endScan s start s.length with
    | none => .ub
    | some e =>
      let buf := s ++ ['\x00']
      let buf1 :=
        if s.length - 1 ≠ e then buf.set (e + 1) '\x00'     -- lines 428-429
        else if start ≠ 0 ∧ e = start then buf.set 0 '\x00' -- lines 430-431
        else buf
      if start ≠ 0 then .ok (cstr (buf1.drop start))        -- lines 434-439: shift to the front
      else .ok (cstr buf1)

/-- `getCardType`. src/mesh.c:471-487 -/
def getCardType (line : List Char) : Option Card :=
  match line with
  | a :: b :: _ => Card.all.find? (fun c => c.tag == [a, b])
  | _ => none

/-- One raw line: nothing, or a card with its parameter text (`line + 2`).
src/mesh.c:312-327, 344 -/
def processLine (raw : List Char) : Res (Option (Card × List Char)) :=
  match strtrim (removeComments raw) with
  | .ub => .ub
  | .error => .error
  | .ok line =>
    if line = [] then .ok none
    else match getCardType line with
      | none => .error
      | some c => .ok (some (c, line.drop 2))

/-- The reading loop over raw lines; `handler` stands for the card parsers' results.
src/mesh.c:298-397 -/
def readLines (handler : Card → List Char → Bool) (s : RState) : List (List Char) → Res RState
  | [] => .ok s
  | raw :: rest =>
    match processLine raw with
    | .ub => .ub
    | .error => .error
    | .ok none => readLines handler s rest
    | .ok (some (c, txt)) =>
      match step s c (handler c txt) with
      | .ok s' => readLines handler s' rest
      | .error => .error
      | .ub => .ub

/-- `fgets( rawLine , n + 1 , file )` repeated to the end of the file: each piece ends after a
newline or after `n` characters. src/mesh.c:301, `BUFFER_LENGTH` 1024 so `n = 1022`. -/
def fgetsAux (n : Nat) : Nat → List Char → List Char → List (List Char)
  | _, acc, [] => if acc = [] then [] else [acc.reverse]
  | room, acc, c :: s =>
    if c = '\n' ∨ room ≤ 1 then (c :: acc).reverse :: fgetsAux n n [] s
    else fgetsAux n (room - 1) (c :: acc) s

/-- The pieces of a file as `fgets` returns them. src/mesh.c:298-306 -/
def fgetsLines (s : List Char) : List (List Char) := fgetsAux 1022 1022 [] s

/-- `readMesh` on the text of a file. src/mesh.c:269-405 -/
def readText (handler : Card → List Char → Bool) (s : List Char) : Res RState :=
  readLines handler RState.init (fgetsLines s)

end Vulture.Mesh
