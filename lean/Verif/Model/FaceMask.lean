import Verif.Model.Basic
/-
Face masks. Models src/bounding_box.c:321-357, src/fdtd_types.h:126-129,
src/fdtd_types.c:33, src/planewave.c:1199-1222.
-/
namespace Vulture

/-- `FACE_MASK_ERROR`. src/fdtd_types.h:127 -/
def FACE_MASK_ERROR : Nat := 0xFF
/-- `FACE_MASKS[face]`. src/fdtd_types.c (last line) -/
def faceMasks : Face → Nat
  | .xlo => 0x20 | .xhi => 0x10 | .ylo => 0x8 | .yhi => 0x4 | .zlo => 0x2 | .zhi => 0x1

/-- Digit loop of `strtol(.., 2)`: accumulates base-2 digits, stops at the first other
character, returns the value and the unconsumed rest. -/
def binDigits (acc : Nat) : List Char → Nat × List Char
  | '0' :: cs => binDigits (2 * acc) cs
  | '1' :: cs => binDigits (2 * acc + 1) cs
  | cs => (acc, cs)

/-- Sign handling of `strtol`: (negative?, rest). -/
def stripSign : List Char → Bool × List Char
  | '-' :: cs => (true, cs)
  | '+' :: cs => (false, cs)
  | cs => (false, cs)

/-- Does the text start with a base-2 digit? -/
def startsDigit : List Char → Bool
  | '0' :: _ => true
  | '1' :: _ => true
  | _ => false

/-- `strtol( s , &junk , 2 )` (C17: no `0b` prefix) on a string without leading white space:
optional sign, digits; if there is no digit the value is 0 and `junk` is the start of the string.
`sscanf("%31s")` never yields leading white space and limits the length to 31, so saturation at
`LONG_MAX` cannot occur and is not modelled. Called at src/bounding_box.c:329. -/
def strtol2 (s : List Char) : Int × List Char :=
  if startsDigit (stripSign s).2 then
    (if (stripSign s).1 then -((binDigits 0 (stripSign s).2).1 : Int)
     else ((binDigits 0 (stripSign s).2).1 : Int), (binDigits 0 (stripSign s).2).2)
  else (0, s)

/-- `setFaceMaskFromString`. src/bounding_box.c:322-338 -/
def setFaceMaskFromString (s : List Char) : Nat :=
  if (strtol2 s).1 < 0 ∨ (strtol2 s).1 > 63 ∨ (strtol2 s).2 ≠ [] then FACE_MASK_ERROR
  else (strtol2 s).1.toNat

/-- `isFaceActive`. src/bounding_box.c:341-346 -/
def isFaceActive (mask : Nat) (f : Face) : Bool := (mask &&& faceMasks f) != 0

/-- `faceMask2boolArray`. src/bounding_box.c:349-357 -/
def faceMask2boolArray (mask : Nat) : Face → Bool := fun f => (mask &&& faceMasks f) != 0

/-- `decodeFaceMask` (plane-wave cards). src/planewave.c:1200-1222: reads `maskStr[0..5]`;
`none` = `ok == false`. The caller has checked `strlen(maskStr) == 6`. -/
def decodeFaceMask (s : List Char) : Option (Face → Bool) :=
  match s with
  | [a, b, c, d, e, f] =>
    if [a, b, c, d, e, f].all (fun ch => ch == '0' || ch == '1') then
      some (fun | .xlo => a == '1' | .xhi => b == '1' | .ylo => c == '1'
                | .yhi => d == '1' | .zlo => e == '1' | .zhi => f == '1')
    else none
  | _ => none

end Vulture
