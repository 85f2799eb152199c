import Verif.Model.Basic
/-
Model of `allocArray` of src/alloc_array.c: the block, its table of pointers, and the access `a[i][j][k]`.
Addresses are natural numbers (bytes); `P` is `sizeof( void * )`. 64-bit overflow of the sizes is not modelled.
-/
namespace Vulture.Alloc

/-- `inNodes`: extents after the first, length of the current layer. src/alloc_array.c:84-91 -/
def inNodes : List Nat → Nat → Nat
  | [], _ => 0
  | e :: es, L => L + inNodes es (L * e)

/-- `lengthOfLayer[dimension-1]`. src/alloc_array.c:88 -/
def lastLength : List Nat → Nat → Nat
  | [], L => L
  | e :: es, L => lastLength es (L * e)

/-- `blockSize`. src/alloc_array.c:97 -/
def blockSize (P size e0 : Nat) (es : List Nat) : Nat := inNodes es e0 * P + lastLength es e0 * size

/-- Memory and the two moving pointers. -/
structure St where
  mem : Nat → Nat
  cur : Nat
  dest : Nat

/-- The inner loop: `n` pointers, targets `step` bytes apart. src/alloc_array.c:121-126, 131-135 -/
def fillLayer (P step : Nat) : Nat → St → St
  | 0, s => s
  | n + 1, s => fillLayer P step n ⟨fun a => if a = s.cur then s.dest else s.mem a, s.cur + P, s.dest + step⟩

/-- The outer loop. src/alloc_array.c:116-137 -/
def fill (P size : Nat) : List Nat → Nat → St → St
  | [], _, s => s
  | [e], L, s => fillLayer P (e * size) L s
  | e :: e' :: es, L, s => fill P size (e' :: es) (L * e) (fillLayer P (e * P) L s)

/-- `allocArray( &bytes , size , dimension , e0 , es ... )` with the block at `base`. src/alloc_array.c:55-141 -/
def allocArray (P size base : Nat) (mem : Nat → Nat) (e0 : Nat) (es : List Nat) : Nat → Nat :=
  (fill P size es e0 ⟨mem, base, base + P * e0⟩).mem

/-- Address of `a[i][j]...`: follow the pointers, then index the elements. -/
def access (P size : Nat) (mem : Nat → Nat) : List Nat → Nat → Nat
  | [], a => a
  | [i], a => a + size * i
  | i :: i' :: is, a => access P size mem (i' :: is) (mem (a + P * i))

end Vulture.Alloc
