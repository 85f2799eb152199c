import Verif.Model.Basic
/-
Specification for C34: a reader of `impulse.dat`, written from the description of the file only.
-/
namespace Vulture.Spec

/-- A 32-bit little-endian word. -/
def word (a b c d : BitVec 8) : BitVec 32 := d ++ c ++ b ++ a

/-- Bytes as words; `none` if their number is not a multiple of four. -/
def words : List (BitVec 8) → Option (List (BitVec 32))
  | [] => some []
  | a :: b :: c :: d :: l => (words l).map (word a b c d :: ·)
  | _ => none

/-- What a reader finds in a record. -/
structure Sample where
  node : Int × Int × Int
  values : List (BitVec 32)
  deriving DecidableEq

/-- Nine words per record: three signed integers and six values. -/
def samples : List (BitVec 32) → Option (List Sample)
  | [] => some []
  | i :: j :: k :: a :: b :: c :: d :: e :: f :: l =>
    (samples l).map (⟨(i.toInt, j.toInt, k.toInt), [a, b, c, d, e, f]⟩ :: ·)
  | _ => none

/-- The file: number of steps, time step, records. -/
def readImpulse (bytes : List (BitVec 8)) : Option (BitVec 32 × BitVec 32 × List Sample) :=
  match words bytes with
  | some (n :: dt :: l) => (samples l).map fun s => (n, dt, s)
  | _ => none

/-- The indices from `lo` to `hi` that are a whole number of steps from `lo`, ascending. -/
def everyNth (lo hi step : Int) : List Int :=
  ((List.range (hi - lo + 1).toNat).map fun (m : Nat) => lo + m).filter fun i => step ∣ i - lo

/-- The nodes of a box in file order: x fastest, then y, then z. -/
def fileNodes (lo hi step : Axis → Int) : List (Int × Int × Int) :=
  (everyNth (lo .z) (hi .z) (step .z)).flatMap fun k => (everyNth (lo .y) (hi .y) (step .y)).flatMap fun j =>
    (everyNth (lo .x) (hi .x) (step .x)).map fun i => (i, j, k)

end Vulture.Spec
