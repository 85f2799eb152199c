import Verif.Model.Basic
/-
Specification for C37: row-major position.
-/
namespace Vulture.Spec

/-- Indices within extents, one for each. -/
def Indices : List Nat → List Nat → Prop
  | [], [] => True
  | i :: is, e :: es => i < e ∧ Indices is es
  | _, _ => False

/-- Position of an element of the static array `T a[e0][e1]...`. -/
def rowMajor : List Nat → List Nat → Nat
  | i :: is, _ :: es => i * es.foldr (· * ·) 1 + rowMajor is es
  | _, _ => 0

end Vulture.Spec
