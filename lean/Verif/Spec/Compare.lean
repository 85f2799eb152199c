import Mathlib.Data.Real.Basic
/-
Specification for C78: two tables of numbers agree.
-/
namespace Vulture.Spec

/-- A table: at least one row, all rows equally long, at least one column. -/
def Table (t : List (List ℝ)) : Prop := t ≠ [] ∧ ∃ c, 0 < c ∧ ∀ r ∈ t, r.length = c

/-- Same extents. -/
def SameExtents (a b : List (List ℝ)) : Prop := a.map List.length = b.map List.length

/-- The number in a row and column. -/
def NumberAt (t : List (List ℝ)) (i j : ℕ) (x : ℝ) : Prop := ∃ row, t[i]? = some row ∧ row[j]? = some x

/-- Every number of the test table is within the tolerance of the one in the same place of the other table. -/
def Agrees (valid test : List (List ℝ)) (rtol atol : ℝ) : Prop :=
  ∀ i j x y, NumberAt valid i j x → NumberAt test i j y → |x - y| ≤ atol + rtol * |y|

end Vulture.Spec
