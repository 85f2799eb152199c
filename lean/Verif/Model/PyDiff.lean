import Mathlib.Data.Real.Basic
/-
The comparison tool of the test suite. Models: util/pydiff.py:52-79 (Python 2) and the functions of NumPy it calls, after the
text has been split into numbers.  The spelling of numbers, comments and missing files are not modelled.
-/
namespace Vulture.PyDiff

/-- An array as `loadtxt` returns it: its shape, and its contents as a two-dimensional array with ones added in front of the
shape, the way NumPy aligns shapes. -/
structure Arr where
  shape : List ℕ
  r : ℕ
  c : ℕ
  val : ℕ → ℕ → ℝ

/-- Entry of a table of numbers. -/
noncomputable def entry (t : List (List ℝ)) (i j : ℕ) : ℝ := ((t[i]?).bind (·[j]?)).getD 0

/-- `numpy.loadtxt( name )`: all rows must have as many columns as the first one; axes of length one are dropped.
util/pydiff.py:60, 63 -/
noncomputable def loadtxt (t : List (List ℝ)) : Option Arr :=
  match t with
  | [] => some ⟨[0], 1, 0, fun _ _ => 0⟩
  | row :: _ =>
    if ∀ r ∈ t, r.length = row.length then
      some (if t.length = 1 ∧ row.length = 1 then ⟨[], 1, 1, entry t⟩
        else if t.length = 1 then ⟨[row.length], 1, row.length, entry t⟩
        else if row.length = 1 then ⟨[t.length], 1, t.length, fun i j => entry t j i⟩
        else ⟨[t.length, row.length], t.length, row.length, entry t⟩)
    else none

/-- Common length of two axes. -/
def axisLen (m n : ℕ) : Option ℕ := if m = n then some m else if m = 1 then some n else if n = 1 then some m else none

/-- Index into an axis that is stretched if it has length one. -/
def axisIdx (n i : ℕ) : ℕ := if n = 1 then 0 else i

open Classical in
/-- `numpy.allclose( a , b , rtol , atol )`; `none`: the shapes cannot be broadcast and an exception is raised.
util/pydiff.py:66, 70 -/
noncomputable def allclose (a b : Arr) (rtol atol : ℝ) : Option Bool :=
  (axisLen a.r b.r).bind fun r => (axisLen a.c b.c).bind fun c =>
    some (decide (∀ i < r, ∀ j < c,
      |a.val (axisIdx a.r i) (axisIdx a.c j) - b.val (axisIdx b.r i) (axisIdx b.c j)| ≤
        atol + rtol * |b.val (axisIdx b.r i) (axisIdx b.c j)|))

/-- Exit status; an uncaught exception gives one. The branch for different shapes prints a message and falls off the end.
util/pydiff.py:66-79 -/
noncomputable def compare (a b : Arr) : ℕ :=
  match allclose a b (1 / 100000) (1 / 100) with
  | none => 1
  | some true => 0
  | some false =>
    if a.shape ≠ b.shape then 0
    else match allclose a b (1 / 10000) (1 / 10) with
      | some true => 2
      | _ => 1

/-- The whole program: validation table, test table. util/pydiff.py:52-79 -/
noncomputable def pydiff (valid test : List (List ℝ)) : ℕ :=
  match loadtxt valid, loadtxt test with
  | some a, some b => compare a b
  | _, _ => 1

end Vulture.PyDiff
