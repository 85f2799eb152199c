import Verif.Model.Basic
import Mathlib.Algebra.Field.Defs
/-
Specification for C60: pictures made of polylines, the edges of a box, the lines of a mesh, gnuplot's reading of a script.
-/
namespace Vulture.Spec

/-- `p` and `q` are consecutive points of a polyline. -/
def Joined {α : Type} (l : List α) (p q : α) : Prop := ∃ l1 l2, l = l1 ++ p :: q :: l2

/-- A picture is a list of polylines; the segment between `p` and `q` is drawn in one of the two directions. -/
def Drawn {α : Type} (f : List (List α)) (p q : α) : Prop := ∃ r ∈ f, Joined r p q ∨ Joined r q p

/-- Position of a mesh node. -/
def pin {K : Type} (u : Axis → Int → K) (n : Axis → Int) : K × K × K := (u .x (n .x), u .y (n .y), u .z (n .z))

/-- Corner of a box. -/
def Corner (b : BBox) (n : Axis → Int) : Prop := ∀ a, n a = b a.lo ∨ n a = b a.hi

/-- `n` and `m` are the ends of an edge of the box along some axis in which it has an extent. -/
def BoxEdge (b : BBox) (n m : Axis → Int) : Prop :=
  Corner b n ∧ Corner b m ∧ ∃ a, n a ≠ m a ∧ ∀ c, c ≠ a → n c = m c

/-- The picture of the edges of a box. -/
def Outlines {K : Type} (u : Axis → Int → K) (b : BBox) (p q : K × K × K) : Prop :=
  ∃ n m, BoxEdge b n m ∧ p = pin u n ∧ q = pin u m

/-- `n` and `m` are the ends of a mesh line along `a` in a mesh of `cells` cells. -/
def MeshLine (cells : Axis → Int) (a : Axis) (n m : Axis → Int) : Prop :=
  n a = 0 ∧ m a = cells a ∧ ∀ c, c ≠ a → n c = m c ∧ 0 ≤ n c ∧ n c ≤ cells c

/-- The planes at the back of the picture: `x = 0`, the last `y`, `z = 0`. -/
def backPlane (cells : Axis → Int) : Axis → Int
  | .x => 0
  | .y => cells .y
  | .z => 0

/-- Middle of a face of a box (or of a plane `a = i` across it). -/
def midOf {K : Type} [Field K] (u : Axis → Int → K) (b : BBox) (a : Axis) (i : Int) (c : Axis) : K :=
  if c = a then u a i else (u c (b c.lo) + u c (b c.hi)) / 2

/-- A line that ends in a backslash is continued by the next one: the first command and the lines after it. -/
def firstCommand {α : Type} (continued : α → Bool) : List α → List α × List α
  | [] => ([], [])
  | x :: l => if continued x then (x :: (firstCommand continued l).1, (firstCommand continued l).2) else ([x], l)

/-- Continued lines are joined before anything else, so a `#` hides the rest of the command. -/
def visible {α : Type} (commented : α → Bool) (l : List α) : List α := l.takeWhile fun x => !commented x

end Vulture.Spec
