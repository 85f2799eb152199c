import Verif.Model.Extents
/-
Independent description of the Yee grid: where a field sample lies, and which samples belong to a
box of nodes.  An electric sample sits on the middle of an edge, a magnetic one on the middle of a
face; positions are doubled to stay integral.
-/
namespace Vulture.Spec

/-- Twice the physical position (in cells) of sample `(i,j,k)` of a component along an axis. -/
def pos2 (fc : Fc) (a : Axis) (i : Int) : Int :=
  match fc, a with
  | .ex, .x => 2 * i + 1 | .ex, _ => 2 * i
  | .ey, .y => 2 * i + 1 | .ey, _ => 2 * i
  | .ez, .z => 2 * i + 1 | .ez, _ => 2 * i
  | .hx, .x => 2 * i     | .hx, _ => 2 * i + 1
  | .hy, .y => 2 * i     | .hy, _ => 2 * i + 1
  | .hz, .z => 2 * i     | .hz, _ => 2 * i + 1

/-- The sample lies in the closed box of nodes `b`. -/
def SampleIn (b : BBox) (fc : Fc) (i j k : Int) : Prop :=
  (2 * b .xlo ≤ pos2 fc .x i ∧ pos2 fc .x i ≤ 2 * b .xhi) ∧
  (2 * b .ylo ≤ pos2 fc .y j ∧ pos2 fc .y j ≤ 2 * b .yhi) ∧
  (2 * b .zlo ≤ pos2 fc .z k ∧ pos2 fc .z k ≤ 2 * b .zhi)

/-- A run accepted by the set-up code: at least one cell per axis, layers only on PML faces and at
least one there. -/
structure ValidCfg (c : Cfg) : Prop where
  cells : ∀ a, 1 ≤ c.n a
  pml : ∀ f, c.bt f = .pml → 1 ≤ c.layers f
  other : ∀ f, c.bt f ≠ .pml → c.layers f = 0
  paired : ∀ f, c.bt f = .periodic → c.bt f.opposite = .periodic

/-- Limits describe a set of samples. -/
def InLim (lim : Face → Int) (i j k : Int) : Prop :=
  (lim .xlo ≤ i ∧ i ≤ lim .xhi) ∧ (lim .ylo ≤ j ∧ j ≤ lim .yhi) ∧ (lim .zlo ≤ k ∧ k ≤ lim .zhi)

end Vulture.Spec
