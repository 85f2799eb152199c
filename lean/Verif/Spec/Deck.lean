import Verif.Spec.Items
import Verif.Model.Deck
/-
What a user writes in the geometry cards, and where it is expected to appear in the run.
-/
namespace Vulture.Spec
open Deck

/-- The box of a card that places something in the mesh. -/
def boxOf : Deck.Card → Option BBox
  | .mb c => some c.bbox
  | .tb c => some c.bbox
  | .tw c => some c.bbox
  | .ex _ b _ _ _ _ _ _ => some b
  | .pw c _ => some c.bbox
  | .op c => some c.bbox
  | _ => none

/-- The third pair of coordinates of every card is in order (the program does not check it, see C04). -/
def ThirdSidesOrdered (l : List Deck.Card) : Prop := ∀ c ∈ l, ∀ b, boxOf c = some b → b .zlo ≤ b .zhi

/-- Cells along an axis. -/
def cellsOf (f : File) : Axis → Int | .x => f.nx | .y => f.ny | .z => f.nz

/-- The boxes of the source cards (plane-wave cards), in the order of the file. -/
def sourceBoxes (l : List Deck.Card) : List BBox :=
  l.filterMap fun | .ex _ b _ _ _ _ _ _ => some b | _ => none
def waveBoxes (l : List Deck.Card) : List BBox :=
  l.filterMap fun | .pw c _ => some c.bbox | _ => none

/-- The box in grid coordinates is the box of the card moved by the same amount as the low corner of the mesh. -/
def Moved (c : Cfg) (b g : BBox) : Prop := ∀ a : Axis, g a.lo - c.gibox a.lo = b a.lo ∧ g a.hi - c.gibox a.lo = b a.hi

end Vulture.Spec
