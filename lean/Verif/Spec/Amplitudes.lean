import Verif.Model.Setup
/- Amplitudes on the cards of a mesh file. -/
namespace Vulture.Spec
open Setup

/-- The card with another amplitude; cards other than `EX` and `PW` have none. -/
noncomputable def sized (z : ℚ) : Deck.Card → Deck.Card
  | .ex q b n tag w _ delay resist => .ex q b n tag w z delay resist
  | .pw c delay => .pw { c with size := z } delay
  | c => c

/-- The amplitude is written on the card (else it is 1). -/
def HasSize : Deck.Card → Prop
  | .pw c _ => 13 ≤ c.numScanned
  | _ => True

/-- The experiment with the cards `l`. -/
def withCards (X : Experiment) (l : List Deck.Card) : Experiment := { X with file := { X.file with cards := l } }

end Vulture.Spec
