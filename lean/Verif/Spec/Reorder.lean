import Verif.Spec.Probes
/-
Specification for C74: lists of cards in a different order.
-/
namespace Vulture.Spec
open Deck

/-- The kinds of cards whose order among themselves matters. -/
def isBlock : Deck.Card → Bool | .mb _ => true | _ => false
def isSurface : Deck.Card → Bool | .tb _ => true | _ => false
def isWire : Deck.Card → Bool | .tw _ => true | _ => false
def isSource : Deck.Card → Bool | .ex .. => true | _ => false
def isWave : Deck.Card → Bool | .pw .. => true | _ => false

/-- The other cards: declarations of media, boundaries, wire types and waveforms. -/
def isDeclaration : Deck.Card → Bool | .mt .. | .bt .. | .wt _ | .wf _ => true | _ => false

/-- Two lists of cards have the same declarations, in any order, and the same blocks, surfaces, wires, sources and plane waves,
each kind in the same order. Cards of different kinds may be mixed in any way, and `OP` cards are free. -/
structure SameByKind (l l' : List Deck.Card) : Prop where
  declarations : ∀ x, isDeclaration x = true → (x ∈ l ↔ x ∈ l')
  blocks : l.filter isBlock = l'.filter isBlock
  surfaces : l.filter isSurface = l'.filter isSurface
  wires : l.filter isWire = l'.filter isWire
  sources : l.filter isSource = l'.filter isSource
  waves : l.filter isWave = l'.filter isWave

end Vulture.Spec
