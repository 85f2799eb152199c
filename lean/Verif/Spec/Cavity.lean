import Verif.Model.Setup
import Verif.Spec.Deck
import Verif.Spec.Reaction
/-
A closed cavity as a user describes it in a mesh file.
-/
namespace Vulture.Spec
open Setup

/-- The physical constants are consistent. -/
structure Physical (k : Consts) : Prop where
  c0 : 0 < k.c0
  mu0 : 0 < k.mu0
  eps0 : k.eps0 = 1 / (k.mu0 * k.c0 * k.c0)

/-- Tags of sources that add an electric or magnetic current to the fields: densities, surface densities, currents, current
moments. -/
def currentTags : List String :=
  ["JX", "JY", "JZ", "JMX", "JMY", "JMZ",
   "JSXY", "JSYZ", "JSZX", "JSXZ", "JSYX", "JSZY", "JMSXY", "JMSYZ", "JMSZX", "JMSXZ", "JMSYX", "JMSZY",
   "IX", "IY", "IZ", "IMX", "IMY", "IMZ", "IDX", "IDY", "IDZ", "IMDX", "IMDY", "IMDZ"]

/-- Tags of sources with a resistance: voltage source in series, current source in parallel. -/
def lumpedTags : List String := ["VRX", "VRY", "VRZ", "IGX", "IGY", "IGZ"]

/-- A box that stays away from the sides of the mesh, except that a line may end on them. -/
def EndsOnWalls (n : Axis → Int) (b : BBox) : Prop :=
  ∀ a : Axis, (0 < b a.lo ∧ b a.hi < n a) ∨ ∀ d : Axis, d ≠ a → b d.lo = b d.hi

/-- A cavity: six perfectly conducting sides, media of type `SIMPLE` with numbers in the documented ranges, no impedance
sheets, no plane waves; sources that add currents, and sources with a resistance of more than 10 mΩ that do not lie in a
side; mesh lines in increasing order, with distances the program can represent; a positive Courant number. -/
structure Cavity (k : Consts) (X : Experiment) : Prop where
  walls : ∀ f, X.file.bt f = .pec
  media : ∀ n m, Deck.Card.mt n m ∈ X.file.cards → ∃ e s u : ℝ, m = .simple e s u ∧ 1 ≤ e ∧ 0 ≤ s ∧ 1 ≤ u
  sheets : ∀ n pr, Deck.Card.bt n (.sibc pr) ∉ X.file.cards
  waves : ∀ c d, Deck.Card.pw c d ∉ X.file.cards
  sources : ∀ q b n (tag : List Char) w size delay resist, Deck.Card.ex q b n tag w size delay resist ∈ X.file.cards →
    (∃ t ∈ currentTags, tag = t.toList) ∨
    (∃ t ∈ lumpedTags, tag = t.toList) ∧ 1 / 100 < resist ∧ EndsOnWalls (cellsOf X.file) b
  increasing : ∀ a i, 0 ≤ i → i < cellsOf X.file a → X.lines a i < X.lines a (i + 1)
  representable : ∀ a i, 0 ≤ i → i < cellsOf X.file a → X.lines a (i + 1) - X.lines a i < k.big
  courant : 0 < X.cn

end Vulture.Spec
