import Verif.Model.Setup
import Verif.Spec.Media
import Verif.Spec.Deck
import Verif.Spec.Cavity
import Verif.Props.C06_FaceMask
/-
What the cards of a mesh file say each sample of the mesh is made of. Samples are named by mesh indices, i.e. by the
coordinates the user writes on the cards.
-/
namespace Vulture.Spec
open Setup Deck

/-- What a sample is made of. -/
inductive Stuff
  | vacuum
  | metal
  | matter (eps sigma mu : ℝ)
  | dispersive (eps sigma mu : ℝ) (poles : List DPole)

/-- The difference equations of a material with relative permittivity `e` (`D`: further instantaneous permittivity),
conductivity `s` and relative permeability `u`: a new electric field value is `alpha` times the old one plus `beta` times
the driving term (curl of H less currents) and obeys Ampere's law centred in time; a magnetic field changes by `gamma`
times the driving term and obeys Faraday's law. -/
def Law (k : Consts) (T e D s u alpha beta gamma : ℝ) : Prop :=
  (∀ E curl : ℝ, (e * k.eps0 + D) * ((alpha * E + beta * curl) - E) / T + s * ((alpha * E + beta * curl) + E) / 2 = curl) ∧
  ∀ curl : ℝ, u * k.mu0 * (gamma * curl) / T = curl

/-- The coefficients of a sample make it behave like the material. In metal no field arises, whatever drives it; numbers of
a material must be in the documented ranges. -/
def Behaves (k : Consts) (T : ℝ) (alpha beta gamma : ℝ) : Stuff → Prop
  | .vacuum => Law k T 1 0 0 1 alpha beta gamma
  | .metal => (∀ curl : ℝ, alpha * 0 + beta * curl = 0) ∧ ∀ curl : ℝ, k.mu0 * (gamma * curl) / T = curl
  | .matter e s u => 1 ≤ e → 0 ≤ s → 1 ≤ u → Law k T e 0 s u alpha beta gamma
  | .dispersive e s u poles =>
    let D := T * (poles.map fun q => (k.eps0 * q.res / (1 - T / 2 * q.pole) : ℂ).re).sum
    1 ≤ e → 0 ≤ s → 1 ≤ u → 0 ≤ D → Law k T e D s u alpha beta gamma

/-- The material of a medium. -/
def ofMed : Med → Stuff
  | .free => .vacuum
  | .pec => .metal
  | .simple e s u => .matter e s u
  | .debye e s u poles => .dispersive e s u poles

/-- The media of a file: two predefined ones and those of the `MT` cards. -/
inductive MediumNamed (cards : List Deck.Card) : String → Med → Prop
  | free : MediumNamed cards "FREE_SPACE" .free
  | pec : MediumNamed cards "PEC" .pec
  | card {n m} : Deck.Card.mt n m ∈ cards → MediumNamed cards n m

/-- The boundaries of a file: three predefined ones and those of the `BT` cards. -/
inductive BoundaryNamed (cards : List Deck.Card) : String → Bnd → Prop
  | pec : BoundaryNamed cards "PEC" .pec
  | pmc : BoundaryNamed cards "PMC" .plain
  | free : BoundaryNamed cards "FREE_SPACE" .free
  | card {n b} : Deck.Card.bt n b ∈ cards → BoundaryNamed cards n b

/-- Number of a face in the mask token, from the right. -/
def maskPlace : Face → Nat | .xlo => 5 | .xhi => 4 | .ylo => 3 | .yhi => 2 | .zlo => 1 | .zhi => 0

/-- The faces a block card includes: the binary numeral on the card has a 1 at the place of the face. -/
def Includes (c : MBCard) (mask : Face → Bool) : Prop :=
  ∃ v : Nat, C06.IsMaskNumeral c.mask v ∧ ∀ f, mask f = v.testBit (maskPlace f)

/-- All faces belong to the item. -/
def wholeBox : Face → Bool := fun _ => true

/-- The last element of a list with a property. -/
def LastAmong {α : Type*} (l : List α) (p : α → Prop) (x : α) : Prop :=
  ∃ pre post, l = pre ++ x :: post ∧ p x ∧ ∀ y ∈ post, ¬ p y

/-- Size of a cell of the mesh along an axis; outside the mesh that of the first or last cell. -/
noncomputable def cellLength (X : Experiment) (a : Axis) (m : Int) : ℝ :=
  let i := max 0 (min (cellsOf X.file a - 1) m)
  X.lines a (i + 1) - X.lines a i

/-- Length of a box along an axis. -/
noncomputable def boxLength (X : Experiment) (b : BBox) (d : Axis) : ℝ := X.lines d (b d.hi) - X.lines d (b d.lo)

/-- Width of a box across the current: half a cell more on each side than the outermost edges. -/
noncomputable def boxWidth (X : Experiment) (b : BBox) (a : Axis) : ℝ :=
  ∑ i ∈ Finset.Icc (b a.lo) (b a.hi), (cellLength X a (i - 1) + cellLength X a i) / 2

/-- The direction of a lumped source. -/
def lumpedAxis : List Char → Option Axis
  | ['V', 'R', 'X'] | ['I', 'G', 'X'] => some .x
  | ['V', 'R', 'Y'] | ['I', 'G', 'Y'] => some .y
  | ['V', 'R', 'Z'] | ['I', 'G', 'Z'] => some .z
  | _ => none

section
variable (X : Experiment) (fc : Fc) (i j k : Int)

/-- The mesh. -/
def meshBox : BBox := mkBox 0 X.file.nx 0 X.file.ny 0 X.file.nz

/-- A block card that contains the sample and what it is made of. -/
def BlockOf (x : Deck.Card) (s : Stuff) : Prop := ∃ c mask m, x = .mb c ∧ Includes c mask ∧ Contains c.bbox mask fc i j k ∧
  MediumNamed X.file.cards c.medium m ∧ s = ofMed m

/-- A wire card that contains the sample: metal unless its type is the predefined `FREE_SPACE`. -/
def WireOf (x : Deck.Card) (s : Stuff) : Prop := ∃ c, x = .tw c ∧ Contains c.bbox wholeBox fc i j k ∧
  s = if c.wire = "FREE_SPACE" then .vacuum else .metal

/-- A surface card that contains the sample and is not of a type that only makes sense as an outer boundary: metal for
`PEC` and under impedance sheets, vacuum for `FREE_SPACE`. -/
def PlateOf (x : Deck.Card) (s : Stuff) : Prop := ∃ c b, x = .tb c ∧ Contains c.bbox wholeBox fc i j k ∧
  BoundaryNamed X.file.cards c.boundary b ∧
  ((b = .free ∧ s = .vacuum) ∨ ((b = .pec ∨ ∃ pr, b = .sibc pr) ∧ s = .metal))

/-- A lumped source that contains the sample: the conductivity that gives its box the resistance of the card, metal if the
resistance is 10 mΩ or less. -/
def ResistorOf (x : Deck.Card) (s : Stuff) : Prop := ∃ q b n tag w size delay r d, x = .ex q b n tag w size delay r ∧
  lumpedAxis tag = some d ∧ Contains b wholeBox fc i j k ∧
  s = if 1 / 100 < r then .matter 1 (boxLength X b d / (boxWidth X b d.next * boxWidth X b d.next.next * r)) 1 else .metal

/-- The sample lies in a perfectly conducting side of the mesh. -/
def OnPecSide : Prop := ∃ f, X.file.bt f = .pec ∧ OnPlane (meshBox X) f fc i j k

/-- The file says what the sample is made of: a lumped source if there is one (the last of them), else the side of the mesh,
else the last surface, else the last wire, else the last block, else vacuum. -/
inductive MadeOf : Stuff → Prop
  | resistor {x s} : LastAmong X.file.cards (fun x => ∃ s, ResistorOf X fc i j k x s) x → ResistorOf X fc i j k x s → MadeOf s
  | side : (∀ x ∈ X.file.cards, ∀ s, ¬ ResistorOf X fc i j k x s) → OnPecSide X fc i j k → MadeOf .metal
  | plate {x s} : (∀ x ∈ X.file.cards, ∀ s, ¬ ResistorOf X fc i j k x s) → ¬ OnPecSide X fc i j k →
      LastAmong X.file.cards (fun x => ∃ s, PlateOf X fc i j k x s) x → PlateOf X fc i j k x s → MadeOf s
  | wire {x s} : (∀ x ∈ X.file.cards, ∀ s, ¬ ResistorOf X fc i j k x s) → ¬ OnPecSide X fc i j k →
      (∀ x ∈ X.file.cards, ∀ s, ¬ PlateOf X fc i j k x s) →
      LastAmong X.file.cards (fun x => ∃ s, WireOf fc i j k x s) x → WireOf fc i j k x s → MadeOf s
  | block {x s} : (∀ x ∈ X.file.cards, ∀ s, ¬ ResistorOf X fc i j k x s) → ¬ OnPecSide X fc i j k →
      (∀ x ∈ X.file.cards, ∀ s, ¬ PlateOf X fc i j k x s) → (∀ x ∈ X.file.cards, ∀ s, ¬ WireOf fc i j k x s) →
      LastAmong X.file.cards (fun x => ∃ s, BlockOf X fc i j k x s) x → BlockOf X fc i j k x s → MadeOf s
  | vacuum : (∀ x ∈ X.file.cards, ∀ s, ¬ ResistorOf X fc i j k x s) → ¬ OnPecSide X fc i j k →
      (∀ x ∈ X.file.cards, ∀ s, ¬ PlateOf X fc i j k x s) → (∀ x ∈ X.file.cards, ∀ s, ¬ WireOf fc i j k x s) →
      (∀ x ∈ X.file.cards, ∀ s, ¬ BlockOf X fc i j k x s) → MadeOf .vacuum

end

/-- Tags of sources that impose an electric field, and its direction. -/
def fieldAxis : List Char → Option Axis
  | ['E', 'X'] | ['=', 'E', 'X'] | ['V', 'X'] | ['=', 'V', 'X'] => some .x
  | ['E', 'Y'] | ['=', 'E', 'Y'] | ['V', 'Y'] | ['=', 'V', 'Y'] => some .y
  | ['E', 'Z'] | ['=', 'E', 'Z'] | ['V', 'Z'] | ['=', 'V', 'Z'] => some .z
  | _ => none

/-- A source card that imposes the electric field at a sample: a field or voltage source, or a lumped source without
resistance. -/
def Imposes (fc : Fc) (i j k : Int) (x : Deck.Card) : Prop := ∃ q b n tag w size delay r d, x = .ex q b n tag w size delay r ∧
  fc = d.e ∧ Contains b wholeBox fc i j k ∧ (fieldAxis tag = some d ∨ lumpedAxis tag = some d ∧ r ≤ 1 / 100)

/-- Block cards as they occur: at most eight tokens are read, and no block is made of one of the media that lumped sources
reserve for themselves (`__VR_RS_1__` and so on). -/
def OrdinaryBlocks (cards : List Deck.Card) : Prop :=
  ∀ c, Deck.Card.mb c ∈ cards → c.numScanned ≤ 8 ∧ ∀ q, c.medium ≠ String.ofList (Names.resistName q)

end Vulture.Spec
