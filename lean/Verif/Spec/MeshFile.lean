import Verif.Model.Mesh
/-
What a well-sequenced mesh file is, in terms of the user manual's card tables
(doc/UserManual/UserManual.tex:299-430): sections, terminators, multiplicities.
Uses only the type `Card`.
-/
namespace Vulture.Spec
open Mesh (Card)

/-- Section of a card: 0 header, 1 control, 2 model, 3 execution. -/
def sectionOf : Card → Nat
  | .VM => 0
  | .CE | .DM | .BR | .BE | .GS => 1
  | .MT | .BT | .WT | .MB | .TB | .TW | .WF | .EX | .PW | .OP | .FF | .GE => 2
  | .NT | .OT | .OF | .CN | .MS | .XL | .YL | .ZL | .EN => 3

/-- Card that closes a section. -/
def terminator : Card → Bool
  | .VM | .GS | .GE | .EN => true
  | _ => false

/-- Cards that may occur once only. -/
def onceOnly : Card → Bool
  | .VM | .DM | .BR | .BE | .GS | .GE
  | .NT | .OT | .OF | .CN | .MS | .XL | .YL | .ZL | .EN => true
  | _ => false

/-- `a` may stand before `b`: earlier section, or the same section not yet closed. -/
def Before (a b : Card) : Prop :=
  sectionOf a < sectionOf b ∨ (sectionOf a = sectionOf b ∧ terminator a = false)

/-- A (possibly incomplete) well-sequenced card list. -/
structure WellSequenced (l : List Card) : Prop where
  /-- section order, nothing after the terminator of a section -/
  order : l.Pairwise Before
  /-- a section is entered only after the earlier ones were closed -/
  opened : ∀ c ∈ l, ∀ e, terminator e = true → sectionOf e < sectionOf c → e ∈ l
  /-- multiplicities -/
  once : ∀ c, onceOnly c = true → l.count c ≤ 1
  /-- mesh lines are given in one way only -/
  lines : Card.MS ∈ l → Card.XL ∉ l ∧ Card.YL ∉ l ∧ Card.ZL ∉ l
  /-- compulsory cards, required when the section is closed -/
  control : Card.GS ∈ l → Card.DM ∈ l
  model : Card.GE ∈ l → Card.EX ∈ l ∨ Card.PW ∈ l
  exec : Card.EN ∈ l → Card.NT ∈ l ∧
    (Card.MS ∈ l ∨ (Card.XL ∈ l ∧ Card.YL ∈ l ∧ Card.ZL ∈ l))

/-- A complete mesh file. -/
def Complete (l : List Card) : Prop := WellSequenced l ∧ Card.EN ∈ l

end Vulture.Spec
