import Verif.Lemmas.Mesh
/-
C01: accepted mesh files are well-sequenced.
C02: truncated mesh files (violated; partial), cards after EN (violated).
A file is a list of recognised cards, each with the result of its own parser.
-/
namespace Vulture.C01
open Mesh Spec

theorem readMesh_ok_iff (l : List (Card × Bool)) :
    readMesh l = .ok () ↔
      WellSequenced (l.map Prod.fst) ∧ ∀ p ∈ l, hasHandler p.1 = true → p.2 = true := by
  constructor
  · intro h
    unfold readMesh at h
    cases hr : run RState.init l with
    | ok s => have := (run_ok_iff l s).1 hr; exact ⟨this.2.1, this.1⟩
    | error => rw [hr] at h; cases h
    | ub => rw [hr] at h; cases h
  · rintro ⟨h1, h2⟩
    unfold readMesh
    rw [(run_ok_iff l _).2 ⟨h2, h1, rfl⟩]

/-- C01: a file read without an error is well-sequenced. -/
theorem accepted_wellSequenced (l : List (Card × Bool)) (h : readMesh l = .ok ()) :
    WellSequenced (l.map Prod.fst) := ((readMesh_ok_iff l).1 h).1

/-- C01: a well-sequenced file whose cards parse is never rejected. -/
theorem wellSequenced_accepted (l : List (Card × Bool)) (h : WellSequenced (l.map Prod.fst))
    (hok : ∀ p ∈ l, p.2 = true) : readMesh l = .ok () :=
  (readMesh_ok_iff l).2 ⟨h, fun p hp _ => hok p hp⟩

/-- C01: every card except the three that carry no fields (GS, GE, EN) must have fields its own parser
accepts; one bad card is enough to reject the file. -/
theorem bad_card_rejected (l : List (Card × Bool)) (c : Card) (h : (c, false) ∈ l)
    (hc : c ≠ .GS ∧ c ≠ .GE ∧ c ≠ .EN) : readMesh l ≠ .ok () := by
  intro hr
  have := ((readMesh_ok_iff l).1 hr).2 _ h
  revert this hc
  cases c <;> decide

/-- The three cards without fields are never rejected for the rest of their line. -/
theorem marker_cards (l : List (Card × Bool)) (hl : WellSequenced (l.map Prod.fst))
    (h : ∀ p ∈ l, p.1 ≠ .GS → p.1 ≠ .GE → p.1 ≠ .EN → p.2 = true) : readMesh l = .ok () := by
  refine (readMesh_ok_iff l).2 ⟨hl, fun p hp hh => h p hp ?_ ?_ ?_⟩ <;>
    (intro e; rw [e] at hh; revert hh; decide)

/-- C01: once EN has been read everything compulsory has been seen, in spelled-out form. -/
theorem accepted_complete (l : List (Card × Bool)) (h : readMesh l = .ok ())
    (hEN : Card.EN ∈ l.map Prod.fst) :
    (∀ c ∈ [Card.VM, .DM, .GS, .GE, .NT, .EN], (l.map Prod.fst).count c = 1) ∧
    (Card.EX ∈ l.map Prod.fst ∨ Card.PW ∈ l.map Prod.fst) ∧
    ((Card.MS ∈ l.map Prod.fst ∧ Card.XL ∉ l.map Prod.fst ∧ Card.YL ∉ l.map Prod.fst ∧
        Card.ZL ∉ l.map Prod.fst) ∨
     (Card.MS ∉ l.map Prod.fst ∧ Card.XL ∈ l.map Prod.fst ∧ Card.YL ∈ l.map Prod.fst ∧
        Card.ZL ∈ l.map Prod.fst)) ∧
    (l.map Prod.fst).getLast? = some .EN := by
  have hw := accepted_wellSequenced l h
  generalize l.map Prod.fst = m at *
  have hGE := hw.opened _ hEN .GE rfl (by decide)
  have hGS := hw.opened _ hEN .GS rfl (by decide)
  have hVM := hw.opened _ hEN .VM rfl (by decide)
  have hDM := hw.control hGS
  have hex := hw.exec hEN
  refine ⟨?_, hw.model hGE, ?_, ?_⟩
  · intro c hc
    have hin : c ∈ m ∧ onceOnly c = true := by
      simp only [List.mem_cons, List.not_mem_nil, or_false] at hc
      rcases hc with rfl | rfl | rfl | rfl | rfl | rfl <;>
        first | exact ⟨by assumption, rfl⟩ | exact ⟨hex.1, rfl⟩
    have h1 := hw.once c hin.2
    have h2 := List.count_pos_iff.2 hin.1
    omega
  · rcases hex.2 with hm | ⟨x, y, z⟩
    · exact Or.inl ⟨hm, hw.lines hm⟩
    · refine Or.inr ⟨?_, x, y, z⟩
      intro hm; exact (hw.lines hm).1 x
  · obtain ⟨a, b, rfl⟩ := List.append_of_mem hEN
    cases b with
    | nil => simp
    | cons c b =>
      exfalso
      have := hw.order
      rw [List.pairwise_append] at this
      have h2 := (List.pairwise_cons.1 this.2.1).1 c (by simp)
      have hle : sectionOf c ≤ 3 := by cases c <;> decide
      rcases h2 with h2 | h2
      · have : sectionOf Card.EN = 3 := rfl
        omega
      · exact absurd h2.2 (by decide)

/-- C01: an accepted EN-terminated file is exactly a complete file whose cards parse. -/
theorem accepted_complete_iff (l : List (Card × Bool)) :
    (readMesh l = .ok () ∧ Card.EN ∈ l.map Prod.fst) ↔
      Complete (l.map Prod.fst) ∧ ∀ p ∈ l, hasHandler p.1 = true → p.2 = true := by
  rw [readMesh_ok_iff]; unfold Complete
  constructor
  · rintro ⟨⟨a, b⟩, c⟩; exact ⟨⟨a, c⟩, b⟩
  · rintro ⟨⟨a, c⟩, b⟩; exact ⟨⟨a, b⟩, c⟩

/-- A small complete mesh file. -/
def sample : List (Card × Bool) :=
  [(.VM, true), (.CE, true), (.CE, true), (.DM, true), (.GS, true), (.MB, true), (.WF, true),
   (.EX, true), (.OP, true), (.GE, true), (.NT, true), (.XL, true), (.YL, true), (.ZL, true),
   (.EN, true)]

example : readMesh sample = .ok () := rfl
example : Card.EN ∈ sample.map Prod.fst := by decide
example : WellSequenced (sample.map Prod.fst) := accepted_wellSequenced sample rfl
/-- A repeated once-only card, a misplaced card, a missing source: each is an error. -/
example : readMesh [(.VM, true), (.DM, true), (.DM, true)] = .error := rfl
example : readMesh [(.VM, true), (.NT, true)] = .error := rfl
example : readMesh [(.VM, true), (.DM, true), (.GS, true), (.GE, true)] = .error := rfl
example : readMesh [(.VM, true), (.GS, true)] = .error := rfl

end Vulture.C01

namespace Vulture.C02
open Mesh Spec

/-- C02 is violated: *every* truncation of *every* accepted file is accepted, the empty file
included. -/
theorem every_truncation_accepted (l₁ l₂ : List (Card × Bool)) (h : readMesh (l₁ ++ l₂) = .ok ()) :
    readMesh l₁ = .ok () := by
  unfold readMesh at *
  rw [run_append] at h
  cases hr : run RState.init l₁ with
  | ok s => rfl
  | error => rw [hr] at h; cases h
  | ub => rw [hr] at h; cases h

/-- C02, negation with witnesses: files without EN, without GE, and the empty file are accepted. -/
theorem truncated_accepted :
    ¬ (∀ l : List (Card × Bool), Card.EN ∉ l.map Prod.fst → readMesh l ≠ .ok ()) := by
  intro h
  exact h [] (by simp) rfl

/-- C02 is violated after EN as well: any further card makes the reader index its section table out
of range. -/
theorem card_after_EN_ub (l : List (Card × Bool)) (h : readMesh l = .ok ())
    (hEN : Card.EN ∈ l.map Prod.fst) (c : Card) (ok : Bool) (rest : List (Card × Bool)) :
    readMesh (l ++ (c, ok) :: rest) = .ub := by
  obtain ⟨h1, h2⟩ := (C01.readMesh_ok_iff l).1 h
  have hr := (run_ok_iff l _).2 ⟨h2, h1, rfl⟩
  unfold readMesh
  rw [run_append, hr]
  have hs : (stateOf (l.map Prod.fst)).sec = 4 := by simp [stateOf, secOf, hEN]
  simp [run, step, hs, valid_out c 4 (by omega)]

/-- The part of C02 that holds: a file in which a later section starts although the terminator of
an earlier one is missing is not accepted. Missing: truncation at the end of the file. -/
theorem missing_terminator_rejected_partial (l : List (Card × Bool)) (c e : Card)
    (hc : c ∈ l.map Prod.fst) (he : terminator e = true) (hlt : sectionOf e < sectionOf c)
    (hmiss : e ∉ l.map Prod.fst) : readMesh l ≠ .ok () := by
  intro h
  exact hmiss ((C01.accepted_wellSequenced l h).opened c hc e he hlt)

/-- The part of C02 that holds: the reader ends in the state "all four sections closed" exactly when
the file is complete; a check of the section counter after the loop would have been enough. -/
theorem all_sections_closed_iff_complete_partial (l : List (Card × Bool)) :
    (∃ s, run RState.init l = .ok s ∧ s.sec = NUM_SECTIONS) ↔
      Complete (l.map Prod.fst) ∧ ∀ p ∈ l, hasHandler p.1 = true → p.2 = true := by
  constructor
  · rintro ⟨s, h, hs⟩
    obtain ⟨h1, h2, rfl⟩ := (run_ok_iff l s).1 h
    refine ⟨⟨h2, ?_⟩, h1⟩
    simp only [stateOf, secOf, NUM_SECTIONS] at hs
    by_cases hm : Card.EN ∈ l.map Prod.fst
    · exact hm
    · rw [if_neg hm] at hs
      repeat' split at hs
      all_goals omega
  · rintro ⟨⟨h1, h2⟩, h3⟩
    refine ⟨_, (run_ok_iff l _).2 ⟨h3, h1, rfl⟩, ?_⟩
    simp [stateOf, secOf, h2, NUM_SECTIONS]

example : readMesh (C01.sample.take 7) = .ok () := rfl
example : readMesh (C01.sample ++ [(.CE, true)]) = .ub := rfl

end Vulture.C02
