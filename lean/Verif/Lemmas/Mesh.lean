import Verif.Spec.MeshFile
/- Helper lemmas for C01/C02. -/
namespace Vulture.Mesh
open Spec

theorem beq_dec (a b : Card) : (a == b) = decide (a = b) := rfl

theorem valid_eq (c : Card) (s : Nat) (h : s < 4) :
    isValidInSection s c = some (sectionOf c == s) := by
  have h4 : s = 0 ∨ s = 1 ∨ s = 2 ∨ s = 3 := by omega
  rcases h4 with rfl | rfl | rfl | rfl <;> cases c <;> rfl

theorem valid_out (c : Card) (s : Nat) (h : 4 ≤ s) : isValidInSection s c = none := by
  unfold isValidInSection
  have : isValidInSectionTable[s]? = none := by
    apply List.getElem?_eq_none
    simpa [isValidInSectionTable] using h
  simp [this]

theorem singleton_eq (c : Card) : isSingleton c = onceOnly c := by cases c <;> rfl
theorem end_eq (c : Card) : isEndOfSection c = terminator c := by cases c <;> rfl
theorem required_eq (c : Card) : isRequired c =
    (c == .VM || c == .DM || c == .GS || c == .GE || c == .NT || c == .EN) := by cases c <;> rfl

/-- Current section as a function of the cards read. -/
def secOf (l : List Card) : Nat :=
  if Card.EN ∈ l then 4 else if Card.GE ∈ l then 3 else if Card.GS ∈ l then 2
  else if Card.VM ∈ l then 1 else 0

/-- `found` flags as a function of the cards read. -/
def foundOf (l : List Card) (c : Card) : Bool :=
  decide (c ∈ l) ||
  (c == .MS && (decide (Card.XL ∈ l) || decide (Card.YL ∈ l) || decide (Card.ZL ∈ l))) ||
  ((c == .XL || c == .YL || c == .ZL) && decide (Card.MS ∈ l))

/-- State as a function of the cards read. -/
def stateOf (l : List Card) : RState :=
  ⟨secOf l, foundOf l, decide (Card.EX ∈ l) || decide (Card.PW ∈ l)⟩

theorem run_append (s : RState) (l1 l2 : List (Card × Bool)) :
    run s (l1 ++ l2) = match run s l1 with
      | .ok s' => run s' l2 | .error => .error | .ub => .ub := by
  induction l1 generalizing s with
  | nil => simp [run]
  | cons p l1 ih =>
    obtain ⟨c, ok⟩ := p
    simp only [List.cons_append, run]
    cases h : step s c ok <;> simp [ih]

theorem terminator_cases (e : Card) (h : terminator e = true) :
    e = .VM ∨ e = .GS ∨ e = .GE ∨ e = .EN := by cases e <;> simp_all [terminator]

theorem ws_chain {l : List Card} (h : WellSequenced l) :
    (Card.EN ∈ l → Card.GE ∈ l) ∧ (Card.GE ∈ l → Card.GS ∈ l) ∧ (Card.GS ∈ l → Card.VM ∈ l) :=
  ⟨fun m => h.opened _ m .GE rfl (by decide), fun m => h.opened _ m .GS rfl (by decide),
   fun m => h.opened _ m .VM rfl (by decide)⟩

theorem sec_le {l : List Card} (h : WellSequenced l) {a : Card} (ha : a ∈ l) :
    sectionOf a ≤ secOf l ∧ (terminator a = true → sectionOf a < secOf l) := by
  obtain ⟨c1, c2, c3⟩ := ws_chain h
  have hV : 0 < sectionOf a → Card.VM ∈ l := h.opened a ha .VM rfl
  have hS : 1 < sectionOf a → Card.GS ∈ l := h.opened a ha .GS rfl
  have hE : 2 < sectionOf a → Card.GE ∈ l := h.opened a ha .GE rfl
  have hle : sectionOf a ≤ 3 := by cases a <;> decide
  constructor
  · unfold secOf
    clear h
    generalize sectionOf a = n at *
    by_cases e1 : Card.EN ∈ l <;> by_cases e2 : Card.GE ∈ l <;> by_cases e3 : Card.GS ∈ l <;>
      by_cases e4 : Card.VM ∈ l <;> simp_all <;> omega
  · intro ht
    unfold secOf
    rcases terminator_cases a ht with rfl | rfl | rfl | rfl <;>
      by_cases e1 : Card.EN ∈ l <;> by_cases e2 : Card.GE ∈ l <;> by_cases e3 : Card.GS ∈ l <;>
      by_cases e4 : Card.VM ∈ l <;> simp_all [sectionOf]

/-- A card may be appended (as far as order is concerned) iff it belongs to the current section. -/
theorem order_iff {l : List Card} (h : WellSequenced l) (c : Card) :
    ((∀ a ∈ l, Before a c) ∧ (∀ e, terminator e = true → sectionOf e < sectionOf c → e ∈ l))
      ↔ sectionOf c = secOf l := by
  obtain ⟨c1, c2, c3⟩ := ws_chain h
  constructor
  · rintro ⟨h1, h2⟩
    have t : ∀ e, terminator e = true → e ∈ l → sectionOf e < sectionOf c := by
      intro e he hm
      rcases h1 e hm with h | h
      · exact h
      · rw [he] at h; simp at h
    have hle : sectionOf c ≤ 3 := by cases c <;> decide
    have v1 : Card.VM ∈ l → 0 < sectionOf c := t .VM rfl
    have v2 : Card.GS ∈ l → 1 < sectionOf c := t .GS rfl
    have v3 : Card.GE ∈ l → 2 < sectionOf c := t .GE rfl
    have v4 : Card.EN ∈ l → 3 < sectionOf c := t .EN rfl
    have w1 : 0 < sectionOf c → Card.VM ∈ l := h2 .VM rfl
    have w2 : 1 < sectionOf c → Card.GS ∈ l := h2 .GS rfl
    have w3 : 2 < sectionOf c → Card.GE ∈ l := h2 .GE rfl
    unfold secOf
    clear t h1 h2 h
    generalize sectionOf c = n at *
    by_cases e1 : Card.EN ∈ l <;> by_cases e2 : Card.GE ∈ l <;> by_cases e3 : Card.GS ∈ l <;>
      by_cases e4 : Card.VM ∈ l <;> simp_all <;> omega
  · intro hc
    constructor
    · intro a ha
      have := sec_le h ha
      rw [← hc] at this
      by_cases ht : terminator a = true
      · exact Or.inl (this.2 ht)
      · rcases Nat.lt_or_ge (sectionOf a) (sectionOf c) with hl | hg
        · exact Or.inl hl
        · exact Or.inr ⟨by omega, by simpa using ht⟩
    · intro e he hlt
      rw [hc] at hlt
      unfold secOf at hlt
      rcases terminator_cases e he with rfl | rfl | rfl | rfl <;>
        by_cases e1 : Card.EN ∈ l <;> by_cases e2 : Card.GE ∈ l <;> by_cases e3 : Card.GS ∈ l <;>
        by_cases e4 : Card.VM ∈ l <;> simp_all [sectionOf]

/-- Appending one card to a well-sequenced list. -/
theorem ws_snoc (l : List Card) (c : Card) :
    WellSequenced (l ++ [c]) ↔ WellSequenced l ∧ sectionOf c = secOf l ∧
      (onceOnly c = true → c ∉ l) ∧
      (c = .MS → Card.XL ∉ l ∧ Card.YL ∉ l ∧ Card.ZL ∉ l) ∧
      (c = .XL ∨ c = .YL ∨ c = .ZL → Card.MS ∉ l) ∧
      (c = .GS → Card.DM ∈ l) ∧
      (c = .GE → Card.EX ∈ l ∨ Card.PW ∈ l) ∧
      (c = .EN → Card.NT ∈ l ∧ (Card.MS ∈ l ∨ (Card.XL ∈ l ∧ Card.YL ∈ l ∧ Card.ZL ∈ l))) := by
  constructor
  · intro h
    have hord := List.pairwise_append.1 h.order
    have hnb : ∀ a ∈ l, Before a c := fun a ha => hord.2.2 a ha c (by simp)
    have hcnt : ∀ x, onceOnly x = true → l.count x + (if c = x then 1 else 0) ≤ 1 := by
      intro x hx
      have := h.once x hx
      rw [List.count_append] at this
      simpa [List.count_cons] using this
    have hlate : ∀ t ∈ l, terminator t = true → sectionOf t < sectionOf c := by
      intro t ht htt
      rcases hnb t ht with h | h
      · exact h
      · rw [htt] at h; simp at h
    have hmem : ∀ x, x ∈ l ++ [c] ↔ x ∈ l ∨ x = c := by intro x; simp
    have hin : ∀ t x, t ∈ l → terminator t = true → sectionOf x ≤ sectionOf t →
        x ∈ l ++ [c] → x ∈ l := by
      intro t x ht htt hle hx
      rcases (hmem x).1 hx with h | h
      · exact h
      · have := hlate t ht htt; subst h; omega
    have hws : WellSequenced l :=
      { order := hord.1
        opened := by
          intro a ha e he hlt
          rcases (hmem e).1 (h.opened a ((hmem a).2 (Or.inl ha)) e he hlt) with h' | h'
          · exact h'
          · have := hnb a ha; subst h'
            rcases this with h1 | h1 <;> omega
        once := fun x hx => by have := hcnt x hx; omega
        lines := by
          intro hm
          have := h.lines ((hmem _).2 (Or.inl hm))
          simp only [hmem, not_or] at this
          exact ⟨this.1.1, this.2.1.1, this.2.2.1⟩
        control := fun hm => hin .GS .DM hm rfl (by decide) (h.control ((hmem _).2 (Or.inl hm)))
        model := fun hm => by
          rcases h.model ((hmem _).2 (Or.inl hm)) with h' | h'
          · exact Or.inl (hin .GE .EX hm rfl (by decide) h')
          · exact Or.inr (hin .GE .PW hm rfl (by decide) h')
        exec := fun hm => by
          obtain ⟨h1, h2⟩ := h.exec ((hmem _).2 (Or.inl hm))
          refine ⟨hin .EN .NT hm rfl (by decide) h1, ?_⟩
          rcases h2 with h2 | ⟨h2, h3, h4⟩
          · exact Or.inl (hin .EN .MS hm rfl (by decide) h2)
          · exact Or.inr ⟨hin .EN .XL hm rfl (by decide) h2, hin .EN .YL hm rfl (by decide) h3,
              hin .EN .ZL hm rfl (by decide) h4⟩ }
    refine ⟨hws, ?_, ?_, ?_, ?_, ?_, ?_, ?_⟩
    · refine (order_iff hws c).1 ⟨hnb, ?_⟩
      intro e he hlt
      rcases (hmem e).1 (h.opened c ((hmem c).2 (Or.inr rfl)) e he hlt) with h' | h'
      · exact h'
      · subst h'; omega
    · intro ho hc
      have h1 := hcnt c ho
      have h2 := List.count_pos_iff.2 hc
      simp at h1; omega
    · rintro rfl
      have := h.lines (by simp)
      simp only [hmem, not_or] at this
      exact ⟨this.1.1, this.2.1.1, this.2.2.1⟩
    · intro hc hm
      have := h.lines ((hmem _).2 (Or.inl hm))
      simp only [hmem, not_or] at this
      rcases hc with rfl | rfl | rfl <;> simp at this
    · rintro rfl
      have := h.control (by simp)
      simpa using this
    · rintro rfl
      have := h.model (by simp)
      simpa using this
    · rintro rfl
      have := h.exec (by simp)
      simpa using this
  · rintro ⟨hws, hsec, honce, hms, hxl, hgs, hge, hen⟩
    have ho := (order_iff hws c).2 hsec
    exact
      { order := by
          rw [List.pairwise_append]
          refine ⟨hws.order, by simp, ?_⟩
          intro a ha b hb
          simp at hb; subst hb
          exact ho.1 a ha
        opened := by
          intro a ha e he hlt
          simp only [List.mem_append, List.mem_singleton] at ha ⊢
          rcases ha with ha | rfl
          · exact Or.inl (hws.opened a ha e he hlt)
          · exact Or.inl (ho.2 e he hlt)
        once := by
          intro x hx
          rw [List.count_append]
          have := hws.once x hx
          by_cases hxc : c = x
          · subst hxc
            have := List.count_eq_zero.2 (honce hx)
            simp [this]
          · simpa [List.count_cons, hxc] using this
        lines := by
          intro hm
          simp only [List.mem_append, List.mem_singleton] at hm ⊢
          rcases hm with hm | rfl
          · have := hws.lines hm
            refine ⟨?_, ?_, ?_⟩ <;> rintro (h | rfl) <;> simp_all
          · have := hms rfl
            simp_all
        control := by
          intro hm
          simp only [List.mem_append, List.mem_singleton] at hm ⊢
          rcases hm with hm | rfl
          · exact Or.inl (hws.control hm)
          · exact Or.inl (hgs rfl)
        model := by
          intro hm
          simp only [List.mem_append, List.mem_singleton] at hm ⊢
          rcases hm with hm | rfl
          · rcases hws.model hm with h | h <;> simp [h]
          · rcases hge rfl with h | h <;> simp [h]
        exec := by
          intro hm
          simp only [List.mem_append, List.mem_singleton] at hm ⊢
          have : Card.NT ∈ l ∧ (Card.MS ∈ l ∨ (Card.XL ∈ l ∧ Card.YL ∈ l ∧ Card.ZL ∈ l)) := by
            rcases hm with hm | rfl
            · exact hws.exec hm
            · exact hen rfl
          obtain ⟨h1, h2⟩ := this
          refine ⟨Or.inl h1, ?_⟩
          rcases h2 with h2 | ⟨h2, h3, h4⟩
          · simp [h2]
          · simp [h2, h3, h4] }

theorem secOf_le (l : List Card) : secOf l ≤ 4 := by
  unfold secOf; repeat' split
  all_goals omega

theorem found_snoc (l : List Card) (c : Card) :
    foundOf (l ++ [c]) = markLines (fun x => x == c || foundOf l x) c := by
  funext x
  by_cases hc : c = .MS ∨ c = .XL ∨ c = .YL ∨ c = .ZL
  · rcases hc with rfl | rfl | rfl | rfl <;> cases x <;>
      simp [foundOf, markLines, beq_dec]
  · simp only [not_or] at hc
    obtain ⟨h1, h2, h3, h4⟩ := hc
    have hm : markLines (fun x => x == c || foundOf l x) c = fun x => x == c || foundOf l x := by
      cases c <;> simp_all [markLines]
    rw [hm]
    have e1 : ¬ Card.MS = c := fun h => h1 h.symm
    have e2 : ¬ Card.XL = c := fun h => h2 h.symm
    have e3 : ¬ Card.YL = c := fun h => h3 h.symm
    have e4 : ¬ Card.ZL = c := fun h => h4 h.symm
    by_cases hx : x = c
    · subst hx; simp [foundOf]
    · simp [foundOf, hx, e1, e2, e3, e4]

theorem sec_snoc {l : List Card} (h : WellSequenced l) (c : Card) (hs : sectionOf c = secOf l) :
    secOf (l ++ [c]) = if terminator c = true then secOf l + 1 else secOf l := by
  obtain ⟨c1, c2, c3⟩ := ws_chain h
  by_cases ht : terminator c = true
  · rcases terminator_cases c ht with rfl | rfl | rfl | rfl <;> unfold secOf at * <;>
      by_cases e1 : Card.EN ∈ l <;> by_cases e2 : Card.GE ∈ l <;> by_cases e3 : Card.GS ∈ l <;>
      by_cases e4 : Card.VM ∈ l <;> simp_all [sectionOf]
  · have e1 : ¬ Card.EN = c := by rintro rfl; exact ht rfl
    have e2 : ¬ Card.GE = c := by rintro rfl; exact ht rfl
    have e3 : ¬ Card.GS = c := by rintro rfl; exact ht rfl
    have e4 : ¬ Card.VM = c := by rintro rfl; exact ht rfl
    simp [secOf, ht, e1, e2, e3, e4]

theorem state_snoc {l : List Card} (h : WellSequenced l) (c : Card) (hs : sectionOf c = secOf l) :
    stateOf (l ++ [c]) =
      ⟨if terminator c = true then secOf l + 1 else secOf l,
       markLines (fun x => x == c || foundOf l x) c,
       (decide (Card.EX ∈ l) || decide (Card.PW ∈ l)) || c == .EX || c == .PW⟩ := by
  unfold stateOf
  rw [sec_snoc h c hs, found_snoc]
  congr 1
  by_cases a : c = .EX
  · subst a; simp
  · by_cases b : c = .PW
    · subst b; simp
    · have a' : ¬ Card.EX = c := fun h => a h.symm
      have b' : ¬ Card.PW = c := fun h => b h.symm
      simp [beq_dec, a, b, a', b']

/-- The singleton check with the coupled mesh-line flags. -/
theorem found_single (l : List Card) (c : Card) :
    (foundOf l c && onceOnly c) = false ↔
      (onceOnly c = true → c ∉ l) ∧
      (c = .MS → Card.XL ∉ l ∧ Card.YL ∉ l ∧ Card.ZL ∉ l) ∧
      (c = .XL ∨ c = .YL ∨ c = .ZL → Card.MS ∉ l) := by
  cases c <;> simp [foundOf, onceOnly, and_assoc]

/-- The acceptance test of one card, in terms of the list read so far. -/
theorem step_stateOf {l : List Card} (h : WellSequenced l) (c : Card) (ok : Bool) (s : RState) :
    step (stateOf l) c ok = .ok s ↔
      (hasHandler c = true → ok = true) ∧ WellSequenced (l ++ [c]) ∧ s = stateOf (l ++ [c]) := by
  rw [ws_snoc]
  obtain ⟨c1, c2, c3⟩ := ws_chain h
  by_cases h4 : secOf l < 4
  · have hEN : Card.EN ∉ l := by
      intro hm; unfold secOf at h4; simp [hm] at h4
    unfold step
    have hv : isValidInSection (stateOf l).sec c = some (sectionOf c == secOf l) :=
      valid_eq c _ h4
    rw [hv]
    by_cases hs : sectionOf c = secOf l
    · have hb : (sectionOf c == secOf l) = true := by simp [hs]
      have hst := state_snoc h c hs
      have hfs := found_single l c
      simp only [hb, singleton_eq, end_eq]
      rw [hst]
      simp only [stateOf]
      by_cases hsing : (foundOf l c && onceOnly c) = true
      · simp only [hsing, if_true]
        constructor
        · intro h; cases h
        · rintro ⟨_, ⟨_, _, k1, k2, k3, _⟩, _⟩
          have := hfs.2 ⟨k1, k2, k3⟩
          rw [this] at hsing; cases hsing
      · have hsing' : (foundOf l c && onceOnly c) = false := by simpa using hsing
        obtain ⟨k1, k2, k3⟩ := hfs.1 hsing'
        simp only [hsing', Bool.false_eq_true, if_false]
        by_cases hh : (hasHandler c && !ok) = true
        · simp only [hh, if_true]
          constructor
          · intro h; cases h
          · rintro ⟨k, _⟩
            simp at hh
            have := k hh.1
            rw [hh.2] at this; cases this
        · have hh' : (hasHandler c && !ok) = false := by simpa using hh
          simp only [hh', Bool.false_eq_true, if_false]
          have hok : hasHandler c = true → ok = true := by
            intro k; simp [k] at hh; exact hh
          by_cases ht : terminator c = true
          · rcases terminator_cases c ht with rfl | rfl | rfl | rfl
            · -- VM
              have : secOf l = 0 := hs.symm
              simp [terminator, markLines, this, sectionCards, required_eq, h, onceOnly,
                sectionOf, eq_comm (a := s)] at *
              exact ⟨fun h => ⟨hok, k1, h⟩, fun h => h.2.2⟩
            · -- GS
              have : secOf l = 1 := hs.symm
              have e : secOf l = 1 → Card.VM ∈ l := by
                unfold secOf; by_cases e1 : Card.GS ∈ l <;> by_cases e4 : Card.VM ∈ l <;>
                by_cases e5 : Card.GE ∈ l <;> simp_all
              by_cases hd : Card.DM ∈ l <;>
              simp_all [terminator, markLines, sectionCards, required_eq, onceOnly,
                sectionOf, foundOf, eq_comm (a := s)]
            · have : secOf l = 2 := hs.symm
              by_cases hd : Card.EX ∈ l <;> by_cases hd2 : Card.PW ∈ l <;>
              simp_all [terminator, markLines, sectionCards, required_eq, onceOnly,
                sectionOf, foundOf, eq_comm (a := s)]
            · have : secOf l = 3 := hs.symm
              by_cases d1 : Card.NT ∈ l <;> by_cases d2 : Card.MS ∈ l <;>
              by_cases d3 : Card.XL ∈ l <;> by_cases d4 : Card.YL ∈ l <;>
              by_cases d5 : Card.ZL ∈ l <;>
              simp_all [terminator, markLines, sectionCards, required_eq, onceOnly,
                sectionOf, foundOf, eq_comm (a := s)]
          · have n1 : ¬ c = .GE := by rintro rfl; exact ht rfl
            have n2 : ¬ c = .EN := by rintro rfl; exact ht rfl
            have n3 : ¬ c = .GS := by rintro rfl; exact ht rfl
            have m1 : (c == Card.GE) = false := by simp [n1]
            have m2 : (c == Card.EN) = false := by simp [n2]
            simp only [m1, m2, Bool.false_and, ht, if_false]
            simp only [Bool.false_eq_true, if_false, n1, n2, n3]
            constructor
            · intro k
              refine ⟨hok, ⟨h, hs, k1, k2, k3, by simp⟩, ?_⟩
              injection k with k; exact k.symm
            · rintro ⟨_, _, k⟩
              rw [k]
    · have hb : (sectionOf c == secOf l) = false := by simp [hs]
      simp only [hb]
      constructor
      · intro h; cases h
      · rintro ⟨_, ⟨_, h, _⟩, _⟩; exact absurd h hs
  · have : secOf l = 4 := by have := secOf_le l; omega
    unfold step
    have hv : isValidInSection (stateOf l).sec c = none := valid_out c _ (by simp [stateOf, this])
    rw [hv]
    constructor
    · intro h; cases h
    · rintro ⟨_, ⟨_, h, _⟩, _⟩
      have : sectionOf c ≤ 3 := by cases c <;> decide
      omega

theorem ws_nil : WellSequenced [] := by
  constructor <;> simp

theorem stateOf_nil : stateOf [] = RState.init := by
  unfold stateOf RState.init
  congr 1
  · funext c; cases c <;> rfl

/-- Snoc induction (core-only). -/
theorem snoc_ind {α : Type} {P : List α → Prop} (h0 : P []) (h1 : ∀ l a, P l → P (l ++ [a])) :
    ∀ l, P l := by
  intro l
  have : ∀ r : List α, P r.reverse := by
    intro r
    induction r with
    | nil => exact h0
    | cons a r ih => rw [List.reverse_cons]; exact h1 _ _ ih
  have := this l.reverse
  rwa [List.reverse_reverse] at this

/-- Exact characterisation of the reader's accepting runs. -/
theorem run_ok_iff (l : List (Card × Bool)) (s : RState) :
    run RState.init l = .ok s ↔
      (∀ p ∈ l, hasHandler p.1 = true → p.2 = true) ∧ WellSequenced (l.map Prod.fst) ∧
      s = stateOf (l.map Prod.fst) := by
  revert s
  refine snoc_ind (P := fun l => ∀ s, run RState.init l = .ok s ↔
      (∀ p ∈ l, hasHandler p.1 = true → p.2 = true) ∧ WellSequenced (l.map Prod.fst) ∧
      s = stateOf (l.map Prod.fst)) ?_ ?_ l
  · intro s
    simp only [run, List.map_nil, stateOf_nil]
    constructor
    · intro h; injection h with h; exact ⟨by simp, ws_nil, h.symm⟩
    · rintro ⟨_, _, h⟩; rw [h]
  · intro l p ih s
    obtain ⟨c, ok⟩ := p
    rw [run_append]
    constructor
    · intro h
      cases hr : run RState.init l with
      | ok s' =>
        rw [hr] at h
        obtain ⟨a1, a2, a3⟩ := (ih s').1 hr
        subst a3
        simp only [run] at h
        cases hst : step (stateOf (l.map Prod.fst)) c ok with
        | ok s'' =>
          rw [hst] at h
          simp only at h
          injection h with h
          subst h
          obtain ⟨b1, b2, b3⟩ := (step_stateOf a2 c ok s'').1 hst
          refine ⟨?_, by simpa using b2, by simpa using b3⟩
          intro q hq
          simp only [List.mem_append, List.mem_singleton] at hq
          rcases hq with hq | rfl
          · exact a1 q hq
          · exact b1
        | error => rw [hst] at h; cases h
        | ub => rw [hst] at h; cases h
      | error => rw [hr] at h; cases h
      | ub => rw [hr] at h; cases h
    · rintro ⟨a1, a2, a3⟩
      simp only [List.map_append, List.map_cons, List.map_nil] at a2 a3
      have hw : WellSequenced (l.map Prod.fst) := ((ws_snoc _ _).1 a2).1
      have hr := (ih (stateOf (l.map Prod.fst))).2
        ⟨fun q hq => a1 q (List.mem_append_left _ hq), hw, rfl⟩
      rw [hr]
      simp only [run]
      have := (step_stateOf hw c ok s).2 ⟨a1 (c, ok) (by simp), a2, a3⟩
      rw [this]

end Vulture.Mesh
