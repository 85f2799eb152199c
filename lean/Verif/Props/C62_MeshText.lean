import Verif.Lemmas.Page
import Verif.Props.C01_MeshSequence
import Verif.Props.C61_Output
/-
C62: the text of the mesh file means what it says. Any layout of any well-sequenced list of cards (Spec/Page.lean) is read
as the cards with the values written on them and the documented defaults for values left out; a run depends on the text
through that list only.
-/
set_option linter.unusedSimpArgs false
set_option linter.unusedVariables false
namespace Vulture.C62
open Vulture.Scan Vulture.Spec Vulture.Spec.Page Vulture.MeshFile Vulture.Setup
open Vulture.Mesh (isSpace Card Res RState)

/-! ### One card -/

/-- C62, cards: whatever white space separates the fields, however the numbers are spelled, and whichever optional fields are
there, the parser of a card finds what the card says. -/
theorem card_text (st : Stmt) (hok : st.Ok) {s : List Char} (hw : st.Written s) : parseText st.card s = some st.says :=
  card_reads st hok hw

/-! ### Lines -/

theorem fgets_line {raw l rest : List Char} (h : IsLine raw l rest) : fgets 1022 (raw ++ rest) = (raw, rest) := by
  obtain ⟨hn, hl, h⟩ := h
  have key : ∀ (l : List Char) (n : Nat), '\n' ∉ l → l.length < n →
      fgets n (l ++ '\n' :: rest) = (l ++ ['\n'], rest) := by
    intro l
    induction l with
    | nil => intro n _ h; cases n with
      | zero => omega
      | succ n => simp [fgets]
    | cons c t ih =>
      intro n hm hl
      cases n with
      | zero => simp at hl
      | succ n =>
        simp only [List.mem_cons, not_or] at hm
        have e := ih n hm.2 (by simpa using hl)
        simp only [List.cons_append, fgets, if_neg (fun e => hm.1 e.symm : ¬ c = '\n'), e]
  rcases h with rfl | ⟨rfl, -, rfl⟩
  · have := key l 1022 hn hl
    simpa using this
  · have key2 : ∀ (l : List Char) (n : Nat), '\n' ∉ l → l.length < n → fgets n l = (l, []) := by
      intro l
      induction l with
      | nil => intro n _ h; cases n <;> rfl
      | cons c t ih =>
        intro n hm hl
        cases n with
        | zero => simp at hl
        | succ n =>
          simp only [List.mem_cons, not_or] at hm
          have e := ih n hm.2 (by simpa using hl)
          simp only [fgets, if_neg (fun e => hm.1 e.symm : ¬ c = '\n'), e]
    simpa using key2 raw 1022 hn hl

theorem line_ne {raw l rest : List Char} (h : IsLine raw l rest) : raw ≠ [] := by
  obtain ⟨-, -, rfl | ⟨rfl, h, -⟩⟩ := h
  · simp
  · exact h

theorem cardType_letters (c : Card) (text : List Char) : Mesh.getCardType (letters c ++ text) = some c := by
  cases c <;> rfl

theorem letters_length (c : Card) : (letters c).length = 2 := by cases c <;> rfl

theorem cardLine_read {c : Card} {text raw rest : List Char} (h : CardLine c text raw rest) (front : Bool) :
    fgets 1022 (raw ++ rest) = (raw, rest) ∧ lineCard front raw = .ok (some (c, text)) ∧ raw ≠ [] := by
  obtain ⟨l, hl, hp, h0⟩ := h
  have hne : letters c ++ text ≠ [] := by
    intro e
    have := congrArg List.length e
    simp [letters_length] at this
  refine ⟨fgets_line hl, ?_, line_ne hl⟩
  have e1 := C03.padding_inert _ _ hp hne h0
  have e2 : Mesh.processLine (letters c ++ text) = .ok (some (c, text)) := by
    have r : Mesh.removeComments (letters c ++ text) = letters c ++ text := by
      have := C03.removeComments_eq (letters c ++ text) [] hp.clean (Or.inl rfl); simpa using this
    have t := C03.strtrim_padded [] (letters c ++ text) [] (by simp) (by simp) hne
      (fun c t e => (C03.isSpace_false c).2 (hp.front c t e)) (fun c t e => (C03.isSpace_false c).2 (hp.back c t e)) h0
    simp only [List.nil_append, List.append_nil] at t
    unfold Mesh.processLine
    rw [r, t]
    simp only [if_neg hne, cardType_letters]
    have : (letters c ++ text).drop 2 = text := by
      rw [← letters_length c, List.drop_left]
    rw [this]
  unfold lineCard
  rw [e1, e2]

theorem emptyLine_read {blank : Bool} {raw rest : List Char} (h : EmptyLine blank raw rest) :
    fgets 1022 (raw ++ rest) = (raw, rest) ∧ lineCard blank raw = .ok none ∧ raw ≠ [] := by
  obtain ⟨l, hl, h⟩ := h
  refine ⟨fgets_line hl, ?_, line_ne hl⟩
  unfold lineCard
  rcases h with h | ⟨hb, ws, com, rfl, h0, hw, hc⟩
  · rw [C03.comment_line_inert raw (Or.inr h)]
  · rw [C03.blank_line_ub ws com h0 hw hc]
    simp [hb]

theorem readReals_writes {v : List ℚ} : ∀ {nums rest : List Char}, Writes (v.map .real) nums → Stops rest →
    readReals v.length (nums ++ rest) = some (v, rest) := by
  induction v with
  | nil => intro nums rest h _; cases h; rfl
  | cons q v ih =>
    intro nums rest h hr
    cases h with
    | @cons _ _ gap s rest' hg hs hw hr' =>
      have hst : Stops (rest' ++ rest) := by
        rcases hr' with rfl | ⟨c, r, rfl, hc⟩
        · simpa using hr
        · exact Or.inr ⟨c, r ++ rest, by simp, Or.inl hc⟩
      have e := scanReal_spells (rest := rest' ++ rest) hs hg hst
      have e2 : gap ++ (s ++ rest') ++ rest = gap ++ (s ++ (rest' ++ rest)) := by simp
      simp only [List.length_cons, readReals, e2, e, Option.bind_some]
      rw [ih hw hr]; rfl

/-! ### The whole file -/

theorem axis_ok {st : Stmt} (h : st.Ok) : axisOf st.card = none := by
  cases st
  case close c => rcases h with rfl | rfl | rfl <;> rfl
  case lines a v => exact absurd h (by simp [Stmt.Ok])
  all_goals rfl

theorem linesAfter_says (m : Axis → Nat) (st : Stmt) : linesAfter m st.says = counted m st := by
  cases st
  case source b n t w v => simp only [Stmt.says]; split <;> rfl
  case size nx ny nz => funext a; cases a <;> rfl
  all_goals rfl

/-- The outcome the card sequence decides. -/
def outcome (s : St) (doc : List Stmt) (r : Res RState) (final : Axis → Nat) : Res St :=
  match r with
  | .ok f => .ok ⟨f, final, s.out ++ doc.map Stmt.says⟩
  | .error => .error
  | .ub => .ub

theorem go_lays {blank : Bool} {m : Axis → Nat} {doc : List Stmt} {text : List Char} (h : Lays blank m doc text) :
    ∀ (s : St) (n : Nat), s.numLines = m → text.length < n → ∃ final, go blank n s text =
      outcome s doc (Mesh.run s.flags (doc.map fun st => (st.card, true))) final := by
  have stepOf : ∀ (s : St) (st : Stmt) (ss : List Stmt) (final : Axis → Nat) (s' : St) (f : RState),
      Mesh.step s.flags st.card true = .ok f → s'.flags = f → s'.out = s.out ++ [st.says] →
      outcome s' ss (Mesh.run s'.flags (ss.map fun st => (st.card, true))) final =
        outcome s (st :: ss) (Mesh.run s.flags ((st :: ss).map fun st => (st.card, true))) final := by
    intro s st ss final s' f h1 h2 h3
    simp only [List.map_cons, Mesh.run, h1, h2]
    cases Mesh.run f (ss.map fun st => (st.card, true)) with
    | ok g => simp only [outcome, h3, List.map_cons, List.append_assoc, List.singleton_append]
    | error => rfl
    | ub => rfl
  induction h with
  | nil =>
    intro s n hm hn
    refine ⟨s.numLines, ?_⟩
    cases n <;> simp [go, outcome, Mesh.run]
  | @card m st ss text raw rest hok hw hl _ ih =>
    intro s n hm hn
    obtain ⟨e1, e2, hne⟩ := cardLine_read hl blank
    obtain ⟨x, t, hxt⟩ : ∃ x t, raw ++ rest = x :: t := by
      cases raw with
      | nil => exact absurd rfl hne
      | cons x t => exact ⟨x, t ++ rest, rfl⟩
    have hlen : rest.length + 1 ≤ (raw ++ rest).length := by
      have : 0 < raw.length := List.length_pos_iff.2 hne
      simp; omega
    cases n with
    | zero => omega
    | succ n =>
      have hh : handle s.numLines st.card text rest = some (st.says, rest) := by
        unfold handle
        rw [axis_ok hok]
        simp only [card_text st hok hw, Option.map_some]
      have hgo : go blank (n + 1) s (raw ++ rest) =
          match stepLine s st.card (some (st.says, rest)) with
          | .ub => .ub
          | .error => .error
          | .ok r => go blank n r.1 r.2 := by
        rw [hxt, go, ← hxt, e1]
        simp only [e2, hh]
        rfl
      rw [hgo]
      unfold stepLine
      simp only [Option.isSome_some]
      cases hs : Mesh.step s.flags st.card true with
      | ok f =>
        simp only []
        obtain ⟨final, hf⟩ := ih ⟨f, linesAfter s.numLines st.says, s.out ++ [st.says]⟩ n
          (by rw [← hm]; exact linesAfter_says _ _) (by omega)
        refine ⟨final, ?_⟩
        rw [hf]
        exact stepOf s st ss final _ f hs rfl rfl
      | error => exact ⟨m, by simp [outcome, Mesh.run, hs]⟩
      | ub => exact ⟨m, by simp [outcome, Mesh.run, hs]⟩
  | @lines m a v ss text raw nums rest hv hl hw hr _ ih =>
    intro s n hm hn
    obtain ⟨e1, e2, hne⟩ := cardLine_read hl blank
    obtain ⟨x, t, hxt⟩ : ∃ x t, raw ++ (nums ++ rest) = x :: t := by
      cases raw with
      | nil => exact absurd rfl hne
      | cons x t => exact ⟨x, t ++ (nums ++ rest), rfl⟩
    have hlen : rest.length + 1 ≤ (raw ++ (nums ++ rest)).length := by
      have : 0 < raw.length := List.length_pos_iff.2 hne
      simp; omega
    cases n with
    | zero => omega
    | succ n =>
      have hh : handle s.numLines (Stmt.lines a v).card text (nums ++ rest) = some ((Stmt.lines a v).says, rest) := by
        have ha : axisOf (Stmt.lines a v).card = some a := by cases a <;> rfl
        unfold handle
        rw [ha]
        simp only [hm, ← hv, readReals_writes hw hr, Option.map_some]; rfl
      have hgo : go blank (n + 1) s (raw ++ (nums ++ rest)) =
          match stepLine s (Stmt.lines a v).card (some ((Stmt.lines a v).says, rest)) with
          | .ub => .ub
          | .error => .error
          | .ok r => go blank n r.1 r.2 := by
        rw [hxt, go, ← hxt, e1]
        simp only [e2, hh]
        rfl
      rw [hgo]
      unfold stepLine
      simp only [Option.isSome_some]
      cases hs : Mesh.step s.flags (Stmt.lines a v).card true with
      | ok f =>
        simp only []
        obtain ⟨final, hf⟩ := ih ⟨f, linesAfter s.numLines (Stmt.lines a v).says, s.out ++ [(Stmt.lines a v).says]⟩ n
          (by rw [← hm]; rfl) (by omega)
        refine ⟨final, ?_⟩
        rw [hf]
        exact stepOf s (Stmt.lines a v) ss final _ f hs rfl rfl
      | error => exact ⟨m, by simp [outcome, Mesh.run, hs]⟩
      | ub => exact ⟨m, by simp [outcome, Mesh.run, hs]⟩
  | @empty m ss raw rest hl _ ih =>
    intro s n hm hn
    obtain ⟨e1, e2, hne⟩ := emptyLine_read hl
    obtain ⟨x, t, hxt⟩ : ∃ x t, raw ++ rest = x :: t := by
      cases raw with
      | nil => exact absurd rfl hne
      | cons x t => exact ⟨x, t ++ rest, rfl⟩
    have hlen : rest.length + 1 ≤ (raw ++ rest).length := by
      have : 0 < raw.length := List.length_pos_iff.2 hne
      simp; omega
    cases n with
    | zero => omega
    | succ n =>
      have hgo : go blank (n + 1) s (raw ++ rest) = go blank n s rest := by
        rw [hxt, go, ← hxt, e1]
        simp only [e2]
      rw [hgo]
      exact ih s n hm (by omega)

/-- C62, files: every layout of a list of cards is read the way the list is: the same acceptance, error or undefined
behaviour as the card sequence has (C01, C02), and when accepted, what the cards say in their order. -/
theorem text_read {blank : Bool} {doc : List Stmt} {text : List Char} (h : Lays blank (fun _ => 0) doc text) :
    readMesh blank text =
      match Mesh.readMesh (doc.map fun st => (st.card, true)) with
      | .ok _ => .ok (doc.map Stmt.says)
      | .error => .error
      | .ub => .ub := by
  obtain ⟨final, e⟩ := go_lays h St.init (text.length + 1) rfl (by omega)
  unfold readMesh Mesh.readMesh
  rw [e]
  have : St.init.flags = RState.init := rfl
  rw [this]
  cases Mesh.run RState.init (doc.map fun st => (st.card, true)) with
  | ok f => simp [outcome, St.init]
  | error => rfl
  | ub => rfl

/-- C62: a well-sequenced file, however it is laid out, is read as what its cards say. -/
theorem file_reads {blank : Bool} {doc : List Stmt} {text : List Char} (h : Lays blank (fun _ => 0) doc text)
    (hs : WellSequenced (doc.map Stmt.card)) : readMesh blank text = .ok (doc.map Stmt.says) := by
  rw [text_read h, C01.wellSequenced_accepted]
  · simpa [Function.comp_def] using hs
  · intro p hp
    obtain ⟨st, -, rfl⟩ := List.mem_map.1 hp
    rfl

/-- C62: a file whose cards are out of sequence is not read, however it is laid out. -/
theorem bad_sequence_rejected {blank : Bool} {doc : List Stmt} {text : List Char} (h : Lays blank (fun _ => 0) doc text)
    (hs : ¬ WellSequenced (doc.map Stmt.card)) (l : List Raw) : readMesh blank text ≠ .ok l := by
  rw [text_read h]
  cases e : Mesh.readMesh (doc.map fun st => (st.card, true)) with
  | ok u =>
    have := C01.accepted_wellSequenced _ e
    exact absurd (by simpa [Function.comp_def] using this) hs
  | error => simp
  | ub => simp

/-- C62: two layouts of the same cards, with comments, padding, spellings of numbers as one likes, give the same run: the
same files, if any. -/
theorem layout_irrelevant {b₁ b₂ : Bool} {doc : List Stmt} {text₁ text₂ : List Char} (h₁ : Lays b₁ (fun _ => 0) doc text₁)
    (h₂ : Lays b₂ (fun _ => 0) doc text₂) (k : Consts) (J : Junk) (W : World) (files : List (String × Contents)) :
    LeavesText k J W b₁ text₁ files ↔ LeavesText k J W b₂ text₂ files := by
  unfold LeavesText
  rw [text_read h₁, text_read h₂]

/-- C62, from the text to the files: the run of a text is the run of the experiment its cards describe. -/
theorem text_leaves {blank : Bool} {doc : List Stmt} {text : List Char} (h : Lays blank (fun _ => 0) doc text)
    (hs : WellSequenced (doc.map Stmt.card)) (k : Consts) (J : Junk) (W : World) (files : List (String × Contents)) :
    LeavesText k J W blank text files ↔
      ∃ X Q, experiment k.eta0 W (doc.map Stmt.says) = some (X, Q) ∧ Leaves k J X Q files := by
  unfold LeavesText
  rw [file_reads h hs]
  constructor
  · rintro ⟨l, X, Q, hl, hx⟩
    cases hl
    exact ⟨X, Q, hx⟩
  · rintro ⟨X, Q, hx⟩
    exact ⟨_, X, Q, rfl, hx⟩

/-! ### A case -/

theorem cardLine_of {c : Card} {text com rest : List Char} (h1 : '\n' ∉ letters c ++ text ++ com)
    (h2 : (letters c ++ text ++ com).length < 1022) (h3 : '#' ∉ letters c ++ text) (h4 : '\x00' ∉ letters c ++ text)
    (h5 : com = [] ∨ ∃ t, com = '#' :: t) (h6 : ∀ x, (letters c ++ text).getLast? = some x → ¬ White x) :
    CardLine c text (letters c ++ text ++ com ++ ['\n']) rest := by
  refine ⟨_, ⟨h1, h2, Or.inl rfl⟩, ⟨?_, h3, ?_, ?_⟩, h4⟩
  · rcases h5 with rfl | ⟨t, rfl⟩
    · exact ⟨[], ['\n'], [], by simp, by simp, by simp [White], Or.inl rfl⟩
    · exact ⟨[], [], '#' :: t ++ ['\n'], by simp, by simp, by simp, Or.inr ⟨_, rfl⟩⟩
  · intro x t e
    have : x = (letters c).headI := by cases c <;> (cases e; rfl)
    subst this
    cases c <;> simp [letters, Card.tag, White, List.headI]
  · intro x t e
    exact h6 x (by rw [e]; simp)

theorem lays_card {blank : Bool} {m : Axis → Nat} {st : Stmt} {ss : List Stmt} {text com rest : List Char} (hok : st.Ok)
    (hw : st.Written text) (h1 : '\n' ∉ letters st.card ++ text ++ com)
    (h2 : (letters st.card ++ text ++ com).length < 1022) (h3 : '#' ∉ letters st.card ++ text)
    (h4 : '\x00' ∉ letters st.card ++ text) (h5 : com = [] ∨ ∃ t, com = '#' :: t)
    (h6 : ∀ x, (letters st.card ++ text).getLast? = some x → ¬ White x) (h : Lays blank (counted m st) ss rest) :
    Lays blank m (st :: ss) (letters st.card ++ text ++ com ++ ['\n'] ++ rest) :=
  .card hok hw (cardLine_of h1 h2 h3 h4 h5 h6) h

/-- A digit string without sign. -/
theorem spellsInt_of {ds : List Char} (h : ds ≠ []) (hd : ∀ c ∈ ds, '0' ≤ c ∧ c ≤ '9') : SpellsInt (value ds) ds :=
  ⟨ds, false, h, hd, Or.inl ⟨rfl, rfl⟩, by simp⟩

theorem write_int {ds : List Char} {ts : List Field} {rest : List Char} (h : ds ≠ []) (hd : ∀ c ∈ ds, '0' ≤ c ∧ c ≤ '9')
    (hv : value ds < 2 ^ 31) (hr : Writes ts rest) (hr' : rest = [] ∨ ∃ c r, rest = c :: r ∧ White c) :
    Writes (.int (value ds) :: ts) ([' '] ++ (ds ++ rest)) :=
  .cons (by simp [White]) ⟨spellsInt_of h hd, by omega, by exact_mod_cast hv⟩ hr hr'

theorem write_count {ds : List Char} {ts : List Field} {rest : List Char} (h : ds ≠ []) (hd : ∀ c ∈ ds, '0' ≤ c ∧ c ≤ '9')
    (hv : value ds < 2 ^ 64) (hr : Writes ts rest) (hr' : rest = [] ∨ ∃ c r, rest = c :: r ∧ White c) :
    Writes (.count (value ds) :: ts) ([' '] ++ (ds ++ rest)) :=
  .cons (by simp [White]) ⟨spellsInt_of h hd, hv⟩ hr hr'

theorem write_word {w : List Char} {ts : List Field} {rest : List Char} (h : w ≠ []) (hl : w.length ≤ 31)
    (hd : ∀ c ∈ w, Mesh.isSpace c = false)
    (hr : Writes ts rest) (hr' : rest = [] ∨ ∃ c r, rest = c :: r ∧ White c) :
    Writes (.word w :: ts) ([' '] ++ (w ++ rest)) :=
  .cons (by simp [White]) ⟨rfl, h, hl, fun c hc => (C03.isSpace_false c).1 (hd c hc)⟩ hr hr'

theorem white_head (s : List Char) (h : s = [] ∨ ∃ r, s = ' ' :: r) : s = [] ∨ ∃ c r, s = c :: r ∧ White c := by
  rcases h with h | ⟨r, h⟩
  · exact Or.inl h
  · exact Or.inr ⟨_, r, h, Or.inl rfl⟩

/-- A small complete file. -/
def small : List Stmt := [.version 1 0 0, .size 6 5 4, .close .GS, .wave ['g'] .ricker [], 
  .source (mkBox 2 2 3 3 1 2) ['s'] ['J', 'Z'] ['g'] [], .close .GE, .steps 100, .spacing [1 / 400], .close .EN]

def smallText : List Char := "VM 1.0.0
DM 6 5 4
GS
# the excitation
WF g RICKER_WAVELET
EX 2 2 3 3 1 2 s JZ g
GE
NT 100
MS +2.5e-3# metres
EN
".toList

theorem small_sequenced : WellSequenced (small.map Stmt.card) := by
  have := C01.accepted_wellSequenced (small.map fun st => (st.card, true)) (by decide +kernel)
  simpa [Function.comp_def] using this

theorem small_laid : Lays false (fun _ => 0) small smallText := by
  have e : smallText = letters .VM ++ [' ', '1', '.', '0', '.', '0'] ++ [] ++ ['\n'] ++ (letters .DM ++ [' ', '6', ' ', '5', ' ', '4'] ++ [] ++ ['\n'] ++
    (letters .GS ++ [] ++ [] ++ ['\n'] ++ ((['#', ' ', 't', 'h', 'e', ' ', 'e', 'x', 'c', 'i', 't', 'a', 't', 'i', 'o', 'n'] ++ ['\n']) ++ (letters .WF ++ [' ', 'g', ' ', 'R', 'I', 'C', 'K', 'E', 'R', '_', 'W', 'A', 'V', 'E', 'L', 'E', 'T'] ++ [] ++ ['\n'] ++
    (letters .EX ++ [' ', '2', ' ', '2', ' ', '3', ' ', '3', ' ', '1', ' ', '2', ' ', 's', ' ', 'J', 'Z', ' ', 'g'] ++ [] ++ ['\n'] ++ (letters .GE ++ [] ++ [] ++ ['\n'] ++
    (letters .NT ++ [' ', '1', '0', '0'] ++ [] ++ ['\n'] ++ (letters .MS ++ [' ', '+', '2', '.', '5', 'e', '-', '3'] ++ ['#', ' ', 'm', 'e', 't', 'r', 'e', 's'] ++ ['\n'] ++
    (letters .EN ++ [] ++ [] ++ ['\n'] ++ []))))))))) := by decide +kernel
  have wt : ∀ x, White x ↔ Mesh.isSpace x = true := fun x => (C03.isSpace_iff x).symm
  rw [e]
  refine lays_card (st := .version 1 0 0) (by simp [Stmt.Ok]) ⟨[' '], ['1'], ['0'], ['0'], by simp [White],
    spellsInt_of (ds := ['1']) (by decide) (by decide), spellsInt_of (ds := ['0']) (by decide) (by decide),
    spellsInt_of (ds := ['0']) (by decide) (by decide), by decide +kernel⟩ (by decide) (by decide) (by decide) (by decide)
    (Or.inl rfl) (by simp only [wt]; decide) ?_
  refine lays_card (st := .size 6 5 4) (by simp [Stmt.Ok])
    (write_int (ds := ['6']) (by decide) (by decide) (by decide) (write_int (ds := ['5']) (by decide) (by decide) (by decide)
      (write_int (ds := ['4']) (by decide) (by decide) (by decide) .nil (Or.inl rfl)) (white_head _ (Or.inr ⟨_, rfl⟩))) (white_head _ (Or.inr ⟨_, rfl⟩)))
    (by decide) (by decide) (by decide) (by decide)
    (Or.inl rfl) (by simp only [wt]; decide) ?_
  refine lays_card (st := .close .GS) (by simp [Stmt.Ok]) trivial (by decide) (by decide) (by decide) (by decide)
    (Or.inl rfl) (by simp only [wt]; decide) ?_
  refine .empty ⟨['#', ' ', 't', 'h', 'e', ' ', 'e', 'x', 'c', 'i', 't', 'a', 't', 'i', 'o', 'n'], ⟨by decide, by decide, Or.inl rfl⟩, Or.inl ⟨_, rfl⟩⟩ ?_
  refine lays_card (st := .wave ['g'] .ricker []) (by simp [Stmt.Ok])
    (write_word (w := ['g']) (by decide) (by decide) (by decide)
      (write_word (w := ['R', 'I', 'C', 'K', 'E', 'R', '_', 'W', 'A', 'V', 'E', 'L', 'E', 'T']) (by decide) (by decide) (by decide) .nil (Or.inl rfl)) (white_head _ (Or.inr ⟨_, rfl⟩)))
    (by decide) (by decide) (by decide) (by decide)
    (Or.inl rfl) (by simp only [wt]; decide) ?_
  refine lays_card (st := .source (mkBox 2 2 3 3 1 2) ['s'] ['J', 'Z'] ['g'] []) (by simp [Stmt.Ok])
    (write_int (ds := ['2']) (by decide) (by decide) (by decide) (write_int (ds := ['2']) (by decide) (by decide) (by decide)
      (write_int (ds := ['3']) (by decide) (by decide) (by decide) (write_int (ds := ['3']) (by decide) (by decide) (by decide)
      (write_int (ds := ['1']) (by decide) (by decide) (by decide) (write_int (ds := ['2']) (by decide) (by decide) (by decide)
      (write_word (w := ['s']) (by decide) (by decide) (by decide) (write_word (w := ['J', 'Z']) (by decide) (by decide) (by decide)
      (write_word (w := ['g']) (by decide) (by decide) (by decide) .nil (Or.inl rfl)) (white_head _ (Or.inr ⟨_, rfl⟩))) (white_head _ (Or.inr ⟨_, rfl⟩)))
      (white_head _ (Or.inr ⟨_, rfl⟩))) (white_head _ (Or.inr ⟨_, rfl⟩))) (white_head _ (Or.inr ⟨_, rfl⟩))) (white_head _ (Or.inr ⟨_, rfl⟩)))
      (white_head _ (Or.inr ⟨_, rfl⟩))) (white_head _ (Or.inr ⟨_, rfl⟩)))
    (by decide) (by decide) (by decide) (by decide)
    (Or.inl rfl) (by simp only [wt]; decide) ?_
  refine lays_card (st := .close .GE) (by simp [Stmt.Ok]) trivial (by decide) (by decide) (by decide) (by decide)
    (Or.inl rfl) (by simp only [wt]; decide) ?_
  refine lays_card (st := .steps 100) (by simp [Stmt.Ok])
    (write_count (ds := ['1', '0', '0']) (by decide) (by decide) (by decide) .nil (Or.inl rfl))
    (by decide) (by decide) (by decide) (by decide)
    (Or.inl rfl) (by simp only [wt]; decide) ?_
  have dg : ∀ l : List Char, (∀ c ∈ l, '0' ≤ c ∧ c ≤ '9') → Digits l := fun _ h => h
  refine lays_card (st := .spacing [1 / 400]) (by simp [Stmt.Ok])
    (.cons (gap := [' ']) (s := ['+', '2', '.', '5', 'e', '-', '3']) (by simp [White])
      ⟨['2'], ['5'], ['.', '5'], ['e', '-', '3'], ['2', '.', '5', 'e', '-', '3'], -3, false, dg _ (by decide), dg _ (by decide), by decide,
        Or.inl rfl, Or.inr ⟨['-', '3'], Or.inl rfl, ['3'], true, by decide, dg _ (by decide), Or.inr (Or.inr ⟨rfl, rfl⟩), by decide⟩,
        rfl, Or.inr (Or.inl ⟨rfl, rfl⟩), by
          have h2 : value ['2'] = 2 := by decide
          have h5 : value ['5'] = 5 := by decide
          rw [h2, h5]; norm_num⟩ .nil (Or.inl rfl))
    (by decide) (by decide) (by decide) (by decide)
    (Or.inr ⟨_, rfl⟩) (by simp only [wt]; decide) ?_
  exact lays_card (st := .close .EN) (by simp [Stmt.Ok]) trivial (by decide) (by decide) (by decide) (by decide)
    (Or.inl rfl) (by simp only [wt]; decide) .nil

/-- It is read as what it says. -/
example : readMesh false smallText = .ok (small.map Stmt.says) := file_reads small_laid small_sequenced

/-! ### Findings -/

instance boxEq : DecidableEq BBox := fun a b => decidable_of_iff
  (a .xlo = b .xlo ∧ a .xhi = b .xhi ∧ a .ylo = b .ylo ∧ a .yhi = b .yhi ∧ a .zlo = b .zlo ∧ a .zhi = b .zhi)
  ⟨fun ⟨h1, h2, h3, h4, h5, h6⟩ => by funext f; cases f <;> assumption, by rintro rfl; simp⟩
deriving instance DecidableEq for MBCard, TBCard, TWCard, PWCard, OPCard, FaceBnd
deriving instance DecidableEq for Raw
deriving instance DecidableEq for Mesh.Res

/-- C62, a finding: the number of an `NT` card ends at the first character that is no digit, whatever follows: the exponent
of a number in scientific notation is lost. -/
theorem count_cut {ds rest : List Char} (h0 : ds ≠ []) (hd : ∀ c ∈ ds, '0' ≤ c ∧ c ≤ '9')
    (hr : ∀ c t, rest = c :: t → ¬ ('0' ≤ c ∧ c ≤ '9')) : parseText .NT (' ' :: (ds ++ rest)) = some (.nt (value ds)) := by
  have dg : ∀ c, ('0' ≤ c ∧ c ≤ '9') ↔ isDigit c = true := by intro c; simp [isDigit]
  have e1 : (ds ++ rest).takeWhile isDigit = ds := by
    rw [List.takeWhile_append_of_pos fun c hc => (dg c).1 (hd c hc)]
    cases rest with
    | nil => simp
    | cons c t => rw [List.takeWhile_cons_of_neg (fun h => hr c t rfl ((dg c).2 h))]; simp
  obtain ⟨d, dt, rfl⟩ : ∃ d dt, ds = d :: dt := by cases ds with
    | nil => exact absurd rfl h0
    | cons d dt => exact ⟨d, dt, rfl⟩
  have hdd := hd d (by simp)
  have hsp : isSpace d = false := by
    rw [C03.isSpace_false]
    rintro (rfl | rfl | rfl | rfl | rfl | rfl) <;> exact absurd hdd (by decide)
  have hsk : skip (' ' :: (d :: dt ++ rest)) = d :: dt ++ rest := by
    have h1 : isSpace ' ' = true := by decide
    simp [skip, List.dropWhile_cons, h1, hsp]
  have hsg : sign (d :: dt ++ rest) = (false, d :: dt ++ rest) := by
    have h1 : d ≠ '-' := by rintro rfl; exact absurd hdd (by decide)
    have h2 : d ≠ '+' := by rintro rfl; exact absurd hdd (by decide)
    simp only [List.cons_append]
    unfold sign
    split
    · rename_i h; cases h; exact absurd rfl h1
    · rename_i h; cases h; exact absurd rfl h2
    · rfl
  have hi : ∃ r, scanInt (' ' :: (d :: dt ++ rest)) = some ((natVal (d :: dt) : Int), r) := by
    unfold scanInt digits
    simp only [hsk, hsg, e1]
    simp
  obtain ⟨r, hi⟩ := hi
  show textNT _ = _
  unfold textNT
  have : sscanf [.conv .uns] (' ' :: (d :: dt ++ rest)) = [.uns (BitVec.ofInt 64 (natVal (d :: dt)))] := by
    simp only [sscanf, scan, scanUns, hi, Option.map_some]
  rw [this]
  rw [natVal_eq]
  simp only [Option.some.injEq, Raw.nt.injEq]
  exact BitVec.ofInt_natCast 64 _

/-- `NT 1e6` asks for one step, -/
example : parseText .NT " 1e6".toList = some (.nt 1) := count_cut (ds := ['1']) (rest := ['e', '6']) (by decide) (by decide) (by
  intro c t h; cases h; decide)

/-- and `NT -1` for as many as an unsigned number can hold. -/
example : parseText .NT " -1".toList = some (.nt 18446744073709551615) := by decide +kernel

/-- C62, a finding: when the numbers of a card of mesh lines end with their line, the end of that line is read as a line of
white space: undefined behaviour (C03). -/
theorem newline_after_lines (t : List Char) : lineCard false (fgets 1022 ('\n' :: t)).1 = .ub := by
  have : (fgets 1022 ('\n' :: t)).1 = ['\n'] := rfl
  rw [this]
  have h := C03.blank_line_ub ['\n'] [] (by simp) (by simp [White]) (Or.inl rfl)
  simp only [List.append_nil] at h
  unfold lineCard
  rw [h]; rfl

/-- Numbers that are none are taken as left out, -/
example : parseText .MT " glass SIMPLE eps=4".toList = some (.mt "glass".toList .simple []) := by decide +kernel

/-- what follows the last field is ignored, -/
example : parseText .DM " 6 5 4 3".toList = some (.dm 6 5 4) := by decide +kernel

/-- a fraction ends a whole number and begins the next one, -/
example : parseText .DM " 6.5 4".toList = none := by decide +kernel

/-- and a name of more than 31 characters is two names. -/
example : parseText .MB " 0 1 0 1 0 1 abcdefghijklmnopqrstuvwxyz0123456".toList =
    some (.mb ⟨8, mkBox 0 1 0 1 0 1, "abcdefghijklmnopqrstuvwxyz01234", "56".toList⟩) := by decide +kernel

end Vulture.C62
