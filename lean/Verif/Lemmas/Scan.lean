import Verif.Spec.Page
import Verif.Props.C03_Text
import Mathlib.Tactic.Ring
import Mathlib.Tactic.FieldSimp
import Mathlib.Tactic.Linarith
import Mathlib.Tactic.Push
/-
The scanner of Model/Scan.lean on text written as Spec/Page.lean says.
-/
set_option linter.unusedSimpArgs false
set_option linter.unusedVariables false
namespace Vulture.C62
open Vulture.Scan Vulture.Spec Vulture.Spec.Page
open Vulture.Mesh (isSpace)

/-- What may follow a field: nothing, or something that starts with white space or a comment character. -/
def Stops (s : List Char) : Prop := s = [] ∨ ∃ c r, s = c :: r ∧ (White c ∨ c = '#')

theorem Stops.of {s : List Char} (h : s = [] ∨ ∃ c r, s = c :: r ∧ White c) : Stops s := by
  rcases h with h | ⟨c, r, h, hw⟩
  · exact Or.inl h
  · exact Or.inr ⟨c, r, h, Or.inl hw⟩

theorem digit_iff (c : Char) : isDigit c = true ↔ '0' ≤ c ∧ c ≤ '9' := by simp [isDigit]

theorem white_not_digit {c : Char} (h : White c ∨ c = '#') : isDigit c = false := by
  simp only [White] at h
  rcases h with (h | h | h | h | h | h) | h <;> subst h <;> decide

theorem stops_takeWhile {s : List Char} (h : Stops s) : s.takeWhile isDigit = [] ∧ s.dropWhile isDigit = s := by
  rcases h with h | ⟨c, r, rfl, hw⟩
  · subst h; simp
  · simp [List.takeWhile_cons, List.dropWhile_cons, white_not_digit hw]

theorem takeWhile_stop {p : Char → Bool} {a s : List Char} (ha : ∀ c ∈ a, p c = true)
    (hs : s.takeWhile p = [] ∧ s.dropWhile p = s) : (a ++ s).takeWhile p = a ∧ (a ++ s).dropWhile p = s := by
  induction a with
  | nil => simpa using hs
  | cons c a ih =>
    have hc := ha c (by simp)
    have := ih fun x hx => ha x (by simp [hx])
    simp [List.takeWhile_cons, List.dropWhile_cons, hc, this]

theorem skip_gap {gap s : List Char} (hg : ∀ c ∈ gap, White c) (hs : ∀ c r, s = c :: r → isSpace c = false) :
    skip (gap ++ s) = s := by
  have e : s.takeWhile isSpace = [] ∧ s.dropWhile isSpace = s := by
    cases s with
    | nil => simp
    | cons c r => simp [List.takeWhile_cons, List.dropWhile_cons, hs c r rfl]
  exact (takeWhile_stop (fun c hc => (C03.isSpace_iff c).2 (hg c hc)) e).2

theorem skip_skip (s : List Char) : skip (skip s) = skip s := by
  unfold skip
  induction s with
  | nil => rfl
  | cons c t ih =>
    by_cases h : isSpace c = true
    · simpa [List.dropWhile_cons, h] using ih
    · simp [List.dropWhile_cons, h]

/-! ### Numbers -/

theorem natVal_eq (ds : List Char) : natVal ds = value ds := by
  have key : ∀ (ds : List Char) (n : Nat),
      ds.foldl (fun n c => 10 * n + (c.toNat - '0'.toNat)) n = n * 10 ^ ds.length + value ds := by
    intro ds
    induction ds with
    | nil => intro n; simp [value]
    | cons c t ih =>
      intro n
      rw [List.foldl_cons, ih]
      simp only [value, List.length_cons]
      have : '0'.toNat = 48 := rfl
      rw [this]; ring
  have := key ds 0
  simpa [natVal] using this

theorem value_append (a b : List Char) : value (a ++ b) = value a * 10 ^ b.length + value b := by
  induction a with
  | nil => simp [value]
  | cons c t ih => simp only [List.cons_append, value, ih, List.length_append, pow_add]; ring

/-- A first character that is neither sign nor white space. -/
def Plain (s : List Char) : Prop := ∀ c r, s = c :: r → c ≠ '-' ∧ c ≠ '+' ∧ isSpace c = false

theorem sign_plain {s : List Char} (h : Plain s) : sign s = (false, s) := by
  cases s with
  | nil => rfl
  | cons c r =>
    obtain ⟨h1, h2, -⟩ := h c r rfl
    unfold sign
    split
    · rename_i e; simp at e; exact absurd e.1 h1
    · rename_i e; simp at e; exact absurd e.1 h2
    · rfl

theorem sign_signed {s body : List Char} {neg : Bool} (h : Signed s body neg) {rest : List Char} (hb : Plain (body ++ rest)) :
    sign (s ++ rest) = (neg, body ++ rest) := by
  rcases h with ⟨rfl, rfl⟩ | ⟨rfl, rfl⟩ | ⟨rfl, rfl⟩
  · exact sign_plain hb
  · rfl
  · rfl

theorem digit_plain {c : Char} (h : isDigit c = true) : c ≠ '-' ∧ c ≠ '+' ∧ isSpace c = false := by
  refine ⟨?_, ?_, ?_⟩
  · rintro rfl; exact absurd h (by decide)
  · rintro rfl; exact absurd h (by decide)
  · rw [C03.isSpace_false]
    intro hw
    have := white_not_digit (Or.inl hw)
    rw [h] at this; cases this

theorem digits_plain {ds : List Char} (h0 : ds ≠ []) (hd : Digits ds) (s : List Char) : Plain (ds ++ s) := by
  intro c r e
  cases ds with
  | nil => exact absurd rfl h0
  | cons d t =>
    simp at e
    rw [← e.1]
    exact digit_plain ((digit_iff d).2 (hd d (by simp)))

/-- A signed text does not start with white space. -/
theorem signed_front {s body : List Char} {neg : Bool} (h : Signed s body neg) {rest : List Char}
    (hb : Plain (body ++ rest)) : ∀ c r, s ++ rest = c :: r → isSpace c = false := by
  rcases h with ⟨rfl, -⟩ | ⟨rfl, -⟩ | ⟨rfl, -⟩
  · intro c r e; exact (hb c r e).2.2
  · intro c r e; simp at e; rw [← e.1]; decide
  · intro c r e; simp at e; rw [← e.1]; decide

theorem digits_spec {ds rest : List Char} (h0 : ds ≠ []) (hd : Digits ds)
    (hr : rest.takeWhile isDigit = [] ∧ rest.dropWhile isDigit = rest) : digits (ds ++ rest) = some (ds, rest) := by
  obtain ⟨e1, e2⟩ := takeWhile_stop (p := isDigit) (fun c hc => (digit_iff c).2 (hd c hc)) hr
  unfold digits
  rw [e1, e2, if_neg h0]

/-- `%d` reads a whole number. -/
theorem scanInt_spells {i : Int} {s gap rest : List Char} (h : SpellsInt i s) (hg : ∀ c ∈ gap, White c) 
    (hr : rest.takeWhile isDigit = [] ∧ rest.dropWhile isDigit = rest) : scanInt (gap ++ (s ++ rest)) = some (i, rest) := by
  obtain ⟨ds, neg, h0, hd, hs, rfl⟩ := h
  have hp := digits_plain h0 hd rest
  unfold scanInt
  rw [skip_gap hg (signed_front hs hp), sign_signed hs hp]
  simp only [digits_spec h0 hd hr, Option.map_some, natVal_eq]

theorem exp_spells {e : Int} {x rest : List Char} (h : SpellsExp e x) (hr : Stops rest) :
    exponent (x ++ rest) = some (e, rest) := by
  rcases h with ⟨rfl, rfl⟩ | ⟨t, hx, ds, neg, h0, hd, hs, rfl⟩
  · rcases hr with rfl | ⟨c, r, rfl, hw⟩
    · rfl
    · simp only [List.nil_append]
      unfold exponent
      split
      · rename_i e; simp at e; rw [e.1] at hw; simp [White] at hw
      · rename_i e; simp at e; rw [e.1] at hw; simp [White] at hw
      · rfl
  · have hp := digits_plain h0 hd rest
    have key : expTail (t ++ rest) = some (if neg then -(value ds : Int) else value ds, rest) := by
      unfold expTail
      rw [sign_signed hs hp]
      simp only [digits_spec h0 hd (stops_takeWhile hr), Option.map_some, natVal_eq]
    rcases hx with rfl | rfl
    · exact key
    · exact key

theorem scale10_eq (m : ℚ) (e : Int) : scale10 m e = m * 10 ^ e := by
  cases e with
  | ofNat n => simp [scale10]
  | negSucc n =>
    show m / 10 ^ (n + 1) = _
    rw [Int.negSucc_eq, zpow_neg, div_eq_mul_inv]
    norm_cast

/-- Nothing that follows the digits of a number is a digit. -/
theorem exp_stop {e : Int} {x rest : List Char} (h : SpellsExp e x) (hr : Stops rest) :
    (x ++ rest).takeWhile isDigit = [] ∧ (x ++ rest).dropWhile isDigit = x ++ rest := by
  rcases h with ⟨rfl, -⟩ | ⟨t, rfl | rfl, -⟩
  · exact stops_takeWhile hr
  · simp [List.takeWhile_cons, List.dropWhile_cons, show isDigit 'e' = false from by decide]
  · simp [List.takeWhile_cons, List.dropWhile_cons, show isDigit 'E' = false from by decide]

theorem fraction_plain {s : List Char} (h : ∀ r, s ≠ '.' :: r) : fraction s = ([], s) := by
  unfold fraction
  split
  · rename_i t; exact absurd rfl (h t)
  · rfl

theorem exp_no_point {e : Int} {x rest : List Char} (h : SpellsExp e x) (hr : Stops rest) : ∀ r, x ++ rest ≠ '.' :: r := by
  intro r hh
  rcases h with ⟨rfl, -⟩ | ⟨t, rfl | rfl, -⟩
  · rcases hr with rfl | ⟨c, r, rfl, hw⟩
    · simp at hh
    · simp at hh; rw [hh.1] at hw; simp [White] at hw
  · simp at hh
  · simp at hh

/-- `%lf` reads a number. -/
theorem scanReal_spells {q : ℚ} {s gap rest : List Char} (h : SpellsReal q s) (hg : ∀ c ∈ gap, White c) (hr : Stops rest) :
    scanReal (gap ++ (s ++ rest)) = some (q, rest) := by
  obtain ⟨ip, fp, pt, x, body, e, neg, hi, hf, h0, hpt, hx, rfl, hs, rfl⟩ := h
  have hplain : Plain (ip ++ pt ++ x ++ rest) := by
    intro c r hh
    cases ip with
    | cons d t =>
      simp at hh
      rw [← hh.1]
      exact digit_plain ((digit_iff d).2 (hi d (by simp)))
    | nil =>
      rcases hpt with rfl | ⟨-, rfl⟩
      · simp at hh; rw [← hh.1]; decide
      · simp at h0
  have hstop : (pt ++ (x ++ rest)).takeWhile isDigit = [] ∧ (pt ++ (x ++ rest)).dropWhile isDigit = pt ++ (x ++ rest) := by
    rcases hpt with rfl | ⟨rfl, -⟩
    · simp [List.takeWhile_cons, List.dropWhile_cons, show isDigit '.' = false from by decide]
    · simpa using exp_stop hx hr
  obtain ⟨e1, e2⟩ := takeWhile_stop (p := isDigit) (fun c hc => (digit_iff c).2 (hi c hc)) hstop
  have e3 : fraction (pt ++ (x ++ rest)) = (fp, x ++ rest) := by
    rcases hpt with rfl | ⟨rfl, rfl⟩
    · obtain ⟨a, b⟩ := takeWhile_stop (p := isDigit) (fun c hc => (digit_iff c).2 (hf c hc)) (exp_stop hx hr)
      simp only [List.cons_append, fraction, a, b]
    · simpa using fraction_plain (exp_no_point hx hr)
  unfold scanReal
  rw [skip_gap hg (signed_front hs hplain), sign_signed hs hplain]
  have e4 : ip ++ pt ++ x ++ rest = ip ++ (pt ++ (x ++ rest)) := by simp
  simp only [e4, e1, e2, e3, exp_spells hx hr, Option.map_some]
  rw [if_neg (by rintro ⟨rfl, rfl⟩; exact h0 rfl)]
  simp only [scale10_eq, natVal_eq, value_append]
  have h10 : (10 : ℚ) ^ fp.length ≠ 0 := by positivity
  congr 2
  have : ((value ip * 10 ^ fp.length + value fp : ℕ) : ℚ) / 10 ^ fp.length = value ip + value fp / 10 ^ fp.length := by
    push_cast
    field_simp
  rw [this]
  cases neg
  · simp
  · simp only [if_true]; ring

/-! ### Words -/

theorem stops_space {s : List Char} (h : s = [] ∨ ∃ c r, s = c :: r ∧ White c) :
    (s.takeWhile fun c => !isSpace c) = [] ∧ (s.dropWhile fun c => !isSpace c) = s := by
  rcases h with rfl | ⟨c, r, rfl, hw⟩
  · simp
  · simp [List.takeWhile_cons, List.dropWhile_cons, (C03.isSpace_iff c).2 hw]

/-- `%31s` reads a name. -/
theorem scanWord_name {w gap rest : List Char} (h : Name w) (hg : ∀ c ∈ gap, White c)
    (hr : rest = [] ∨ ∃ c r, rest = c :: r ∧ White c) : scanWord (gap ++ (w ++ rest)) = some (w, rest) := by
  obtain ⟨h0, hl, hw⟩ := h
  have hf : ∀ c r, w ++ rest = c :: r → isSpace c = false := by
    intro c r e
    cases w with
    | nil => exact absurd rfl h0
    | cons d t =>
      simp at e
      rw [← e.1, C03.isSpace_false]
      exact hw d (by simp)
  obtain ⟨e1, -⟩ := takeWhile_stop (p := fun c => !isSpace c) (a := w) (s := rest)
    (fun c hc => by simp [(C03.isSpace_false c).2 (hw c hc)]) (stops_space hr)
  have e2 : w.take WORD = w := List.take_of_length_le hl
  unfold scanWord
  simp only [skip_gap hg hf, e1, e2, if_neg h0]
  simp

/-- `%1023[^"]` reads a file name up to the quotation mark. -/
theorem scanUnquoted_file {f rest : List Char} (h : FileName f) :
    scanUnquoted (f ++ ('"' :: rest)) = some (f, '"' :: rest) := by
  obtain ⟨h0, hl, hq⟩ := h
  obtain ⟨e1, -⟩ := takeWhile_stop (p := fun c => c != '"') (a := f) (s := '"' :: rest)
    (fun c hc => by simp; rintro rfl; exact hq hc) (by simp)
  have e2 : f.take PATH = f := List.take_of_length_le hl
  unfold scanUnquoted
  simp only [e1, e2, if_neg h0]
  simp

/-! ### Whole formats -/

/-- Parts of a format: a conversion, or a file name with its quotation marks. -/
inductive Part | conv (c : Conv) | quoted

/-- Parts separated by spaces. -/
def dirs : List Part → List Dir
  | [] => []
  | [.conv c] => [.conv c]
  | [.quoted] => quoted
  | .conv c :: l => .conv c :: .space :: dirs l
  | .quoted :: l => quoted ++ .space :: dirs l

theorem spaced_eq (l : List Conv) : spaced l = dirs (l.map .conv) := by
  induction l with
  | nil => rfl
  | cons c t ih =>
    cases t with
    | nil => rfl
    | cons d u =>
      show Dir.conv c :: .space :: spaced (d :: u) = Dir.conv c :: .space :: dirs (List.map Part.conv (d :: u))
      rw [ih]

/-- A part reads a field. -/
inductive Reads : Part → Field → Val → Prop
  | int (i : Int) : Reads (.conv .int) (.int i) (.int i)
  | uns (n : Nat) : Reads (.conv .uns) (.count n) (.uns n)
  | word (w : List Char) : Reads (.conv .word) (.word w) (.word w)
  | real (q : ℚ) : Reads (.conv .real) (.real q) (.real q)
  | file (f : List Char) : Reads .quoted (.file f) (.text f)

/-- A part fails on a field. -/
def Fails (p : Part) (t : Field) : Prop := p = .conv .real ∧ ∃ f, t = .file f

/-- The values a format reads from fields: until the format ends, the fields end, or a field does not fit. -/
inductive Fits : List Part → List Field → List Val → Prop
  | format (ts) : Fits [] ts []
  | fields (ps) : Fits ps [] []
  | cons {p ps t ts v vs} : Reads p t v → Fits ps ts vs → Fits (p :: ps) (t :: ts) (v :: vs)
  | fails {p ps t ts} : Fails p t → Fits (p :: ps) (t :: ts) []

theorem writes_skip {ts : List Field} {s : List Char} (h : Writes ts s) : Writes ts (skip s) := by
  cases h with
  | nil => exact .nil
  | @cons t ts gap s rest hg hs hw hr =>
    have hf : ∀ c r, s ++ rest = c :: r → isSpace c = false := by
      cases t with
      | int i =>
        obtain ⟨⟨ds, neg, h0, hd, hsg, -⟩, -⟩ := hs
        exact signed_front hsg (digits_plain h0 hd rest)
      | count i =>
        obtain ⟨⟨ds, neg, h0, hd, hsg, -⟩, -⟩ := hs
        exact signed_front hsg (digits_plain h0 hd rest)
      | real q =>
        obtain ⟨ip, fp, pt, x, body, e, neg, hi, hf, h0, hpt, hx, rfl, hs, -⟩ := hs
        refine signed_front hs ?_
        intro c r hh
        cases ip with
        | cons d t =>
          simp at hh
          rw [← hh.1]
          exact digit_plain ((digit_iff d).2 (hi d (by simp)))
        | nil =>
          rcases hpt with rfl | ⟨-, rfl⟩
          · simp at hh; rw [← hh.1]; decide
          · simp at h0
      | word w =>
        obtain ⟨rfl, h0, -, hw⟩ := hs
        intro c r e
        cases s with
        | nil => exact absurd rfl h0
        | cons d t =>
          simp at e
          rw [← e.1, C03.isSpace_false]
          exact hw d (by simp)
      | file f =>
        obtain ⟨rfl, -⟩ := hs
        intro c r e
        simp at e
        rw [← e.1]; decide
    rw [skip_gap hg hf]
    exact .cons (gap := []) (by simp) hs hw hr

theorem scan_nil (c : Conv) : scan c [] = none := by cases c <;> rfl

theorem scanReal_quote {gap s : List Char} (hg : ∀ c ∈ gap, White c) : scanReal (gap ++ '"' :: s) = none := by
  unfold scanReal
  rw [skip_gap hg (by intro c r e; simp at e; rw [← e.1]; decide)]
  simp [sign, List.takeWhile_cons, List.dropWhile_cons, fraction, show isDigit '"' = false from by decide]

/-- A format reads exactly the fields it fits. -/
theorem sscanf_writes {ps : List Part} {ts : List Field} {vs : List Val} (hf : Fits ps ts vs) :
    ∀ {s : List Char}, Writes ts s → (∀ p t, ps.head? = some p → ts.head? = some t → p = .quoted → skip s = s) →
      sscanf (dirs ps) s = vs := by
  induction hf with
  | format ts => intro s _ _; rfl
  | fields ps =>
    intro s h _
    cases h
    cases ps with
    | nil => rfl
    | cons p l =>
      cases p with
      | conv c => cases l <;> simp [dirs, sscanf, scan_nil]
      | quoted => cases l <;> simp [dirs, quoted, sscanf]
  | @fails p ps t ts hfa =>
    intro s h _
    obtain ⟨rfl, f, rfl⟩ := hfa
    cases h with
    | @cons _ _ gap s rest hg hs hw hr =>
      obtain ⟨rfl, -⟩ := hs
      have e : scan .real (gap ++ ('"' :: (f ++ ['"']) ++ rest)) = none := by
        show (scanReal _).map _ = none
        rw [List.cons_append, scanReal_quote hg]; rfl
      cases ps <;> simp only [dirs, sscanf, e]
  | @cons p ps t ts v vs hrd _ ih =>
    intro s h hq
    cases h with
    | @cons _ _ gap s rest hg hs hw hr =>
      have next : sscanf (dirs ps) (skip rest) = vs :=
        ih (writes_skip hw) fun _ _ _ _ _ => by
          exact skip_skip rest
      have tail : ∀ c : Conv, scan c (gap ++ (s ++ rest)) = some (v, rest) → 
          sscanf (dirs (.conv c :: ps)) (gap ++ (s ++ rest)) = v :: vs := by
        intro c hc
        cases ps with
        | nil =>
          have : vs = [] := by simpa [dirs, sscanf] using next.symm
          subst this
          simp only [dirs, sscanf, hc]
        | cons q l => simp only [dirs, sscanf, hc, next]
      cases hrd with
      | int i =>
        refine tail _ ?_
        show (scanInt _).map _ = _
        rw [scanInt_spells hs.1 hg (stops_takeWhile (Stops.of hr))]; rfl
      | uns n =>
        refine tail _ ?_
        show (scanUns _).map _ = _
        unfold scanUns
        rw [scanInt_spells hs.1 hg (stops_takeWhile (Stops.of hr))]
        simp only [Option.map_some]
        congr 3
      | word w =>
        refine tail _ ?_
        obtain ⟨rfl, hn⟩ := hs
        show (scanWord _).map _ = _
        rw [scanWord_name hn hg hr]; rfl
      | real q =>
        refine tail _ ?_
        show (scanReal _).map _ = _
        rw [scanReal_spells hs hg (Stops.of hr)]; rfl
      | file f =>
        obtain ⟨rfl, hn⟩ := hs
        have hgap : gap = [] := by
          have := hq .quoted (.file f) rfl rfl rfl
          rw [skip_gap hg (by intro c r e; simp at e; rw [← e.1]; decide)] at this
          have := congrArg List.length this
          simp at this
          exact this
        subst hgap
        have e0 : ∀ D, sscanf (Dir.lit '"' :: .conv .unquoted :: .lit '"' :: D) ([] ++ ('"' :: (f ++ ['"']) ++ rest)) =
            Val.text f :: sscanf D rest := by
          intro D
          have e1 : scan .unquoted (f ++ ('"' :: rest)) = some (.text f, '"' :: rest) := by
            show (scanUnquoted _).map _ = _
            rw [scanUnquoted_file hn]; rfl
          simp only [List.nil_append, List.cons_append, List.append_assoc, sscanf, if_true, List.nil_append, e1]
        cases ps with
        | nil =>
          have : vs = [] := by simpa [dirs, sscanf] using next.symm
          subst this
          exact e0 []
        | cons q l =>
          show sscanf (quoted ++ .space :: dirs (q :: l)) _ = _
          have := e0 (.space :: dirs (q :: l))
          simp only [quoted, List.cons_append, List.nil_append] at this ⊢
          rw [this]
          simp only [sscanf, next]

end Vulture.C62
