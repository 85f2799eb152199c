import Verif.Model.DataFile
import Verif.Spec.DataFile
import Verif.Props.C29_Spline
import Verif.Props.C63_Meaning
import Mathlib.Tactic.IntervalCases
/-
C66: files named on cards mean the numbers in them, however they are laid out.
-/
set_option linter.unusedSimpArgs false
set_option linter.unusedVariables false
namespace Vulture.C66
open Vulture.Scan Vulture.Spec Vulture.Spec.Page Vulture.Spec.Data Vulture.DataFile Vulture.MeshFile
open Vulture.C62 (Stops scanReal_spells scanInt_spells)
open Vulture.Mesh (isSpace)

/-! ### One number after the other -/

theorem spells_ne {q : ℚ} {s : List Char} (h : SpellsReal q s) : s ≠ [] := by
  obtain ⟨ip, fp, pt, x, body, e, neg, hi, hf, h0, hpt, hx, rfl, hs, -⟩ := h
  have hb : ip ++ pt ++ x ≠ [] := by
    intro e
    simp only [List.append_eq_nil_iff] at e
    rcases hpt with rfl | ⟨-, rfl⟩
    · exact absurd e.1.2 (by simp)
    · exact h0 (by simp [e.1.1])
  rcases hs with ⟨rfl, -⟩ | ⟨rfl, -⟩ | ⟨rfl, -⟩
  · exact hb
  · simp
  · simp

theorem int_ne {i : Int} {s : List Char} (h : SpellsInt i s) : s ≠ [] := by
  obtain ⟨ds, neg, h0, -, hs, -⟩ := h
  rcases hs with ⟨rfl, -⟩ | ⟨rfl, -⟩ | ⟨rfl, -⟩
  · exact h0
  · simp
  · simp

theorem stops_append {rest tail : List Char} (hr : rest = [] ∨ ∃ c r, rest = c :: r ∧ White c) (ht : Stops tail) :
    Stops (rest ++ tail) := by
  rcases hr with rfl | ⟨c, r, rfl, hc⟩
  · exact ht
  · exact Or.inr ⟨c, r ++ tail, rfl, Or.inl hc⟩

theorem real_step {q : ℚ} {ts : List Field} {body tail : List Char} (h : Writes (.real q :: ts) body) (ht : Stops tail) :
    ∃ body', Writes ts body' ∧ body'.length < body.length ∧ scanReal (body ++ tail) = some (q, body' ++ tail) := by
  cases h with
  | @cons _ _ gap s rest hg hs hw hr =>
    refine ⟨rest, hw, ?_, ?_⟩
    · have := List.length_pos_of_ne_nil (spells_ne hs)
      simp only [List.length_append]; omega
    · have e : gap ++ (s ++ rest) ++ tail = gap ++ (s ++ (rest ++ tail)) := by simp
      rw [e]
      exact scanReal_spells hs hg (stops_append hr ht)

theorem int_step {i : Int} {ts : List Field} {body tail : List Char} (h : Writes (.int i :: ts) body) (ht : Stops tail) :
    ∃ body', Writes ts body' ∧ scanInt (body ++ tail) = some (i, body' ++ tail) := by
  cases h with
  | @cons _ _ gap s rest hg hs hw hr =>
    refine ⟨rest, hw, ?_⟩
    have e : gap ++ (s ++ rest) ++ tail = gap ++ (s ++ (rest ++ tail)) := by simp
    rw [e]
    exact scanInt_spells hs.1 hg (C62.stops_takeWhile (stops_append hr ht))

theorem white_stops {tail : List Char} (h : ∀ c ∈ tail, White c) : Stops tail := by
  cases tail with
  | nil => exact Or.inl rfl
  | cons c r => exact Or.inr ⟨c, r, rfl, Or.inl (h c (by simp))⟩

theorem skip_white {t : List Char} (h : ∀ c ∈ t, White c) : skip t = [] := by
  have := C62.skip_gap (gap := t) (s := []) h (by simp)
  simpa using this

theorem real_white {t : List Char} (h : ∀ c ∈ t, White c) : scanReal t = none ∧ realLeft t = [] := by
  unfold scanReal realLeft
  rw [skip_white h]
  exact ⟨rfl, rfl⟩

theorem int_white {t : List Char} (h : ∀ c ∈ t, White c) : scanInt t = none ∧ intLeft t = [] := by
  unfold scanInt intLeft
  rw [skip_white h]
  exact ⟨rfl, rfl⟩

/-- A foreign character stops every conversion and stays in the stream. -/
theorem real_foreign {w r : List Char} {c : Char} (hw : ∀ c ∈ w, White c) (hc : Foreign c) :
    scanReal (w ++ c :: r) = none ∧ realLeft (w ++ c :: r) ≠ [] := by
  obtain ⟨h1, h2, h3, h4, h5⟩ := hc
  have hd : isDigit c = false := by
    cases hd : isDigit c
    · rfl
    · exact absurd ((C62.digit_iff c).1 hd) h2
  have hs : isSpace c = false := by
    cases hs : isSpace c
    · rfl
    · exact absurd ((C03.isSpace_iff c).1 hs) h1
  have e1 : skip (w ++ c :: r) = c :: r := C62.skip_gap hw (by rintro d t ⟨⟩; exact hs)
  have e2 : sign (c :: r) = (false, c :: r) := C62.sign_plain (by rintro d t ⟨⟩; exact ⟨h4, h3, hs⟩)
  have e3 : (c :: r).takeWhile isDigit = [] ∧ (c :: r).dropWhile isDigit = c :: r := by simp [hd]
  have e4 : fraction (c :: r) = ([], c :: r) := C62.fraction_plain (by rintro t ⟨⟩; exact h5 rfl)
  constructor
  · unfold scanReal
    rw [e1, e2]
    simp only [e3.1, e3.2, e4, and_self, if_true]
  · unfold realLeft
    rw [e1, e2]
    simp only [e3.1, e3.2, e4, and_self, if_true]
    simp

/-! ### Waveform files -/

theorem count_rows {extra : List Field} {tail : List Char} {g : Option Nat} (ht : Stops tail)
    (hg : ∀ body, Writes extra body → ∀ f, (body ++ tail).length < f → count f (body ++ tail) = g) :
    ∀ (rows : List (ℚ × ℚ)) {body : List Char}, Writes (waveFields rows ++ extra) body → ∀ f, (body ++ tail).length < f →
      count f (body ++ tail) = g.map (· + rows.length)
  | [], body, h, f, hf => by
    rw [hg body h f hf]; cases g <;> rfl
  | r :: rows, body, h, f, hf => by
    obtain ⟨b1, h1, l1, e1⟩ := real_step h ht
    obtain ⟨b2, h2, l2, e2⟩ := real_step h1 ht
    have key : ∃ c s, body ++ tail = c :: s := by
      cases body with
      | nil => simp at l1
      | cons c s => exact ⟨c, s ++ tail, rfl⟩
    obtain ⟨c, s, hc⟩ := key
    obtain ⟨f', rfl⟩ : ∃ f', f = f' + 1 := ⟨f - 1, by omega⟩
    have ih := count_rows ht hg rows h2 f' (by simp only [List.length_append] at hf ⊢; omega)
    rw [hc] at e1 ⊢
    simp only [count, e1, e2, ih]
    cases g with
    | none => rfl
    | some n => simp; omega

theorem table_rows {extra : List Field} {tail : List Char} (ht : Stops tail) :
    ∀ (rows : List (ℚ × ℚ)) {body : List Char}, Writes (waveFields rows ++ extra) body →
      table rows.length (body ++ tail) = some rows
  | [], _, _ => rfl
  | r :: rows, body, h => by
    obtain ⟨b1, h1, -, e1⟩ := real_step h ht
    obtain ⟨b2, h2, -, e2⟩ := real_step h1 ht
    simp only [List.length_cons, table, e1, e2, Option.bind_some, table_rows ht rows h2, Option.map_some]

theorem count_white {tail : List Char} (h : ∀ c ∈ tail, White c) (f : Nat) (hf : tail.length < f) : count f tail = some 0 := by
  cases tail with
  | nil => unfold count; cases f <;> rfl
  | cons c t =>
    obtain ⟨f', rfl⟩ : ∃ f', f = f' + 1 := ⟨f - 1, by omega⟩
    simp only [count, (real_white h).1, (real_white h).2, if_true]

theorem increasing_iff : ∀ rows : List (ℚ × ℚ), increasing rows = true ↔ Rising rows
  | [] => by simp [increasing, Rising]
  | [a] => by
    simp only [increasing, true_iff]
    intro i x y hx hy
    simp at hy
  | a :: b :: l => by
    simp only [increasing, Bool.and_eq_true, decide_eq_true_eq, sub_pos, increasing_iff (b :: l)]
    constructor
    · rintro ⟨h1, h2⟩ i x y hx hy
      cases i with
      | zero => simp at hx hy; subst hx; subst hy; exact h1
      | succ i => exact h2 i x y (by simpa using hx) (by simpa using hy)
    · intro h
      exact ⟨h 0 a b rfl rfl, fun i x y hx hy => h (i + 1) x y (by simpa using hx) (by simpa using hy)⟩

theorem waveText_of {s : List Char} {rows : List (ℚ × ℚ)} (hc : count (s.length + 1) s = some rows.length)
    (ht : table rows.length s = some rows) :
    waveText s = if rows.length < 2 ∨ increasing rows = false then none
      else some (fun i => (((rows[i]?.getD (0, 0)).1 : ℚ) : ℝ), fun i => (((rows[i]?.getD (0, 0)).2 : ℚ) : ℝ), rows.length) := by
  unfold waveText
  simp only [hc, Option.bind_some, ht]

/-- C66: a waveform file with at least two rows and rising times is read as it is written. -/
theorem wave_read {rows : List (ℚ × ℚ)} {text : List Char} (h : Listed (waveFields rows) text) (h2 : 2 ≤ rows.length)
    (hr : Rising rows) : ∃ x y, waveText text = some (x, y, rows.length) ∧
      ∀ i r, rows[i]? = some r → x i = (r.1 : ℝ) ∧ y i = (r.2 : ℝ) := by
  obtain ⟨body, tail, hw, ht, rfl⟩ := h
  have hw' : Writes (waveFields rows ++ []) body := by simpa using hw
  have e1 := count_rows (g := some 0) (white_stops ht)
    (fun b hb f hf => by cases hb; exact count_white ht f (by simpa using hf)) rows hw' _ (Nat.lt_succ_self _)
  have e2 := table_rows (white_stops ht) rows hw'
  refine ⟨fun i => (((rows[i]?.getD (0, 0)).1 : ℚ) : ℝ), fun i => (((rows[i]?.getD (0, 0)).2 : ℚ) : ℝ), ?_, ?_⟩
  · rw [waveText_of (by simpa using e1) e2, if_neg]
    rintro (h | h)
    · omega
    · rw [(increasing_iff rows).2 hr] at h; cases h
  · intro i r hi
    simp [hi]

/-- C66: a waveform file with fewer rows, or with a time that does not rise, is rejected. -/
theorem wave_rejected {rows : List (ℚ × ℚ)} {text : List Char} (h : Listed (waveFields rows) text)
    (h2 : rows.length < 2 ∨ ¬ Rising rows) : waveText text = none := by
  obtain ⟨body, tail, hw, ht, rfl⟩ := h
  have hw' : Writes (waveFields rows ++ []) body := by simpa using hw
  have e1 := count_rows (g := some 0) (white_stops ht)
    (fun b hb f hf => by cases hb; exact count_white ht f (by simpa using hf)) rows hw' _ (Nat.lt_succ_self _)
  have e2 := table_rows (white_stops ht) rows hw'
  rw [waveText_of (by simpa using e1) e2, if_pos]
  rcases h2 with h2 | h2
  · exact Or.inl h2
  · refine Or.inr ?_
    cases hi : increasing rows
    · rfl
    · exact absurd ((increasing_iff rows).1 hi) h2

/-- C66: a waveform file with anything that is not a number in it, after any number of complete rows, is rejected: a
comment, for example. -/
theorem wave_foreign {rows : List (ℚ × ℚ)} {body w r : List Char} {c : Char} (h : Writes (waveFields rows) body)
    (hw : ∀ c ∈ w, White c) (hw0 : w ≠ [] ∨ body = []) (hc : Foreign c) : waveText (body ++ (w ++ c :: r)) = none := by
  obtain ⟨h1, h2⟩ := real_foreign (r := r) hw hc
  have hg : ∀ f, (w ++ c :: r).length < f → count f (w ++ c :: r) = none := by
    intro f hf
    obtain ⟨f', rfl⟩ : ∃ f', f = f' + 1 := ⟨f - 1, by omega⟩
    obtain ⟨d, t, e⟩ : ∃ d t, w ++ c :: r = d :: t := by
      cases w with
      | nil => exact ⟨c, r, rfl⟩
      | cons d t => exact ⟨d, t ++ c :: r, rfl⟩
    rw [e] at h1 h2 ⊢
    simp only [count, h1, if_neg h2]
  by_cases hb : body = []
  · subst hb
    have e := hg ((w ++ c :: r).length + 1) (Nat.lt_succ_self _)
    simp only [List.nil_append]
    unfold waveText
    rw [e]; rfl
  · have hw1 : w ≠ [] := hw0.resolve_right hb
    have hst : Stops (w ++ c :: r) := by
      cases w with
      | nil => exact absurd rfl hw1
      | cons d t => exact Or.inr ⟨d, t ++ c :: r, rfl, Or.inl (hw d (by simp))⟩
    have hw' : Writes (waveFields rows ++ []) body := by simpa using h
    have e1 := count_rows (g := none) hst (fun b hb f hf => by cases hb; exact hg f (by simpa using hf)) rows hw' _
      (Nat.lt_succ_self _)
    unfold waveText
    rw [e1]; rfl

/-- C66, what is missing: a last row without its value is dropped without a word. -/
theorem wave_half_row {rows : List (ℚ × ℚ)} {q : ℚ} {text text' : List Char} (h : Listed (waveFields rows) text)
    (h' : Listed (waveFields rows ++ [.real q]) text') : waveText text' = waveText text := by
  obtain ⟨body, tail, hw, ht, rfl⟩ := h
  obtain ⟨body', tail', hw2, ht', rfl⟩ := h'
  have hw' : Writes (waveFields rows ++ []) body := by simpa using hw
  have e1 := count_rows (g := some 0) (white_stops ht)
    (fun b hb f hf => by cases hb; exact count_white ht f (by simpa using hf)) rows hw' _ (Nat.lt_succ_self _)
  have e2 := table_rows (white_stops ht) rows hw'
  have e3 := count_rows (g := some 0) (white_stops ht') (fun b hb f hf => by
    obtain ⟨b1, h1, l1, s1⟩ := real_step hb (white_stops ht')
    cases h1
    obtain ⟨f', rfl⟩ : ∃ f', f = f' + 1 := ⟨f - 1, by omega⟩
    cases b with
    | nil => simp at l1
    | cons c s =>
      simp only [List.cons_append] at s1 ⊢
      simp only [count, s1, List.nil_append, (real_white ht').1, (real_white ht').2, if_true]) rows hw2 _ (Nat.lt_succ_self _)
  have e4 := table_rows (white_stops ht') rows hw2
  rw [waveText_of (by simpa using e1) e2, waveText_of (by simpa using e3) e4]

/-! ### Debye files -/

theorem four_reals {a b c d : ℚ} {ts : List Field} {body tail : List Char} (ht : Stops tail)
    (h : Writes (.real a :: .real b :: .real c :: .real d :: ts) body) :
    ∃ body', Writes ts body' ∧ readReals 4 (body ++ tail) = some ([a, b, c, d], body' ++ tail) := by
  obtain ⟨b1, h1, -, e1⟩ := real_step h ht
  obtain ⟨b2, h2, -, e2⟩ := real_step h1 ht
  obtain ⟨b3, h3, -, e3⟩ := real_step h2 ht
  obtain ⟨b4, h4, -, e4⟩ := real_step h3 ht
  exact ⟨b4, h4, by simp only [readReals, e1, e2, e3, e4, Option.bind_some, Option.map_some]⟩

theorem rows_read {tail : List Char} (ht : Stops tail) : ∀ (l : List Relax) {extra : List Field} {body : List Char},
    Writes (relaxFields l ++ extra) body →
      rows l.length (body ++ tail) = some (l.map fun r => (r.res.1, r.res.2, r.pole.1, r.pole.2))
  | [], _, _, _ => rfl
  | r :: l, _, body, h => by
    obtain ⟨b1, h1, e1⟩ := four_reals ht h
    simp only [List.length_cons, rows, e1, Option.bind_some, rows_read ht l h1, Option.map_some, List.map_cons]

theorem header {eps sigma mu : ℚ} {n : Int} {ts : List Field} {body tail : List Char} (ht : Stops tail)
    (h : Writes (.int n :: .real eps :: .real sigma :: .real mu :: ts) body) :
    ∃ body', Writes ts body' ∧ debyeText (body ++ tail) = if n < 0 then none else (rows n.toNat (body' ++ tail)).map fun l =>
        ((eps : ℝ), (sigma : ℝ), (mu : ℝ), l.map fun r => ((r.1 : ℝ), (r.2.1 : ℝ), (r.2.2.1 : ℝ), (r.2.2.2 : ℝ))) := by
  obtain ⟨b0, h0, e0⟩ := int_step h ht
  obtain ⟨b1, h1, -, e1⟩ := real_step h0 ht
  obtain ⟨b2, h2, -, e2⟩ := real_step h1 ht
  obtain ⟨b3, h3, -, e3⟩ := real_step h2 ht
  refine ⟨b3, h3, ?_⟩
  unfold debyeText
  simp only [readReals, e0, e1, e2, e3, Option.bind_some, Option.map_some]

/-- C66: a Debye file is read as it is written; what follows the announced poles is ignored. -/
theorem debye_read {eps sigma mu : ℚ} {l : List Relax} {extra : List Field} {text : List Char}
    (h : Listed (debyeFields eps sigma mu l ++ extra) text) : debyeText text = some ((eps : ℝ), (sigma : ℝ), (mu : ℝ),
      l.map fun r => ((r.res.1 : ℝ), (r.res.2 : ℝ), (r.pole.1 : ℝ), (r.pole.2 : ℝ))) := by
  obtain ⟨body, tail, hw, ht, rfl⟩ := h
  obtain ⟨b, hb, e⟩ := header (white_stops ht) hw
  rw [e, if_neg (by omega), show ((l.length : Int).toNat) = l.length from rfl, rows_read (white_stops ht) l hb]
  simp

/-- C66: a Debye file with fewer poles than its first number says is rejected. -/
theorem debye_short {eps sigma mu : ℚ} {n : Int} {l : List Relax} {text : List Char}
    (h : Listed (.int n :: .real eps :: .real sigma :: .real mu :: relaxFields l) text) (hn : n < 0 ∨ l.length < n) :
    debyeText text = none := by
  obtain ⟨body, tail, hw, ht, rfl⟩ := h
  obtain ⟨b, hb, e⟩ := header (white_stops ht) hw
  rw [e]
  rcases hn with hn | hn
  · rw [if_pos hn]
  · by_cases h0 : n < 0
    · rw [if_pos h0]
    rw [if_neg h0]
    have key : ∀ (l : List Relax) (k : Nat) (b : List Char), Writes (relaxFields l) b → l.length < k → rows k (b ++ tail) = none := by
      intro l
      induction l with
      | nil =>
        intro k b hb hk
        cases hb
        obtain ⟨k', rfl⟩ : ∃ k', k = k' + 1 := ⟨k - 1, by simp at hk; omega⟩
        simp only [List.nil_append, rows, readReals, (real_white ht).1, Option.bind_none]
      | cons r l ih =>
        intro k b hb hk
        obtain ⟨k', rfl⟩ : ∃ k', k = k' + 1 := ⟨k - 1, by simp at hk; omega⟩
        obtain ⟨b1, h1, e1⟩ := four_reals (white_stops ht) (ts := relaxFields l) hb
        simp only [rows, e1, Option.bind_some, ih k' b1 h1 (by simp at hk; omega), Option.map_none]
    rw [key l n.toNat b hb (by omega)]
    rfl

/-! ### Sheet files -/

theorem getReals_four {a b c d : ℚ} {ts : List Field} {body tail : List Char} (ht : Stops tail)
    (h : Writes (.real a :: .real b :: .real c :: .real d :: ts) body) (x y z w : ℚ) :
    ∃ body', Writes ts body' ∧ getReals [x, y, z, w] (body ++ tail) = ([a, b, c, d], body' ++ tail) := by
  obtain ⟨b1, h1, -, e1⟩ := real_step h ht
  obtain ⟨b2, h2, -, e2⟩ := real_step h1 ht
  obtain ⟨b3, h3, -, e3⟩ := real_step h2 ht
  obtain ⟨b4, h4, -, e4⟩ := real_step h3 ht
  exact ⟨b4, h4, by simp only [getReals, e1, e2, e3, e4]⟩

theorem poles_read {tail : List Char} (ht : Stops tail) : ∀ (l : List Relax) {extra : List Field} {body : List Char} (h : Held),
    Writes (poleFirst l ++ extra) body → ∃ body' h', Writes extra body' ∧
      poles l.length h (body ++ tail) = (l.map fun r => (cplx r.pole, cplx r.res), h', body' ++ tail)
  | [], _, body, h, hw => ⟨body, h, hw, rfl⟩
  | r :: l, _, body, h, hw => by
    obtain ⟨b1, h1, e1⟩ := getReals_four ht (ts := poleFirst l ++ _) hw h.pr h.pi h.rr h.ri
    have e2 : h.pole (body ++ tail) =
        ({ h with pr := r.pole.1, pi := r.pole.2, rr := r.res.1, ri := r.res.2 }, b1 ++ tail) := by
      unfold Held.pole
      rw [e1]; rfl
    obtain ⟨b2, h2, hw2, e3⟩ := poles_read ht l { h with pr := r.pole.1, pi := r.pole.2, rr := r.res.1, ri := r.res.2 } h1
    refine ⟨b2, h2, hw2, ?_⟩
    simp only [List.length_cons, poles, e2, e3, List.map_cons]
    rfl

theorem entries_read {tail : List Char} (ht : Stops tail) : ∀ (es : List Entry) {body : List Char} (h : Held),
    Writes (entryFields poleFirst es) body → entries es.length h (body ++ tail) = es.map Entry.filter
  | [], _, _, _ => rfl
  | e :: es, body, h, hw => by
    obtain ⟨b0, h0, e0⟩ := int_step hw ht
    obtain ⟨b1, h1, -, e1⟩ := real_step h0 ht
    obtain ⟨b2, h2, hw2, e2⟩ := poles_read ht e.terms { h with numPoles := e.terms.length, asymp := e.asymp } h1
    have key : entry h (body ++ tail) = (e.filter, h2, b2 ++ tail) := by
      unfold entry
      simp only [getInt, getReal, e0, e1, Int.toNat_natCast, e2]
      rfl
    simp only [List.length_cons, entries, key, entries_read ht es h2 hw2, List.map_cons]

theorem sheet_head {m n : Int} {ts : List Field} {body tail : List Char} (ht : Stops tail)
    (hw : Writes (.int m :: .int n :: ts) body) (h : Held) : ∃ body', Writes ts body' ∧ sheetText h (body ++ tail) =
      if m = 4 ∧ n = 4 then some fun p q => (entries 16 h (body' ++ tail))[4 * p + q]?.getD ⟨0, []⟩
      else if m = 2 ∧ n = 2 then
        some fun p q => if p / 2 = q / 2 then (entries 4 h (body' ++ tail))[2 * (p % 2) + q % 2]?.getD ⟨0, []⟩ else ⟨0, []⟩
      else none := by
  obtain ⟨b0, h0, e0⟩ := int_step hw ht
  obtain ⟨b1, h1, e1⟩ := int_step h0 ht
  refine ⟨b1, h1, ?_⟩
  unfold sheetText
  simp only [e0, e1, Option.bind_some]

/-- C66: a 4x4 sheet file, with each pole before its residue, gives the filters that are written in it. -/
theorem sheet_read {es : List Entry} {text : List Char} (h : Listed (sheetFields poleFirst 4 4 es) text)
    (hl : es.length = 16) (held : Held) : ∃ pr, sheetText held text = some pr ∧
      ∀ p q e, p < 4 → q < 4 → es[4 * p + q]? = some e → pr p q = e.filter := by
  obtain ⟨body, tail, hw, ht, rfl⟩ := h
  obtain ⟨b, hb, e⟩ := sheet_head (white_stops ht) hw held
  rw [e, if_pos ⟨rfl, rfl⟩]
  refine ⟨_, rfl, ?_⟩
  intro p q e hp hq he
  have := entries_read (white_stops ht) es held hb
  rw [hl] at this
  simp only [this, List.getElem?_map, he, Option.map_some, Option.getD_some]

/-- C66: a 2x2 sheet file gives the same filters for both polarisations, and no coupling between them. -/
theorem sheet_read_two {es : List Entry} {text : List Char} (h : Listed (sheetFields poleFirst 2 2 es) text)
    (hl : es.length = 4) (held : Held) : ∃ pr, sheetText held text = some pr ∧
      (∀ p q e, p < 2 → q < 2 → es[2 * p + q]? = some e → pr p q = e.filter ∧ pr (p + 2) (q + 2) = e.filter) ∧
      (∀ p q, p < 2 → q < 2 → pr p (q + 2) = ⟨0, []⟩ ∧ pr (p + 2) q = ⟨0, []⟩) := by
  obtain ⟨body, tail, hw, ht, rfl⟩ := h
  obtain ⟨b, hb, e⟩ := sheet_head (white_stops ht) hw held
  rw [e, if_neg (by norm_num), if_pos ⟨rfl, rfl⟩]
  refine ⟨_, rfl, ?_, ?_⟩
  · intro p q e hp hq he
    have := entries_read (white_stops ht) es held hb
    rw [hl] at this
    have a1 : p / 2 = q / 2 := by omega
    have a2 : (p + 2) / 2 = (q + 2) / 2 := by omega
    have a3 : 2 * (p % 2) + q % 2 = 2 * p + q := by omega
    have a4 : 2 * ((p + 2) % 2) + (q + 2) % 2 = 2 * p + q := by omega
    simp only [this, if_pos a1, if_pos a2, a3, a4, List.getElem?_map, he, Option.map_some, Option.getD_some, and_self]
  · intro p q hp hq
    have a1 : ¬ p / 2 = (q + 2) / 2 := by omega
    have a2 : ¬ (p + 2) / 2 = q / 2 := by omega
    simp only [if_neg a1, if_neg a2, and_self]

/-- C66: any other size is rejected. -/
theorem sheet_size_rejected {m n : Int} {ts : List Field} {text : List Char} (h : Listed (.int m :: .int n :: ts) text)
    (h4 : ¬ (m = 4 ∧ n = 4)) (h2 : ¬ (m = 2 ∧ n = 2)) (held : Held) : sheetText held text = none := by
  obtain ⟨body, tail, hw, ht, rfl⟩ := h
  obtain ⟨b, hb, e⟩ := sheet_head (white_stops ht) hw held
  rw [e, if_neg h4, if_neg h2]

theorem relax_swap (l : List Relax) : relaxFields l = poleFirst (l.map Relax.swap) := by
  induction l with
  | nil => rfl
  | cons r l ih => simp only [relaxFields, List.map_cons, poleFirst, ih, Relax.swap]

/-- An entry with poles and residues exchanged. -/
def exchanged (e : Entry) : Entry := ⟨e.asymp, e.terms.map Relax.swap⟩

theorem entry_swap (es : List Entry) : entryFields relaxFields es = entryFields poleFirst (es.map exchanged) := by
  induction es with
  | nil => rfl
  | cons e es ih => simp only [entryFields, List.map_cons, ih, relax_swap, exchanged, List.length_map]

/-- C66, what is false: the user manual's table puts the residue before its pole (as Debye files do); a 2x2 sheet file
written like that is accepted with residues and poles exchanged. -/
theorem manual_order {es : List Entry} {text : List Char} (h : Listed (sheetFields relaxFields 2 2 es) text)
    (hl : es.length = 4) (held : Held) : ∃ pr, sheetText held text = some pr ∧
      ∀ p q e, p < 2 → q < 2 → es[2 * p + q]? = some e → pr p q = ⟨(e.asymp : ℝ), e.terms.map fun r => (cplx r.res, cplx r.pole)⟩ := by
  have h' : Listed (sheetFields poleFirst 2 2 (es.map exchanged)) text := by
    unfold sheetFields at h ⊢
    rwa [← entry_swap]
  obtain ⟨pr, e1, e2, -⟩ := sheet_read_two h' (by simpa using hl) held
  refine ⟨pr, e1, ?_⟩
  intro p q e hp hq he
  rw [(e2 p q (exchanged e) hp hq (by simp [List.getElem?_map, he])).1]
  simp [Entry.filter, exchanged, Relax.swap, Function.comp_def]

/-- C66, what is missing: a sheet file that ends too early is accepted: every later entry repeats the last one but is
filled with what the variables still hold. Here: a 2x2 file with its first entry only. -/
theorem short_sheet {e : Entry} {text : List Char} (h : Listed (sheetFields poleFirst 2 2 [e]) text) (ht0 : e.terms = [])
    (held : Held) : ∃ pr, sheetText held text = some pr ∧ ∀ p q, p < 2 → q < 2 → pr p q = e.filter := by
  obtain ⟨body, tail, hw, ht, rfl⟩ := h
  obtain ⟨b, hb, e0⟩ := sheet_head (white_stops ht) hw held
  rw [e0, if_neg (by norm_num), if_pos ⟨rfl, rfl⟩]
  obtain ⟨b1, h1, e1⟩ := int_step hb (white_stops ht)
  obtain ⟨b2, h2, -, e2⟩ := real_step h1 (white_stops ht)
  rw [ht0] at h2 e1
  cases h2
  have hf : e.filter = ⟨(e.asymp : ℝ), []⟩ := by simp [Entry.filter, ht0]
  have k1 : entry held (b ++ tail) = (e.filter, { held with numPoles := 0, asymp := e.asymp }, tail) := by
    unfold entry
    simp only [getInt, getReal, e1, e2, List.length_nil, Int.toNat_natCast, Int.toNat_zero, poles, hf, Nat.cast_zero,
      List.nil_append]
  have k2 : ∀ t : List Char, (∀ c ∈ t, White c) → entry { held with numPoles := 0, asymp := e.asymp } t =
      (e.filter, { held with numPoles := 0, asymp := e.asymp }, []) := by
    intro t ht
    have hn : ∀ c ∈ ([] : List Char), White c := by simp
    unfold entry
    simp only [getInt, getReal, (int_white ht).1, (int_white ht).2, (real_white hn).1, (real_white hn).2, Int.toNat_zero, poles, hf]
  have k3 : entries 4 held (b ++ tail) = [e.filter, e.filter, e.filter, e.filter] := by
    simp only [entries, k1, k2 tail ht, k2 [] (by simp)]
  refine ⟨_, rfl, ?_⟩
  intro p q hp hq
  rw [k3, if_pos (by omega : p / 2 = q / 2)]
  interval_cases p <;> interval_cases q <;> rfl

/-- C66, what is missing: a sheet file that holds nothing but its size is accepted; the filters are what was in memory. -/
theorem empty_sheet {text : List Char} (h : Listed (sheetFields poleFirst 2 2 []) text) (held : Held) :
    ∃ pr, sheetText held text = some pr ∧ (pr 0 0).asymp = held.asymp ∧ (pr 0 0).terms.length = held.numPoles.toNat := by
  obtain ⟨body, tail, hw, ht, rfl⟩ := h
  obtain ⟨b, hb, e0⟩ := sheet_head (white_stops ht) hw held
  cases hb
  rw [e0, if_neg (by norm_num), if_pos ⟨rfl, rfl⟩]
  refine ⟨_, rfl, ?_⟩
  have hn : ∀ c ∈ ([] : List Char), White c := by simp
  have key : ∀ n (h : Held) s, (poles n h s).1.length = n := by
    intro n
    induction n with
    | zero => intro h s; rfl
    | succ n ih => intro h s; simp only [poles, List.length_cons, ih]
  simp only [entries, entry, List.nil_append, getInt, getReal, (int_white ht).1, (int_white ht).2, (real_white hn).1,
    (real_white hn).2]
  exact ⟨rfl, key _ _ _⟩

/-! ### Runs -/

section
variable {eta0 : ℝ} {held : List Char → Held} {F : Folder} {doc : List Stmt} {X : Setup.Experiment} {Q : Setup.Request}
  {blank : Bool} {m : Axis → Nat} {text : List Char}

/-- C66: an `EXTERNAL` waveform passes through every row of its file, shifted by the delay and scaled by the size of its card,
and is zero before the first and after the last row. -/
theorem wave_value (hx : experiment eta0 (world held F) (doc.map Stmt.says) = some (X, Q)) {n f t : List Char} {v : List ℚ}
    (h : Stmt.waveFile n f v ∈ doc) (hu : ∀ st' ∈ doc, C63.Defines n st' → st' = .waveFile n f v) (hF : F f = some t)
    {rows : List (ℚ × ℚ)} (hl : Listed (waveFields rows) t) {size delay : ℝ} (hs : size = (v[0]?.getD 1 : ℚ))
    (hd : delay = (v[1]?.getD 0 : ℚ)) (hd0 : 0 ≤ delay) (T : ℝ) :
    2 ≤ rows.length ∧ Rising rows ∧
    (∀ r ∈ rows, Setup.waveValue T (X.waves (String.ofList n)) (r.1 + delay) = size * r.2) ∧
    (∀ s : ℝ, (∀ r ∈ rows, s < r.1 + delay) ∨ (∀ r ∈ rows, (r.1 : ℝ) + delay < s) →
      Setup.waveValue T (X.waves (String.ofList n)) s = 0) := by
  obtain ⟨tb, hw, e⟩ := C63.wave_file_meant hx h hu
  have hw' : waveText t = some tb := by simpa [world, hF] using hw
  have hok : 2 ≤ rows.length ∧ Rising rows := by
    by_contra hno
    have hno' : rows.length < 2 ∨ ¬ Rising rows := by
      by_cases h2 : 2 ≤ rows.length
      · exact Or.inr fun hr => hno ⟨h2, hr⟩
      · exact Or.inl (by omega)
    rw [wave_rejected hl hno'] at hw'
    cases hw'
  obtain ⟨x, y, e1, e2⟩ := wave_read hl hok.1 hok.2
  rw [e1] at hw'
  cases hw'
  have htab : C29.Table x rows.length := by
    refine ⟨hok.1, ?_⟩
    intro i hi
    have h1 : rows[i]? = some rows[i] := List.getElem?_eq_getElem (by omega)
    have h2 : rows[i + 1]? = some rows[i + 1] := List.getElem?_eq_getElem hi
    rw [(e2 i _ h1).1, (e2 (i + 1) _ h2).1]
    exact_mod_cast hok.2 i _ _ h1 h2
  have hpos : ∀ z, v[0]? = some z → ¬ z < 0 := by
    intro z hz hneg
    obtain ⟨w, hw, -⟩ := C63.wave_at hx h rfl hu
    simp only [Stmt.says, waveCard] at hw
    rw [if_pos ⟨z, hz, hneg⟩] at hw
    cases hw
  have ds : Waveform.dflt ((v[0]?.getD (-1) : ℚ) : ℝ) 1 = size := by
    unfold Waveform.dflt
    cases hv : v[0]? with
    | none => simp [hs, hv]
    | some z =>
      have : ¬ ((z : ℚ) : ℝ) < 0 := by exact_mod_cast hpos z hv
      simp only [Option.getD_some, if_neg this, hs, hv]
  have dd : Waveform.dflt ((v[1]?.getD (-1) : ℚ) : ℝ) 0 = delay := by
    unfold Waveform.dflt
    cases hv : v[1]? with
    | none => simp [hd, hv]
    | some z =>
      have : ¬ ((z : ℚ) : ℝ) < 0 := by
        rw [hd, hv] at hd0
        exact not_lt.2 hd0
      simp only [Option.getD_some, if_neg this, hd, hv]
  have hval : ∀ s, Setup.waveValue T (X.waves (String.ofList n)) s = size *
      C29.wave x y (Waveform.second x y rows.length) rows.length (s - delay) := by
    intro s
    rw [e]
    simp only [Setup.waveValue, ds, dd]
    rfl
  refine ⟨hok.1, hok.2, ?_, ?_⟩
  · intro r hr
    obtain ⟨i, hi, rfl⟩ := List.getElem_of_mem hr
    have h1 : rows[i]? = some rows[i] := List.getElem?_eq_getElem hi
    rw [hval, add_sub_cancel_right, ← (e2 i _ h1).1, C29.through_points htab hi, (e2 i _ h1).2]
  · intro s hsr
    have h2 := hok.1
    have a1 : rows[0]? = some rows[0] := List.getElem?_eq_getElem (by omega)
    have a2 : rows[rows.length - 1]? = some rows[rows.length - 1] := List.getElem?_eq_getElem (by omega)
    rw [hval, C29.wave_outside htab, mul_zero]
    rcases hsr with hsr | hsr
    · left
      rw [(e2 0 _ a1).1]
      have := hsr _ (List.getElem_mem (show 0 < rows.length by omega))
      linarith
    · right
      rw [(e2 _ _ a2).1]
      have := hsr _ (List.getElem_mem (show rows.length - 1 < rows.length by omega))
      linarith

/-- C66: a medium whose card names a file has the parameters of the file, and these are in range. -/
theorem debye_meant (hl : Lays blank m doc text) (hx : experiment eta0 (world held F) (doc.map Stmt.says) = some (X, Q))
    {n f t : List Char} (h : Stmt.debyeFile n f ∈ doc) (hF : F f = some t) {eps sigma mu : ℚ} {l : List Relax}
    {extra : List Field} (hd : Listed (debyeFields eps sigma mu l ++ extra) t) :
    1 ≤ eps ∧ 0 ≤ sigma ∧ 1 ≤ mu ∧ (∀ r ∈ l, r.pole.1 ≤ 0) ∧
    Deck.Card.mt (String.ofList n) (.debye eps sigma mu (l.map fun r => ⟨cplx r.res, cplx r.pole⟩)) ∈ X.file.cards := by
  obtain ⟨css, hf, hc⟩ := C63.items_meant hl hx
  obtain ⟨cs, hcs, ha⟩ := C63.forall₂_mem_left hf h
  obtain ⟨d, p, h1, h2, rfl⟩ := ha
  have h1' : debyeText t = some d := by simpa [world, hF] using h1
  rw [debye_read hd] at h1'
  cases h1'
  unfold readDebyeFile at h2
  split at h2
  · cases h2
  · rename_i hno
    push Not at hno
    obtain ⟨a, b, c, e⟩ := hno
    have a' : (1 : ℝ) ≤ (eps : ℝ) := a
    have b' : (0 : ℝ) ≤ (sigma : ℝ) := b
    have c' : (1 : ℝ) ≤ (mu : ℝ) := c
    cases h2
    refine ⟨by exact_mod_cast a', by exact_mod_cast b', by exact_mod_cast c', ?_, ?_⟩
    · intro r hr
      have : ((r.pole.1 : ℚ) : ℝ) ≤ 0 := e _ (List.mem_map.2 ⟨r, hr, rfl⟩)
      exact_mod_cast this
    · rw [hc, List.mem_flatten]
      refine ⟨_, hcs, ?_⟩
      simp only [List.mem_singleton, List.map_map]
      rfl

/-- C66: a sheet whose card names a 4x4 file has the filters of the file. -/
theorem sheet_meant (hl : Lays blank m doc text) (hx : experiment eta0 (world held F) (doc.map Stmt.says) = some (X, Q))
    {n f t : List Char} (h : Stmt.sheetFile n f ∈ doc) (hF : F f = some t) {es : List Entry} (he : es.length = 16)
    (hs : Listed (sheetFields poleFirst 4 4 es) t) :
    ∃ pr, Deck.Card.bt (String.ofList n) (.sibc pr) ∈ X.file.cards ∧
      ∀ p q e, p < 4 → q < 4 → es[4 * p + q]? = some e → pr p q = e.filter := by
  obtain ⟨css, hf, hc⟩ := C63.items_meant hl hx
  obtain ⟨cs, hcs, ha⟩ := C63.forall₂_mem_left hf h
  obtain ⟨pr, h1, rfl⟩ := ha
  have h1' : sheetText (held f) t = some pr := by simpa [world, hF] using h1
  obtain ⟨pr', e1, e2⟩ := sheet_read hs he (held f)
  rw [e1] at h1'
  cases h1'
  exact ⟨pr, by rw [hc, List.mem_flatten]; exact ⟨_, hcs, by simp⟩, e2⟩

/-- C66: a file that cannot be opened stops the program. -/
theorem missing_file {n f : List Char} {v : List ℚ} (h : Stmt.waveFile n f v ∈ doc ∨ Stmt.debyeFile n f ∈ doc ∨ Stmt.sheetFile n f ∈ doc)
    (hF : F f = none) : experiment eta0 (world held F) (doc.map Stmt.says) = none := by
  by_contra hne
  obtain ⟨XQ, hx⟩ := Option.ne_none_iff_exists'.1 hne
  obtain ⟨_, s, cards, waves, _, _, hc, hw, _⟩ := C63.parts hx
  have f1 := C63.mapM_forall hc
  have f2 := C63.mapM_forall hw
  rw [List.forall₂_map_left_iff] at f1 f2
  rcases h with h | h | h
  · obtain ⟨c, -, hc⟩ := C63.forall₂_mem_left f2 h
    simp [Stmt.says, waveCard, world, hF] at hc
  · obtain ⟨c, -, hc⟩ := C63.forall₂_mem_left f1 h
    simp [Stmt.says, deckCards, world, hF] at hc
  · obtain ⟨c, -, hc⟩ := C63.forall₂_mem_left f1 h
    simp [Stmt.says, deckCards, world, hF] at hc

end

/-! ### A case: a mesh file that names a Debye file, a sheet file and a waveform file -/

theorem spellsReal_of {ds : List Char} (h : ds ≠ []) (hd : ∀ c ∈ ds, '0' ≤ c ∧ c ≤ '9') : SpellsReal (value ds) ds :=
  ⟨ds, [], [], [], ds, 0, false, hd, (by intro c hc; cases hc), by simpa using h, Or.inr ⟨rfl, rfl⟩, Or.inl ⟨rfl, rfl⟩, by simp, Or.inl ⟨rfl, rfl⟩,
    by simp [value]⟩

theorem spellsNeg_of {ds : List Char} (h : ds ≠ []) (hd : ∀ c ∈ ds, '0' ≤ c ∧ c ≤ '9') : SpellsReal (-(value ds : ℚ)) ('-' :: ds) :=
  ⟨ds, [], [], [], ds, 0, true, hd, (by intro c hc; cases hc), by simpa using h, Or.inr ⟨rfl, rfl⟩, Or.inl ⟨rfl, rfl⟩, by simp, Or.inr (Or.inr ⟨rfl, rfl⟩),
    by simp [value]⟩

/-- One more number, after one character of white space. -/
theorem put {q : ℚ} {ds rest : List Char} {ts : List Field} (w : Char) (hw : isSpace w = true) (h : SpellsReal q ds)
    (hr : Writes ts rest) (hr' : rest = [] ∨ ∃ c r, rest = c :: r ∧ isSpace c = true) : Writes (.real q :: ts) ([w] ++ (ds ++ rest)) :=
  .cons (by intro c hc; simp at hc; subst hc; exact (C03.isSpace_iff c).1 hw) h hr
    (by rcases hr' with h | ⟨c, r, h, hc⟩
        · exact Or.inl h
        · exact Or.inr ⟨c, r, h, (C03.isSpace_iff c).1 hc⟩)

theorem putInt {ds rest : List Char} {ts : List Field} (gap : List Char) (hw : ∀ c ∈ gap, isSpace c = true) (h : ds ≠ [])
    (hd : ∀ c ∈ ds, '0' ≤ c ∧ c ≤ '9') (hv : value ds < 2 ^ 31)
    (hr : Writes ts rest) (hr' : rest = [] ∨ ∃ c r, rest = c :: r ∧ isSpace c = true) :
    Writes (.int (value ds) :: ts) (gap ++ (ds ++ rest)) :=
  .cons (fun c hc => (C03.isSpace_iff c).1 (hw c hc)) ⟨C62.spellsInt_of h hd, by omega, by exact_mod_cast hv⟩ hr
    (by rcases hr' with h | ⟨c, r, h, hc⟩
        · exact Or.inl h
        · exact Or.inr ⟨c, r, h, (C03.isSpace_iff c).1 hc⟩)

/-- A table with a pulse of one and a half steps. -/
def waveFile : List Char := " 0 0\n1 5\n3 0\n".toList

theorem waveFile_listed : Listed (waveFields [(0, 0), (1, 5), (3, 0)]) waveFile := by
  refine ⟨" 0 0\n1 5\n3 0".toList, ['\n'], ?_, by simp [White], by decide +kernel⟩
  have e : " 0 0\n1 5\n3 0".toList = [' '] ++ (['0'] ++ ([' '] ++ (['0'] ++ (['\n'] ++ (['1'] ++ ([' '] ++ (['5'] ++
    (['\n'] ++ (['3'] ++ ([' '] ++ (['0'] ++ []))))))))))) := by decide +kernel
  have n0 : SpellsReal 0 ['0'] := by simpa [value] using spellsReal_of (ds := ['0']) (by decide) (by decide)
  have n1 : SpellsReal 1 ['1'] := by simpa [value] using spellsReal_of (ds := ['1']) (by decide) (by decide)
  have n5 : SpellsReal 5 ['5'] := by simpa [value] using spellsReal_of (ds := ['5']) (by decide) (by decide)
  have n3 : SpellsReal 3 ['3'] := by simpa [value] using spellsReal_of (ds := ['3']) (by decide) (by decide)
  rw [e]
  exact put ' ' rfl n0 (put ' ' rfl n0 (put '\n' rfl n1 (put ' ' rfl n5 (put '\n' rfl n3 (put ' ' rfl n0 .nil (Or.inl rfl))
    (Or.inr ⟨_, _, rfl, rfl⟩)) (Or.inr ⟨_, _, rfl, rfl⟩)) (Or.inr ⟨_, _, rfl, rfl⟩)) (Or.inr ⟨_, _, rfl, rfl⟩))
    (Or.inr ⟨_, _, rfl, rfl⟩)

/-- One real pole. -/
def debyeFile : List Char := "1 2 0 1\n3 0 -4 0\n".toList

theorem debyeFile_listed : Listed (debyeFields 2 0 1 [⟨(3, 0), (-4, 0)⟩] ++ []) debyeFile := by
  refine ⟨"1 2 0 1\n3 0 -4 0".toList, ['\n'], ?_, by simp [White], by decide +kernel⟩
  have e : "1 2 0 1\n3 0 -4 0".toList = [] ++ (['1'] ++ ([' '] ++ (['2'] ++ ([' '] ++ (['0'] ++ ([' '] ++ (['1'] ++
    (['\n'] ++ (['3'] ++ ([' '] ++ (['0'] ++ ([' '] ++ (['-', '4'] ++ ([' '] ++ (['0'] ++ []))))))))))))))) := by decide +kernel
  have n0 : SpellsReal 0 ['0'] := by simpa [value] using spellsReal_of (ds := ['0']) (by decide) (by decide)
  have n1 : SpellsReal 1 ['1'] := by simpa [value] using spellsReal_of (ds := ['1']) (by decide) (by decide)
  have n2 : SpellsReal 2 ['2'] := by simpa [value] using spellsReal_of (ds := ['2']) (by decide) (by decide)
  have n3 : SpellsReal 3 ['3'] := by simpa [value] using spellsReal_of (ds := ['3']) (by decide) (by decide)
  have n4 : SpellsReal (-4) ['-', '4'] := by simpa [value] using spellsNeg_of (ds := ['4']) (by decide) (by decide)
  rw [e]
  exact putInt (ds := ['1']) [] (by simp) (by decide) (by decide) (by decide) (put ' ' rfl n2 (put ' ' rfl n0 (put ' ' rfl n1 (put '\n' rfl n3
    (put ' ' rfl n0 (put ' ' rfl n4 (put ' ' rfl n0 .nil (Or.inl rfl)) (Or.inr ⟨_, _, rfl, rfl⟩)) (Or.inr ⟨_, _, rfl, rfl⟩))
    (Or.inr ⟨_, _, rfl, rfl⟩)) (Or.inr ⟨_, _, rfl, rfl⟩)) (Or.inr ⟨_, _, rfl, rfl⟩)) (Or.inr ⟨_, _, rfl, rfl⟩))
    (Or.inr ⟨_, _, rfl, rfl⟩)

/-- A 2x2 sheet: one pole in the first entry, constants in the others. -/
def sheetFile : List Char := "2 2\n1 9\n-4 0 3 0\n0 1\n0 1\n0 9\n".toList

def sheetEntries : List Entry := [⟨9, [⟨(3, 0), (-4, 0)⟩]⟩, ⟨1, []⟩, ⟨1, []⟩, ⟨9, []⟩]

theorem sheetFile_listed : Listed (sheetFields poleFirst 2 2 sheetEntries) sheetFile := by
  refine ⟨"2 2\n1 9\n-4 0 3 0\n0 1\n0 1\n0 9".toList, ['\n'], ?_, by simp [White], by decide +kernel⟩
  have e : "2 2\n1 9\n-4 0 3 0\n0 1\n0 1\n0 9".toList = [] ++ (['2'] ++ ([' '] ++ (['2'] ++ (['\n'] ++ (['1'] ++ ([' '] ++ (['9'] ++
    (['\n'] ++ (['-', '4'] ++ ([' '] ++ (['0'] ++ ([' '] ++ (['3'] ++ ([' '] ++ (['0'] ++ (['\n'] ++ (['0'] ++ ([' '] ++ (['1'] ++
    (['\n'] ++ (['0'] ++ ([' '] ++ (['1'] ++ (['\n'] ++ (['0'] ++ ([' '] ++ (['9'] ++ []))))))))))))))))))))))))))) := by decide +kernel
  have n0 : SpellsReal 0 ['0'] := by simpa [value] using spellsReal_of (ds := ['0']) (by decide) (by decide)
  have n1 : SpellsReal 1 ['1'] := by simpa [value] using spellsReal_of (ds := ['1']) (by decide) (by decide)
  have n3 : SpellsReal 3 ['3'] := by simpa [value] using spellsReal_of (ds := ['3']) (by decide) (by decide)
  have n9 : SpellsReal 9 ['9'] := by simpa [value] using spellsReal_of (ds := ['9']) (by decide) (by decide)
  have n4 : SpellsReal (-4) ['-', '4'] := by simpa [value] using spellsNeg_of (ds := ['4']) (by decide) (by decide)
  rw [e]
  exact putInt (ds := ['2']) [] (by simp) (by decide) (by decide) (by decide) (putInt (ds := ['2']) [' '] (by decide) (by decide)
    (by decide) (by decide) (putInt (ds := ['1']) ['\n'] (by decide) (by decide) (by decide) (by decide) (put ' ' rfl n9
    (put '\n' rfl n4 (put ' ' rfl n0 (put ' ' rfl n3 (put ' ' rfl n0 (putInt (ds := ['0']) ['\n'] (by decide) (by decide) (by decide)
    (by decide) (put ' ' rfl n1 (putInt (ds := ['0']) ['\n'] (by decide) (by decide) (by decide) (by decide) (put ' ' rfl n1
    (putInt (ds := ['0']) ['\n'] (by decide) (by decide) (by decide) (by decide) (put ' ' rfl n9 .nil (Or.inl rfl))
    (Or.inr ⟨_, _, rfl, rfl⟩)) (Or.inr ⟨_, _, rfl, rfl⟩)) (Or.inr ⟨_, _, rfl, rfl⟩)) (Or.inr ⟨_, _, rfl, rfl⟩)) (Or.inr ⟨_, _, rfl, rfl⟩))
    (Or.inr ⟨_, _, rfl, rfl⟩)) (Or.inr ⟨_, _, rfl, rfl⟩)) (Or.inr ⟨_, _, rfl, rfl⟩)) (Or.inr ⟨_, _, rfl, rfl⟩)) (Or.inr ⟨_, _, rfl, rfl⟩))
    (Or.inr ⟨_, _, rfl, rfl⟩)) (Or.inr ⟨_, _, rfl, rfl⟩)) (Or.inr ⟨_, _, rfl, rfl⟩)

example (held : Held) : ∃ pr, sheetText held sheetFile = some pr ∧ pr 0 0 = ⟨9, [(-4, 3)]⟩ ∧ pr 2 2 = ⟨9, [(-4, 3)]⟩ ∧ pr 0 2 = ⟨0, []⟩ := by
  obtain ⟨pr, e1, e2, e3⟩ := sheet_read_two sheetFile_listed rfl held
  have hf : (⟨9, [⟨(3, 0), (-4, 0)⟩]⟩ : Entry).filter = ⟨9, [(-4, 3)]⟩ := by
    simp only [Entry.filter, cplx, List.map_cons, List.map_nil]
    have a1 : (⟨((-4 : ℚ) : ℝ), ((0 : ℚ) : ℝ)⟩ : ℂ) = -4 := by apply Complex.ext <;> simp
    have a2 : (⟨((3 : ℚ) : ℝ), ((0 : ℚ) : ℝ)⟩ : ℂ) = 3 := by apply Complex.ext <;> simp
    rw [a1, a2]
    norm_num
  exact ⟨pr, e1, (e2 0 0 _ (by omega) (by omega) rfl).1.trans hf, (e2 0 0 _ (by omega) (by omega) rfl).2.trans hf,
    (e3 0 0 (by omega) (by omega)).1⟩

/-- The mesh file. -/
def kit : List Stmt := [.version 1 0 0, .size 6 5 4, .close .GS, .debyeFile ['d'] ['d', '.', 'p'],
  .sheetFile ['s'] ['s', '.', 'p'], .waveFile ['w'] ['w', '.', 't'] [2],
  .source (mkBox 2 2 3 3 1 2) ['e'] ['J', 'Z'] ['w'] [], .close .GE, .steps 100, .spacing [1], .close .EN]

def kitText : List Char := "VM 1.0.0
DM 6 5 4
GS
MT d DEBYE \"d.p\"
BT s SIBC \"s.p\"
WF w EXTERNAL \"w.t\" 2
EX 2 2 3 3 1 2 e JZ w
GE
NT 100
MS 1
EN
".toList

/-- The files next to it. -/
def kitFiles : Folder := fun f =>
  if f = ['d', '.', 'p'] then some debyeFile else if f = ['s', '.', 'p'] then some sheetFile
  else if f = ['w', '.', 't'] then some waveFile else none

theorem write_file {f : List Char} {ts : List Field} {rest : List Char} (h : f ≠ []) (hl : f.length ≤ 1023) (hd : '"' ∉ f)
    (hr : Writes ts rest) (hr' : rest = [] ∨ ∃ c r, rest = c :: r ∧ White c) :
    Writes (.file f :: ts) ([' '] ++ (('"' :: (f ++ ['"'])) ++ rest)) :=
  .cons (by simp [White]) ⟨rfl, h, hl, hd⟩ hr hr'

open C62 in
theorem kit_laid : Lays false (fun _ => 0) kit kitText := by
  have e : kitText = letters .VM ++ [' ', '1', '.', '0', '.', '0'] ++ [] ++ ['\n'] ++ (letters .DM ++ [' ', '6', ' ', '5', ' ', '4'] ++ [] ++ ['\n'] ++
    (letters .GS ++ [] ++ [] ++ ['\n'] ++ (letters .MT ++ [' ', 'd', ' ', 'D', 'E', 'B', 'Y', 'E', ' ', '"', 'd', '.', 'p', '"'] ++ [] ++ ['\n'] ++
    (letters .BT ++ [' ', 's', ' ', 'S', 'I', 'B', 'C', ' ', '"', 's', '.', 'p', '"'] ++ [] ++ ['\n'] ++
    (letters .WF ++ [' ', 'w', ' ', 'E', 'X', 'T', 'E', 'R', 'N', 'A', 'L', ' ', '"', 'w', '.', 't', '"', ' ', '2'] ++ [] ++ ['\n'] ++
    (letters .EX ++ [' ', '2', ' ', '2', ' ', '3', ' ', '3', ' ', '1', ' ', '2', ' ', 'e', ' ', 'J', 'Z', ' ', 'w'] ++ [] ++ ['\n'] ++ (letters .GE ++ [] ++ [] ++ ['\n'] ++
    (letters .NT ++ [' ', '1', '0', '0'] ++ [] ++ ['\n'] ++ (letters .MS ++ [' ', '1'] ++ [] ++ ['\n'] ++
    (letters .EN ++ [] ++ [] ++ ['\n'] ++ [])))))))))) := by decide +kernel
  have wt : ∀ x, White x ↔ Mesh.isSpace x = true := fun x => (C03.isSpace_iff x).symm
  have n2 : SpellsReal 2 ['2'] := by simpa [value] using spellsReal_of (ds := ['2']) (by decide) (by decide)
  have n1 : SpellsReal 1 ['1'] := by simpa [value] using spellsReal_of (ds := ['1']) (by decide) (by decide)
  rw [e]
  refine lays_card (st := .version 1 0 0) (by simp [Stmt.Ok]) ⟨[' '], ['1'], ['0'], ['0'], by simp [White],
    spellsInt_of (ds := ['1']) (by decide) (by decide), spellsInt_of (ds := ['0']) (by decide) (by decide),
    spellsInt_of (ds := ['0']) (by decide) (by decide), by decide +kernel⟩ (by decide) (by decide) (by decide) (by decide)
    (Or.inl rfl) (by simp only [wt]; decide) ?_
  refine lays_card (st := .size 6 5 4) (by simp [Stmt.Ok])
    (write_int (ds := ['6']) (by decide) (by decide) (by decide) (write_int (ds := ['5']) (by decide) (by decide) (by decide)
      (write_int (ds := ['4']) (by decide) (by decide) (by decide) .nil (Or.inl rfl)) (white_head _ (Or.inr ⟨_, rfl⟩))) (white_head _ (Or.inr ⟨_, rfl⟩)))
    (by decide) (by decide) (by decide) (by decide)
    (Or.inl rfl) (by simp only [wt]; decide) ?_
  refine lays_card (st := .close .GS) (by simp [Stmt.Ok]) trivial (by decide) (by decide) (by decide) (by decide)
    (Or.inl rfl) (by simp only [wt]; decide) ?_
  refine lays_card (st := .debyeFile ['d'] ['d', '.', 'p']) trivial
    (write_word (w := ['d']) (by decide) (by decide) (by decide)
      (write_word (w := ['D', 'E', 'B', 'Y', 'E']) (by decide) (by decide) (by decide)
        (write_file (f := ['d', '.', 'p']) (by decide) (by decide) (by decide) .nil (Or.inl rfl))
        (white_head _ (Or.inr ⟨_, rfl⟩))) (white_head _ (Or.inr ⟨_, rfl⟩)))
    (by decide) (by decide) (by decide) (by decide)
    (Or.inl rfl) (by simp only [wt]; decide) ?_
  refine lays_card (st := .sheetFile ['s'] ['s', '.', 'p']) trivial
    (write_word (w := ['s']) (by decide) (by decide) (by decide)
      (write_word (w := ['S', 'I', 'B', 'C']) (by decide) (by decide) (by decide)
        (write_file (f := ['s', '.', 'p']) (by decide) (by decide) (by decide) .nil (Or.inl rfl))
        (white_head _ (Or.inr ⟨_, rfl⟩))) (white_head _ (Or.inr ⟨_, rfl⟩)))
    (by decide) (by decide) (by decide) (by decide)
    (Or.inl rfl) (by simp only [wt]; decide) ?_
  refine lays_card (st := .waveFile ['w'] ['w', '.', 't'] [2]) (by simp [Stmt.Ok])
    (write_word (w := ['w']) (by decide) (by decide) (by decide)
      (write_word (w := ['E', 'X', 'T', 'E', 'R', 'N', 'A', 'L']) (by decide) (by decide) (by decide)
        (write_file (f := ['w', '.', 't']) (by decide) (by decide) (by decide)
          (put ' ' rfl n2 .nil (Or.inl rfl)) (white_head _ (Or.inr ⟨_, rfl⟩)))
        (white_head _ (Or.inr ⟨_, rfl⟩))) (white_head _ (Or.inr ⟨_, rfl⟩)))
    (by decide) (by decide) (by decide) (by decide)
    (Or.inl rfl) (by simp only [wt]; decide) ?_
  refine lays_card (st := .source (mkBox 2 2 3 3 1 2) ['e'] ['J', 'Z'] ['w'] []) (by simp [Stmt.Ok])
    (write_int (ds := ['2']) (by decide) (by decide) (by decide) (write_int (ds := ['2']) (by decide) (by decide) (by decide)
      (write_int (ds := ['3']) (by decide) (by decide) (by decide) (write_int (ds := ['3']) (by decide) (by decide) (by decide)
      (write_int (ds := ['1']) (by decide) (by decide) (by decide) (write_int (ds := ['2']) (by decide) (by decide) (by decide)
      (write_word (w := ['e']) (by decide) (by decide) (by decide) (write_word (w := ['J', 'Z']) (by decide) (by decide) (by decide)
      (write_word (w := ['w']) (by decide) (by decide) (by decide) .nil (Or.inl rfl)) (white_head _ (Or.inr ⟨_, rfl⟩))) (white_head _ (Or.inr ⟨_, rfl⟩)))
      (white_head _ (Or.inr ⟨_, rfl⟩))) (white_head _ (Or.inr ⟨_, rfl⟩))) (white_head _ (Or.inr ⟨_, rfl⟩))) (white_head _ (Or.inr ⟨_, rfl⟩)))
      (white_head _ (Or.inr ⟨_, rfl⟩))) (white_head _ (Or.inr ⟨_, rfl⟩)))
    (by decide) (by decide) (by decide) (by decide)
    (Or.inl rfl) (by simp only [wt]; decide) ?_
  refine lays_card (st := .close .GE) (by simp [Stmt.Ok]) trivial (by decide) (by decide) (by decide) (by decide)
    (Or.inl rfl) (by simp only [wt]; decide) ?_
  refine lays_card (st := .steps 100) (by simp [Stmt.Ok])
    (write_count (ds := ['1', '0', '0']) (by decide) (by decide) (by decide) .nil (Or.inl rfl))
    (by decide) (by decide) (by decide) (by decide)
    (Or.inl rfl) (by simp only [wt]; decide) ?_
  refine lays_card (st := .spacing [1]) (by simp [Stmt.Ok]) (put ' ' rfl n1 .nil (Or.inl rfl))
    (by decide) (by decide) (by decide) (by decide)
    (Or.inl rfl) (by simp only [wt]; decide) ?_
  exact lays_card (st := .close .EN) (by simp [Stmt.Ok]) trivial (by decide) (by decide) (by decide) (by decide)
    (Or.inl rfl) (by simp only [wt]; decide) .nil

/-- The mesh file with its data files is the input of a run. -/
theorem kit_experiment (eta0 : ℝ) (held : List Char → Held) :
    ∃ X Q, experiment eta0 (world held kitFiles) (kit.map Stmt.says) = some (X, Q) := by
  obtain ⟨pr, hs, -⟩ := sheet_read_two sheetFile_listed rfl (held ['s', '.', 'p'])
  have hr : Rising [((0 : ℚ), (0 : ℚ)), (1, 5), (3, 0)] := (increasing_iff _).1 (by decide +kernel)
  obtain ⟨x, y, hw, -⟩ := wave_read waveFile_listed (by decide) hr
  have w1 : (world held kitFiles).debye ['d', '.', 'p'] = some (((2 : ℚ) : ℝ), ((0 : ℚ) : ℝ), ((1 : ℚ) : ℝ),
      [(((3 : ℚ) : ℝ), ((0 : ℚ) : ℝ), ((-4 : ℚ) : ℝ), ((0 : ℚ) : ℝ))]) := by
    have := debye_read debyeFile_listed
    simpa [world, kitFiles] using this
  have w2 : (world held kitFiles).sheet ['s', '.', 'p'] = some pr := by simpa [world, kitFiles] using hs
  have w3 : (world held kitFiles).wave ['w', '.', 't'] = some (x, y, 3) := by simpa [world, kitFiles] using hw
  have hc : ∃ r, (kit.map Stmt.says).mapM (deckCards eta0 (world held kitFiles)) = some r := by
    have h1 : ¬ ((2 : ℝ) < 1) := by norm_num
    have hl : isLumped ['J', 'Z'] = false := by decide
    have h4 : ¬ ((4 : ℝ) < 0) := by norm_num
    simp [kit, Stmt.says, List.mapM_cons, deckCards, w1, w2, readDebyeFile, h1, hl, h4]
  have hv : ∃ r, (kit.map Stmt.says).mapM (waveCard (world held kitFiles)) = some r := by
    have hl : isLumped ['J', 'Z'] = false := by decide
    have h2 : ¬ ((2 : ℚ) < 0) := by norm_num
    simp [kit, Stmt.says, List.mapM_cons, waveCard, w3, hl, h2]
  obtain ⟨r, hc⟩ := hc
  obtain ⟨v, hv⟩ := hv
  have h1 : ∀ f, ((outer (kit.map Stmt.says) f).tag.outer?).isSome := by
    intro f; cases f <;> decide +kernel
  have h2 : spacingOk (kit.map Stmt.says) = true := by decide +kernel
  have h3 : ∀ c, Raw.cn c ∈ kit.map Stmt.says → (Run.parseCN (some (c : ℝ))).isSome := by
    intro c hc
    have hl : isLumped ['J', 'Z'] = false := by decide
    simp [kit, Stmt.says, hl] at hc
  unfold experiment
  rw [hc, hv]
  have e1 : ((kit.map Stmt.says).findSome? fun | .dm x y z => some (x, y, z) | _ => none) = some (6, 5, 4) := rfl
  have e2 : ((kit.map Stmt.says).findSome? fun | .nt n => some n | _ => none) = some 100 := rfl
  simp only [e1, e2, Option.bind_some, if_pos h1, if_pos (And.intro h2 h3)]
  exact ⟨_, _, rfl⟩

/-- Its waveform is 10 at time 1 and zero after time 3; its medium has one pole. -/
theorem kit_meant (eta0 T : ℝ) (held : List Char → Held) : ∃ X Q,
    experiment eta0 (world held kitFiles) (kit.map Stmt.says) = some (X, Q) ∧ Setup.waveValue T (X.waves "w") 1 = 10 ∧
    (∀ s, 3 < s → Setup.waveValue T (X.waves "w") s = 0) ∧
    Deck.Card.mt "d" (.debye ((2 : ℚ) : ℝ) ((0 : ℚ) : ℝ) ((1 : ℚ) : ℝ) [⟨cplx (3, 0), cplx (-4, 0)⟩]) ∈ X.file.cards := by
  obtain ⟨X, Q, hx⟩ := kit_experiment eta0 held
  have hu : ∀ st' ∈ kit, C63.Defines ['w'] st' → st' = .waveFile ['w'] ['w', '.', 't'] [2] := by
    intro st hst hd
    simp only [kit, List.mem_cons, List.not_mem_nil, or_false] at hst
    rcases hst with rfl | rfl | rfl | rfl | rfl | rfl | rfl | rfl | rfl | rfl | rfl <;> first | rfl | exact absurd hd (by simp [C63.Defines])
  obtain ⟨-, -, a, b⟩ := wave_value (size := 2) (delay := 0) hx (n := ['w']) (f := ['w', '.', 't']) (v := [2]) (by simp [kit]) hu (by simp [kitFiles]) waveFile_listed
    (by simp) (by simp) le_rfl T
  obtain ⟨-, -, -, -, c⟩ := debye_meant kit_laid hx (n := ['d']) (f := ['d', '.', 'p']) (by simp [kit]) (by simp [kitFiles]) debyeFile_listed
  refine ⟨X, Q, hx, ?_, ?_, c⟩
  · have := a (1, 5) (by simp)
    norm_num at this
    exact this
  · intro s hs
    refine b s (Or.inr ?_)
    intro r hr
    simp only [List.mem_cons, List.not_mem_nil, or_false] at hr
    rcases hr with rfl | rfl | rfl <;> push_cast <;> linarith

end Vulture.C66
