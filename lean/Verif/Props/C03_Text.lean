import Verif.Model.MeshText
import Verif.Spec.Text
/-
C03: comments, blank lines and padding are inert.  Violated for lines that hold only white space
(undefined behaviour) and for over-long comment lines; proved otherwise.
-/
namespace Vulture.C03
open Mesh Spec

theorem isSpace_iff (c : Char) : isSpace c = true ↔ White c := by
  simp [isSpace, White, or_assoc]

theorem isSpace_false (c : Char) : isSpace c = false ↔ ¬ White c := by
  rw [← isSpace_iff]; simp

theorem removeComments_eq (body com : List Char) (h : '#' ∉ body)
    (hc : com = [] ∨ ∃ t, com = '#' :: t) : removeComments (body ++ com) = body := by
  induction body with
  | nil => rcases hc with rfl | ⟨t, rfl⟩ <;> simp [removeComments]
  | cons c s ih =>
    simp only [List.mem_cons, not_or] at h
    have : (c == '#') = false := by simpa using fun e => h.1 e.symm
    simp [removeComments, this, ih h.2]

theorem startScan_app (pre : List Char) (hp : ∀ c ∈ pre, isSpace c = true) (s : List Char) :
    startScan (pre ++ s) = pre.length + startScan s := by
  induction pre with
  | nil => simp
  | cons a p ih =>
    have := hp a (by simp)
    simp [startScan, this, ih (fun c hc => hp c (by simp [hc]))]
    omega

theorem startScan_zero (c : Char) (s : List Char) (h : isSpace c = false) :
    startScan (c :: s) = 0 := by simp [startScan, h]

/-- Scanning back over a padding suffix. -/
theorem endScan_post (l : List Char) (start : Nat) (c : Char) (post : List Char)
    (hc : isSpace c = false) (hp : ∀ x ∈ post, isSpace x = true) (hs : start ≤ l.length) :
    endScan (l ++ c :: post) start (l ++ c :: post).length = some l.length := by
  have key : ∀ k, k ≤ post.length →
      endScan (l ++ c :: post) start (l.length + 1 + k) = some l.length := by
    intro k
    induction k with
    | zero =>
      intro _
      simp [endScan, hc]
    | succ k ih =>
      intro hk
      have hk' : k < post.length := by omega
      have hget : (l ++ c :: post)[l.length + 1 + k]? = some post[k] := by
        rw [List.getElem?_append_right (by omega)]
        have : l.length + 1 + k - l.length = k + 1 := by omega
        rw [this]; simp [hk']
      have hsp := hp post[k] (List.getElem_mem _)
      have hne : (l.length + 1 + k != start) = true := by simp; omega
      show endScan _ _ ((l.length + 1 + k) + 1) = _
      rw [endScan, hget]
      simp only [hsp, hne, Bool.and_self, if_true]
      exact ih (by omega)
  have := key post.length (Nat.le_refl _)
  have e : (l ++ c :: post).length = l.length + 1 + post.length := by simp; omega
  rw [e]; exact this

theorem endScan_all_space (s : List Char) (start : Nat) (h : ∀ x ∈ s, isSpace x = true)
    (hs : s.length ≤ start) : ∀ e, e ≤ s.length → endScan s start e = none := by
  intro e
  induction e with
  | zero => intro _; rfl
  | succ e ih =>
    intro he
    have : s[e]? = some s[e] := by simp
    have hsp := h s[e] (List.getElem_mem _)
    have hne : (e != start) = true := by simp; omega
    rw [endScan, this]
    simp only [hsp, hne, Bool.and_self, if_true]
    exact ih (by omega)

theorem cstr_app (s t : List Char) (h : '\x00' ∉ s) : cstr (s ++ '\x00' :: t) = s := by
  induction s with
  | nil => simp [cstr]
  | cons a s ih =>
    simp only [List.mem_cons, not_or] at h
    have : (a != '\x00') = true := by simpa using fun e => h.1 e.symm
    simp only [cstr, List.cons_append, List.takeWhile_cons, this, if_true]
    exact congrArg _ (ih h.2)

/-- `strtrim` removes exactly the padding of a line with a non-empty body. -/
theorem strtrim_padded (pre body post : List Char) (hpre : ∀ c ∈ pre, isSpace c = true)
    (hpost : ∀ c ∈ post, isSpace c = true) (hne : body ≠ [])
    (hf : ∀ c t, body = c :: t → isSpace c = false)
    (hb : ∀ c t, body = t ++ [c] → isSpace c = false) (h0 : '\x00' ∉ body) :
    strtrim (pre ++ body ++ post) = .ok body := by
  obtain ⟨a, t, rfl⟩ : ∃ a t, body = a :: t := by
    cases body with
    | nil => exact absurd rfl hne
    | cons a t => exact ⟨a, t, rfl⟩
  have hst : startScan (pre ++ (a :: t) ++ post) = pre.length := by
    rw [List.append_assoc, startScan_app pre hpre, List.cons_append,
      startScan_zero a _ (hf a t rfl)]; rfl
  obtain ⟨u, z, hz⟩ : ∃ u z, a :: t = u ++ [z] :=
    ⟨(a :: t).dropLast, (a :: t).getLast (by simp), (List.dropLast_concat_getLast (by simp)).symm⟩
  have hzs := hb z u hz
  have hlen : t.length = u.length := by
    have := congrArg List.length hz; simp at this; exact this
  have hend : endScan (pre ++ (a :: t) ++ post) pre.length (pre ++ (a :: t) ++ post).length
      = some (pre.length + t.length) := by
    have h := endScan_post (pre ++ u) pre.length z post hzs hpost (by simp)
    have e : pre ++ (a :: t) ++ post = (pre ++ u) ++ z :: post := by rw [hz]; simp
    rw [e, h]; simp [hlen]
  unfold strtrim
  rw [if_neg (by simp)]
  simp only [hst, hend]
  have hdrop : ∀ b : List Char, (if pre.length ≠ 0 then Res.ok (cstr (b.drop pre.length))
      else Res.ok (cstr b)) = Res.ok (cstr (b.drop pre.length)) := by
    intro b
    by_cases hp : pre.length = 0
    · simp [hp]
    · simp [hp]
  rw [hdrop]
  congr 1
  by_cases hpo : post = []
  · subst hpo
    have e1 : ¬ ((pre ++ (a :: t) ++ []).length - 1 ≠ pre.length + t.length) := by
      simp
    rw [if_neg e1]
    have e2 : (if pre.length ≠ 0 ∧ pre.length + t.length = pre.length then
        (pre ++ (a :: t) ++ [] ++ ['\x00']).set 0 '\x00'
        else pre ++ (a :: t) ++ [] ++ ['\x00']).drop pre.length = (a :: t) ++ ['\x00'] := by
      split
      · rename_i h
        rw [List.drop_set_of_lt (by omega)]
        simp
      · simp
    rw [e2]
    exact cstr_app _ _ h0
  · have hpl : post.length ≠ 0 := by simpa using hpo
    have e1 : (pre ++ (a :: t) ++ post).length - 1 ≠ pre.length + t.length := by
      simp; omega
    rw [if_pos e1]
    obtain ⟨q, r, rfl⟩ : ∃ q r, post = q :: r := by
      cases post with
      | nil => exact absurd rfl hpo
      | cons q r => exact ⟨q, r, rfl⟩
    have e2 : ((pre ++ (a :: t) ++ q :: r ++ ['\x00']).set (pre.length + t.length + 1) '\x00').drop
        pre.length = (a :: t) ++ '\x00' :: (r ++ ['\x00']) := by
      have : pre ++ (a :: t) ++ q :: r ++ ['\x00'] = (pre ++ (a :: t)) ++ q :: (r ++ ['\x00']) := by
        simp
      rw [this, List.set_append_right _ _ (by simp; omega)]
      have : pre.length + t.length + 1 - (pre ++ a :: t).length = 0 := by simp; omega
      rw [this]
      simp
    rw [e2]
    exact cstr_app _ _ h0

/-- C03, one line: a line with a non-empty body is processed as its body alone. -/
theorem padding_inert (line body : List Char) (h : Padded line body) (hne : body ≠ [])
    (h0 : '\x00' ∉ body) : processLine line = processLine body := by
  obtain ⟨⟨pre, post, com, rfl, h1, h2, h3⟩, h4, h5, h6⟩ := h
  have sp : ∀ l : List Char, (∀ c ∈ l, White c) → '#' ∉ l := by
    intro l hl hm
    have := hl _ hm
    simp [White] at this
  have r1 : removeComments (pre ++ body ++ post ++ com) = pre ++ body ++ post := by
    apply removeComments_eq _ _ _ h3
    simp [sp pre h1, sp post h2, h4]
  have r2 : removeComments body = body := by
    have := removeComments_eq body [] h4 (Or.inl rfl); simpa using this
  have t1 := strtrim_padded pre body post (fun c hc => (isSpace_iff c).2 (h1 c hc))
    (fun c hc => (isSpace_iff c).2 (h2 c hc)) hne
    (fun c t e => (isSpace_false c).2 (h5 c t e)) (fun c t e => (isSpace_false c).2 (h6 c t e)) h0
  have t2 := strtrim_padded [] body [] (by simp) (by simp) hne
    (fun c t e => (isSpace_false c).2 (h5 c t e)) (fun c t e => (isSpace_false c).2 (h6 c t e)) h0
  simp only [List.nil_append, List.append_nil] at t2
  simp only [processLine, r1, r2, t1, t2]

/-- C03, one line: a line that *starts* with the comment character (or is the empty string) is
skipped. -/
theorem comment_line_inert (com : List Char) (h : com = [] ∨ ∃ t, com = '#' :: t) :
    processLine com = .ok none := by
  have := removeComments_eq [] com (by simp) h
  simp only [List.nil_append] at this
  simp [processLine, this, strtrim]

/-- C03 is violated: a line holding only white space before its end or its comment, such as an
empty line with its newline, drives `strtrim` out of its buffer. -/
theorem blank_line_ub (ws com : List Char) (hne : ws ≠ []) (hws : ∀ c ∈ ws, White c)
    (hc : com = [] ∨ ∃ t, com = '#' :: t) : processLine (ws ++ com) = .ub := by
  have hh : '#' ∉ ws := by
    intro hm; have := hws _ hm; simp [White] at this
  have r := removeComments_eq ws com hh hc
  have hsp : ∀ c ∈ ws, isSpace c = true := fun c hc => (isSpace_iff c).2 (hws c hc)
  have hst : startScan ws = ws.length := by
    have := startScan_app ws hsp []
    simpa [startScan] using this
  have := endScan_all_space ws ws.length hsp (Nat.le_refl _) ws.length (Nat.le_refl _)
  simp [processLine, r, strtrim, hne, hst, this]

/-- An ordinary blank line, and an indented comment. -/
example : processLine ['\n'] = .ub := blank_line_ub ['\n'] [] (by simp) (by simp [White]) (Or.inl rfl)
example : processLine [' ', '#', 'x', '\n'] = .ub :=
  blank_line_ub [' '] ['#', 'x', '\n'] (by simp) (by simp [White]) (Or.inr ⟨_, rfl⟩)

/-- What a line contributes: a comment-only/empty line nothing, a padded body the body. -/
inductive Strips : List (List Char) → List (List Char) → Prop
  | nil : Strips [] []
  | skip {l ls bs} : (l = [] ∨ ∃ t, l = '#' :: t) → Strips ls bs → Strips (l :: ls) bs
  | keep {l b ls bs} : Padded l b → b ≠ [] → '\x00' ∉ b → Strips ls bs →
      Strips (l :: ls) (b :: bs)

/-- C03, whole files (partial: blank and white-space-only lines are excluded because they are
undefined behaviour): stripping comments and padding changes neither the cards recognised, nor their
parameter text, nor the outcome. -/
theorem stripping_inert_partial (handler : Card → List Char → Bool) (s : RState)
    {ls bs : List (List Char)} (h : Strips ls bs) :
    readLines handler s ls = readLines handler s bs := by
  induction h generalizing s with
  | nil => rfl
  | skip hl _ ih => simp only [readLines, comment_line_inert _ hl]; exact ih s
  | keep hp hne h0 _ ih =>
    simp only [readLines, padding_inert _ _ hp hne h0]
    cases processLine _ with
    | ub => rfl
    | error => rfl
    | ok o =>
      cases o with
      | none => exact ih s
      | some p =>
        obtain ⟨c, txt⟩ := p
        simp only
        cases step s c (handler c txt) with
        | ok s' => exact ih s'
        | error => rfl
        | ub => rfl

/-- The hypotheses are met by an ordinary commented, indented card line. -/
example : Padded [' ', 'N', 'T', ' ', '5', ' ', '#', 'x', '\n'] ['N', 'T', ' ', '5'] :=
  ⟨⟨[' '], [' '], ['#', 'x', '\n'], rfl, by simp [White], by simp [White], Or.inr ⟨_, rfl⟩⟩,
   by simp, by intro c t h; injection h with h; subst h; simp [White],
   by
    intro c t h
    have := congrArg List.getLast? h
    simp at this; subst this; simp [White]⟩
example : processLine [' ', 'N', 'T', ' ', '5', ' ', '#', 'x', '\n'] =
    .ok (some (.NT, [' ', '5'])) := by decide

/-! ### Long lines -/

/-- `fgets` on a text whose first line fits in the buffer returns that line. -/
theorem fgets_short_line (l rest : List Char) (hl : '\n' ∉ l) (hlen : l.length < 1022) :
    fgetsLines (l ++ '\n' :: rest) = (l ++ ['\n']) :: fgetsLines rest := by
  have key : ∀ (l acc : List Char) (room : Nat), '\n' ∉ l → l.length < room →
      fgetsAux 1022 room acc (l ++ '\n' :: rest) =
        (acc.reverse ++ l ++ ['\n']) :: fgetsAux 1022 1022 [] rest := by
    intro l
    induction l with
    | nil => intro acc room _ _; simp [fgetsAux]
    | cons c s ih =>
      intro acc room h hr
      simp only [List.mem_cons, not_or] at h
      simp only [List.length_cons] at hr
      have hc : ¬ (c = '\n' ∨ room ≤ 1) := by
        rintro (h' | h')
        · exact h.1 h'.symm
        · omega
      rw [List.cons_append, fgetsAux, if_neg hc, ih _ _ h.2 (by omega)]
      simp
  have := key l [] 1022 hl hlen
  simpa [fgetsLines] using this

/-- `fgets` cuts a line after 1022 characters. -/
theorem fgets_long_line (l rest : List Char) (hl : '\n' ∉ l) (hlen : l.length = 1022) :
    fgetsLines (l ++ rest) = l :: fgetsLines rest := by
  have key : ∀ (l acc : List Char) (room : Nat), l ≠ [] → '\n' ∉ l → l.length = room →
      fgetsAux 1022 room acc (l ++ rest) =
        (acc.reverse ++ l) :: fgetsAux 1022 1022 [] rest := by
    intro l
    induction l with
    | nil => intro acc room h; exact absurd rfl h
    | cons c s ih =>
      intro acc room _ h hr
      simp only [List.mem_cons, not_or] at h
      simp only [List.length_cons] at hr
      by_cases hs : s = []
      · subst hs
        have hroom : room ≤ 1 := by simp at hr; omega
        rw [List.cons_append, fgetsAux, if_pos (Or.inr hroom)]; simp
      · have h1 : s.length ≠ 0 := by simpa using hs
        have hc : ¬ (c = '\n' ∨ room ≤ 1) := by
          rintro (h' | h')
          · exact h.1 h'.symm
          · omega
        rw [List.cons_append, fgetsAux, if_neg hc, ih _ _ hs h.2 (by omega)]
        simp
  have := key l [] 1022 (by intro h; simp [h] at hlen) hl hlen
  simpa [fgetsLines] using this

/-- C03 is violated for long comments: whatever follows the 1022nd character of a comment line is
read as a line of its own. -/
theorem long_comment_tail_is_parsed (handler : Card → List Char → Bool) (com tail : List Char)
    (hlen : com.length = 1021) (hc : '\n' ∉ com) :
    readText handler (('#' :: com) ++ tail) = readText handler tail := by
  have h1 : ('#' :: com).length = 1022 := by simp [hlen]
  have h2 : '\n' ∉ ('#' :: com) := by simp [hc]
  unfold readText
  rw [fgets_long_line _ _ h2 h1]
  simp only [readLines, comment_line_inert _ (Or.inr ⟨com, rfl⟩)]

/-- Witness: a file that is one comment line is reported as an error. -/
theorem long_comment_rejected :
    readText (fun _ _ => true) ('#' :: List.replicate 1021 'x' ++ ['e', 't', 'c']) = .error := by
  rw [long_comment_tail_is_parsed _ _ _ List.length_replicate
    (fun h => absurd (List.eq_of_mem_replicate h) (by decide))]
  rfl

/-- C03 end to end for files whose lines all fit the buffer: the text of a file made of short
lines is read line by line. -/
theorem readText_short_lines (handler : Card → List Char → Bool) (ls : List (List Char))
    (h : ∀ l ∈ ls, '\n' ∉ l ∧ l.length < 1022) :
    readText handler (ls.map (· ++ ['\n'])).flatten =
      readLines handler RState.init (ls.map (· ++ ['\n'])) := by
  unfold readText
  congr 1
  induction ls with
  | nil => simp [fgetsLines, fgetsAux]
  | cons l ls ih =>
    have hl := h l (by simp)
    simp only [List.map_cons, List.flatten_cons, List.append_assoc]
    rw [show ['\n'] ++ (ls.map (· ++ ['\n'])).flatten = '\n' :: (ls.map (· ++ ['\n'])).flatten from rfl,
      fgets_short_line _ _ hl.1 hl.2, ih (fun x hx => h x (by simp [hx]))]

end Vulture.C03
