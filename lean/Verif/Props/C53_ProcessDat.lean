import Verif.Model.ProcessDat
import Verif.Props.C50_Reader
import Mathlib.Tactic.IntervalCases
/-
C53  The description of the recorded data, `process.dat`, is read back by the companion scripts as it was
written: title, number of observers, their boxes and steps, the recorded steps, frequencies, mesh size; and
the recorded fields are found with it. The companion writer and reader are inverse to each other.
-/
set_option linter.unusedSimpArgs false
set_option linter.unusedVariables false
namespace Vulture.C53
open Vulture.Run Vulture.ProcessDat

/-! ### Decimal numbers -/

theorem digit_isDigit {d : Nat} (h : d < 10) : (Char.ofNat (48 + d)).isDigit = true := by
  interval_cases d <;> rfl
theorem digit_val {d : Nat} (h : d < 10) : digitVal (Char.ofNat (48 + d)) = d := by
  interval_cases d <;> rfl

theorem decNat_digits (n : Nat) : ∀ c ∈ decNat n, c.isDigit = true := by
  induction n using Nat.strong_induction_on with
  | _ n ih =>
    rw [decNat.eq_def]
    split
    · intro c hc
      rw [List.mem_singleton] at hc
      subst hc
      exact digit_isDigit ‹_›
    · intro c hc
      rcases List.mem_append.1 hc with hc | hc
      · exact ih _ (by omega) c hc
      · rw [List.mem_singleton] at hc
        subst hc
        exact digit_isDigit (by omega)

theorem decNat_ne (n : Nat) : decNat n ≠ [] := by
  rw [decNat.eq_def]; split <;> simp

theorem decNat_val (n : Nat) : (decNat n).foldl (fun a c => 10 * a + digitVal c) 0 = (n : Int) := by
  induction n using Nat.strong_induction_on with
  | _ n ih =>
    rw [decNat.eq_def]
    split
    · simp [digit_val ‹_›]
    · rw [List.foldl_append, ih _ (by omega)]
      simp only [List.foldl_cons, List.foldl_nil, digit_val (show n % 10 < 10 by omega)]
      omega

/-- The text after a number does not begin with a digit. -/
def Stops (s : List Char) : Prop := ∀ c ∈ s.head?, c.isDigit = false

theorem takeWhile_stop {p : Char → Bool} {l s : List Char} (h : ∀ c ∈ l, p c = true)
    (hs : ∀ c ∈ s.head?, p c = false) : (l ++ s).takeWhile p = l ∧ (l ++ s).dropWhile p = s := by
  induction l with
  | nil =>
    cases s with
    | nil => exact ⟨rfl, rfl⟩
    | cons c s =>
      have := hs c (by simp)
      simp [this]
  | cons c l ih =>
    have hc := h c (by simp)
    obtain ⟨h1, h2⟩ := ih fun x hx => h x (by simp [hx])
    simp [hc, h1, h2]

theorem scanNat_dec (n : Nat) {s : List Char} (hs : Stops s) : scanNat (decNat n ++ s) = some ((n : Int), s) := by
  obtain ⟨h1, h2⟩ := takeWhile_stop (decNat_digits n) hs
  unfold scanNat
  rw [h1, h2, if_neg (decNat_ne n), decNat_val]

theorem digit_facts {c : Char} (h : c.isDigit = true) : isWhite c = false ∧ c ≠ '-' ∧ c ≠ '+' := by
  refine ⟨?_, ?_, ?_⟩
  · by_contra hw
    rw [Bool.not_eq_false] at hw
    simp only [isWhite, Bool.or_eq_true, decide_eq_true_eq] at hw
    rcases hw with ((rfl | rfl) | rfl) | rfl <;> revert h <;> decide
  · rintro rfl; revert h; decide
  · rintro rfl; revert h; decide

theorem drop_white {w t : List Char} (hw : ∀ c ∈ w, isWhite c = true) (ht : ∀ c ∈ t.head?, isWhite c = false) :
    (w ++ t).dropWhile isWhite = t := (takeWhile_stop hw ht).2

theorem decNat_cons (n : Nat) : ∃ c l, decNat n = c :: l ∧ c.isDigit = true := by
  cases h : decNat n with
  | nil => exact absurd h (decNat_ne n)
  | cons c l => exact ⟨c, l, rfl, decNat_digits n c (by rw [h]; simp)⟩

/-- A number printed after white space is scanned as that number. -/
theorem scanInt_dec (i : Int) {w s : List Char} (hw : ∀ c ∈ w, isWhite c = true) (hs : Stops s) :
    scanInt (w ++ (dec i ++ s)) = some (i, s) := by
  obtain ⟨c, l, hc, hd⟩ := decNat_cons i.natAbs
  obtain ⟨f1, f2, f3⟩ := digit_facts hd
  unfold scanInt
  rw [drop_white hw]
  · unfold dec
    by_cases hn : i < 0
    · rw [if_pos hn]
      simp only [List.cons_append]
      rw [scanNat_dec _ hs]
      simp only [Option.map_some, Option.some.injEq, Prod.mk.injEq, and_true]
      omega
    · rw [if_neg hn]
      have e := scanNat_dec i.natAbs hs
      have hi : (i.natAbs : Int) = i := by omega
      rw [hi] at e
      rw [hc] at e ⊢
      simp only [List.cons_append] at e ⊢
      split
      · rename_i h; exact absurd (List.cons.inj h).1 f2
      · rename_i h; exact absurd (List.cons.inj h).1 f3
      · exact e
  · unfold dec
    split
    · intro x hx
      simp only [List.cons_append, List.head?_cons, Option.mem_def, Option.some.injEq] at hx
      subst hx; decide
    · intro x hx
      rw [hc] at hx
      simp only [List.cons_append, List.head?_cons, Option.mem_def, Option.some.injEq] at hx
      subst hx; exact f1

theorem stops_white {c : Char} (h : isWhite c = true) (s : List Char) : Stops (c :: s) := by
  intro x hx
  simp only [List.head?_cons, Option.mem_def, Option.some.injEq] at hx
  subst hx
  by_contra hd
  rw [Bool.not_eq_false] at hd
  rw [(digit_facts hd).1] at h
  cases h

/-- Numbers each preceded by white space. -/
theorem scanInts_spaced (l : List Int) {w s : List Char} (hw : ∀ c ∈ w, isWhite c = true) (hs : Stops s) :
    scanInts l.length (w ++ (spaced l ++ s)) = some (l, if l = [] then w ++ s else s) := by
  induction l generalizing w with
  | nil => rfl
  | cons i l ih =>
    have e : w ++ (spaced (i :: l) ++ s) = (w ++ [' ']) ++ (dec i ++ (spaced l ++ s)) := by
      simp [spaced]
    have hst : Stops (spaced l ++ s) := by
      cases l with
      | nil => exact hs
      | cons j l => exact stops_white (c := ' ') (by decide) _
    rw [e]
    simp only [List.length_cons, scanInts]
    rw [scanInt_dec i (by intro c hc; rcases List.mem_append.1 hc with h | h
                          · exact hw c h
                          · rw [List.mem_singleton] at h; subst h; decide) hst]
    simp only [Option.bind_some]
    have := ih (w := []) (by simp)
    simp only [List.nil_append] at this
    rw [this]
    simp only [Option.map_some, Option.some.injEq, Prod.mk.injEq, true_and, reduceCtorEq, if_false]
    split <;> rfl

theorem scanRows_lines (l : List BoxLine) {w s : List Char} (hw : ∀ c ∈ w, isWhite c = true) :
    ∃ w', (∀ c ∈ w', isWhite c = true) ∧
    scanRows l.length (w ++ (l.flatMap (fun b => spaced (row b) ++ ['\n']) ++ s)) = some (l.map row, w' ++ s) := by
  induction l generalizing w with
  | nil => exact ⟨w, hw, rfl⟩
  | cons b l ih =>
    obtain ⟨w', hw', e⟩ := ih (w := ['\n']) (by simp [isWhite])
    refine ⟨w', hw', ?_⟩
    have e1 : w ++ ((b :: l).flatMap (fun b => spaced (row b) ++ ['\n']) ++ s) =
        w ++ (spaced (row b) ++ (['\n'] ++ (l.flatMap (fun b => spaced (row b) ++ ['\n']) ++ s))) := by
      simp
    rw [e1]
    simp only [List.length_cons, scanRows]
    have := scanInts_spaced (row b) (w := w) hw (s := ['\n'] ++ (l.flatMap (fun b => spaced (row b) ++ ['\n']) ++ s))
      (stops_white (by decide) _)
    have hl : (row b).length = 9 := rfl
    rw [hl] at this
    rw [this]
    have hne : row b ≠ [] := by simp [row]
    simp only [Option.bind_some, if_neg hne]
    rw [e]
    rfl

/-- A word: not empty, without white space. -/
def Word (w : List Char) : Prop := w ≠ [] ∧ ∀ c ∈ w, isWhite c = false

theorem scanWord_word {t w s : List Char} (ht : Word t) (hw : ∀ c ∈ w, isWhite c = true)
    (hs : ∀ c ∈ s.head?, isWhite c = true) : scanWord (w ++ (t ++ s)) = some (t, s) := by
  obtain ⟨hne, hc⟩ := ht
  unfold scanWord
  have hd : (w ++ (t ++ s)).dropWhile isWhite = t ++ s := by
    refine drop_white hw ?_
    cases t with
    | nil => exact absurd rfl hne
    | cons x t => intro y hy; simp at hy; subst hy; exact hc x (by simp)
  obtain ⟨h1, h2⟩ := takeWhile_stop (p := fun c => !isWhite c) (l := t) (s := s) (by intro c h; simp [hc c h])
    (by intro c h; simp [hs c h])
  simp only [hd, h1, h2, if_neg hne]

/-! ### The file -/

/-- **C53.** `process.dat` of every run with a binary observer is read back by the companion reader: the title
line, the number of observers, the box and step of every observer, the first and last recorded step counted
from one, the frequencies and the mesh size as printed, and the box of the first observer. -/
theorem process_read (fmt : ℝ → List Char) (hf : ∀ x, Word (fmt x)) (val : List Char → ℝ) (comment : List Char)
    (hn : '\n' ∉ comment) (e : Env) (N : Nat) (dt c0 : ℝ) {b : BoxLine} {bs : List BoxLine} (hb : boxLines e = b :: bs) :
    readProcess val (writeProcess fmt comment e N dt c0) = some
      { header := "CE ".toList ++ comment.take 68 ++ ['\n']
        ko := (boxLines e).length
        io := (boxLines e).map row
        nt := [((e.win.1 + 1).toNat : Int), ((e.win.2 + 1).toNat : Int)]
        freqs := [val (fmt 0), val (fmt (N * (1 / (N * dt)))), val (fmt (1 / (N * dt)))]
        meshSize := [val (fmt (dt * (2 * c0)))]
        points := [b.lo .x, b.hi .x, b.lo .y, b.hi .y, b.lo .z, b.hi .z, 1] } := by
  have hlen : (e.items.filter fun x => x.kind = .binary).length = (boxLines e).length := by
    unfold boxLines; rw [List.length_map]
  have hnl : ∀ c ∈ 'C' :: 'E' :: ' ' :: comment.take 68, decide (c ≠ '\n') = true := by
    intro c hc
    simp only [List.mem_cons] at hc
    rcases hc with rfl | rfl | rfl | hc
    · decide
    · decide
    · decide
    · have := List.mem_of_mem_take hc
      simp only [ne_eq, decide_not, Bool.not_eq_eq_eq_not, Bool.not_true, decide_eq_false_iff_not]
      rintro rfl; exact hn this
  unfold writeProcess
  rw [hlen]
  dsimp only
  set A := 'C' :: 'E' :: ' ' :: comment.take 68 with hA
  have hlast : lastLine (boxLines e) = spaced (lastRow b) ++ ['\n'] := by rw [hb]; rfl
  rw [hlast]
  simp only [List.append_assoc, List.cons_append]
  set X4 := spaced (lastRow b) ++ ['\n'] with hX4
  set X3 := fmt 0 ++ (' ' :: (fmt (N * (1 / (N * dt))) ++ (' ' :: (fmt (1 / (N * dt)) ++ ('\n' ::
    (fmt (dt * (2 * c0)) ++ ('\n' :: X4))))))) with hX3
  set X2 := decNat (stepLine e).1.toNat ++ (' ' :: (decNat (stepLine e).2.toNat ++ ('\n' :: X3))) with hX2
  set R := (boxLines e).flatMap (fun b => spaced (row b) ++ ['\n']) with hR
  have w1 : ∀ c ∈ ['\n'], isWhite c = true := by simp [isWhite]
  have w2 : ∀ c ∈ [' '], isWhite c = true := by simp [isWhite]
  obtain ⟨t1, t2⟩ := takeWhile_stop (p := fun c => decide (c ≠ '\n')) (l := A)
    (s := '\n' :: (decNat (boxLines e).length ++ ('\n' :: (R ++ X2)))) hnl (by simp)
  have hA' : A ++ '\n' :: (decNat (boxLines e).length ++ '\n' :: (R ++ X2)) ≠ [] := by simp [hA]
  have nd : ∀ n : Nat, decNat n = dec (n : Int) := by
    intro n; unfold dec; rw [if_neg (by omega)]; simp
  unfold readProcess
  rw [if_neg hA']
  rw [t1, t2]
  dsimp only
  have s1 : scanInt (List.drop 1 ('\n' :: (decNat (boxLines e).length ++ '\n' :: (R ++ X2)))) =
      some (((boxLines e).length : Int), '\n' :: (R ++ X2)) := by
    rw [nd]
    exact scanInt_dec _ (w := []) (by simp) (stops_white (by decide) _)
  obtain ⟨w', hw', s2⟩ := scanRows_lines (boxLines e) (w := ['\n']) w1 (s := X2)
  have s2' : scanRows (((boxLines e).length : Int)).toNat ('\n' :: (R ++ X2)) = some ((boxLines e).map row, w' ++ X2) := by
    simpa using s2
  have s3 : scanInts 2 (w' ++ X2) =
      some ([((e.win.1 + 1).toNat : Int), ((e.win.2 + 1).toNat : Int)], '\n' :: X3) := by
    rw [hX2, nd, nd]
    simp only [scanInts]
    rw [scanInt_dec _ hw' (stops_white (by decide) _)]
    simp only [Option.bind_some]
    have := scanInt_dec ((stepLine e).2.toNat : Int) (w := [' ']) w2 (s := '\n' :: X3) (stops_white (by decide) _)
    simp only [List.cons_append, List.nil_append] at this
    rw [this]
    rfl
  have s4 : scanReals val 3 ('\n' :: X3) = some ([val (fmt 0), val (fmt (N * (1 / (N * dt)))), val (fmt (1 / (N * dt)))],
      '\n' :: (fmt (dt * (2 * c0)) ++ ('\n' :: X4))) := by
    have a1 := scanWord_word (hf 0) (w := ['\n']) w1 (s := ' ' :: (fmt (N * (1 / (N * dt))) ++ (' ' ::
      (fmt (1 / (N * dt)) ++ ('\n' :: (fmt (dt * (2 * c0)) ++ ('\n' :: X4))))))) (by simp [isWhite])
    have a2 := scanWord_word (hf (N * (1 / (N * dt)))) (w := [' ']) w2 (s := ' ' ::
      (fmt (1 / (N * dt)) ++ ('\n' :: (fmt (dt * (2 * c0)) ++ ('\n' :: X4))))) (by simp [isWhite])
    have a3 := scanWord_word (hf (1 / (N * dt))) (w := [' ']) w2
      (s := '\n' :: (fmt (dt * (2 * c0)) ++ ('\n' :: X4))) (by simp [isWhite])
    simp only [List.cons_append, List.nil_append] at a1 a2 a3
    simp only [scanReals, hX3, a1, a2, a3, Option.bind_some, Option.map_some]
  have s5 : scanReals val 1 ('\n' :: (fmt (dt * (2 * c0)) ++ ('\n' :: X4))) =
      some ([val (fmt (dt * (2 * c0)))], '\n' :: X4) := by
    have a1 := scanWord_word (hf (dt * (2 * c0))) (w := ['\n']) w1 (s := '\n' :: X4) (by simp [isWhite])
    simp only [List.cons_append, List.nil_append] at a1
    simp only [scanReals, a1, Option.bind_some, Option.map_some]
  have s6 : scanInts 7 ('\n' :: X4) = some (lastRow b, ['\n']) := by
    have := scanInts_spaced (lastRow b) (w := ['\n']) w1 (s := ['\n']) (stops_white (by decide) _)
    have hl : (lastRow b).length = 7 := rfl
    rw [hl] at this
    have hne : lastRow b ≠ [] := by simp [lastRow]
    rw [if_neg hne] at this
    exact this
  rw [s1]; simp only [Option.bind_some]
  rw [s2']; simp only [Option.bind_some]
  rw [s3]; simp only [Option.bind_some]
  rw [s4]; simp only [Option.bind_some]
  rw [s5]; simp only [Option.bind_some]
  rw [s6]
  simp [hA, lastRow]

/-! ### The recorded fields, from the two files -/

theorem boxOf_row (b : BoxLine) : boxOf (row b) = b := by
  obtain ⟨lo, hi, st⟩ := b
  simp only [boxOf, row, BoxLine.mk.injEq]
  refine ⟨?_, ?_, ?_⟩ <;> funext a <;> cases a <;> rfl

/-- With the two files of a run the impulse reader does what it does with the boxes of the observers. -/
theorem readFiles_eq (fmt : ℝ → List Char) (hf : ∀ x, Word (fmt x)) (val : List Char → ℝ) (real : BitVec 32 → ℝ)
    (comment : List Char) (hn : '\n' ∉ comment) (e : Env) (N : Nat) (dt c0 : ℝ) (impulse : List (BitVec 8))
    {op : Nat} (hop : op < (boxLines e).length) (timeNum : List Int) :
    readFiles val real (writeProcess fmt comment e N dt c0) impulse op timeNum =
      Reader.readImpulse3D real impulse (boxLines e) op timeNum := by
  cases hb : boxLines e with
  | nil => rw [hb] at hop; cases hop
  | cons b bs =>
    unfold readFiles
    rw [process_read fmt hf val comment hn e N dt c0 hb]
    simp only [Option.bind_some]
    rw [if_neg (by omega), List.map_map]
    have : boxOf ∘ row = id := by funext b; exact boxOf_row b
    rw [this, List.map_id, hb]

/-- **C53.** From `process.dat` and `impulse.dat` of a run whose window lies inside the run, the companion reader
returns, for every observer and every choice of recorded steps, the nodes of the observer and the fields the
run had there. -/
theorem files_read_back {S : Sim} {C : CRef → ℝ} {u : Nat → Loc → ℝ} {e : Env} {dt : ℝ} {s0 : Loc → ℝ} {n : Nat} {out : Out}
    {bits : ℝ → BitVec 32} (fmt : ℝ → List Char) (hf : ∀ x, Word (fmt x)) (val : List Char → ℝ)
    (comment : List Char) (hc : '\n' ∉ comment) (c0 : ℝ)
    (real : BitVec 32 → ℝ) (dtb : BitVec 32) (hb : C34.BoxFits e) (hn : n ≤ 2 ^ 64)
    (h : C35.outputs S C u e dt s0 n = some out) (hw : e.win.1.toNat ≤ e.win.2.toNat) (hin : e.win.2.toNat < n)
    (h31 : e.win.2.toNat - e.win.1.toNat + 1 < 2 ^ 31) {op : Nat} (hop : op < (C50.binaries e).length)
    (ho : ∀ a : Axis, (C50.binaries e)[op].gbbox a.lo ≤ (C50.binaries e)[op].gbbox a.hi) :
    ∃ r, readFiles val real (writeProcess fmt comment e n dt c0) (impulseDat bits e dtb out) op [] = some r ∧
      ∀ (c : Nat) (hc : c < 6) (i j k m : Nat) (hi : i < (r.axisOf .x).length) (hj : j < (r.axisOf .y).length)
        (hk : k < (r.axisOf .z).length) (hm : m < e.win.2.toNat - e.win.1.toNat + 1),
        r.field c i j k m = some (bits (S.state C u s0 (e.win.1.toNat + m)
          (.fld ([Fc.ex, .ey, .ez, .hx, .hy, .hz][c]'hc) ((r.axisOf .x)[i] + e.giboxLo .x) ((r.axisOf .y)[j] + e.giboxLo .y)
            ((r.axisOf .z)[k] + e.giboxLo .z)))) := by
  have hlen : (boxLines e).length = (C50.binaries e).length := by
    unfold boxLines C50.binaries; rw [List.length_map]
  obtain ⟨r, h1, h2, h3, h4, h5⟩ := C50.reader_returns_partial S C u e s0 bits real dtb hb hn h hw hin h31 hop ho []
    (by simp)
  refine ⟨r, ?_, ?_⟩
  · rw [readFiles_eq fmt hf val real comment hc e n dt c0 _ (by omega)]
    exact h1
  · intro c hc i j k m hi hj hk hm
    have hl : (C50.requested e []).length = e.win.2.toNat - e.win.1.toNat + 1 := by simp [C50.requested]
    have := h5 c hc i j k m hi hj hk (by omega)
    rw [this]
    have e1 : ((C50.requested e [])[m]'(by omega) - 1).toNat = m := by simp [C50.requested]
    rw [e1]

/-! ### The companion writer -/

theorem scanInts_trailed (l : List Int) {w s : List Char} (hw : ∀ c ∈ w, isWhite c = true) :
    ∃ w', (∀ c ∈ w', isWhite c = true) ∧ scanInts l.length (w ++ (trailed l ++ s)) = some (l, w' ++ s) := by
  induction l generalizing w with
  | nil => exact ⟨w, hw, rfl⟩
  | cons i l ih =>
    obtain ⟨w', hw', e⟩ := ih (w := [' ']) (by simp [isWhite])
    refine ⟨w', hw', ?_⟩
    have e1 : w ++ (trailed (i :: l) ++ s) = w ++ (dec i ++ ([' '] ++ (trailed l ++ s))) := by simp [trailed]
    rw [e1]
    simp only [List.length_cons, scanInts]
    rw [scanInt_dec i hw (s := [' '] ++ (trailed l ++ s)) (stops_white (c := ' ') (by decide) _)]
    simp only [Option.bind_some, e, Option.map_some]

theorem scanRows_trailed (l : List (List Int)) (hl : ∀ r ∈ l, r.length = 9) {w s : List Char}
    (hw : ∀ c ∈ w, isWhite c = true) : ∃ w', (∀ c ∈ w', isWhite c = true) ∧
    scanRows l.length (w ++ (l.flatMap (fun r => trailed r ++ ['\n']) ++ s)) = some (l, w' ++ s) := by
  induction l generalizing w with
  | nil => exact ⟨w, hw, rfl⟩
  | cons r l ih =>
    obtain ⟨w1, hw1, e1⟩ := scanInts_trailed r hw (s := ['\n'] ++ (l.flatMap (fun r => trailed r ++ ['\n']) ++ s))
    obtain ⟨w2, hw2, e2⟩ := ih (fun x hx => hl x (by simp [hx])) (w := w1 ++ ['\n'])
      (by intro c hc; rcases List.mem_append.1 hc with h | h
          · exact hw1 c h
          · rw [List.mem_singleton] at h; subst h; decide)
    refine ⟨w2, hw2, ?_⟩
    have e0 : w ++ ((r :: l).flatMap (fun r => trailed r ++ ['\n']) ++ s) =
        w ++ (trailed r ++ (['\n'] ++ (l.flatMap (fun r => trailed r ++ ['\n']) ++ s))) := by simp
    rw [e0]
    simp only [List.length_cons, scanRows]
    rw [hl r (by simp)] at e1
    rw [e1]
    simp only [Option.bind_some]
    rw [← List.append_assoc, e2]
    rfl

theorem scanInts_joined (i : Int) (l : List Int) {w s : List Char} (hw : ∀ c ∈ w, isWhite c = true) (hs : Stops s) :
    scanInts (i :: l).length (w ++ (joined ((i :: l).map dec) ++ s)) = some (i :: l, s) := by
  have e : joined ((i :: l).map dec) = dec i ++ spaced l := by
    induction l generalizing i with
    | nil => simp [joined, spaced]
    | cons j l ih =>
      have := ih j
      unfold joined at this ⊢
      simp only [List.map_cons] at this ⊢
      rw [List.intersperse_cons₂, List.flatten_cons, List.flatten_cons, this]
      simp [spaced]
  rw [e, List.append_assoc]
  simp only [List.length_cons, scanInts]
  rw [scanInt_dec i hw]
  · have := scanInts_spaced l (w := []) (by simp) hs
    simp only [List.nil_append] at this
    simp only [Option.bind_some, this, Option.map_some]
    split <;> rfl
  · cases l with
    | nil => exact hs
    | cons j l => exact stops_white (c := ' ') (by decide) _

theorem scanReals_joined (val : List Char → ℝ) (fmt : ℝ → List Char) (hf : ∀ x, Word (fmt x)) (x : ℝ) (l : List ℝ)
    {w s : List Char} (hw : ∀ c ∈ w, isWhite c = true) (hs : ∀ c ∈ s.head?, isWhite c = true) :
    scanReals val (x :: l).length (w ++ (joined ((x :: l).map fmt) ++ s)) = some ((x :: l).map fun y => val (fmt y), s) := by
  induction l generalizing x w with
  | nil =>
    have : joined ([x].map fmt) = fmt x := by simp [joined]
    rw [this]
    simp only [List.length_cons, List.length_nil, scanReals, scanWord_word (hf x) hw hs, Option.bind_some, Option.map_some,
      List.map_cons, List.map_nil]
  | cons y l ih =>
    have e : joined ((x :: y :: l).map fmt) = fmt x ++ ([' '] ++ joined ((y :: l).map fmt)) := by
      unfold joined
      simp only [List.map_cons]
      rw [List.intersperse_cons₂, List.flatten_cons, List.flatten_cons]
    rw [e, List.append_assoc, List.append_assoc]
    rw [List.length_cons, scanReals, scanWord_word (hf x) hw (by simp [isWhite])]
    simp only [Option.bind_some]
    have := ih y (w := [' ']) (by simp [isWhite])
    rw [this]
    rfl

/-- **C53.** What the companion writer writes, the companion reader reads back; numbers that `%g` prints
exactly come back unchanged. -/
theorem rewrite_read (fmt : ℝ → List Char) (hf : ∀ x, Word (fmt x)) (val : List Char → ℝ) (p : Process)
    (title : List Char) (ht : p.header = title ++ ['\n']) (hn : '\n' ∉ title) (hk : p.ko = p.io.length)
    (hio : ∀ r ∈ p.io, r.length = 9) (hnt : p.nt.length = 2) (hfr : p.freqs.length = 3) (hms : p.meshSize.length = 1)
    (hpt : p.points.length = 7) (hx : ∀ x ∈ p.freqs ++ p.meshSize, val (fmt x) = x) :
    readProcess val (rewriteProcess fmt p) = some p := by
  obtain ⟨header, ko, io, nt, freqs, mesh, points⟩ := p
  simp only at ht hk hio hnt hfr hms hpt hx
  subst ht hk
  obtain ⟨n1, n2, rfl⟩ : ∃ a b, nt = [a, b] := by
    match nt, hnt with | [a, b], _ => exact ⟨a, b, rfl⟩
  obtain ⟨f1, f2, f3, rfl⟩ : ∃ a b c, freqs = [a, b, c] := by
    match freqs, hfr with | [a, b, c], _ => exact ⟨a, b, c, rfl⟩
  obtain ⟨m, rfl⟩ : ∃ a, mesh = [a] := by
    match mesh, hms with | [a], _ => exact ⟨a, rfl⟩
  obtain ⟨p0, ps, rfl⟩ : ∃ a l, points = a :: l := by
    match points, hpt with | a :: l, _ => exact ⟨a, l, rfl⟩
  have hnl : ∀ c ∈ title, decide (c ≠ '\n') = true := by
    intro c hc
    simp only [ne_eq, decide_not, Bool.not_eq_eq_eq_not, Bool.not_true, decide_eq_false_iff_not]
    rintro rfl; exact hn hc
  have w1 : ∀ c ∈ ['\n'], isWhite c = true := by simp [isWhite]
  unfold rewriteProcess
  simp only [List.append_assoc, List.cons_append, List.nil_append]
  set X5 := joined ((p0 :: ps).map dec) ++ ['\n'] with hX5
  set X4 := joined ([m].map fmt) ++ ('\n' :: X5) with hX4
  set X3 := joined ([f1, f2, f3].map fmt) ++ ('\n' :: X4) with hX3
  set X2 := joined ([n1, n2].map dec) ++ ('\n' :: X3) with hX2
  set R := io.flatMap (fun r => trailed r ++ ['\n']) with hR
  obtain ⟨t1, t2⟩ := takeWhile_stop (p := fun c => decide (c ≠ '\n')) (l := title)
    (s := '\n' :: (dec (io.length : Int) ++ ('\n' :: (R ++ X2)))) hnl (by simp)
  unfold readProcess
  rw [if_neg (by simp), t1, t2]
  have s1 : scanInt (List.drop 1 ('\n' :: (dec (io.length : Int) ++ '\n' :: (R ++ X2)))) =
      some ((io.length : Int), '\n' :: (R ++ X2)) :=
    scanInt_dec _ (w := []) (by simp) (stops_white (by decide) _)
  obtain ⟨w', hw', s2⟩ := scanRows_trailed io hio (w := ['\n']) w1 (s := X2)
  have s2' : scanRows (((io.length : Int))).toNat ('\n' :: (R ++ X2)) = some (io, w' ++ X2) := by
    simpa using s2
  have s3 : scanInts 2 (w' ++ X2) = some ([n1, n2], '\n' :: X3) :=
    scanInts_joined n1 [n2] hw' (stops_white (by decide) _)
  have s4 : scanReals val 3 ('\n' :: X3) = some ([f1, f2, f3].map fun y => val (fmt y), '\n' :: X4) :=
    scanReals_joined val fmt hf f1 [f2, f3] (w := ['\n']) w1 (by simp [isWhite])
  have s5 : scanReals val 1 ('\n' :: X4) = some ([m].map fun y => val (fmt y), '\n' :: X5) :=
    scanReals_joined val fmt hf m [] (w := ['\n']) w1 (by simp [isWhite])
  have s6 : scanInts 7 ('\n' :: X5) = some (p0 :: ps, ['\n']) := by
    have := scanInts_joined p0 ps (w := ['\n']) w1 (s := ['\n']) (stops_white (by decide) _)
    rw [hpt] at this
    exact this
  rw [s1]; simp only [Option.bind_some]
  rw [s2']; simp only [Option.bind_some]
  rw [s3]; simp only [Option.bind_some]
  rw [s4]; simp only [Option.bind_some]
  rw [s5]; simp only [Option.bind_some]
  rw [s6]
  simp only [List.mem_append, List.mem_cons, List.not_mem_nil, or_false] at hx
  simp [hx f1 (.inl (.inl rfl)), hx f2 (.inl (.inr (.inl rfl))), hx f3 (.inl (.inr (.inr rfl))), hx m (.inr rfl)]

/-! ### Cases that meet the hypotheses -/

/-- Two observers, one in part of the mesh with steps. -/
def exEnv : Env where
  items := [⟨.binary, mkBox 11 14 10 10 12 16, fun _ => 2, 0⟩, ⟨.asciiTime, mkBox 11 11 11 11 11 11, fun _ => 1, 0⟩,
    ⟨.binary, mkBox 10 20 10 20 10 20, fun _ => 5, 0⟩]
  win := (0, 99)
  numFreq := 1
  omega := fun _ => 0
  wave := fun _ _ => 0
  giboxLo := fun _ => 10

example : ∃ b bs, boxLines exEnv = b :: bs ∧ row b = [1, 4, 2, 0, 0, 2, 2, 6, 2] ∧ bs.map row = [[0, 10, 5, 0, 10, 5, 0, 10, 5]] :=
  ⟨_, _, rfl, by decide, by decide⟩
example : dec (-120) = "-120".toList ∧ scanInt "  -120\n".toList = some (-120, ['\n']) ∧ Word "1e+09".toList := by
  refine ⟨by decide +kernel, by decide +kernel, by decide, by decide⟩

end Vulture.C53
