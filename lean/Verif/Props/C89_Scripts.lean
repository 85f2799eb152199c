import Verif.Model.Scripts
import Verif.Props.C53_ProcessDat
import Verif.Props.C28_Waveforms
import Verif.Lemmas.ScaleMain
import Verif.Props.C87_Hut
/-
C89: the small companion scripts agree with the program: mesh lines are read back, the reference pulses are the pulses
of the program, decibels are decibels.
-/
namespace Vulture.C89
open Vulture.Scripts Vulture.ProcessDat Vulture.C53 Vulture.Waveform Real

/-! ### Mesh lines -/

theorem white_nl : ∀ c ∈ ['\n'], isWhite c = true := by decide

theorem white_all {l : List Char} (h : l.dropWhile isWhite = []) : ∀ c ∈ l, isWhite c = true := by
  induction l with
  | nil => simp
  | cons a l ih =>
    rw [List.dropWhile_cons] at h
    split at h
    · rename_i ha
      intro c hc
      rcases List.mem_cons.1 hc with rfl | hc
      · exact ha
      · exact ih h c hc
    · cases h

theorem drop_all {l : List Char} (h : ∀ c ∈ l, isWhite c = true) : l.dropWhile isWhite = [] := by
  induction l with
  | nil => rfl
  | cons a l ih =>
    rw [List.dropWhile_cons, if_pos (h a (by simp))]
    exact ih fun c hc => h c (by simp [hc])

theorem lines_loop (fmt : ℝ → List Char) (hf : ∀ x, Word (fmt x)) (val : List Char → ℝ) (v : Nat → ℝ) (tail : List Char)
    (ht : ∀ (w : List Char) (n : Nat), (∀ c ∈ w, isWhite c = true) → readLoop val (n + 1) (w ++ tail) = some [])
    (l : List Nat) : ∀ (w : List Char) (n : Nat), (∀ c ∈ w, isWhite c = true) → l.length < n →
    readLoop val n (w ++ (l.flatMap (lineOf fmt v) ++ tail)) = some (l.map fun i => val (fmt (v i))) := by
  induction l with
  | nil =>
    intro w n hw hn
    obtain ⟨m, rfl⟩ : ∃ m, n = m + 1 := ⟨n - 1, by simp at hn; omega⟩
    exact ht w m hw
  | cons i l ih =>
    intro w n hw hn
    obtain ⟨m, rfl⟩ : ∃ m, n = m + 1 := ⟨n - 1, by simp at hn; omega⟩
    obtain ⟨c, r, hc, hd⟩ := decNat_cons i
    have hdec : dec (i : Int) = decNat i := by unfold dec; rw [if_neg (by omega)]; rfl
    have e : w ++ ((i :: l).flatMap (lineOf fmt v) ++ tail) =
        w ++ (dec (i : Int) ++ ([' '] ++ (fmt (v i) ++ (['\n'] ++ (l.flatMap (lineOf fmt v) ++ tail))))) := by
      rw [hdec]; simp [List.flatMap_cons, lineOf]
    have hne : (w ++ ((i :: l).flatMap (lineOf fmt v) ++ tail)).dropWhile isWhite ≠ [] := by
      rw [e, hdec, hc]
      intro h
      have := white_all h c (by simp)
      rw [(digit_facts hd).1] at this
      cases this
    have h1 := scanInt_dec (i : Int) (w := w) (s := [' '] ++ (fmt (v i) ++ (['\n'] ++ (l.flatMap (lineOf fmt v) ++ tail)))) hw
      (stops_white (by decide) _)
    have h2 := scanWord_word (hf (v i)) (w := [' ']) (s := ['\n'] ++ (l.flatMap (lineOf fmt v) ++ tail)) (by decide)
      (by intro c hc; simp at hc; subst hc; decide)
    rw [readLoop.eq_2, if_neg hne, e, h1]
    dsimp only
    rw [h2]
    dsimp only
    rw [ih ['\n'] m white_nl (by simp at hn; omega)]
    rfl

theorem line_length (fmt : ℝ → List Char) (v : Nat → ℝ) (l : List Nat) : l.length ≤ (l.flatMap (lineOf fmt v)).length := by
  induction l with
  | nil => simp
  | cons i l ih => simp only [List.flatMap_cons, List.length_append, List.length_cons, lineOf] at ih ⊢; omega

theorem write_read (fmt : ℝ → List Char) (hf : ∀ x, Word (fmt x)) (val : List Char → ℝ) (n : Nat) (v : Nat → ℝ) :
    readLines val (writeLines fmt n v) = some ((List.range n).map fun i => val (fmt (v i))) := by
  have := lines_loop fmt hf val v [] (fun w n hw => by
      have : (w ++ []).dropWhile isWhite = [] := by rw [List.append_nil]; exact drop_all hw
      rw [readLoop.eq_2, if_pos this]) (List.range n) [] ((writeLines fmt n v).length + 1) (by simp)
    (by have := line_length fmt v (List.range n); unfold writeLines; omega)
  simpa [readLines, writeLines] using this

/-- **C89** what is not found out: a file of `n` lines that was cut short after `m` of them, or even after the line number
of the next one, is read without a message as a mesh of `m` lines. -/
theorem cut_short (fmt : ℝ → List Char) (hf : ∀ x, Word (fmt x)) (val : List Char → ℝ) {m n : Nat} (hm : m < n) (v : Nat → ℝ) :
    writeLines fmt m v ++ decNat m <+: writeLines fmt n v ∧
    readLines val (writeLines fmt m v ++ decNat m) = some ((List.range m).map fun i => val (fmt (v i))) := by
  constructor
  · obtain ⟨d, rfl⟩ : ∃ d, n = m + 1 + d := ⟨n - (m + 1), by omega⟩
    refine ⟨' ' :: fmt (v m) ++ ['\n'] ++ ((List.range d).map (m + 1 + ·)).flatMap (lineOf fmt v), ?_⟩
    unfold writeLines
    rw [List.range_add, List.range_succ, List.flatMap_append, List.flatMap_append]
    simp [lineOf]
  · have h := lines_loop fmt hf val v (decNat m) (fun w n hw => by
        obtain ⟨c, r, hc, hd⟩ := decNat_cons m
        have hdec : dec (m : Int) = decNat m := by unfold dec; rw [if_neg (by omega)]; rfl
        have hne : (w ++ decNat m).dropWhile isWhite ≠ [] := by
          rw [hc]
          intro h
          have := white_all h c (by simp)
          rw [(digit_facts hd).1] at this
          cases this
        have h1 := scanInt_dec (m : Int) (w := w) (s := []) hw (by intro c hc; simp at hc)
        rw [hdec, List.append_nil] at h1
        rw [readLoop.eq_2, if_neg hne, h1]
        rfl) (List.range m) [] ((writeLines fmt m v ++ decNat m).length + 1) (by simp)
      (by have := line_length fmt v (List.range m); simp only [writeLines, List.length_append, List.length_range] at *; omega)
    simpa [readLines, writeLines] using h

/-- **C89** mesh lines: in every run that is set up, the script reads from the file of an axis exactly one number more than
there are cells, and entry `i` (`x(i+1)` in the script) is the printed coordinate of mesh line `i`. -/
theorem lines_read (fmt : ℝ → List Char) (hf : ∀ x, Word (fmt x)) (val : List Char → ℝ) {k : Setup.Consts} {J : Setup.Junk}
    {X : Setup.Experiment} {R : Setup.Run} (h : Setup.setup k J X = some R) (a : Axis) :
    ∃ l, readLines val (linesDat fmt R.cfg X a) = some l ∧ (l.length : Int) = X.file.cells a + 1 ∧
      ∀ i : Nat, (i : Int) ≤ X.file.cells a → l[i]? = some (val (fmt (X.lines a i))) := by
  obtain ⟨s, hs, hc, -, -⟩ := Scaling.setup_parts h
  have hn : R.cfg.n = X.file.cells := by
    unfold initExternalSurfaceParameters at hc
    split at hc
    · cases hc
    · injection hc with hc; rw [← hc]
  have hp : 0 < X.file.cells a := by
    unfold Deck.File.stored at hs
    obtain ⟨m, hm, -⟩ := Option.bind_eq_some_iff.1 hs
    unfold parseDM at hm
    split at hm
    · cases hm
    · cases a <;> simp only [Deck.File.cells] <;> omega
  refine ⟨_, write_read fmt hf val _ _, ?_, ?_⟩
  · simp only [List.length_map, List.length_range, Cfg.numLines, hn]; omega
  · intro i hi
    have : i < (R.cfg.numLines a).toNat := by simp only [Cfg.numLines, hn]; omega
    simp [this]

/-! ### Reference pulses -/

theorem gaussian_map (vals : List ℝ) {w : Wf} (h : parseWF .gaussian vals = some w) (hd : ∀ d, vals[1]? = some d → 0 ≤ d)
    (dt t : ℝ) : Setup.waveValue dt (.builtin w) t = vals[0]?.getD 1 *
      exp (-(1 / 2) * ((t - vals[1]?.getD (40 * dt)) / vals[2]?.getD (5 * √2 * dt)) ^ 2) := by
  unfold parseWF at h
  split at h
  · cases h
  rename_i hn
  push Not at hn
  obtain ⟨h1, h2, -⟩ := hn
  cases h
  have e0 : dflt (vals[0]?.getD (-1)) 1 = vals[0]?.getD 1 := by
    cases hv : vals[0]? with
    | none => simp [dflt]
    | some s => have := h1 s hv; simp [dflt, not_lt.2 this]
  have e1 : dflt (vals[1]?.getD (-1)) (40 * dt) = vals[1]?.getD (40 * dt) := by
    cases hv : vals[1]? with
    | none => simp [dflt]
    | some s => have := hd s hv; simp [dflt, not_lt.2 this]
  have e2 : dflt (vals[2]?.getD (-1)) (5 * √2 * dt) = vals[2]?.getD (5 * √2 * dt) := by
    cases hv : vals[2]? with
    | none => simp [dflt]
    | some s => have := (h2 s hv).le; simp [dflt, not_lt.2 this]
  simp only [Setup.waveValue, value, initWaveform, shape, gaussianPulse, e0, e1, e2, sub_zero]

/-- **C89** `tdfdGaussianPulse`: for a `GAUSSIAN_PULSE` card with any of its numbers given or left out and the same width
and delay given or left out in the script, on time samples one time step apart: the script gives, in every sample, the
value of the program divided by the size. -/
theorem gaussian_same (vals : List ℝ) {w : Wf} (h : parseWF .gaussian vals = some w) (hd : ∀ d, vals[1]? = some d → 0 ≤ d)
    (t : List ℝ) :
    (gaussianScript t vals[2]? vals[1]?).map (vals[0]?.getD 1 * ·) = t.map (Setup.waveValue (stepOf t) (.builtin w)) := by
  unfold gaussianScript
  rw [List.map_map]
  refine List.map_congr_left fun s _ => ?_
  rw [gaussian_map vals h hd]
  rfl

theorem compact_params (vals : List ℝ) {w : Wf} (h : parseWF .compact vals = some w) (hd : ∀ d, vals[1]? = some d → 0 ≤ d)
    (dt t : ℝ) : Setup.waveValue dt (.builtin w) t = vals[0]?.getD 1 *
      compactPulse (t - vals[1]?.getD 0) (vals[2]?.getD (20 * dt)) := by
  unfold parseWF at h
  split at h
  · cases h
  rename_i hn
  push Not at hn
  obtain ⟨h1, h2, -⟩ := hn
  cases h
  have e0 : dflt (vals[0]?.getD (-1)) 1 = vals[0]?.getD 1 := by
    cases hv : vals[0]? with
    | none => simp [dflt]
    | some s => have := h1 s hv; simp [dflt, not_lt.2 this]
  have e1 : dflt (vals[1]?.getD (-1)) 0 = vals[1]?.getD 0 := by
    cases hv : vals[1]? with
    | none => simp [dflt]
    | some s => have := hd s hv; simp [dflt, not_lt.2 this]
  have e2 : dflt (vals[2]?.getD (-1)) (20 * dt) = vals[2]?.getD (20 * dt) := by
    cases hv : vals[2]? with
    | none => simp [dflt]
    | some s => have := (h2 s hv).le; simp [dflt, not_lt.2 this]
  simp only [Setup.waveValue, value, initWaveform, shape, e0, e1, e2, sub_zero]

/-- **C89** `tdfdCompactPulse`: the same for a `COMPACT_PULSE` card, in the samples that are not earlier than the delay; with
the default delay of zero these are all samples of a run. -/
theorem compact_same_partial (vals : List ℝ) {w : Wf} (h : parseWF .compact vals = some w) (hd : ∀ d, vals[1]? = some d → 0 ≤ d)
    (t : List ℝ) (ht : ∀ s ∈ t, vals[1]?.getD 0 ≤ s) :
    (compactScript t vals[2]? vals[1]?).map (vals[0]?.getD 1 * ·) = t.map (Setup.waveValue (stepOf t) (.builtin w)) := by
  unfold compactScript
  rw [List.map_map]
  refine List.map_congr_left fun s hs => ?_
  rw [compact_params vals h hd]
  simp only [Function.comp_apply]
  congr 1
  have hle := ht s hs
  unfold compactPulse compactPoly
  split <;> rename_i hc
  · split
    · rename_i h0
      have : s - vals[1]?.getD 0 = 0 := by linarith
      rw [this]; norm_num
    · congr 1
      rw [show 2 * (π / vals[2]?.getD (20 * stepOf t) * (s - vals[1]?.getD 0)) =
          2 * π / vals[2]?.getD (20 * stepOf t) * (s - vals[1]?.getD 0) by ring,
        show 3 * (π / vals[2]?.getD (20 * stepOf t) * (s - vals[1]?.getD 0)) =
          3 * π / vals[2]?.getD (20 * stepOf t) * (s - vals[1]?.getD 0) by ring]
  · split
    · rfl
    · rfl

/-- **C89** what fails: before the delay the program's pulse is silent, the script's is not: in the sample one width before
the delay it is at its peak. -/
theorem compact_differs {dt width delay : ℝ} (hdt : 0 < dt) (hw : 0 < width) (hd : width ≤ delay) :
    ∃ (w : Wf) (t : List ℝ), parseWF .compact [1, delay, width] = some w ∧ stepOf t = dt ∧ (∀ s ∈ t, 0 ≤ s) ∧
      (t.map (Setup.waveValue dt (.builtin w))).head? = some 0 ∧
      (compactScript t (some width) (some delay)).head? = some 1 := by
  have hp : parseWF .compact [1, delay, width] = some ⟨.compact, 1, delay, width, -1⟩ := by
    unfold parseWF
    rw [if_neg (by simp; linarith)]
    rfl
  refine ⟨_, [delay - width, delay - width + dt], hp, by simp [stepOf], ?_, ?_, ?_⟩
  · intro s hs
    simp only [List.mem_cons, List.not_mem_nil, or_false] at hs
    rcases hs with rfl | rfl <;> linarith
  · have := compact_params _ hp (by intro d h; simp at h; linarith) dt (delay - width)
    simp only [List.map_cons, List.head?_cons, this]
    unfold compactPulse
    simp [hw.le]
  · simp only [compactScript, List.map_cons, List.head?_cons, Option.getD_some]
    have e : π / width * (delay - width - delay) = -π := by field_simp; ring
    rw [if_pos (by linarith), e]
    have h2 : cos (2 * -π) = 1 := by rw [mul_neg, cos_neg, cos_two_pi]
    have h3 : cos (3 * -π) = -1 := by
      rw [mul_neg, cos_neg, show 3 * π = π + 2 * π by ring, cos_add_two_pi, cos_pi]
    rw [cos_neg, cos_pi, h2, h3]
    norm_num

/-! ### Decibels -/

theorem clip_pos {c m v : ℝ} (_ : c ≠ 0) : 0 < max ((10 : ℝ) ^ (m / c)) v :=
  lt_of_lt_of_le (rpow_pos_of_pos (by norm_num) _) (le_max_left _ _)

theorem decibel {c m v : ℝ} (hc : 0 < c) : c * logb 10 |max ((10 : ℝ) ^ (m / c)) v| = if v ≤ 10 ^ (m / c) then m else c * logb 10 v := by
  rw [abs_of_pos (clip_pos hc.ne')]
  split
  · rename_i h
    rw [max_eq_left h, logb_rpow (by norm_num) (by norm_num)]
    field_simp
  · rename_i h
    rw [max_eq_right (le_of_not_ge h)]

/-- **C89** `db10`: never below the least value; above it the value whose power of ten is the ratio. -/
theorem db10_is (v m : ℝ) : m ≤ db10 v m ∧ (m < db10 v m → (10 : ℝ) ^ (db10 v m / 10) = v) ∧
    (10 ^ (m / 10) ≤ v → (10 : ℝ) ^ (db10 v m / 10) = v) := by
  have h := decibel (c := 10) (m := m) (v := v) (by norm_num)
  have e : db10 v m = _ := h
  have key : 10 ^ (m / 10) < v → (10 : ℝ) ^ (10 * logb 10 v / 10) = v ∧ m < 10 * logb 10 v := by
    intro hv
    have hp : 0 < v := lt_trans (rpow_pos_of_pos (by norm_num) _) hv
    refine ⟨by rw [mul_div_cancel_left₀ _ (by norm_num), rpow_logb (by norm_num) (by norm_num) hp], ?_⟩
    have := (lt_logb_iff_rpow_lt (by norm_num : (1:ℝ) < 10) hp).2 hv
    linarith
  rw [e]
  split
  · rename_i hv
    exact ⟨le_rfl, fun h => absurd h (lt_irrefl _), fun h => le_antisymm h hv⟩
  · rename_i hv
    obtain ⟨k1, k2⟩ := key (lt_of_not_ge hv)
    exact ⟨k2.le, fun _ => k1, fun _ => k1⟩

/-- **C89** `db20` of an amplitude is `db10` of its square, with the same least value. -/
theorem db20_is (v m : ℝ) (hv : 0 ≤ v) : db20 v m = db10 (v ^ 2) m := by
  have e1 : db20 v m = _ := decibel (c := 20) (m := m) (v := v) (by norm_num)
  have e2 : db10 (v ^ 2) m = _ := decibel (c := 10) (m := m) (v := v ^ 2) (by norm_num)
  have hs : (10 : ℝ) ^ (m / 10) = (10 ^ (m / 20)) ^ 2 := by
    rw [← rpow_natCast, ← rpow_mul (by norm_num)]; congr 1; push_cast; ring
  have hiff : v ≤ 10 ^ (m / 20) ↔ v ^ 2 ≤ (10 : ℝ) ^ (m / 10) := by
    rw [hs]
    exact (pow_le_pow_iff_left₀ hv (rpow_pos_of_pos (by norm_num) _).le (by norm_num)).symm
  rw [e1, e2]
  by_cases h : v ≤ 10 ^ (m / 20)
  · rw [if_pos h, if_pos (hiff.1 h)]
  · rw [if_neg h, if_neg fun hh => h (hiff.2 hh), logb_pow]
    push_cast; ring

/-- **C89** larger values have larger decibels. -/
theorem db_mono (m : ℝ) : Monotone (db10 · m) ∧ Monotone (db20 · m) := by
  constructor <;> intro v w h <;> simp only [db10, db20] <;>
  rw [abs_of_pos (clip_pos (by norm_num)), abs_of_pos (clip_pos (by norm_num))] <;>
  exact mul_le_mul_of_nonneg_left (logb_le_logb_of_le (by norm_num) (clip_pos (by norm_num)) (max_le_max le_rfl h)) (by norm_num)

/-- **C89** what is not the magnitude: a negative amplitude, whatever its size, has the least value, although the
script takes the absolute value (after the clipping). -/
theorem db_negative (v m : ℝ) (hv : v ≤ 0) : db10 v m = m ∧ db20 v m = m := by
  have e1 : db20 v m = _ := decibel (c := 20) (m := m) (v := v) (by norm_num)
  have e2 : db10 v m = _ := decibel (c := 10) (m := m) (v := v) (by norm_num)
  rw [e1, e2, if_pos (hv.trans (rpow_pos_of_pos (by norm_num) _).le), if_pos (hv.trans (rpow_pos_of_pos (by norm_num) _).le)]
  exact ⟨rfl, rfl⟩

/-! ### Example cases -/

/-- The lines of the mesh of `hut` (C87) are read back. -/
example (k : Setup.Consts) (J : Setup.Junk) (val : List Char → ℝ) (fmt : ℝ → List Char) (hf : ∀ x, Word (fmt x)) :
    ∃ (R : Setup.Run) (l : List ℝ), readLines val (linesDat fmt R.cfg C87.hut .x) = some l ∧
      (l.length : Int) = C87.hut.file.cells .x + 1 := by
  obtain ⟨R, hR⟩ := C87.hut_setup k J
  obtain ⟨l, h1, h2, -⟩ := lines_read fmt hf val hR .x
  exact ⟨R, l, h1, h2⟩

/-- Coordinates printed without digits after the point: a word. -/
noncomputable def digits (x : ℝ) : List Char := if x = 0 then ['0'] else if x = 1 then ['1'] else ['9']

example : (∀ x, Word (digits x)) ∧ ∃ w, parseWF .gaussian [2, 3, 4] = some w ∧ parseWF .compact [] ≠ none := by
  refine ⟨fun x => ?_, ⟨_, by unfold parseWF; rw [if_neg (by simp)], by unfold parseWF; rw [if_neg (by simp)]; simp⟩⟩
  unfold digits Word
  split
  · decide
  · split <;> decide

end Vulture.C89
