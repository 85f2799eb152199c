import Verif.Props.C28_Waveforms
import Mathlib.Analysis.Calculus.Deriv.Pow
import Mathlib.Topology.ContinuousOn
/- C29: waveforms read from file. -/
set_option linter.unusedSimpArgs false
set_option linter.unusedSectionVars false
namespace Vulture.C29
open Vulture Waveform Set

/-- Table accepted by `createSplines`: at least two points, strictly increasing times. src/waveform.c:682-698 -/
structure Table (x : ℕ → ℝ) (n : ℕ) : Prop where
  two : 2 ≤ n
  inc : ∀ i, i + 1 < n → x i < x (i + 1)

theorem Table.lt {x : ℕ → ℝ} {n : ℕ} (h : Table x n) {i j : ℕ} (hij : i < j) (hj : j < n) : x i < x j := by
  induction j with
  | zero => omega
  | succ j ih =>
    have h1 := h.inc j hj
    rcases Nat.lt_succ_iff_lt_or_eq.1 hij with h2 | h2
    · exact (ih h2 (by omega)).trans h1
    · rw [h2]; exact h1

theorem Table.le {x : ℕ → ℝ} {n : ℕ} (h : Table x n) {i j : ℕ} (hij : i ≤ j) (hj : j < n) : x i ≤ x j := by
  rcases Nat.eq_or_lt_of_le hij with rfl | h'
  · exact le_rfl
  · exact (h.lt h' hj).le

/-- The cubic on interval `k`. -/
noncomputable def cubic (x y m : ℕ → ℝ) (k : ℕ) (t : ℝ) : ℝ :=
  let h := x (k + 1) - x k
  let a := (x (k + 1) - t) / h
  let b := (t - x k) / h
  a * y k + b * y (k + 1) + ((a * a * a - a) * m k + (b * b * b - b) * m (k + 1)) * (h * h) / 6

section
variable {x y m : ℕ → ℝ} {n : ℕ} (ht : Table x n)
include ht

/-- A cubic passes through both its points. -/
theorem cubic_left {k : ℕ} (hk : k + 1 < n) : cubic x y m k (x k) = y k := by
  have := sub_pos.2 (ht.inc k hk)
  unfold cubic
  simp only [sub_self, zero_div]
  rw [div_self this.ne']
  ring

theorem cubic_right {k : ℕ} (hk : k + 1 < n) : cubic x y m k (x (k + 1)) = y (k + 1) := by
  have := sub_pos.2 (ht.inc k hk)
  unfold cubic
  simp only [sub_self, zero_div]
  rw [div_self this.ne']
  ring

/-- A time lies in at most two intervals, and then the two cubics have the same value. -/
theorem cubic_agree {k l : ℕ} (hk : k + 1 < n) (hl : l + 1 < n) {t : ℝ} (h1 : x k ≤ t) (h2 : t ≤ x (k + 1))
    (h3 : x l ≤ t) (h4 : t ≤ x (l + 1)) : cubic x y m k t = cubic x y m l t := by
  rcases lt_trichotomy k l with h | h | h
  · have e1 : x (k + 1) ≤ x l := ht.le (by omega) (by omega)
    have e2 : t = x l := le_antisymm (h2.trans e1) h3
    have e3 : t = x (k + 1) := le_antisymm h2 (e1.trans h3)
    have e4 : l = k + 1 := by
      by_contra hne
      have := ht.lt (show k + 1 < l by omega) (by omega)
      rw [← e2, ← e3] at this
      exact lt_irrefl _ this
    subst e4
    rw [e3, cubic_right ht hk, cubic_left ht hl]
  · rw [h]
  · have e1 : x (l + 1) ≤ x k := ht.le (by omega) (by omega)
    have e2 : t = x k := le_antisymm (h4.trans e1) h1
    have e3 : t = x (l + 1) := le_antisymm h4 (e1.trans h1)
    have e4 : k = l + 1 := by
      by_contra hne
      have := ht.lt (show l + 1 < k by omega) (by omega)
      rw [← e2, ← e3] at this
      exact lt_irrefl _ this
    subst e4
    rw [e3, cubic_right ht hl, cubic_left ht hk]

/-! ### Search -/

theorem search_spec {t : ℝ} {klo khi : ℕ} (h1 : klo < khi) (h2 : khi < n) (h3 : x klo ≤ t) (h4 : t ≤ x khi) :
    ∃ k, search x t klo khi = (k, k + 1) ∧ k + 1 < n ∧ x k ≤ t ∧ t ≤ x (k + 1) := by
  induction hd : khi - klo using Nat.strong_induction_on generalizing klo khi with
  | _ d ih =>
    rw [search]
    split
    · rename_i hgt
      dsimp only
      split
      · rename_i hk
        exact ih _ (by omega) (by omega) (by omega) h3 hk.le rfl
      · rename_i hk
        push Not at hk
        exact ih _ (by omega) (by omega) (by omega) hk h4 rfl
    · rename_i hle
      have : khi = klo + 1 := by omega
      subst this
      exact ⟨klo, rfl, h2, h3, h4⟩

/-- Evaluation at a time inside the table, with any remembered interval. -/
theorem eval_spec {t : ℝ} (h0 : x 0 ≤ t) (h1 : t ≤ x (n - 1)) {last : ℕ} (hl : last + 1 < n) :
    ∃ k, evalSpline x y m n t last = some (cubic x y m k t, k) ∧ k + 1 < n ∧ x k ≤ t ∧ t ≤ x (k + 1) := by
  have hn := ht.two
  have e : (if last ≥ n - 1 then 0 else last) = last := if_neg (by omega)
  obtain ⟨k, hk, hkn, hk1, hk2⟩ : ∃ k, (if x last > t ∨ x (last + 1) < t then search x t 0 (n - 1) else (last, last + 1)) =
      (k, k + 1) ∧ k + 1 < n ∧ x k ≤ t ∧ t ≤ x (k + 1) := by
    split
    · exact search_spec ht (by omega) (by omega) h0 h1
    · rename_i hin
      push Not at hin
      exact ⟨last, rfl, hl, hin.1, hin.2⟩
  refine ⟨k, ?_, hkn, hk1, hk2⟩
  unfold evalSpline
  simp only [e, hk]
  rw [if_neg (by have := ht.inc k hkn; linarith)]
  rfl

/-- **C29** statelessness: whatever interval is remembered, the evaluation succeeds, gives the same value and leaves a
valid interval. -/
theorem stateless {t : ℝ} {last last' : ℕ} (hl : last + 1 < n) (hl' : last' + 1 < n) :
    ∃ v k k', externalWaveform x y m n t last = some (v, k) ∧ externalWaveform x y m n t last' = some (v, k') ∧
      k + 1 < n ∧ k' + 1 < n := by
  unfold externalWaveform
  split
  · exact ⟨0, last, last', rfl, rfl, hl, hl'⟩
  · rename_i hin
    push Not at hin
    obtain ⟨k, e, hk, a1, a2⟩ := eval_spec ht (y := y) (m := m) hin.1 hin.2 hl
    obtain ⟨k', e', hk', b1, b2⟩ := eval_spec ht (y := y) (m := m) hin.1 hin.2 hl'
    refine ⟨cubic x y m k t, k, k', e, ?_, hk, hk'⟩
    rw [e', cubic_agree ht hk' hk b1 b2 a1 a2]

end

/-! ### Histories of evaluations -/

/-- Remembered interval after a history of evaluations starting from 0 (`none` if one of them failed). -/
noncomputable def lastAfter (x y m : ℕ → ℝ) (n : ℕ) (ts : List ℝ) : Option ℕ :=
  ts.foldlM (fun k t => (externalWaveform x y m n t k).map Prod.snd) 0

/-- Value at a time after a history of evaluations. -/
noncomputable def valueAfter (x y m : ℕ → ℝ) (n : ℕ) (ts : List ℝ) (t : ℝ) : Option ℝ :=
  (lastAfter x y m n ts).bind fun k => (externalWaveform x y m n t k).map Prod.fst

variable {x y m : ℕ → ℝ} {n : ℕ}

theorem lastAfter_valid (ht : Table x n) (ts : List ℝ) : ∃ k, lastAfter x y m n ts = some k ∧ k + 1 < n := by
  have : ∀ (ts : List ℝ) k, k + 1 < n →
      ∃ k', ts.foldlM (fun k t => (externalWaveform x y m n t k).map Prod.snd) k = some k' ∧ k' + 1 < n := by
    intro ts
    induction ts with
    | nil => intro k hk; exact ⟨k, rfl, hk⟩
    | cons t ts ih =>
      intro k hk
      obtain ⟨v, k1, -, e, -, h1, -⟩ := stateless ht (y := y) (m := m) (t := t) hk hk
      obtain ⟨k2, e2, h2⟩ := ih k1 h1
      refine ⟨k2, ?_, h2⟩
      rw [List.foldlM_cons, e]
      exact e2
  exact this ts 0 (by have := ht.two; omega)

/-- The waveform: value of a first evaluation. -/
noncomputable def wave (x y m : ℕ → ℝ) (n : ℕ) (t : ℝ) : ℝ := (valueAfter x y m n [] t).getD 0

/-- **C29** the value at a time does not depend on what was evaluated before; no evaluation ever fails. -/
theorem history_free (ht : Table x n) (ts : List ℝ) (t : ℝ) : valueAfter x y m n ts t = some (wave x y m n t) := by
  obtain ⟨k, e, hk⟩ := lastAfter_valid ht (y := y) (m := m) ts
  obtain ⟨v, k1, k2, e1, e2, -, -⟩ := stateless ht (y := y) (m := m) (t := t) hk
    (show 0 + 1 < n by have := ht.two; omega)
  unfold wave valueAfter
  rw [e]
  simp [lastAfter, e1, e2]

/-- **C29** threads: evaluations that start from any interval remembered at any earlier moment of any other
evaluation history give the same value. -/
theorem thread_free (ht : Table x n) (ts : List ℝ) (t : ℝ) (k : ℕ) (hk : lastAfter x y m n ts = some k) :
    (externalWaveform x y m n t k).map Prod.fst = some (wave x y m n t) := by
  have := history_free ht (y := y) (m := m) ts t
  unfold valueAfter at this
  rw [hk] at this
  exact this

theorem wave_outside (_ht : Table x n) {t : ℝ} (h : t < x 0 ∨ x (n - 1) < t) : wave x y m n t = 0 := by
  unfold wave valueAfter lastAfter externalWaveform
  simp [h]

theorem wave_inside (ht : Table x n) {k : ℕ} (hk : k + 1 < n) {t : ℝ} (h1 : x k ≤ t) (h2 : t ≤ x (k + 1)) :
    wave x y m n t = cubic x y m k t := by
  have hn := ht.two
  have h0 : x 0 ≤ t := (ht.le (Nat.zero_le k) (by omega)).trans h1
  have hN : t ≤ x (n - 1) := h2.trans (ht.le (by omega) (by omega))
  obtain ⟨l, e, hl, a1, a2⟩ := eval_spec ht (y := y) (m := m) h0 hN (show 0 + 1 < n by omega)
  have : externalWaveform x y m n t 0 = some (cubic x y m l t, l) := by
    unfold externalWaveform
    rw [if_neg (by push Not; exact ⟨h0, hN⟩)]
    exact e
  unfold wave valueAfter lastAfter
  simp only [List.foldlM_nil]
  change ((externalWaveform x y m n t 0).map Prod.fst).getD 0 = _
  rw [this]
  exact cubic_agree ht hl hk a1 a2 h1 h2

/-- **C29** the waveform passes through every point of the table. -/
theorem through_points (ht : Table x n) {i : ℕ} (hi : i < n) : wave x y m n (x i) = y i := by
  have hn := ht.two
  by_cases h : i + 1 < n
  · rw [wave_inside ht h le_rfl (ht.inc i h).le, cubic_left ht h]
  · obtain ⟨j, rfl⟩ : ∃ j, i = j + 1 := ⟨i - 1, by omega⟩
    rw [wave_inside ht (k := j) (by omega) (ht.inc j (by omega)).le le_rfl, cubic_right ht (by omega)]

/-! ### Slopes -/

/-- Slope of a cubic. -/
noncomputable def slope (x y m : ℕ → ℝ) (k : ℕ) (t : ℝ) : ℝ :=
  let h := x (k + 1) - x k
  let a := (x (k + 1) - t) / h
  let b := (t - x k) / h
  (y (k + 1) - y k) / h + ((1 - 3 * a ^ 2) * m k + (3 * b ^ 2 - 1) * m (k + 1)) * h / 6

theorem cubic_deriv (ht : Table x n) {k : ℕ} (hk : k + 1 < n) (t : ℝ) : HasDerivAt (cubic x y m k) (slope x y m k t) t := by
  have hh := (sub_pos.2 (ht.inc k hk)).ne'
  have ha : HasDerivAt (fun t => (x (k + 1) - t) / (x (k + 1) - x k)) (-1 / (x (k + 1) - x k)) t :=
    ((hasDerivAt_id t).const_sub _).div_const _
  have hb : HasDerivAt (fun t => (t - x k) / (x (k + 1) - x k)) (1 / (x (k + 1) - x k)) t :=
    ((hasDerivAt_id t).sub_const _).div_const _
  have := ((ha.mul_const (y k)).add (hb.mul_const (y (k + 1)))).add
    (((((((ha.mul ha).mul ha).sub ha).mul_const (m k)).add (((((hb.mul hb).mul hb).sub hb).mul_const (m (k + 1))))).mul_const
      ((x (k + 1) - x k) * (x (k + 1) - x k))).div_const 6)
  refine this.congr_deriv ?_
  unfold slope
  simp only [Pi.mul_apply]
  field_simp
  ring

/-! ### The second derivatives computed by `createSplines` -/

section system
variable (ht : Table x n)
include ht

theorem sig_mem {i : ℕ} (hi : i + 2 < n) : 0 < sig x (i + 1) ∧ sig x (i + 1) < 1 := by
  have h1 := ht.inc i (by omega)
  have h2 := ht.inc (i + 1) (by omega)
  unfold sig
  simp only [Nat.add_sub_cancel, show i + 1 + 1 = i + 2 from rfl]
  constructor
  · apply div_pos <;> linarith
  · rw [div_lt_one (by linarith)]; linarith

theorem sweep_mem {i : ℕ} (hi : i + 1 < n) : -1 < (sweep x y i).1 ∧ (sweep x y i).1 ≤ 0 := by
  induction i with
  | zero => simp only [sweep]; norm_num
  | succ i ih =>
    obtain ⟨h1, h2⟩ := ih (by omega)
    obtain ⟨s1, s2⟩ := sig_mem ht hi
    simp only [sweep]
    have hp : 1 < sig x (i + 1) * (sweep x y i).1 + 2 := by nlinarith
    constructor
    · rw [lt_div_iff₀ (by linarith)]; nlinarith
    · exact div_nonpos_of_nonpos_of_nonneg (by linarith) (by linarith)

theorem second_last : second x y n (n - 1) = lastM x y n := by
  unfold second; rw [Nat.sub_self]; rfl

theorem second_back {k : ℕ} (hk : k + 1 < n) :
    second x y n k = (sweep x y k).1 * second x y n (k + 1) + (sweep x y k).2 := by
  unfold second
  have e : n - 1 - k = (n - 1 - (k + 1)) + 1 := by omega
  rw [e, backM]
  have e2 : n - 2 - (n - 1 - (k + 1)) = k := by omega
  rw [e2]

/-- Clamped start: the slope is zero. -/
theorem slope_first : slope x y (second x y n) 0 (x 0) = 0 := by
  have hn := ht.two
  have h := second_back ht (y := y) (k := 0) (by omega)
  have hh := (sub_pos.2 (ht.inc 0 (by omega))).ne'
  simp only [sweep, Nat.zero_add] at h
  unfold slope
  simp only [sub_self, zero_div, Nat.zero_add, div_self hh, h]
  generalize x 1 - x 0 = d at *
  field_simp
  ring

/-- Clamped end. -/
theorem slope_last : slope x y (second x y n) (n - 2) (x (n - 1)) = 0 := by
  have hn := ht.two
  obtain ⟨j, rfl⟩ : ∃ j, n = j + 2 := ⟨n - 2, by omega⟩
  have h := second_back ht (y := y) (k := j) (by omega)
  have hl := second_last ht (y := y)
  have hm := sweep_mem ht (y := y) (i := j) (by omega)
  have hh := (sub_pos.2 (ht.inc j (by omega))).ne'
  simp only [show j + 2 - 1 = j + 1 from rfl, show j + 2 - 2 = j from rfl, lastM] at h hl ⊢
  unfold slope
  simp only [sub_self, zero_div, div_self hh]
  have hq : (1 / 2 : ℝ) * (sweep x y j).1 + 1 ≠ 0 := by linarith [hm.1]
  have e : second x y (j + 2) (j + 1) * ((1 / 2 : ℝ) * (sweep x y j).1 + 1) =
      3 / (x (j + 1) - x j) * (0 - (y (j + 1) - y j) / (x (j + 1) - x j)) - 1 / 2 * (sweep x y j).2 := by
    rw [hl]
    exact div_mul_cancel₀ _ hq
  generalize second x y (j + 2) (j + 1) = M at *
  generalize second x y (j + 2) j = M0 at *
  generalize (sweep x y j).1 = a at *
  generalize (sweep x y j).2 = b at *
  generalize x (j + 1) - x j = d at *
  rw [h]
  field_simp at e ⊢
  linear_combination e

/-- At an inner point the slopes of both cubics agree. -/
theorem slope_match {k : ℕ} (hk : k + 2 < n) :
    slope x y (second x y n) k (x (k + 1)) = slope x y (second x y n) (k + 1) (x (k + 1)) := by
  have h1 := second_back ht (y := y) (k := k) (by omega)
  have h2 := second_back ht (y := y) (k := k + 1) (by omega)
  have hm := sweep_mem ht (y := y) (i := k) (by omega)
  obtain ⟨s1, s2⟩ := sig_mem ht hk
  have d1 := (sub_pos.2 (ht.inc k (by omega))).ne'
  have d2 := (sub_pos.2 (ht.inc (k + 1) (by omega))).ne'
  have d3 : x (k + 2) - x k ≠ 0 := (sub_pos.2 (ht.lt (show k < k + 2 by omega) (by omega))).ne'
  have hp : sig x (k + 1) * (sweep x y k).1 + 2 ≠ 0 := by nlinarith [hm.1]
  simp only [sweep, show k + 1 + 1 = k + 2 from rfl] at h2
  have e : second x y n (k + 1) * (sig x (k + 1) * (sweep x y k).1 + 2) =
      (sig x (k + 1) - 1) * second x y n (k + 2) + (6 * ((y (k + 2) - y (k + 1)) / (x (k + 2) - x (k + 1)) -
        (y (k + 1) - y k) / (x (k + 1) - x k)) / (x (k + 2) - x k) - sig x (k + 1) * (sweep x y k).2) := by
    rw [h2]
    generalize sig x (k + 1) * (sweep x y k).1 + 2 = p at *
    field_simp
  have e2 : sig x (k + 1) = (x (k + 1) - x k) / (x (k + 2) - x k) := by
    unfold sig; rfl
  unfold slope
  simp only [sub_self, zero_div, div_self d1, div_self d2, show k + 1 + 1 = k + 2 from rfl]
  have e3 : sig x (k + 1) * second x y n k + 2 * second x y n (k + 1) + (1 - sig x (k + 1)) * second x y n (k + 2) =
      6 * ((y (k + 2) - y (k + 1)) / (x (k + 2) - x (k + 1)) - (y (k + 1) - y k) / (x (k + 1) - x k)) / (x (k + 2) - x k) := by
    rw [h1]
    linear_combination e
  rw [e2] at e3
  have e4 : x (k + 2) - x k = (x (k + 2) - x (k + 1)) + (x (k + 1) - x k) := by ring
  rw [e4] at e3 d3
  generalize x (k + 1) - x k = h0 at *
  generalize x (k + 2) - x (k + 1) = h1' at *
  generalize second x y n k = M0 at *
  generalize second x y n (k + 1) = M1 at *
  generalize second x y n (k + 2) = M2 at *
  generalize y (k + 2) - y (k + 1) = q1 at *
  generalize y (k + 1) - y k = q0 at *
  field_simp at e3 ⊢
  linear_combination e3

end system

/-! ### The whole waveform -/

/-- Slopes agree where intervals meet. -/
theorem slope_agree (ht : Table x n) {k l : ℕ} (hk : k + 1 < n) (hl : l + 1 < n) {t : ℝ} (h1 : x k ≤ t)
    (h2 : t ≤ x (k + 1)) (h3 : x l ≤ t) (h4 : t ≤ x (l + 1)) :
    slope x y (second x y n) k t = slope x y (second x y n) l t := by
  have key : ∀ k l, k + 1 < n → l + 1 < n → k < l → x k ≤ t → t ≤ x (k + 1) → x l ≤ t → t ≤ x (l + 1) →
      slope x y (second x y n) k t = slope x y (second x y n) l t := by
    intro k l hk hl h h1 h2 h3 h4
    have e1 : x (k + 1) ≤ x l := ht.le (by omega) (by omega)
    have e2 : t = x l := le_antisymm (h2.trans e1) h3
    have e3 : t = x (k + 1) := le_antisymm h2 (e1.trans h3)
    have e4 : l = k + 1 := by
      by_contra hne
      have := ht.lt (show k + 1 < l by omega) (by omega)
      rw [← e2, ← e3] at this
      exact lt_irrefl _ this
    subst e4
    rw [e3]
    exact slope_match ht hl
  rcases lt_trichotomy k l with h | h | h
  · exact key k l hk hl h h1 h2 h3 h4
  · rw [h]
  · exact (key l k hl hk h h3 h4 h1 h2).symm

open Classical in
/-- Slope of the waveform: that of the interval, zero outside the table. -/
noncomputable def slopeAt (x y : ℕ → ℝ) (n : ℕ) (t : ℝ) : ℝ :=
  if h : ∃ k, k + 1 < n ∧ x k ≤ t ∧ t ≤ x (k + 1) then slope x y (second x y n) h.choose t else 0

theorem slopeAt_inside (ht : Table x n) {k : ℕ} (hk : k + 1 < n) {t : ℝ} (h1 : x k ≤ t) (h2 : t ≤ x (k + 1)) :
    slopeAt x y n t = slope x y (second x y n) k t := by
  have h : ∃ k, k + 1 < n ∧ x k ≤ t ∧ t ≤ x (k + 1) := ⟨k, hk, h1, h2⟩
  unfold slopeAt
  rw [dif_pos h]
  obtain ⟨a, b, c⟩ := h.choose_spec
  exact slope_agree ht a hk b c h1 h2

theorem slopeAt_outside (ht : Table x n) {t : ℝ} (h : t ≤ x 0 ∨ x (n - 1) ≤ t) : slopeAt x y n t = 0 := by
  have hn := ht.two
  by_cases he : ∃ k, k + 1 < n ∧ x k ≤ t ∧ t ≤ x (k + 1)
  · rcases h with h | h
    · have e : t = x 0 := by
        obtain ⟨k, hk, h1, _⟩ := he
        exact le_antisymm h ((ht.le (Nat.zero_le k) (by omega)).trans h1)
      subst e
      rw [slopeAt_inside ht (k := 0) (by omega) le_rfl (ht.inc 0 (by omega)).le]
      exact slope_first ht
    · have e : t = x (n - 1) := by
        obtain ⟨k, hk, _, h1⟩ := he
        exact le_antisymm (h1.trans (ht.le (by omega) (by omega))) h
      subst e
      have e2 : n - 2 + 1 = n - 1 := by omega
      rw [slopeAt_inside ht (k := n - 2) (by omega) (ht.le (by omega) (by omega)) (by rw [e2])]
      exact slope_last ht
  · unfold slopeAt
    rw [dif_neg he]

/-- The pieces cover the line. -/
theorem cover (ht : Table x n) (t : ℝ) : t ∈ Iic (x 0) ∪ (⋃ k ∈ Finset.range (n - 1), Icc (x k) (x (k + 1))) ∪ Ici (x (n - 1)) := by
  have hn := ht.two
  rcases lt_or_ge t (x 0) with h | h
  · exact Or.inl (Or.inl h.le)
  rcases lt_or_ge (x (n - 1)) t with h' | h'
  · exact Or.inr h'.le
  obtain ⟨k, -, hk, h1, h2⟩ := search_spec ht (t := t) (klo := 0) (khi := n - 1) (by omega) (by omega) h h'
  refine Or.inl (Or.inr ?_)
  simp only [mem_iUnion, Finset.mem_range, exists_prop]
  exact ⟨k, by omega, h1, h2⟩

/-- A function that on each closed piece is a continuous one is continuous. -/
theorem continuous_of_pieces {f : ℝ → ℝ} {ι : Type} (I : Finset ι) (A : ι → Set ℝ) (hA : ∀ i ∈ I, IsClosed (A i))
    (hf : ∀ i ∈ I, ContinuousOn f (A i)) : ContinuousOn f (⋃ i ∈ I, A i) := by
  classical
  induction I using Finset.induction_on with
  | empty => simp
  | insert a s ha ih =>
    rw [Finset.set_biUnion_insert]
    refine ContinuousOn.union_of_isClosed (hf a (by simp)) (ih (fun i hi => hA i (by simp [hi])) fun i hi => hf i (by simp [hi]))
      (hA a (by simp)) ?_
    exact isClosed_biUnion_finset fun i hi => hA i (by simp [hi])

/-- **C29** the slope is a continuous function of time, on the table and beyond its ends. -/
theorem slope_continuous (ht : Table x n) : Continuous (slopeAt x y n) := by
  rw [← continuousOn_univ, ← (Set.eq_univ_of_forall (cover ht) : _ = univ)]
  have c2 : ContinuousOn (slopeAt x y n) (⋃ k ∈ Finset.range (n - 1), Icc (x k) (x (k + 1))) := by
    refine continuous_of_pieces _ _ (fun _ _ => isClosed_Icc) fun k hk => ?_
    have hk : k + 1 < n := by have := Finset.mem_range.1 hk; omega
    have : Continuous (slope x y (second x y n) k) := by unfold slope; fun_prop
    exact this.continuousOn.congr fun t h => slopeAt_inside ht hk h.1 h.2
  have c1 : ContinuousOn (slopeAt x y n) (Iic (x 0)) :=
    (continuousOn_const (c := (0 : ℝ))).congr fun t h => slopeAt_outside ht (Or.inl h)
  have c3 : ContinuousOn (slopeAt x y n) (Ici (x (n - 1))) :=
    (continuousOn_const (c := (0 : ℝ))).congr fun t h => slopeAt_outside ht (Or.inr h)
  have cl : IsClosed (⋃ k ∈ Finset.range (n - 1), Icc (x k) (x (k + 1))) :=
    isClosed_biUnion_finset fun _ _ => isClosed_Icc
  exact (c1.union_of_isClosed c2 isClosed_Iic cl).union_of_isClosed c3 (isClosed_Iic.union cl) isClosed_Ici

theorem deriv_pieces {f : ℝ → ℝ} {ι : Type} (I : Finset ι) (A : ι → Set ℝ) {d t : ℝ}
    (hf : ∀ i ∈ I, HasDerivWithinAt f d (A i) t) : HasDerivWithinAt f d (⋃ i ∈ I, A i) t := by
  classical
  induction I using Finset.induction_on with
  | empty => exact HasFDerivWithinAt.of_notMem_closure (by simp)
  | insert a s ha ih =>
    rw [Finset.set_biUnion_insert]
    exact (hf a (by simp)).union (ih fun i hi => hf i (by simp [hi]))

/-- **C29** on the table the waveform is differentiable with that slope. -/
theorem wave_deriv (ht : Table x n) (t : ℝ) :
    HasDerivWithinAt (wave x y (second x y n) n) (slopeAt x y n t) (⋃ k ∈ Finset.range (n - 1), Icc (x k) (x (k + 1))) t := by
  refine deriv_pieces _ _ fun k hk => C28.piece isClosed_Icc fun h => ?_
  have hk : k + 1 < n := by have := Finset.mem_range.1 hk; omega
  rw [slopeAt_inside ht hk h.1 h.2]
  exact (cubic_deriv ht hk t).hasDerivWithinAt.congr_of_mem (fun s hs => wave_inside ht hk hs.1 hs.2) h

theorem pieces_eq (ht : Table x n) : (⋃ k ∈ Finset.range (n - 1), Icc (x k) (x (k + 1))) = Icc (x 0) (x (n - 1)) := by
  have hn := ht.two
  ext t
  simp only [mem_iUnion, Finset.mem_range, exists_prop]
  constructor
  · rintro ⟨k, hk, h1, h2⟩
    exact ⟨(ht.le (Nat.zero_le k) (by omega)).trans h1, h2.trans (ht.le (by omega) (by omega))⟩
  · rintro ⟨h, h'⟩
    obtain ⟨k, -, hk, h1, h2⟩ := search_spec ht (t := t) (klo := 0) (khi := n - 1) (by omega) (by omega) h h'
    exact ⟨k, by omega, h1, h2⟩

/-- **C29** smoothness: from the first to the last time of the table the waveform has a slope that is continuous, and it
starts and ends with slope zero. -/
theorem smooth (ht : Table x n) : ∃ d : ℝ → ℝ, Continuous d ∧
    (∀ t ∈ Icc (x 0) (x (n - 1)), HasDerivWithinAt (wave x y (second x y n) n) (d t) (Icc (x 0) (x (n - 1))) t) ∧
    (∀ t ∈ Ioo (x 0) (x (n - 1)), HasDerivAt (wave x y (second x y n) n) (d t) t) ∧
    d (x 0) = 0 ∧ d (x (n - 1)) = 0 := by
  have h : ∀ t, HasDerivWithinAt (wave x y (second x y n) n) (slopeAt x y n t) (Icc (x 0) (x (n - 1))) t := by
    intro t; rw [← pieces_eq ht]; exact wave_deriv ht t
  exact ⟨slopeAt x y n, slope_continuous ht, fun t _ => h t, fun t hI => (h t).hasDerivAt (Icc_mem_nhds hI.1 hI.2),
    slopeAt_outside ht (Or.inl le_rfl), slopeAt_outside ht (Or.inr le_rfl)⟩

/-- **C29** if the table starts and ends with value zero the waveform is continuously differentiable for all times. -/
theorem smooth_everywhere (ht : Table x n) (h0 : y 0 = 0) (h1 : y (n - 1) = 0) : ∃ d : ℝ → ℝ, Continuous d ∧
    ∀ t, HasDerivAt (wave x y (second x y n) n) (d t) t := by
  have hn := ht.two
  refine ⟨slopeAt x y n, slope_continuous ht, fun t => ?_⟩
  rw [← hasDerivWithinAt_univ, ← (Set.eq_univ_of_forall (cover ht) : _ = univ)]
  refine HasDerivWithinAt.union (HasDerivWithinAt.union (C28.piece isClosed_Iic fun h => ?_) (wave_deriv ht t))
    (C28.piece isClosed_Ici fun h => ?_)
  · rw [slopeAt_outside ht (Or.inl h)]
    refine (hasDerivWithinAt_const t _ 0).congr_of_mem (fun s hs => ?_) h
    rcases (show s ≤ x 0 from hs).eq_or_lt with e | e
    · rw [e, through_points ht (by omega), h0]
    · exact wave_outside ht (Or.inl e)
  · rw [slopeAt_outside ht (Or.inr h)]
    refine (hasDerivWithinAt_const t _ 0).congr_of_mem (fun s hs => ?_) h
    rcases (show x (n - 1) ≤ s from hs).eq_or_lt with e | e
    · rw [← e, through_points ht (by omega), h1]
    · exact wave_outside ht (Or.inr e)

/-- Finding: a table that does not end with zero is cut off there; the waveform jumps. -/
theorem jump_at_end (ht : Table x n) (h1 : y (n - 1) ≠ 0) : ¬ Continuous (wave x y m n) := by
  have hn := ht.two
  intro hc
  have hz : Iic (x (n - 1)) ⊇ {x (n - 1)} := by simp
  have : wave x y m n (x (n - 1)) = 0 := by
    have hcl : IsClosed {t | wave x y m n t = 0} := isClosed_eq hc continuous_const
    have hs : Ioi (x (n - 1)) ⊆ {t | wave x y m n t = 0} := fun t h => wave_outside ht (Or.inr h)
    have := (IsClosed.closure_subset_iff hcl).2 hs
    rw [closure_Ioi] at this
    exact this self_mem_Ici
  rw [through_points ht (by omega)] at this
  exact h1 this

/-- Non-vacuity: a table of three points. -/
theorem ex_table : Table (fun i => (i : ℝ)) 3 := ⟨by norm_num, fun i _ => by push_cast; linarith⟩

end Vulture.C29
