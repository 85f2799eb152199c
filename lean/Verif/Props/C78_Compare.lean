import Verif.Model.PyDiff
import Verif.Spec.Compare
import Mathlib.Tactic.Linarith
import Mathlib.Tactic.NormNum
/- C78: the comparison tool. -/
set_option linter.unusedSimpArgs false
set_option linter.unusedVariables false
namespace Vulture.C78
open PyDiff Spec

theorem entry_at {t : List (List ℝ)} {i j : ℕ} {x : ℝ} (h : NumberAt t i j x) : entry t i j = x := by
  obtain ⟨row, h1, h2⟩ := h
  simp [entry, h1, h2]

theorem at_entry {t : List (List ℝ)} {i j c : ℕ} (hc : ∀ r ∈ t, r.length = c) (hi : i < t.length) (hj : j < c) : NumberAt t i j (entry t i j) := by
  obtain ⟨row, hr⟩ : ∃ row, t[i]? = some row := ⟨_, List.getElem?_eq_getElem hi⟩
  have hl := hc row (List.mem_of_getElem? hr)
  obtain ⟨x, hx⟩ : ∃ x, row[j]? = some x := ⟨_, List.getElem?_eq_getElem (by omega)⟩
  rw [entry_at ⟨row, hr, hx⟩]
  exact ⟨row, hr, hx⟩

theorem at_bounds {t : List (List ℝ)} {i j c : ℕ} {x : ℝ} (hc : ∀ r ∈ t, r.length = c) (h : NumberAt t i j x) : i < t.length ∧ j < c := by
  obtain ⟨row, h1, h2⟩ := h
  obtain ⟨a, -⟩ := List.getElem?_eq_some_iff.1 h1
  obtain ⟨b, -⟩ := List.getElem?_eq_some_iff.1 h2
  rw [hc row (List.mem_of_getElem? h1)] at b
  exact ⟨a, b⟩

/-- The array of a table. -/
noncomputable def arr (t : List (List ℝ)) (c : ℕ) : Arr :=
  if t.length = 1 ∧ c = 1 then ⟨[], 1, 1, entry t⟩
  else if t.length = 1 then ⟨[c], 1, c, entry t⟩
  else if c = 1 then ⟨[t.length], 1, t.length, fun i j => entry t j i⟩
  else ⟨[t.length, c], t.length, c, entry t⟩

theorem load {t : List (List ℝ)} {c : ℕ} (h0 : t ≠ []) (hc : ∀ r ∈ t, r.length = c) : loadtxt t = some (arr t c) := by
  cases t with
  | nil => exact absurd rfl h0
  | cons row l =>
    have e : row.length = c := hc row (by simp)
    unfold loadtxt
    dsimp only
    rw [e, if_pos hc]
    rfl

/-- Arrays of the same extents are compared entry by entry. -/
theorem same_close {a b : List (List ℝ)} {c : ℕ} (h0 : 0 < a.length) (hc : 0 < c) (hab : a.length = b.length) (ha : ∀ r ∈ a, r.length = c)
    (hb : ∀ r ∈ b, r.length = c) (rtol atol : ℝ) :
    ∃ v, allclose (arr a c) (arr b c) rtol atol = some v ∧ (v = true ↔ Agrees a b rtol atol) ∧ (arr a c).shape = (arr b c).shape := by
  have key : Agrees a b rtol atol ↔ ∀ i < a.length, ∀ j < c, |entry a i j - entry b i j| ≤ atol + rtol * |entry b i j| := by
    constructor
    · intro h i hi j hj
      exact h i j _ _ (at_entry ha hi hj) (at_entry hb (by omega) hj)
    · intro h i j x y hx hy
      obtain ⟨h1, h2⟩ := at_bounds ha hx
      have := h i h1 j h2
      rwa [entry_at hx, entry_at hy] at this
  rw [key]
  unfold arr
  rw [← hab]
  by_cases h1 : a.length = 1
  · by_cases h2 : c = 1
    · rw [if_pos ⟨h1, h2⟩, if_pos ⟨h1, h2⟩]
      refine ⟨_, rfl, ?_, rfl⟩
      rw [h1, h2]
      simp [axisIdx]
    · rw [if_neg (fun h => h2 h.2), if_pos h1, if_neg (fun h => h2 h.2), if_pos h1]
      refine ⟨_, by unfold allclose axisLen; simp; rfl, ?_, rfl⟩
      rw [h1]
      simp [axisIdx, h2]
  · by_cases h2 : c = 1
    · rw [if_neg (fun h => h1 h.1), if_neg h1, if_pos h2, if_neg (fun h => h1 h.1), if_neg h1, if_pos h2]
      refine ⟨_, by unfold allclose axisLen; simp; rfl, ?_, rfl⟩
      rw [h2]
      simp [axisIdx, h1]
    · rw [if_neg (fun h => h1 h.1), if_neg h1, if_neg h2, if_neg (fun h => h1 h.1), if_neg h1, if_neg h2]
      refine ⟨_, by unfold allclose axisLen; simp; rfl, ?_, rfl⟩
      simp [axisIdx, h1, h2]

theorem extents {a b : List (List ℝ)} {c : ℕ} (hs : SameExtents a b) (ha : ∀ r ∈ a, r.length = c) : a.length = b.length ∧ ∀ r ∈ b, r.length = c := by
  unfold SameExtents at hs
  have hl : a.length = b.length := by simpa using congrArg List.length hs
  refine ⟨hl, fun r hr => ?_⟩
  have : r.length ∈ b.map List.length := List.mem_map_of_mem hr
  rw [← hs] at this
  obtain ⟨r', h1, h2⟩ := List.mem_map.1 this
  rw [← h2, ha r' h1]

/-- C78 (part): for tables of the same extents the exit status says how well they agree: 0 within the tolerances of the
documentation, 2 within ten times these, 1 otherwise. -/
theorem status_partial {a b : List (List ℝ)} (ha : Table a) (hs : SameExtents a b) :
    (pydiff a b = 0 ↔ Agrees a b (1 / 100000) (1 / 100)) ∧
    (pydiff a b = 2 ↔ ¬ Agrees a b (1 / 100000) (1 / 100) ∧ Agrees a b (1 / 10000) (1 / 10)) ∧
    (pydiff a b = 1 ↔ ¬ Agrees a b (1 / 10000) (1 / 10)) := by
  obtain ⟨h0, c, hc, hr⟩ := ha
  obtain ⟨hl, hr'⟩ := extents hs hr
  have h0' : 0 < a.length := List.length_pos_iff.2 h0
  have hb0 : b ≠ [] := List.length_pos_iff.1 (by omega)
  obtain ⟨v, e1, i1, es⟩ := same_close h0' hc hl hr hr' (1 / 100000) (1 / 100)
  obtain ⟨w, e2, i2, -⟩ := same_close h0' hc hl hr hr' (1 / 10000) (1 / 10)
  have weaker : Agrees a b (1 / 100000) (1 / 100) → Agrees a b (1 / 10000) (1 / 10) := by
    intro h i j x y hx hy
    have := h i j x y hx hy
    have := abs_nonneg y
    linarith
  unfold pydiff
  rw [load h0 hr, load hb0 hr']
  dsimp only
  unfold PyDiff.compare
  rw [e1]
  cases v with
  | true =>
    have := i1.1 rfl
    have h2 := weaker this
    refine ⟨⟨fun _ => this, fun _ => rfl⟩, ⟨fun h => (by cases h), fun h => absurd this h.1⟩, ⟨fun h => (by cases h), fun h => absurd h2 h⟩⟩
  | false =>
    have h1 : ¬ Agrees a b (1 / 100000) (1 / 100) := fun h => by have := i1.2 h; cases this
    dsimp only
    rw [if_neg (by simp [es]), e2]
    cases w with
    | true =>
      have := i2.1 rfl
      exact ⟨⟨fun h => (by cases h), fun h => absurd h h1⟩, ⟨fun _ => ⟨h1, this⟩, fun _ => rfl⟩, ⟨fun h => (by cases h), fun h => absurd this h⟩⟩
    | false =>
      have h2 : ¬ Agrees a b (1 / 10000) (1 / 10) := fun h => by have := i2.2 h; cases this
      exact ⟨⟨fun h => (by cases h), fun h => absurd h h1⟩, ⟨fun h => (by cases h), fun h => absurd h.2 h2⟩, ⟨fun _ => h2, fun _ => rfl⟩⟩

/-- C78: tables of different extents may be reported as equal, however different their numbers are: if the number of columns is
the same and one of them has a single row, the exit status is never that of a failure. -/
theorem extents_not_checked {row : List ℝ} {b : List (List ℝ)} (hc : 2 ≤ row.length) (hb : 2 ≤ b.length) (hr : ∀ r ∈ b, r.length = row.length) :
    ¬ SameExtents [row] b ∧ pydiff [row] b = 0 ∧ pydiff b [row] = 0 := by
  have hb0 : b ≠ [] := List.length_pos_iff.1 (by omega)
  have e1 := load (t := [row]) (c := row.length) (by simp) (by simp)
  have e2 := load hb0 hr
  have a1 : arr [row] row.length = ⟨[row.length], 1, row.length, entry [row]⟩ := by
    unfold arr
    rw [if_neg (by simp; omega), if_pos (by simp)]
  have a2 : arr b row.length = ⟨[b.length, row.length], b.length, row.length, entry b⟩ := by
    unfold arr
    rw [if_neg (by omega), if_neg (by omega), if_neg (by omega)]
  refine ⟨fun h => ?_, ?_, ?_⟩
  · have := congrArg List.length h
    simp at this
    omega
  · unfold pydiff
    rw [e1, e2, a1, a2]
    dsimp only
    unfold PyDiff.compare
    have : ∃ v, allclose ⟨[row.length], 1, row.length, entry [row]⟩ ⟨[b.length, row.length], b.length, row.length, entry b⟩ (1 / 100000) (1 / 100) = some v := by
      unfold allclose axisLen
      rw [if_neg (by dsimp only; omega), if_pos rfl, if_pos rfl]
      exact ⟨_, rfl⟩
    obtain ⟨v, hv⟩ := this
    rw [hv]
    cases v
    · dsimp only; rw [if_pos (by simp)]
    · rfl
  · unfold pydiff
    rw [e1, e2, a1, a2]
    dsimp only
    unfold PyDiff.compare
    have : ∃ v, allclose ⟨[b.length, row.length], b.length, row.length, entry b⟩ ⟨[row.length], 1, row.length, entry [row]⟩ (1 / 100000) (1 / 100) = some v := by
      unfold allclose axisLen
      rw [if_neg (by dsimp only; omega), if_neg (by dsimp only; omega), if_pos rfl, if_pos rfl]
      exact ⟨_, rfl⟩
    obtain ⟨v, hv⟩ := this
    rw [hv]
    cases v
    · dsimp only; rw [if_pos (by simp)]
    · rfl

/-- C78: a row passes for a column. -/
theorem row_for_column {row : List ℝ} (hc : 2 ≤ row.length) : ¬ SameExtents [row] (row.map fun x => [x]) ∧ pydiff [row] (row.map fun x => [x]) = 0 := by
  have e1 := load (t := [row]) (c := row.length) (by simp) (by simp)
  have e2 := load (t := row.map fun x => [x]) (c := 1) (by intro h; simp at h; rw [h] at hc; simp at hc) (by simp)
  have a1 : arr [row] row.length = ⟨[row.length], 1, row.length, entry [row]⟩ := by
    unfold arr
    rw [if_neg (by simp; omega), if_pos (by simp)]
  have a2 : arr (row.map fun x => [x]) 1 = ⟨[row.length], 1, row.length, fun i j => entry (row.map fun x => [x]) j i⟩ := by
    unfold arr
    rw [if_neg (by simp; omega), if_neg (by simp; omega), if_pos rfl, List.length_map]
  refine ⟨fun h => ?_, ?_⟩
  · have := congrArg List.length h
    simp at this
    omega
  · unfold pydiff
    rw [e1, e2, a1, a2]
    dsimp only
    unfold PyDiff.compare
    have : allclose ⟨[row.length], 1, row.length, entry [row]⟩ ⟨[row.length], 1, row.length, fun i j => entry (row.map fun x => [x]) j i⟩ (1 / 100000) (1 / 100) = some true := by
      unfold allclose axisLen
      rw [if_pos rfl, if_pos rfl]
      simp only [Option.bind_some, Option.some.injEq, decide_eq_true_eq]
      intro i hi j hj
      have hi : i = 0 := by omega
      subst hi
      have e : entry [row] 0 j = entry (row.map fun x => [x]) j 0 := by
        simp [entry, List.getElem?_eq_getElem hj]
      simp only [axisIdx, if_neg (show ¬ row.length = 1 by omega), if_pos]
      rw [e, sub_self, abs_zero]
      have := abs_nonneg (entry (row.map fun x => [x]) j 0)
      linarith
    rw [this]

/-- C78: numbers of at most five thousandths are not compared at all: a run whose fields all stay zero passes. -/
theorem small_not_compared {a b : List (List ℝ)} (ha : Table a) (hs : SameExtents a b) (h1 : ∀ i j x, NumberAt a i j x → |x| ≤ 1 / 200)
    (h2 : ∀ i j x, NumberAt b i j x → |x| ≤ 1 / 200) : pydiff a b = 0 := by
  rw [(status_partial ha hs).1]
  intro i j x y hx hy
  have := h1 i j x hx
  have := h2 i j y hy
  have := abs_nonneg y
  have := abs_sub x y
  linarith

example : Table [[0, 1], [1, 2]] ∧ SameExtents [[0, 1], [1, 2]] [[0, 1], [1, 3]] ∧ pydiff [[0, 1], [1, 2]] [[0, 1], [1, 3]] = 1 := by
  have h1 : Table [[0, 1], [1, 2]] := ⟨by simp, 2, by norm_num, by simp⟩
  have h2 : SameExtents [[0, 1], [1, 2]] [[0, 1], [1, 3]] := by simp [SameExtents]
  refine ⟨h1, h2, (status_partial h1 h2).2.2.2 fun h => ?_⟩
  have := h 1 1 2 3 ⟨_, rfl, rfl⟩ ⟨_, rfl, rfl⟩
  rw [abs_of_neg (by norm_num), abs_of_pos (by norm_num)] at this
  norm_num at this

end Vulture.C78
