import Verif.Props.C35_Run
/-
C32. Observers record exactly the requested window. C33. Transforms.
-/
set_option linter.unusedSimpArgs false
namespace Vulture.C32
open Vulture Run Spec C35

/-! ### Strides -/

theorem strided_mem {lo hi step : Int} (h : 1 ≤ step) (i : Int) : i ∈ strided lo hi step ↔ Selected lo hi step i := by
  unfold strided Selected
  simp only [List.mem_map, List.mem_range]
  constructor
  · rintro ⟨m, hm, rfl⟩
    have hm' : (m : Int) < (hi - lo) / step + 1 := by omega
    have h2 : (m : Int) * step ≤ hi - lo := by
      have : (m : Int) ≤ (hi - lo) / step := by omega
      calc (m : Int) * step ≤ (hi - lo) / step * step := mul_le_mul_of_nonneg_right this (by omega)
        _ ≤ hi - lo := Int.ediv_mul_le _ (by omega)
    have h3 : 0 ≤ (m : Int) * step := by positivity
    refine ⟨by omega, by omega, ⟨m, by ring⟩⟩
  · rintro ⟨h1, h2, ⟨q, hq⟩⟩
    have q0 : 0 ≤ q := by
      by_contra hn
      have : step * q < 0 := mul_neg_of_pos_of_neg (by omega) (by omega)
      omega
    refine ⟨q.toNat, ?_, ?_⟩
    · have : q ≤ (hi - lo) / step := by
        rw [Int.le_ediv_iff_mul_le (by omega), mul_comm]
        omega
      omega
    · rw [Int.toNat_of_nonneg q0, mul_comm]; omega

theorem strided_sorted {lo hi step : Int} (h : 1 ≤ step) : (strided lo hi step).Pairwise (· < ·) := by
  unfold strided
  rw [List.pairwise_map]
  refine List.pairwise_lt_range.imp ?_
  intro a b hab
  have : (a : Int) * step < b * step := mul_lt_mul_of_pos_right (by exact_mod_cast hab) (by omega)
  omega

theorem strided_length {lo hi step : Int} (h : 1 ≤ step) (hl : lo ≤ hi) :
    ((strided lo hi step).length : Int) = 1 + (hi - lo) / step := by
  unfold strided
  rw [List.length_map, List.length_range, Int.toNat_of_nonneg]
  · ring
  · have := Int.ediv_nonneg (show 0 ≤ hi - lo by omega) (show 0 ≤ step by omega)
    omega

theorem strided_empty {lo hi step : Int} (h : 1 ≤ step) (hl : hi < lo) : strided lo hi step = [] := by
  unfold strided
  have : (hi - lo) / step < 0 := Int.ediv_neg_of_neg_of_pos (by omega) (by omega)
  rw [show ((hi - lo) / step + 1).toNat = 0 by omega]
  rfl

theorem strided_cons {lo hi step : Int} (h : 1 ≤ step) (hl : lo ≤ hi) :
    strided lo hi step = lo :: strided (lo + step) hi step := by
  unfold strided
  have e : (hi - (lo + step)) / step = (hi - lo) / step - 1 := by
    rw [show hi - (lo + step) = hi - lo + (-1) * step by ring, Int.add_mul_ediv_right _ _ (by omega)]; ring
  have p : 0 ≤ (hi - lo) / step := Int.ediv_nonneg (by omega) (by omega)
  rw [e, show ((hi - lo) / step + 1).toNat = ((hi - lo) / step).toNat + 1 by omega,
    show ((hi - lo) / step - 1 + 1).toNat = ((hi - lo) / step).toNat by omega, List.range_succ_eq_map]
  simp only [List.map_cons, List.map_map, Nat.cast_zero, zero_mul, add_zero, List.cons.injEq, true_and]
  refine List.map_congr_left fun m _ => ?_
  simp only [Function.comp, Nat.succ_eq_add_one, Nat.cast_add, Nat.cast_one]
  ring

/-- The C loop ends exactly when the step is positive or the range empty, with the values of `forStep`. -/
theorem for_loop (lo hi step : Int) (h0 : 0 ≤ step) (l : List Int) :
    (∃ fuel, forLoop hi step fuel lo = some l) ↔ forStep lo hi step = some l := by
  rcases Int.lt_or_le 0 step with h | h
  · -- positive step
    have key : ∀ (k : Nat) lo, (hi - lo + 1).toNat ≤ k → ∀ l, (∃ fuel, forLoop hi step fuel lo = some l) ↔
        some (strided lo hi step) = some l := by
      intro k
      induction k with
      | zero =>
        intro lo hk l
        have hc : ¬ lo ≤ hi := by omega
        rw [strided_empty (by omega) (by omega)]
        constructor
        · rintro ⟨_ | f, hf⟩
          · simp [forLoop] at hf
          · simpa [forLoop, hc] using hf
        · intro hl
          exact ⟨1, by simpa [forLoop, hc] using hl⟩
      | succ k ih =>
        intro lo hk l
        by_cases hc : lo ≤ hi
        · rw [strided_cons (by omega) hc]
          have i := ih (lo + step) (by omega)
          constructor
          · rintro ⟨_ | f, hf⟩
            · simp [forLoop] at hf
            · simp only [forLoop, hc, if_true] at hf
              obtain ⟨l', h1, h2⟩ := Option.map_eq_some_iff.1 hf
              have := (i l').1 ⟨f, h1⟩
              rw [Option.some.injEq] at this
              rw [this, h2]
          · intro hl
            rw [Option.some.injEq] at hl
            obtain ⟨f, hf⟩ := (i _).2 rfl
            exact ⟨f + 1, by simp only [forLoop, hc, if_true, hf, Option.map_some, hl]⟩
        · rw [strided_empty (by omega) (by omega)]
          constructor
          · rintro ⟨_ | f, hf⟩
            · simp [forLoop] at hf
            · simpa [forLoop, hc] using hf
          · intro hl
            exact ⟨1, by simpa [forLoop, hc] using hl⟩
    rw [key _ lo le_rfl l]
    unfold forStep
    rw [if_pos (by omega)]
  · have hs : step = 0 := by omega
    subst hs
    unfold forStep
    rw [if_neg (by omega)]
    by_cases hc : lo ≤ hi
    · rw [if_neg (by omega)]
      constructor
      · rintro ⟨f, hf⟩
        exfalso
        induction f generalizing l with
        | zero => simp [forLoop] at hf
        | succ f ih =>
          simp only [forLoop, hc, if_true, add_zero] at hf
          obtain ⟨l', h1, -⟩ := Option.map_eq_some_iff.1 hf
          exact ih l' h1
      · intro h; cases h
    · rw [if_pos (by omega)]
      constructor
      · rintro ⟨_ | f, hf⟩
        · simp [forLoop] at hf
        · simpa [forLoop, hc] using hf
      · intro hl
        exact ⟨1, by simpa [forLoop, hc] using hl⟩

/-! ### Nodes of a box -/

/-- The nodes of a binary observer: every step-th node along each axis from the low corner, each once. -/
theorem nodes_selected {b : BBox} {step : Axis → Int} (hs : ∀ a, 1 ≤ step a) {l : List (Int × Int × Int)}
    (hl : boxNodes b step = some l) (i j k : Int) : (i, j, k) ∈ l ↔
      Selected (b .xlo) (b .xhi) (step .x) i ∧ Selected (b .ylo) (b .yhi) (step .y) j ∧
      Selected (b .zlo) (b .zhi) (step .z) k := by
  have e : boxNodes b step = some ((strided (b .zlo) (b .zhi) (step .z)).flatMap fun k =>
      (strided (b .ylo) (b .yhi) (step .y)).flatMap fun j => (strided (b .xlo) (b .xhi) (step .x)).map fun i =>
        (i, j, k)) := by
    simp [boxNodes, forStep, hs .x, hs .y, hs .z]
  rw [e, Option.some.injEq] at hl
  subst hl
  simp only [List.mem_flatMap, List.mem_map, Prod.mk.injEq, strided_mem (hs _)]
  constructor
  · rintro ⟨k', hk, j', hj, i', hi, rfl, rfl, rfl⟩; exact ⟨hi, hj, hk⟩
  · rintro ⟨hi, hj, hk⟩; exact ⟨k, hk, j, hj, i, hi, rfl, rfl, rfl⟩

theorem nodes_once {b : BBox} {step : Axis → Int} (hs : ∀ a, 1 ≤ step a) {l : List (Int × Int × Int)}
    (hl : boxNodes b step = some l) : l.Nodup := by
  have e : boxNodes b step = some ((strided (b .zlo) (b .zhi) (step .z)).flatMap fun k =>
      (strided (b .ylo) (b .yhi) (step .y)).flatMap fun j => (strided (b .xlo) (b .xhi) (step .x)).map fun i =>
        (i, j, k)) := by
    simp [boxNodes, forStep, hs .x, hs .y, hs .z]
  rw [e, Option.some.injEq] at hl
  subst hl
  have nd : ∀ a lo hi, (strided lo hi (step a)).Nodup := fun a lo hi =>
    (strided_sorted (hs a)).imp fun h => ne_of_lt h
  refine List.nodup_flatMap.2 ⟨fun k _ => List.nodup_flatMap.2 ⟨fun j _ => ?_, ?_⟩, ?_⟩
  · exact (nd .x _ _).map fun a b h => by simpa using h
  · refine (nd .y _ _).imp fun {a b} hab => ?_
    rw [Function.onFun, List.disjoint_left]
    intro t h1 h2
    obtain ⟨i1, -, rfl⟩ := List.mem_map.1 h1
    obtain ⟨i2, -, h⟩ := List.mem_map.1 h2
    simp at h
    exact hab h.2.symm
  · refine (nd .z _ _).imp fun {a b} hab => ?_
    rw [Function.onFun, List.disjoint_left]
    intro t h1 h2
    simp only [List.mem_flatMap, List.mem_map] at h1 h2
    obtain ⟨j1, -, i1, -, rfl⟩ := h1
    obtain ⟨j2, -, i2, -, h⟩ := h2
    simp at h
    exact hab h.2.2.symm

/-- Their number is that of `getNumberOfOutputNodes`. -/
theorem nodes_count {b : BBox} {step : Axis → Int} (hs : ∀ a, 1 ≤ step a) (hb : ∀ a : Axis, b a.lo ≤ b a.hi)
    {l : List (Int × Int × Int)} (hl : boxNodes b step = some l) :
    (l.length : Int) = numNodes b step .x * numNodes b step .y * numNodes b step .z := by
  have e : boxNodes b step = some ((strided (b .zlo) (b .zhi) (step .z)).flatMap fun k =>
      (strided (b .ylo) (b .yhi) (step .y)).flatMap fun j => (strided (b .xlo) (b .xhi) (step .x)).map fun i =>
        (i, j, k)) := by
    simp [boxNodes, forStep, hs .x, hs .y, hs .z]
  rw [e, Option.some.injEq] at hl
  subst hl
  have c : ∀ a : Axis, numNodes b step a = (strided (b a.lo) (b a.hi) (step a)).length := by
    intro a
    rw [strided_length (hs a) (hb a)]
    unfold numNodes
    rw [Int.tdiv_eq_ediv_of_nonneg (by have := hb a; omega)]
  have cx := c .x; have cy := c .y; have cz := c .z
  simp only [Axis.lo, Axis.hi] at cx cy cz
  rw [cx, cy, cz]
  simp only [List.length_flatMap, List.length_map, List.map_const', List.sum_replicate, smul_eq_mul]
  push_cast
  ring

/-- A zero step along an axis, which the card parser accepts, makes the loop endless. -/
theorem zero_step_endless {b : BBox} {step : Axis → Int} (hb : ∀ a : Axis, b a.lo ≤ b a.hi)
    {a : Axis} (hz : step a = 0) : boxNodes b step = none := by
  have e : ∀ a : Axis, step a = 0 → forStep (b a.lo) (b a.hi) (step a) = none := by
    intro a h
    unfold forStep
    rw [if_neg (by omega), if_neg (by have := hb a; omega)]
  unfold boxNodes
  cases a
  · have := e .x hz
    simp only [Axis.lo, Axis.hi] at this
    rw [this]
    cases forStep (b .zlo) (b .zhi) (step .z) <;> cases forStep (b .ylo) (b .yhi) (step .y) <;> rfl
  · have := e .y hz
    simp only [Axis.lo, Axis.hi] at this
    rw [this]
    cases forStep (b .zlo) (b .zhi) (step .z) <;> rfl
  · have := e .z hz
    simp only [Axis.lo, Axis.hi] at this
    rw [this]
    rfl

end Vulture.C32
