import Verif.Props.C80_Poynting
import Verif.Props.C81_Sides
/-
Differences on a line and on a tensor mesh whose ends conduct, are magnetic walls or are periodic: summation by parts and bounds.
Pure mathematics.
-/
set_option linter.unusedSimpArgs false
set_option linter.unusedVariables false
set_option autoImplicit false
namespace Vulture.Sealed
open Spec Finset

/-! ### A line -/

/-- Part of the line that belongs to a node. -/
noncomputable def wt (N : Int) (l : Int → ℝ) (i : Int) : ℝ := (if 0 < i then l (i - 1) / 2 else 0) + (if i < N then l i / 2 else 0)

/-- Difference of the values of the two cells at a node; at the ends, of the cell and its image (half of it, as half of the node's
part of the line is missing). -/
noncomputable def jump (lo hi : BType) (N : Int) (v : Int → ℝ) (i : Int) : ℝ :=
  if i = 0 then (if lo = .pmc then v 0 else if lo = .periodic then (v 0 - v (N - 1)) / 2 else 0)
  else if i = N then (if hi = .pmc then -v (N - 1) else if hi = .periodic then (v 0 - v (N - 1)) / 2 else 0)
  else v i - v (i - 1)

/-- Values at nodes: zero at conducting ends, equal at periodic ends. -/
structure Fits (lo hi : BType) (N : Int) (u : Int → ℝ) : Prop where
  lo0 : lo = .pec → u 0 = 0
  hi0 : hi = .pec → u N = 0
  same : lo = .periodic → u 0 = u N

/-- Types of the ends. -/
structure Types (lo hi : BType) : Prop where
  lo3 : lo = .pec ∨ lo = .pmc ∨ lo = .periodic
  hi3 : hi = .pec ∨ hi = .pmc ∨ hi = .periodic
  both : lo = .periodic ↔ hi = .periodic

theorem nodes_split {N : Int} (hN : 0 < N) (f : Int → ℝ) : ∑ i ∈ Icc 0 N, f i = f 0 + f N + ∑ i ∈ Ioo 0 N, f i := by
  have e : Icc 0 N = insert 0 (insert N (Ioo 0 N)) := by ext j; simp only [mem_Icc, mem_insert, mem_Ioo]; omega
  rw [e, sum_insert (by simp only [mem_insert, mem_Ioo]; omega), sum_insert (by simp only [mem_Ioo]; omega)]
  ring

theorem line_sbp {lo hi : BType} (ht : Types lo hi) {N : Int} (hN : 0 < N) {u : Int → ℝ} (hu : Fits lo hi N u) (v : Int → ℝ) :
    ∑ i ∈ Ico 0 N, (u (i + 1) - u i) * v i = - ∑ i ∈ Icc 0 N, u i * jump lo hi N v i := by
  have hp := C80.line_parts' u v hN
  rw [nodes_split hN]
  have e1 : ∑ i ∈ Ioo 0 N, u i * jump lo hi N v i = ∑ i ∈ Ioo 0 N, u i * (v i - v (i - 1)) :=
    sum_congr rfl fun i hi => by
      rw [mem_Ioo] at hi
      unfold jump
      rw [if_neg (by omega), if_neg (by omega)]
  have e2 : ∑ i ∈ Ico 0 N, (u (i + 1) - u i) * v i = ∑ i ∈ Ico 0 N, v i * (u (i + 1) - u i) := sum_congr rfl fun i _ => by ring
  have hne : N ≠ 0 := by omega
  rw [e1, e2]
  unfold jump
  rw [if_pos rfl, if_neg hne, if_pos rfl]
  rcases ht.lo3 with h1 | h1 | h1
  · rcases ht.hi3 with h2 | h2 | h2
    · simp only [h1, h2, reduceCtorEq, if_false, mul_zero]; rw [hu.lo0 h1, hu.hi0 h2] at hp; linarith
    · simp only [h1, h2, reduceCtorEq, if_false, if_true, mul_zero]; rw [hu.lo0 h1] at hp; linarith
    · have := ht.both.2 h2; rw [h1] at this; cases this
  · rcases ht.hi3 with h2 | h2 | h2
    · simp only [h1, h2, reduceCtorEq, if_false, if_true, mul_zero]; rw [hu.hi0 h2] at hp; linarith
    · simp only [h1, h2, reduceCtorEq, if_false, if_true, mul_zero]; linarith
    · have := ht.both.2 h2; rw [h1] at this; cases this
  · have h2 := ht.both.1 h1
    simp only [h1, h2, reduceCtorEq, if_false, if_true]
    have := hu.same h1
    rw [← this] at hp ⊢
    linarith

theorem nodes_cells {N : Int} (hN : 0 < N) (l f : Int → ℝ) : ∑ i ∈ Icc 0 N, wt N l i * f i = ∑ i ∈ Ico 0 N, l i * (f i + f (i + 1)) / 2 := by
  have a : ∑ i ∈ Icc 0 N, (if 0 < i then l (i - 1) / 2 else 0) * f i = ∑ i ∈ Ico 0 N, l i * f (i + 1) / 2 := by
    rw [show Icc 0 N = insert 0 (Icc 1 N) by ext j; simp only [mem_Icc, mem_insert]; omega, sum_insert (by simp), if_neg (by omega), zero_mul, zero_add]
    refine sum_bij' (fun i _ => i - 1) (fun i _ => i + 1) ?_ ?_ ?_ ?_ ?_
    · intro i hi; rw [mem_Icc] at hi; rw [mem_Ico]; omega
    · intro i hi; rw [mem_Ico] at hi; rw [mem_Icc]; omega
    · intro i _; ring
    · intro i _; ring
    · intro i hi
      rw [mem_Icc] at hi
      rw [if_pos (by omega), sub_add_cancel]; ring
  have b : ∑ i ∈ Icc 0 N, (if i < N then l i / 2 else 0) * f i = ∑ i ∈ Ico 0 N, l i * f i / 2 := by
    rw [show Icc 0 N = insert N (Ico 0 N) by ext j; simp only [mem_Icc, mem_Ico, mem_insert]; omega, sum_insert (by simp), if_neg (by omega), zero_mul, zero_add]
    refine sum_congr rfl fun i hi => ?_
    rw [mem_Ico] at hi
    rw [if_pos (by omega)]; ring
  unfold wt
  simp only [add_mul, sum_add_distrib]
  rw [a, b, ← sum_add_distrib]
  exact sum_congr rfl fun i _ => by ring

theorem inv_le {m a : ℝ} (hm : 0 < m) (h : m ≤ a) : 1 / a ≤ a / m ^ 2 := by
  have ha : 0 < a := by linarith
  rw [div_le_div_iff₀ ha (by positivity)]
  nlinarith

/-- Differences of values at nodes. -/
theorem grad_le {N : Int} (hN : 0 < N) {l : Int → ℝ} {m : ℝ} (hm : 0 < m) (hl : ∀ i, 0 ≤ i → i < N → m ≤ l i) (u : Int → ℝ) :
    ∑ i ∈ Ico 0 N, (u (i + 1) - u i) ^ 2 / l i ≤ 4 / m ^ 2 * ∑ i ∈ Icc 0 N, wt N l i * u i ^ 2 := by
  rw [nodes_cells hN l (fun i => u i ^ 2), mul_sum]
  refine sum_le_sum fun i hi => ?_
  rw [mem_Ico] at hi
  have h1 := inv_le hm (hl i hi.1 hi.2)
  have h2 : (u (i + 1) - u i) ^ 2 / l i = (u (i + 1) - u i) ^ 2 * (1 / l i) := by ring
  rw [h2]
  have hli : 0 < l i := lt_of_lt_of_le hm (hl i hi.1 hi.2)
  calc (u (i + 1) - u i) ^ 2 * (1 / l i) ≤ (2 * (u i ^ 2 + u (i + 1) ^ 2)) * (l i / m ^ 2) :=
        mul_le_mul (by nlinarith [sq_nonneg (u i + u (i + 1))]) h1 (by positivity) (by positivity)
    _ = _ := by ring

theorem wt_pos {N : Int} (hN : 0 < N) {l : Int → ℝ} (hl : ∀ i, 0 ≤ i → i < N → 0 < l i) {i : Int} (h0 : 0 ≤ i) (h1 : i ≤ N) : 0 < wt N l i := by
  unfold wt
  by_cases c0 : 0 < i
  · have p := hl (i - 1) (by omega) (by omega)
    rw [if_pos c0]
    by_cases c1 : i < N
    · have p' := hl i h0 c1
      rw [if_pos c1]; linarith
    · rw [if_neg c1]; linarith
  · have p := hl i h0 (by omega)
    rw [if_neg c0, if_pos (by omega)]; linarith

/-- Differences of values in cells. -/
theorem jump_le {lo hi : BType} (ht : Types lo hi) {N : Int} (hN : 0 < N) {l : Int → ℝ} {m : ℝ} (hm : 0 < m) (hl : ∀ i, 0 ≤ i → i < N → m ≤ l i)
    (hper : lo = .periodic → l 0 = l (N - 1)) (v : Int → ℝ) :
    ∑ i ∈ Icc 0 N, jump lo hi N v i ^ 2 / wt N l i ≤ 4 / m ^ 2 * ∑ i ∈ Ico 0 N, l i * v i ^ 2 := by
  rw [nodes_split hN]
  have hne : N ≠ 0 := by omega
  -- the sum over the interior nodes
  have tel : ∑ i ∈ Ioo 0 N, (l i * v i ^ 2 + l (i - 1) * v (i - 1) ^ 2) =
      2 * (∑ i ∈ Ico 0 N, l i * v i ^ 2) - l 0 * v 0 ^ 2 - l (N - 1) * v (N - 1) ^ 2 := by
    have a : ∑ i ∈ Ico 0 N, l i * v i ^ 2 = l 0 * v 0 ^ 2 + ∑ i ∈ Ioo 0 N, l i * v i ^ 2 := by
      rw [show Ico 0 N = insert 0 (Ioo 0 N) by ext j; simp only [mem_Ico, mem_Ioo, mem_insert]; omega, sum_insert (by simp)]
    have b : ∑ i ∈ Ico 0 N, l i * v i ^ 2 = l (N - 1) * v (N - 1) ^ 2 + ∑ i ∈ Ioo 0 N, l (i - 1) * v (i - 1) ^ 2 := by
      rw [show Ico 0 N = insert (N - 1) (Ico 0 (N - 1)) by ext j; simp only [mem_Ico, mem_insert]; omega, sum_insert (by simp)]
      congr 1
      refine sum_bij' (fun i _ => i + 1) (fun i _ => i - 1) ?_ ?_ ?_ ?_ ?_
      · intro i hi; rw [mem_Ico] at hi; rw [mem_Ioo]; omega
      · intro i hi; rw [mem_Ioo] at hi; rw [mem_Ico]; omega
      · intro i _; ring
      · intro i _; ring
      · intro i _; rw [add_sub_cancel_right]
    rw [sum_add_distrib]
    linarith
  have mid : ∑ i ∈ Ioo 0 N, jump lo hi N v i ^ 2 / wt N l i ≤ 2 / m ^ 2 * ∑ i ∈ Ioo 0 N, (l i * v i ^ 2 + l (i - 1) * v (i - 1) ^ 2) := by
    rw [mul_sum]
    refine sum_le_sum fun i hi => ?_
    rw [mem_Ioo] at hi
    unfold jump wt
    rw [if_neg (by omega), if_neg (by omega), if_pos hi.1, if_pos hi.2]
    have p := hl (i - 1) (by omega) (by omega)
    have q := hl i (by omega) (by omega)
    set a := l (i - 1)
    set b := l i
    have ha : 0 < a := by linarith
    have hb : 0 < b := by linarith
    rw [div_le_iff₀ (by linarith)]
    rw [div_mul_eq_mul_div, div_mul_eq_mul_div, le_div_iff₀ (by positivity)]
    have hab : m ^ 2 ≤ a * b := by nlinarith
    have k1 : (v i - v (i - 1)) ^ 2 * (a * b) ≤ (b * v i ^ 2 + a * v (i - 1) ^ 2) * (a + b) := by nlinarith [sq_nonneg (b * v i + a * v (i - 1))]
    calc (v i - v (i - 1)) ^ 2 * m ^ 2 ≤ (v i - v (i - 1)) ^ 2 * (a * b) := mul_le_mul_of_nonneg_left hab (sq_nonneg _)
      _ ≤ _ := by linarith [k1]
  have p0 := hl 0 le_rfl hN
  have pN := hl (N - 1) (by omega) (by omega)
  have w0 : wt N l 0 = l 0 / 2 := by unfold wt; rw [if_neg (by omega), if_pos hN, zero_add]
  have wN : wt N l N = l (N - 1) / 2 := by unfold wt; rw [if_pos hN, if_neg (by omega), add_zero]
  have ends : jump lo hi N v 0 ^ 2 / wt N l 0 + jump lo hi N v N ^ 2 / wt N l N ≤ 2 / m ^ 2 * (l 0 * v 0 ^ 2 + l (N - 1) * v (N - 1) ^ 2) := by
    rw [w0, wN]
    have h0 : 0 < l 0 := by linarith
    have h1 : 0 < l (N - 1) := by linarith
    have i0 := inv_le hm p0
    have iN := inv_le hm pN
    have z0 : 0 ≤ 2 / m ^ 2 * (l 0 * v 0 ^ 2) := by positivity
    have zN : 0 ≤ 2 / m ^ 2 * (l (N - 1) * v (N - 1) ^ 2) := by positivity
    have c0 : v 0 ^ 2 / (l 0 / 2) ≤ 2 / m ^ 2 * (l 0 * v 0 ^ 2) := by
      calc v 0 ^ 2 / (l 0 / 2) = 2 * v 0 ^ 2 * (1 / l 0) := by field_simp
        _ ≤ 2 * v 0 ^ 2 * (l 0 / m ^ 2) := mul_le_mul_of_nonneg_left i0 (by positivity)
        _ = _ := by ring
    have cN : (-v (N - 1)) ^ 2 / (l (N - 1) / 2) ≤ 2 / m ^ 2 * (l (N - 1) * v (N - 1) ^ 2) := by
      calc (-v (N - 1)) ^ 2 / (l (N - 1) / 2) = 2 * v (N - 1) ^ 2 * (1 / l (N - 1)) := by field_simp
        _ ≤ 2 * v (N - 1) ^ 2 * (l (N - 1) / m ^ 2) := mul_le_mul_of_nonneg_left iN (by positivity)
        _ = _ := by ring
    unfold jump
    rw [if_pos rfl, if_neg hne, if_pos rfl]
    rcases ht.lo3 with h1 | h1 | h1
    · rcases ht.hi3 with h2 | h2 | h2
      · simp only [h1, h2, reduceCtorEq, if_false, ne_eq, OfNat.ofNat_ne_zero, not_false_eq_true, zero_pow, zero_div]; linarith
      · simp only [h1, h2, reduceCtorEq, if_false, if_true, ne_eq, OfNat.ofNat_ne_zero, not_false_eq_true, zero_pow, zero_div]; linarith
      · have := ht.both.2 h2; rw [h1] at this; cases this
    · rcases ht.hi3 with h2 | h2 | h2
      · simp only [h1, h2, reduceCtorEq, if_false, if_true, ne_eq, OfNat.ofNat_ne_zero, not_false_eq_true, zero_pow, zero_div]; linarith
      · simp only [h1, h2, reduceCtorEq, if_false, if_true]; linarith
      · have := ht.both.2 h2; rw [h1] at this; cases this
    · have h2 := ht.both.1 h1
      simp only [h1, h2, reduceCtorEq, if_false, if_true]
      have e := hper h1
      rw [← e]
      calc ((v 0 - v (N - 1)) / 2) ^ 2 / (l 0 / 2) + ((v 0 - v (N - 1)) / 2) ^ 2 / (l 0 / 2) = (v 0 - v (N - 1)) ^ 2 * (1 / l 0) := by field_simp; ring
        _ ≤ (2 * (v 0 ^ 2 + v (N - 1) ^ 2)) * (l 0 / m ^ 2) := mul_le_mul (by nlinarith [sq_nonneg (v 0 + v (N - 1))]) i0 (by positivity) (by positivity)
        _ = _ := by ring
  calc _ ≤ 2 / m ^ 2 * (l 0 * v 0 ^ 2 + l (N - 1) * v (N - 1) ^ 2) + 2 / m ^ 2 * ∑ i ∈ Ioo 0 N, (l i * v i ^ 2 + l (i - 1) * v (i - 1) ^ 2) := add_le_add ends mid
    _ = _ := by rw [tel]; ring

/-! ### The mesh -/

open C81 (put)

/-- A mesh with its ends. -/
structure Lat where
  N : Axis → Int
  l : Axis → Int → ℝ
  lo : Axis → BType
  hi : Axis → BType
  pos : ∀ d, 0 < N d
  types : ∀ d, Types (lo d) (hi d)
  len : ∀ d i, 0 ≤ i → i < N d → 0 < l d i
  per : ∀ d, lo d = .periodic → l d 0 = l d (N d - 1)

/-- Ranges of edges and squares of direction `a`, and of nodes. -/
noncomputable def er (L : Lat) (a b : Axis) : Finset Int := if b = a then Ico 0 (L.N b) else Icc 0 (L.N b)
noncomputable def hr (L : Lat) (a b : Axis) : Finset Int := if b = a then Icc 0 (L.N b) else Ico 0 (L.N b)
noncomputable def nr (L : Lat) (b : Axis) : Finset Int := Icc 0 (L.N b)
noncomputable def w (L : Lat) (d : Axis) (i : Int) : ℝ := wt (L.N d) (L.l d) i
def D (d : Axis) (f : (Axis → Int) → ℝ) (q : Axis → Int) : ℝ := f (ahead q d) - f q
noncomputable def Jm (L : Lat) (d : Axis) (f : (Axis → Int) → ℝ) (q : Axis → Int) : ℝ := jump (L.lo d) (L.hi d) (L.N d) (fun m => f (put q d m)) (q d)

/-- The field fits the ends of the mesh. -/
def FitsAll (L : Lat) (E : Axis → (Axis → Int) → ℝ) : Prop :=
  ∀ a d, d ≠ a → ∀ q : Axis → Int, (∀ b, b ≠ d → q b ∈ er L a b) → Fits (L.lo d) (L.hi d) (L.N d) fun m => E a (put q d m)

theorem pt_put (d : Axis) (i j m : Int) : C80.pt d i j m = put (C80.pt d i j 0) d m := by
  funext b; unfold C80.pt put; by_cases h : b = d <;> simp [h]

theorem lines_eq (d : Axis) {r r' : Axis → Finset Int} (hr : ∀ a, a ≠ d → r a = r' a) {f g : (Axis → Int) → ℝ}
    (h : ∀ q : Axis → Int, (∀ a, a ≠ d → q a ∈ r a) → ∑ m ∈ r d, f (put q d m) = ∑ m ∈ r' d, g (put q d m)) : sumOver r f = sumOver r' g := by
  obtain ⟨n1, n2, n3, n4⟩ := C80.next_ne d
  rw [C80.over_axis _ _ d, C80.over_axis _ _ d, ← hr _ n1, ← hr _ n2]
  refine sum_congr rfl fun i hi => sum_congr rfl fun j hj => ?_
  have := h (C80.pt d i j 0) (fun a ha => by
    unfold C80.pt
    rw [if_neg ha]
    by_cases c : a = d.next
    · rw [if_pos c, c]; exact hi
    · rw [if_neg c]
      have : a = d.next.next := by cases a <;> cases d <;> simp_all [Axis.next]
      rw [this]; exact hj)
  have e := pt_put d i j
  generalize C80.pt d i j 0 = q0 at this e
  simp only [e]
  exact this

theorem lines_le (d : Axis) {r r' : Axis → Finset Int} (hr : ∀ a, a ≠ d → r a = r' a) {f g : (Axis → Int) → ℝ}
    (h : ∀ q : Axis → Int, (∀ a, a ≠ d → q a ∈ r a) → ∑ m ∈ r d, f (put q d m) ≤ ∑ m ∈ r' d, g (put q d m)) : sumOver r f ≤ sumOver r' g := by
  obtain ⟨n1, n2, n3, n4⟩ := C80.next_ne d
  rw [C80.over_axis _ _ d, C80.over_axis _ _ d, ← hr _ n1, ← hr _ n2]
  refine sum_le_sum fun i hi => sum_le_sum fun j hj => ?_
  have := h (C80.pt d i j 0) (fun a ha => by
    unfold C80.pt
    rw [if_neg ha]
    by_cases c : a = d.next
    · rw [if_pos c, c]; exact hi
    · rw [if_neg c]
      have : a = d.next.next := by cases a <;> cases d <;> simp_all [Axis.next]
      rw [this]; exact hj)
  have e := pt_put d i j
  generalize C80.pt d i j 0 = q0 at this e
  simp only [e]
  exact this

theorem put_at (q : Axis → Int) (d : Axis) (m : Int) : put q d m d = m := by unfold put; rw [if_pos rfl]
theorem put_of (q : Axis → Int) {d b : Axis} (h : b ≠ d) (m : Int) : put q d m b = q b := by unfold put; rw [if_neg h]
theorem put_put (q : Axis → Int) (d : Axis) (m n : Int) : put (put q d m) d n = put q d n := by
  funext b; unfold put; by_cases h : b = d <;> simp [h]
theorem put_self (q : Axis → Int) (d : Axis) : put q d (q d) = q := by
  funext b; unfold put; by_cases h : b = d <;> simp [h]
theorem put_comm (q : Axis → Int) {d e : Axis} (h : d ≠ e) (m n : Int) : put (put q d m) e n = put (put q e n) d m := by
  funext b; unfold put; by_cases h1 : b = d <;> by_cases h2 : b = e <;> simp_all
theorem ahead_put (q : Axis → Int) (d : Axis) (m : Int) : ahead (put q d m) d = put q d (m + 1) := by
  funext b; unfold ahead put; by_cases h : b = d <;> simp [h]
theorem ahead_eq (q : Axis → Int) (d : Axis) : ahead q d = put q d (q d + 1) := by
  conv_lhs => rw [← put_self q d]
  rw [ahead_put]
theorem ahead_put' (q : Axis → Int) {d e : Axis} (h : d ≠ e) (m : Int) : ahead (put q d m) e = put (ahead q e) d m := by
  rw [ahead_eq, ahead_eq, put_of _ h.symm, put_comm _ h]

theorem jump_lin (lo hi : BType) (N : Int) (c : ℝ) (v v' : Int → ℝ) (i : Int) :
    jump lo hi N (fun m => c * (v m - v' m)) i = c * (jump lo hi N v i - jump lo hi N v' i) := by
  unfold jump; split_ifs <;> ring

/-- Differences along one axis fit the ends of another one. -/
theorem jump_fits {lo hi lo' hi' : BType} {N N' : Int} (hN : 0 < N) {g : Int → Int → ℝ} (hg : ∀ j, 0 ≤ j → j < N → Fits lo' hi' N' fun m => g m j)
    {i : Int} (h0 : 0 ≤ i) (h1 : i ≤ N) : Fits lo' hi' N' fun m => jump lo hi N (g m) i := by
  have key : ∀ a b, (∀ j, 0 ≤ j → j < N → g a j = g b j) → jump lo hi N (g a) i = jump lo hi N (g b) i := by
    intro a b h
    unfold jump
    have e0 := h 0 le_rfl hN
    have eN := h (N - 1) (by omega) (by omega)
    by_cases c0 : i = 0
    · simp only [if_pos c0, e0, eN]
    · by_cases cN : i = N
      · simp only [if_neg c0, if_pos cN, e0, eN]
      · simp only [if_neg c0, if_neg cN]
        rw [h i (by omega) (by omega), h (i - 1) (by omega) (by omega)]
  have zero : ∀ a, (∀ j, 0 ≤ j → j < N → g a j = 0) → jump lo hi N (g a) i = 0 := by
    intro a h
    unfold jump
    have e0 := h 0 le_rfl hN
    have eN := h (N - 1) (by omega) (by omega)
    by_cases c0 : i = 0
    · simp only [if_pos c0, e0, eN]; split_ifs <;> simp
    · by_cases cN : i = N
      · simp only [if_neg c0, if_pos cN, e0, eN]; split_ifs <;> simp
      · simp only [if_neg c0, if_neg cN]
        rw [h i (by omega) (by omega), h (i - 1) (by omega) (by omega), sub_zero]
  exact ⟨fun h => zero 0 fun j a b => (hg j a b).lo0 h, fun h => zero N' fun j a b => (hg j a b).hi0 h, fun h => key 0 N' fun j a b => (hg j a b).same h⟩

/-- Mixed differences. `F`: edges along `c`, `G`: edges along `b`; `W` depends on the third axis only. -/
theorem cross (L : Lat) {a b c : Axis} (hab : a ≠ b) (hbc : b ≠ c) (hac : a ≠ c) {F G : (Axis → Int) → ℝ} {W : Int → ℝ}
    (hF : ∀ q : Axis → Int, (∀ e, e ≠ b → q e ∈ er L c e) → Fits (L.lo b) (L.hi b) (L.N b) fun m => F (put q b m))
    (hG : ∀ q : Axis → Int, (∀ e, e ≠ c → q e ∈ er L b e) → Fits (L.lo c) (L.hi c) (L.N c) fun m => G (put q c m)) :
    sumOver (hr L a) (fun q => W (q a) * (D b F q * D c G q)) = sumOver (nr L) (fun q => W (q a) * (Jm L b G q * Jm L c F q)) := by
  have only : ∀ e : Axis, e = a ∨ e = b ∨ e = c := by intro e; cases a <;> cases b <;> cases c <;> cases e <;> simp_all
  calc _ = sumOver (er L c) (fun q => - (F q * (W (q a) * (Jm L b G (ahead q c) - Jm L b G q)))) := by
        refine lines_eq b (fun e he => ?_) fun q hq => ?_
        · unfold hr er; rcases only e with rfl | rfl | rfl
          · rw [if_pos rfl, if_neg hac]
          · exact absurd rfl he
          · rw [if_neg hac.symm, if_pos rfl]
        · have r1 : hr L a b = Ico 0 (L.N b) := if_neg hab.symm
          have r2 : er L c b = Icc 0 (L.N b) := if_neg hbc
          rw [r1, r2]
          have hF' := hF q (fun e he => by
            have := hq e he
            unfold hr at this; unfold er
            rcases only e with rfl | rfl | rfl
            · rw [if_pos rfl] at this; rw [if_neg hac]; exact this
            · exact absurd rfl he
            · rw [if_neg hac.symm] at this; rw [if_pos rfl]; exact this)
          have sb := line_sbp (L.types b) (L.pos b) hF' (fun m => W (q a) * (G (put (ahead q c) b m) - G (put q b m)))
          rw [← sum_neg_distrib] at sb
          calc _ = ∑ i ∈ Ico 0 (L.N b), (F (put q b (i + 1)) - F (put q b i)) * (W (q a) * (G (put (ahead q c) b i) - G (put q b i))) := by
                refine sum_congr rfl fun m _ => ?_
                unfold D
                rw [put_of _ hab, ahead_put, ahead_put' _ hbc]; ring
            _ = _ := sb
            _ = _ := by
                refine sum_congr rfl fun m _ => ?_
                rw [jump_lin]
                unfold Jm
                rw [ahead_put' _ hbc, put_at, put_at, put_of _ hab]
                simp only [put_put]
    _ = sumOver (nr L) (fun q => W (q a) * (Jm L b G q * Jm L c F q)) := by
        refine lines_eq c (fun e he => ?_) fun q hq => ?_
        · unfold er nr; rw [if_neg he]
        · have r1 : er L c c = Ico 0 (L.N c) := if_pos rfl
          rw [r1]
          show _ = ∑ m ∈ Icc 0 (L.N c), _
          have qb := hq b hbc
          unfold er at qb; rw [if_neg hbc, mem_Icc] at qb
          have fit : Fits (L.lo c) (L.hi c) (L.N c) fun m => Jm L b G (put q c m) := by
            unfold Jm
            have e : ∀ m, put q c m b = q b := fun m => put_of _ hbc m
            simp only [e]
            refine jump_fits (L.pos b) (g := fun m n => G (put (put q c m) b n)) (fun j j0 j1 => ?_) qb.1 qb.2
            have := hG (put q b j) (fun e he => by
              unfold er
              by_cases h : e = b
              · rw [if_pos h, h, put_at, mem_Ico]; exact ⟨j0, j1⟩
              · rw [if_neg h, put_of _ h]
                have := hq e he
                unfold er at this; rwa [if_neg he] at this)
            simp only [put_comm q hbc.symm]
            exact this
          have sb := line_sbp (L.types c) (L.pos c) fit (fun m => W (q a) * (F (put q c m) - 0))
          have e1 : ∑ m ∈ Ico 0 (L.N c), -(F (put q c m) * (W (put q c m a) * (Jm L b G (ahead (put q c m) c) - Jm L b G (put q c m)))) =
              - ∑ m ∈ Ico 0 (L.N c), (Jm L b G (put q c (m + 1)) - Jm L b G (put q c m)) * (W (q a) * (F (put q c m) - 0)) := by
            rw [← sum_neg_distrib]
            refine sum_congr rfl fun m _ => ?_
            rw [ahead_put, put_of _ hac]; ring
          rw [e1, sb, neg_neg]
          refine sum_congr rfl fun m _ => ?_
          have z : jump (L.lo c) (L.hi c) (L.N c) (fun _ => (0 : ℝ)) m = 0 := by unfold jump; split_ifs <;> simp
          rw [jump_lin _ _ _ _ (fun m => F (put q c m)) (fun _ => 0), z, sub_zero, put_of _ hac]
          have jF : Jm L c F (put q c m) = jump (L.lo c) (L.hi c) (L.N c) (fun n => F (put q c n)) m := by unfold Jm; simp only [put_put, put_at]
          rw [jF]; ring

/-! ### The curl and its bound -/

noncomputable def curl (L : Lat) (E : Axis → (Axis → Int) → ℝ) (a : Axis) (q : Axis → Int) : ℝ :=
  D a.next (E a.next.next) q / L.l a.next (q a.next) - D a.next.next (E a.next) q / L.l a.next.next (q a.next.next)

/-- Shares of the volume. -/
noncomputable def eShare (L : Lat) (a : Axis) (q : Axis → Int) : ℝ := L.l a (q a) * (w L a.next (q a.next) * w L a.next.next (q a.next.next))
noncomputable def hShare (L : Lat) (a : Axis) (q : Axis → Int) : ℝ := w L a (q a) * (L.l a.next (q a.next) * L.l a.next.next (q a.next.next))

theorem w_pos (L : Lat) (d : Axis) {i : Int} (h : i ∈ Icc 0 (L.N d)) : 0 < w L d i := by
  rw [mem_Icc] at h; exact wt_pos (L.pos d) (L.len d) h.1 h.2
theorem l_pos (L : Lat) (d : Axis) {i : Int} (h : i ∈ Ico 0 (L.N d)) : 0 < L.l d i := by
  rw [mem_Ico] at h; exact L.len d i h.1 h.2

theorem er_self (L : Lat) (a : Axis) : er L a a = Ico 0 (L.N a) := if_pos rfl
theorem er_ne (L : Lat) {a b : Axis} (h : b ≠ a) : er L a b = Icc 0 (L.N b) := if_neg h
theorem hr_self (L : Lat) (a : Axis) : hr L a a = Icc 0 (L.N a) := if_pos rfl
theorem hr_ne (L : Lat) {a b : Axis} (h : b ≠ a) : hr L a b = Ico 0 (L.N b) := if_neg h

variable {L : Lat} {m : Axis → ℝ}

/-- Differences of the component along `c` in the direction `d`. -/
theorem diff_le (hm : ∀ d, 0 < m d) (hl : ∀ d i, 0 ≤ i → i < L.N d → m d ≤ L.l d i) {t d c : Axis} (htd : t ≠ d) (hdc : d ≠ c) (htc : t ≠ c) (F : (Axis → Int) → ℝ) :
    sumOver (hr L t) (fun q => (w L t (q t) * L.l c (q c)) * (D d F q ^ 2 / L.l d (q d))) ≤
      4 / m d ^ 2 * sumOver (er L c) (fun q => (w L t (q t) * L.l c (q c)) * (w L d (q d) * F q ^ 2)) := by
  rw [← C80.over_smul]
  have only : ∀ e : Axis, e = t ∨ e = d ∨ e = c := by intro e; cases t <;> cases d <;> cases c <;> cases e <;> simp_all
  refine lines_le d (fun e he => ?_) fun q hq => ?_
  · rcases only e with rfl | rfl | rfl
    · rw [hr_self, er_ne L htc]
    · exact absurd rfl he
    · rw [hr_ne L htc.symm, er_self]
  · rw [hr_ne L htd.symm, er_ne L hdc]
    have h1 := hq t htd
    have h2 := hq c hdc.symm
    rw [hr_self] at h1
    rw [hr_ne L htc.symm] at h2
    have pw := (w_pos L t h1).le
    have pl := (l_pos L c h2).le
    have g := grad_le (L.pos d) (hm d) (hl d) (fun n => F (put q d n))
    have e1 : ∀ n, (w L t (put q d n t) * L.l c (put q d n c)) * (D d F (put q d n) ^ 2 / L.l d (put q d n d)) =
        (w L t (q t) * L.l c (q c)) * ((F (put q d (n + 1)) - F (put q d n)) ^ 2 / L.l d n) := by
      intro n; unfold D; rw [ahead_put, put_at, put_of _ htd, put_of _ hdc.symm]
    have e2 : ∀ n, 4 / m d ^ 2 * ((w L t (put q d n t) * L.l c (put q d n c)) * (w L d (put q d n d) * F (put q d n) ^ 2)) =
        (w L t (q t) * L.l c (q c)) * (4 / m d ^ 2 * (wt (L.N d) (L.l d) n * F (put q d n) ^ 2)) := by
      intro n; rw [put_at, put_of _ htd, put_of _ hdc.symm]; unfold w; ring
    simp only [e1, e2]
    rw [← mul_sum, ← mul_sum, ← mul_sum]
    exact mul_le_mul_of_nonneg_left g (mul_nonneg pw pl)

/-- Differences of the component along `a` in its own direction. -/
theorem own_le (hm : ∀ d, 0 < m d) (hl : ∀ d i, 0 ≤ i → i < L.N d → m d ≤ L.l d i) {a b c : Axis} (hab : a ≠ b) (hbc : b ≠ c) (hac : a ≠ c) (F : (Axis → Int) → ℝ) :
    sumOver (nr L) (fun q => (w L b (q b) * w L c (q c)) * (Jm L a F q ^ 2 / w L a (q a))) ≤
      4 / m a ^ 2 * sumOver (er L a) (fun q => (w L b (q b) * w L c (q c)) * (L.l a (q a) * F q ^ 2)) := by
  rw [← C80.over_smul]
  refine lines_le a (fun e he => by rw [er_ne L he]; rfl) fun q hq => ?_
  rw [er_self]
  show ∑ n ∈ Icc 0 (L.N a), _ ≤ _
  have pb := (w_pos L b (hq b hab.symm)).le
  have pc := (w_pos L c (hq c hac.symm)).le
  have g := jump_le (L.types a) (L.pos a) (hm a) (hl a) (L.per a) (fun n => F (put q a n))
  have e1 : ∀ n, (w L b (put q a n b) * w L c (put q a n c)) * (Jm L a F (put q a n) ^ 2 / w L a (put q a n a)) =
      (w L b (q b) * w L c (q c)) * (jump (L.lo a) (L.hi a) (L.N a) (fun n => F (put q a n)) n ^ 2 / wt (L.N a) (L.l a) n) := by
    intro n; unfold Jm; rw [put_at, put_of _ hab.symm, put_of _ hac.symm]; simp only [put_put]; rfl
  have e2 : ∀ n, 4 / m a ^ 2 * ((w L b (put q a n b) * w L c (put q a n c)) * (L.l a (put q a n a) * F (put q a n) ^ 2)) =
      (w L b (q b) * w L c (q c)) * (4 / m a ^ 2 * (L.l a n * F (put q a n) ^ 2)) := by
    intro n; rw [put_at, put_of _ hab.symm, put_of _ hac.symm]; ring
  simp only [e1, e2]
  rw [← mul_sum, ← mul_sum, ← mul_sum]
  exact mul_le_mul_of_nonneg_left g (mul_nonneg pb pc)

/-- One component of the square of the curl. -/
theorem curl_sq {E : Axis → (Axis → Int) → ℝ} (hE : FitsAll L E) (a : Axis) :
    sumOver (hr L a) (fun q => hShare L a q * curl L E a q ^ 2) =
      sumOver (hr L a) (fun q => (w L a (q a) * L.l a.next.next (q a.next.next)) * (D a.next (E a.next.next) q ^ 2 / L.l a.next (q a.next))) +
      sumOver (hr L a) (fun q => (w L a (q a) * L.l a.next (q a.next)) * (D a.next.next (E a.next) q ^ 2 / L.l a.next.next (q a.next.next))) -
      2 * sumOver (nr L) (fun q => w L a (q a) * (Jm L a.next (E a.next) q * Jm L a.next.next (E a.next.next) q)) := by
  obtain ⟨n1, n2, n3, n4⟩ := C80.next_ne a
  have cr := cross L (a := a) (b := a.next) (c := a.next.next) n1.symm n3.symm n2.symm (F := E a.next.next) (G := E a.next) (W := w L a)
    (fun q hq => hE _ _ n3.symm q hq) (fun q hq => hE _ _ n3 q hq)
  rw [← cr, ← C80.over_smul, ← C80.over_add, ← C80.over_sub]
  refine C80.over_congr fun q hq => ?_
  have h1 := hq a.next
  have h2 := hq a.next.next
  rw [hr_ne L n1] at h1
  rw [hr_ne L n2] at h2
  have p1 := (l_pos L _ h1).ne'
  have p2 := (l_pos L _ h2).ne'
  unfold hShare curl
  field_simp
  ring

/-- The curl is bounded by the shortest cells. -/
theorem curl_bound (hm : ∀ d, 0 < m d) (hl : ∀ d i, 0 ≤ i → i < L.N d → m d ≤ L.l d i) {E : Axis → (Axis → Int) → ℝ} (hE : FitsAll L E) :
    sumOver (hr L .x) (fun q => hShare L .x q * curl L E .x q ^ 2) + sumOver (hr L .y) (fun q => hShare L .y q * curl L E .y q ^ 2) +
      sumOver (hr L .z) (fun q => hShare L .z q * curl L E .z q ^ 2) ≤
    4 * (1 / m .x ^ 2 + 1 / m .y ^ 2 + 1 / m .z ^ 2) * (sumOver (er L .x) (fun q => eShare L .x q * E .x q ^ 2) +
      sumOver (er L .y) (fun q => eShare L .y q * E .y q ^ 2) + sumOver (er L .z) (fun q => eShare L .z q * E .z q ^ 2)) := by
  have sx := curl_sq hE .x
  have sy := curl_sq hE .y
  have sz := curl_sq hE .z
  simp only [Axis.next] at sx sy sz
  rw [sx, sy, sz]
  have dv : 0 ≤ sumOver (nr L) (fun q => w L .x (q .x) * w L .y (q .y) * w L .z (q .z) * (Jm L .x (E .x) q / w L .x (q .x) + Jm L .y (E .y) q / w L .y (q .y) + Jm L .z (E .z) q / w L .z (q .z)) ^ 2) := by
    unfold sumOver
    refine sum_nonneg fun i hi => sum_nonneg fun j hj => sum_nonneg fun n hn => ?_
    have a1 := (w_pos L .x hi).le
    have a2 := (w_pos L .y hj).le
    have a3 := (w_pos L .z hn).le
    exact mul_nonneg (mul_nonneg (mul_nonneg a1 a2) a3) (sq_nonneg _)
  have ex : sumOver (nr L) (fun q => w L .x (q .x) * w L .y (q .y) * w L .z (q .z) * (Jm L .x (E .x) q / w L .x (q .x) + Jm L .y (E .y) q / w L .y (q .y) + Jm L .z (E .z) q / w L .z (q .z)) ^ 2) =
      sumOver (nr L) (fun q => (w L .y (q .y) * w L .z (q .z)) * (Jm L .x (E .x) q ^ 2 / w L .x (q .x))) +
      sumOver (nr L) (fun q => (w L .z (q .z) * w L .x (q .x)) * (Jm L .y (E .y) q ^ 2 / w L .y (q .y))) +
      sumOver (nr L) (fun q => (w L .x (q .x) * w L .y (q .y)) * (Jm L .z (E .z) q ^ 2 / w L .z (q .z))) +
      2 * (sumOver (nr L) (fun q => w L .x (q .x) * (Jm L .y (E .y) q * Jm L .z (E .z) q)) +
        sumOver (nr L) (fun q => w L .y (q .y) * (Jm L .z (E .z) q * Jm L .x (E .x) q)) +
        sumOver (nr L) (fun q => w L .z (q .z) * (Jm L .x (E .x) q * Jm L .y (E .y) q))) := by
    rw [← C80.over_add, ← C80.over_add, ← C80.over_add, ← C80.over_add, ← C80.over_smul, ← C80.over_add]
    refine C80.over_congr fun q hq => ?_
    have a1 := (w_pos L .x (hq .x)).ne'
    have a2 := (w_pos L .y (hq .y)).ne'
    have a3 := (w_pos L .z (hq .z)).ne'
    field_simp
    ring
  have nx : (Axis.x ≠ .y) ∧ (Axis.y ≠ .z) ∧ (Axis.x ≠ .z) := by decide
  obtain ⟨xy, yz, xz⟩ := nx
  have q1 := own_le hm hl xy yz xz (E .x)
  have q2 := own_le hm hl yz xz.symm xy.symm (E .y)
  have q3 := own_le hm hl xz.symm xy yz.symm (E .z)
  have t1 := diff_le hm hl xy yz xz (E .z)
  have t2 := diff_le hm hl xz yz.symm xy (E .y)
  have t3 := diff_le hm hl yz xz.symm xy.symm (E .x)
  have t4 := diff_le hm hl xy.symm xz yz (E .z)
  have t5 := diff_le hm hl xz.symm xy yz.symm (E .y)
  have t6 := diff_le hm hl yz.symm xy.symm xz.symm (E .x)
  set Ix := sumOver (er L .x) (fun q => eShare L .x q * E .x q ^ 2) with hIx
  set Iy := sumOver (er L .y) (fun q => eShare L .y q * E .y q ^ 2) with hIy
  set Iz := sumOver (er L .z) (fun q => eShare L .z q * E .z q ^ 2) with hIz
  have f1 : sumOver (er L .x) (fun q => (w L .y (q .y) * w L .z (q .z)) * (L.l .x (q .x) * E .x q ^ 2)) = Ix := C80.over_congr fun q _ => by unfold eShare; simp only [Axis.next]; ring
  have f2 : sumOver (er L .y) (fun q => (w L .z (q .z) * w L .x (q .x)) * (L.l .y (q .y) * E .y q ^ 2)) = Iy := C80.over_congr fun q _ => by unfold eShare; simp only [Axis.next]; ring
  have f3 : sumOver (er L .z) (fun q => (w L .x (q .x) * w L .y (q .y)) * (L.l .z (q .z) * E .z q ^ 2)) = Iz := C80.over_congr fun q _ => by unfold eShare; simp only [Axis.next]; ring
  have g1 : sumOver (er L .z) (fun q => (w L .x (q .x) * L.l .z (q .z)) * (w L .y (q .y) * E .z q ^ 2)) = Iz := C80.over_congr fun q _ => by unfold eShare; simp only [Axis.next]; ring
  have g2 : sumOver (er L .y) (fun q => (w L .x (q .x) * L.l .y (q .y)) * (w L .z (q .z) * E .y q ^ 2)) = Iy := C80.over_congr fun q _ => by unfold eShare; simp only [Axis.next]; ring
  have g3 : sumOver (er L .x) (fun q => (w L .y (q .y) * L.l .x (q .x)) * (w L .z (q .z) * E .x q ^ 2)) = Ix := C80.over_congr fun q _ => by unfold eShare; simp only [Axis.next]; ring
  have g4 : sumOver (er L .z) (fun q => (w L .y (q .y) * L.l .z (q .z)) * (w L .x (q .x) * E .z q ^ 2)) = Iz := C80.over_congr fun q _ => by unfold eShare; simp only [Axis.next]; ring
  have g5 : sumOver (er L .y) (fun q => (w L .z (q .z) * L.l .y (q .y)) * (w L .x (q .x) * E .y q ^ 2)) = Iy := C80.over_congr fun q _ => by unfold eShare; simp only [Axis.next]; ring
  have g6 : sumOver (er L .x) (fun q => (w L .z (q .z) * L.l .x (q .x)) * (w L .y (q .y) * E .x q ^ 2)) = Ix := C80.over_congr fun q _ => by unfold eShare; simp only [Axis.next]; ring
  rw [f1] at q1; rw [f2] at q2; rw [f3] at q3
  rw [g1] at t1; rw [g2] at t2; rw [g3] at t3; rw [g4] at t4; rw [g5] at t5; rw [g6] at t6
  have tot : 4 * (1 / m .x ^ 2 + 1 / m .y ^ 2 + 1 / m .z ^ 2) * (Ix + Iy + Iz) =
      (4 / m .x ^ 2 * Ix + 4 / m .y ^ 2 * Ix + 4 / m .z ^ 2 * Ix) + (4 / m .x ^ 2 * Iy + 4 / m .y ^ 2 * Iy + 4 / m .z ^ 2 * Iy) +
      (4 / m .x ^ 2 * Iz + 4 / m .y ^ 2 * Iz + 4 / m .z ^ 2 * Iz) := by ring
  rw [tot]
  linarith

/-- Summation by parts in the mesh: an edge component and a square component, along `d`; `W` does not change along `d`. -/
theorem mesh_parts {d c t : Axis} (hdc : d ≠ c) (htd : t ≠ d) (htc : t ≠ c) {F : (Axis → Int) → ℝ} (H : (Axis → Int) → ℝ) {W : (Axis → Int) → ℝ}
    (hF : ∀ q : Axis → Int, (∀ e, e ≠ d → q e ∈ er L c e) → Fits (L.lo d) (L.hi d) (L.N d) fun m => F (put q d m))
    (hW : ∀ q m, W (put q d m) = W q) :
    sumOver (hr L t) (fun q => W q * (H q * D d F q)) = - sumOver (er L c) (fun q => W q * (F q * Jm L d H q)) := by
  have only : ∀ e : Axis, e = t ∨ e = d ∨ e = c := by intro e; cases t <;> cases d <;> cases c <;> cases e <;> simp_all
  have hrng : ∀ e, e ≠ d → hr L t e = er L c e := by
    intro e he
    rcases only e with rfl | rfl | rfl
    · rw [hr_self, er_ne L htc]
    · exact absurd rfl he
    · rw [hr_ne L htc.symm, er_self]
  have : sumOver (er L c) (fun q => -(W q * (F q * Jm L d H q))) = - sumOver (er L c) (fun q => W q * (F q * Jm L d H q)) := by
    have := C80.over_smul (er L c) (-1) (fun q => W q * (F q * Jm L d H q))
    simp only [neg_one_mul] at this; exact this
  rw [← this]
  refine lines_eq d hrng fun q hq => ?_
  rw [hr_ne L htd.symm, er_ne L hdc]
  have sb := line_sbp (L.types d) (L.pos d) (hF q (fun e he => by rw [← hrng e he]; exact hq e he)) (fun n => H (put q d n))
  rw [sum_neg_distrib]
  have e1 : ∀ n, W (put q d n) * (H (put q d n) * D d F (put q d n)) = W q * ((F (put q d (n + 1)) - F (put q d n)) * H (put q d n)) := by
    intro n; unfold D; rw [ahead_put, hW]; ring
  have e2 : ∀ n, W (put q d n) * (F (put q d n) * Jm L d H (put q d n)) = W q * (F (put q d n) * jump (L.lo d) (L.hi d) (L.N d) (fun n => H (put q d n)) n) := by
    intro n; unfold Jm; rw [hW, put_at]; simp only [put_put]
  simp only [e1, e2]
  rw [← mul_sum, ← mul_sum, sb, mul_neg]

end Vulture.Sealed
