import Verif.Model.ArrayAlloc
import Verif.Spec.RowMajor
import Mathlib.Tactic.Ring
import Mathlib.Tactic.Linarith
/-
C37. Array allocation.
-/
namespace Vulture.C37
open Vulture Alloc Spec

/-! ### The pointer table -/

theorem fillLayer_ptrs (P step : Nat) (n : Nat) : ∀ s : St,
    (fillLayer P step n s).cur = s.cur + P * n ∧ (fillLayer P step n s).dest = s.dest + step * n := by
  induction n with
  | zero => intro s; simp [fillLayer]
  | succ n ih =>
    intro s
    obtain ⟨h1, h2⟩ := ih ⟨fun a => if a = s.cur then s.dest else s.mem a, s.cur + P, s.dest + step⟩
    refine ⟨?_, ?_⟩
    · rw [fillLayer, h1]; ring
    · rw [fillLayer, h2]; ring

/-- Memory below the current pointer is not written. -/
theorem fillLayer_below (P step : Nat) (n : Nat) : ∀ (s : St) (a : Nat), a < s.cur → (fillLayer P step n s).mem a = s.mem a := by
  induction n with
  | zero => intro s a _; rfl
  | succ n ih =>
    intro s a h
    rw [fillLayer, ih _ a (by simp only; omega)]
    simp only
    rw [if_neg (by omega)]

/-- Nor memory at or beyond the end of the layer's pointers. -/
theorem fillLayer_above {P : Nat} (hP : 0 < P) (step : Nat) (n : Nat) : ∀ (s : St) (a : Nat), s.cur + P * n ≤ a →
    (fillLayer P step n s).mem a = s.mem a := by
  induction n with
  | zero => intro s a _; rfl
  | succ n ih =>
    intro s a h
    rw [fillLayer, ih _ a (by simp only; nlinarith)]
    simp only
    rw [if_neg (by nlinarith)]

theorem fillLayer_value {P : Nat} (hP : 0 < P) (step : Nat) (n : Nat) : ∀ (s : St) (j : Nat), j < n →
    (fillLayer P step n s).mem (s.cur + P * j) = s.dest + step * j := by
  induction n with
  | zero => intro s j h; omega
  | succ n ih =>
    intro s j h
    rw [fillLayer]
    cases j with
    | zero =>
      rw [fillLayer_below P step n _ _ (by simp only; omega)]
      simp
    | succ j =>
      have := ih ⟨fun a => if a = s.cur then s.dest else s.mem a, s.cur + P, s.dest + step⟩ j (by omega)
      simp only at this
      rw [show s.cur + P * (j + 1) = s.cur + P + P * j by ring, this]; ring

theorem fill_below (P size : Nat) : ∀ (es : List Nat) (L : Nat) (s : St) (a : Nat), a < s.cur →
    (fill P size es L s).mem a = s.mem a
  | [], _, _, _, _ => rfl
  | [e], L, s, a, h => fillLayer_below P (e * size) L s a h
  | e :: e' :: es, L, s, a, h => by
    rw [fill, fill_below P size (e' :: es) (L * e) _ a, fillLayer_below P (e * P) L s a h]
    rw [(fillLayer_ptrs P (e * P) L s).1]
    omega

/-- Writes stay inside the pointer table. -/
theorem fill_above {P : Nat} (hP : 0 < P) (size : Nat) : ∀ (es : List Nat) (L : Nat) (s : St) (a : Nat),
    s.cur + P * inNodes es L ≤ a → (fill P size es L s).mem a = s.mem a
  | [], _, _, _, _ => rfl
  | [e], L, s, a, h => fillLayer_above hP (e * size) L s a (by simpa [inNodes] using h)
  | e :: e' :: es, L, s, a, h => by
    have hn : inNodes (e :: e' :: es) L = L + inNodes (e' :: es) (L * e) := rfl
    rw [hn] at h
    rw [fill, fill_above hP size (e' :: es) (L * e) _ a, fillLayer_above hP (e * P) L s a]
    · nlinarith [Nat.zero_le (P * inNodes (e' :: es) (L * e))]
    · rw [(fillLayer_ptrs P (e * P) L s).1]; nlinarith

/-- Row-major position continued from a position in the layer above. -/
def posFrom : Nat → List Nat → List Nat → Nat
  | j, i :: is, e :: es => posFrom (j * e + i) is es
  | j, _, _ => j

theorem access_fill {P : Nat} (hP : 0 < P) (size : Nat) : ∀ (es : List Nat) (is : List Nat) (L : Nat) (s : St) (j : Nat),
    es ≠ [] → Indices is es → j < L → s.dest = s.cur + P * L →
    access P size (fill P size es L s).mem is ((fill P size es L s).mem (s.cur + P * j)) =
      s.cur + P * inNodes es L + size * posFrom j is es
  | [], _, _, _, _, h, _, _, _ => absurd rfl h
  | [e], [i], L, s, j, _, _, hj, hd => by
    rw [fill, fillLayer_value hP _ _ s j hj]
    simp only [access, inNodes, posFrom, hd]
    ring
  | [e], [], _, _, _, _, hi, _, _ => by simp [Indices] at hi
  | [e], _ :: _ :: _, _, _, _, _, hi, _, _ => by simp [Indices] at hi
  | e :: e' :: es, [], _, _, _, _, hi, _, _ => by simp [Indices] at hi
  | e :: e' :: es, [_], _, _, _, _, hi, _, _ => by simp [Indices] at hi
  | e :: e' :: es, i :: i' :: is, L, s, j, _, hi, hj, hd => by
    obtain ⟨h1, h2⟩ := hi
    have hp := fillLayer_ptrs P (e * P) L s
    have hlt : s.cur + P * j < (fillLayer P (e * P) L s).cur := by rw [hp.1]; nlinarith
    rw [fill, fill_below P size _ _ _ _ hlt, fillLayer_value hP _ _ s j hj]
    have ih := access_fill hP size (e' :: es) (i' :: is) (L * e) (fillLayer P (e * P) L s) (j * e + i) (by simp) h2
      (by nlinarith) (by rw [hp.1, hp.2, hd]; ring)
    have hn : inNodes (e :: e' :: es) L = L + inNodes (e' :: es) (L * e) := rfl
    rw [hp.1] at ih
    rw [access, hn]
    rw [show s.dest + e * P * j + P * i = s.cur + P * L + P * (j * e + i) by rw [hd]; ring]
    rw [ih]
    simp only [posFrom]
    ring

/-! ### Positions -/

theorem posFrom_eq : ∀ (es is : List Nat) (j : Nat), Indices is es →
    posFrom j is es = j * es.foldr (· * ·) 1 + rowMajor is es
  | [], [], j, _ => by simp [posFrom, rowMajor]
  | [], _ :: _, _, h => by simp [Indices] at h
  | _ :: _, [], _, h => by simp [Indices] at h
  | e :: es, i :: is, j, h => by
    rw [posFrom, posFrom_eq es is _ h.2, rowMajor, List.foldr_cons]
    ring

theorem rowMajor_lt : ∀ (es is : List Nat), Indices is es → rowMajor is es < es.foldr (· * ·) 1
  | [], [], _ => by simp [rowMajor]
  | [], _ :: _, h => by simp [Indices] at h
  | _ :: _, [], h => by simp [Indices] at h
  | e :: es, i :: is, h => by
    have ih := rowMajor_lt es is h.2
    rw [rowMajor, List.foldr_cons]
    have h1 := h.1
    nlinarith

theorem rowMajor_inj : ∀ (es is is' : List Nat), Indices is es → Indices is' es → rowMajor is es = rowMajor is' es → is = is'
  | [], [], [], _, _, _ => rfl
  | [], _ :: _, _, h, _, _ => by simp [Indices] at h
  | [], [], _ :: _, _, h, _ => by simp [Indices] at h
  | _ :: _, [], _, h, _, _ => by simp [Indices] at h
  | _ :: _, _ :: _, [], _, h, _ => by simp [Indices] at h
  | e :: es, i :: is, i' :: is', h, h', he => by
    rw [rowMajor, rowMajor] at he
    have a := rowMajor_lt es is h.2
    have b := rowMajor_lt es is' h'.2
    generalize hM : es.foldr (· * ·) 1 = M at *
    have hpos : 0 < M := by omega
    have hii : i = i' := by
      have e1 : (i * M + rowMajor is es) / M = i := by
        rw [Nat.mul_comm, Nat.mul_add_div hpos, Nat.div_eq_of_lt a, Nat.add_zero]
      have e2 : (i' * M + rowMajor is' es) / M = i' := by
        rw [Nat.mul_comm, Nat.mul_add_div hpos, Nat.div_eq_of_lt b, Nat.add_zero]
      rw [← e1, ← e2, he]
    subst hii
    rw [rowMajor_inj es is is' h.2 h'.2 (by omega)]

theorem lastLength_eq : ∀ (es : List Nat) (L : Nat), lastLength es L = L * es.foldr (· * ·) 1
  | [], L => by simp [lastLength]
  | e :: es, L => by rw [lastLength, lastLength_eq es, List.foldr_cons]; ring

/-! ### The array -/

section
variable {P : Nat} (hP : 0 < P) (size base : Nat) (mem : Nat → Nat) (e0 : Nat) (es : List Nat)
include hP

/-- Address of an element: the element of the corresponding static array, after the pointer table. -/
theorem element_address {i : Nat} {is : List Nat} (h : Indices (i :: is) (e0 :: es)) :
    access P size (allocArray P size base mem e0 es) (i :: is) base =
      base + P * inNodes es e0 + size * rowMajor (i :: is) (e0 :: es) := by
  obtain ⟨h0, h1⟩ := h
  cases es with
  | nil =>
    cases is with
    | nil => simp [access, inNodes, rowMajor]
    | cons _ _ => simp [Indices] at h1
  | cons e es =>
    cases is with
    | nil => simp [Indices] at h1
    | cons i' is =>
      have := access_fill hP size (e :: es) (i' :: is) e0 ⟨mem, base, base + P * e0⟩ i (by simp) h1 h0 rfl
      rw [posFrom_eq _ _ _ h1] at this
      rw [access]
      exact this

/-- Different indices, different elements: their bytes do not overlap. -/
theorem elements_disjoint {i i' : Nat} {is is' : List Nat} (h : Indices (i :: is) (e0 :: es))
    (h' : Indices (i' :: is') (e0 :: es)) (hne : i :: is ≠ i' :: is') (k k' : Nat) (hk : k < size) (hk' : k' < size) :
    access P size (allocArray P size base mem e0 es) (i :: is) base + k ≠
      access P size (allocArray P size base mem e0 es) (i' :: is') base + k' := by
  rw [element_address hP size base mem e0 es h, element_address hP size base mem e0 es h']
  intro he
  apply hne
  refine rowMajor_inj _ _ _ h h' ?_
  have e : size * rowMajor (i :: is) (e0 :: es) + k = size * rowMajor (i' :: is') (e0 :: es) + k' := by omega
  have hs : 0 < size := by omega
  have a := congrArg (· / size) e
  simpa [Nat.mul_add_div hs, Nat.div_eq_of_lt hk, Nat.div_eq_of_lt hk'] using a

/-- Every element lies in the block whose size is announced, after the pointer table. -/
theorem elements_inside {i : Nat} {is : List Nat} (h : Indices (i :: is) (e0 :: es)) :
    base + P * inNodes es e0 ≤ access P size (allocArray P size base mem e0 es) (i :: is) base ∧
    access P size (allocArray P size base mem e0 es) (i :: is) base + size ≤ base + blockSize P size e0 es := by
  rw [element_address hP size base mem e0 es h]
  have := rowMajor_lt _ _ h
  rw [List.foldr_cons] at this
  unfold blockSize
  rw [lastLength_eq]
  refine ⟨by omega, ?_⟩
  have h2 : size * (rowMajor (i :: is) (e0 :: es) + 1) ≤ size * (e0 * es.foldr (· * ·) 1) := Nat.mul_le_mul_left _ this
  nlinarith

/-- Setting up the pointers writes inside the block, and nothing outside it. -/
theorem table_inside (a : Nat) (h : a < base ∨ base + P * inNodes es e0 ≤ a) :
    allocArray P size base mem e0 es a = mem a := by
  unfold allocArray
  rcases h with h | h
  · exact fill_below P size es e0 _ a h
  · exact fill_above hP size es e0 _ a h

/-- Neighbours in the last index are neighbours in memory. -/
theorem last_index_contiguous {i : Nat} {is : List Nat} {k : Nat} (h : Indices (i :: is ++ [k]) (e0 :: es))
    (h' : Indices (i :: is ++ [k + 1]) (e0 :: es)) :
    access P size (allocArray P size base mem e0 es) (i :: is ++ [k + 1]) base =
      access P size (allocArray P size base mem e0 es) (i :: is ++ [k]) base + size := by
  have : ∀ (l es : List Nat) (k : Nat), Indices (l ++ [k]) es → rowMajor (l ++ [k + 1]) es = rowMajor (l ++ [k]) es + 1 := by
    intro l
    induction l with
    | nil =>
      intro es k h
      match es, h with
      | [e], _ => simp [rowMajor]
      | [], h => simp [Indices] at h
      | _ :: _ :: _, h => simp [Indices] at h
    | cons a l ih =>
      intro es k h
      match es, h with
      | [], h => simp [Indices] at h
      | e :: es, h =>
        rw [List.cons_append, List.cons_append, rowMajor, rowMajor, ih es k h.2]; ring
  have hr := this (i :: is) (e0 :: es) k h
  rw [List.cons_append] at h h' hr
  rw [List.cons_append] at hr
  rw [List.cons_append, List.cons_append, element_address hP size base mem e0 es h, element_address hP size base mem e0 es h', hr]
  ring

end

/-- The elements fill the rest of the block: their number is the product of the extents. -/
theorem block_exact (P size e0 : Nat) (es : List Nat) :
    blockSize P size e0 es = P * inNodes es e0 + size * (e0 :: es).foldr (· * ·) 1 := by
  unfold blockSize
  rw [lastLength_eq, List.foldr_cons]; ring

example : Indices [9, 19, 29] [10, 20, 30] := by simp [Indices]
example : access 8 4 (allocArray 8 4 1000 (fun _ => 0) 2 [2, 3]) [1, 0, 2] 1000 = 1000 + 8 * 6 + 4 * 8 := by decide +kernel
example : blockSize 8 4 2 [2, 3] = 8 * 6 + 4 * 12 := by decide

end Vulture.C37
