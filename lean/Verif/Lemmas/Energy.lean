import Mathlib.Algebra.BigOperators.Group.Finset.Basic
import Mathlib.Algebra.BigOperators.Ring.Finset
import Mathlib.Algebra.Order.BigOperators.Group.Finset
import Mathlib.Data.Real.Basic
import Mathlib.Tactic.Ring
import Mathlib.Tactic.Linarith
import Mathlib.Tactic.LinearCombination
import Mathlib.Tactic.FieldSimp
import Mathlib.Tactic.Positivity
/-
Triple sums over tensor meshes: summation by parts, difference norms, the discrete curl and its bound.
Pure mathematics, no part of the program is modelled here.
-/
namespace Vulture.Energy
open Finset

abbrev F3 := ℕ → ℕ → ℕ → ℝ

def sum3 (p q r : ℕ) (f : F3) : ℝ := ∑ a ∈ range p, ∑ b ∈ range q, ∑ c ∈ range r, f a b c

theorem sum3_congr {p q r : ℕ} {f g : F3} (h : ∀ a b c, a < p → b < q → c < r → f a b c = g a b c) :
    sum3 p q r f = sum3 p q r g :=
  sum_congr rfl fun a ha => sum_congr rfl fun b hb => sum_congr rfl fun c hc =>
    h a b c (mem_range.1 ha) (mem_range.1 hb) (mem_range.1 hc)

theorem sum3_le {p q r : ℕ} {f g : F3} (h : ∀ a b c, a < p → b < q → c < r → f a b c ≤ g a b c) :
    sum3 p q r f ≤ sum3 p q r g :=
  sum_le_sum fun a ha => sum_le_sum fun b hb => sum_le_sum fun c hc =>
    h a b c (mem_range.1 ha) (mem_range.1 hb) (mem_range.1 hc)

theorem sum3_add (p q r : ℕ) (f g : F3) :
    sum3 p q r (fun a b c => f a b c + g a b c) = sum3 p q r f + sum3 p q r g := by
  simp only [sum3, sum_add_distrib]

theorem sum3_sub (p q r : ℕ) (f g : F3) :
    sum3 p q r (fun a b c => f a b c - g a b c) = sum3 p q r f - sum3 p q r g := by
  simp only [sum3, sum_sub_distrib]

theorem sum3_neg (p q r : ℕ) (f : F3) :
    sum3 p q r (fun a b c => - f a b c) = - sum3 p q r f := by
  simp only [sum3, sum_neg_distrib]

theorem sum3_mul (p q r : ℕ) (t : ℝ) (f : F3) :
    sum3 p q r (fun a b c => t * f a b c) = t * sum3 p q r f := by
  simp only [sum3, mul_sum]

theorem sum3_nonneg {p q r : ℕ} {f : F3} (h : ∀ a b c, a < p → b < q → c < r → 0 ≤ f a b c) :
    0 ≤ sum3 p q r f :=
  sum_nonneg fun a ha => sum_nonneg fun b hb => sum_nonneg fun c hc =>
    h a b c (mem_range.1 ha) (mem_range.1 hb) (mem_range.1 hc)

theorem sum3_single_le {p q r : ℕ} {f : F3} (h : ∀ a b c, a < p → b < q → c < r → 0 ≤ f a b c)
    {a b c : ℕ} (ha : a < p) (hb : b < q) (hc : c < r) : f a b c ≤ sum3 p q r f := by
  refine le_trans ?_ (single_le_sum (f := fun a => ∑ b ∈ range q, ∑ c ∈ range r, f a b c)
    (fun a' ha' => sum_nonneg fun b' hb' => sum_nonneg fun c' hc' =>
    h a' b' c' (mem_range.1 ha') (mem_range.1 hb') (mem_range.1 hc')) (mem_range.2 ha))
  refine le_trans ?_ (single_le_sum (f := fun b => ∑ c ∈ range r, f a b c)
    (fun b' hb' => sum_nonneg fun c' hc' => h a b' c' ha (mem_range.1 hb') (mem_range.1 hc'))
    (mem_range.2 hb))
  exact single_le_sum (f := fun c => f a b c) (fun c' hc' => h a b c' ha hb (mem_range.1 hc'))
    (mem_range.2 hc)

/-- Exchange of the first two axes, of the last two axes. -/
theorem swap12 (p q r : ℕ) (f : F3) : sum3 p q r f = sum3 q p r (fun b a c => f a b c) := sum_comm
theorem swap23 (p q r : ℕ) (f : F3) : sum3 p q r f = sum3 p r q (fun a c b => f a b c) :=
  sum_congr rfl fun _ _ => sum_comm

/-! ### One dimension -/

theorem int1 (p : ℕ) (f : ℕ → ℝ) (h0 : f 0 = 0) (h1 : f (p+1) = 0) :
    ∑ a ∈ range (p+2), f a = ∑ a ∈ range p, f (a+1) := by
  rw [sum_range_succ, sum_range_succ', h0, h1]; ring

theorem sbp1 (p : ℕ) (u v : ℕ → ℝ) (h0 : u 0 = 0) (h1 : u (p+1) = 0) :
    ∑ a ∈ range (p+1), (u (a+1) - u a) * v a = - ∑ a ∈ range p, u (a+1) * (v (a+1) - v a) := by
  have e1 : ∑ a ∈ range (p+1), u (a+1) * v a = ∑ a ∈ range p, u (a+1) * v a := by
    rw [sum_range_succ, h1]; ring
  have e2 : ∑ a ∈ range (p+1), u a * v a = ∑ a ∈ range p, u (a+1) * v (a+1) := by
    rw [sum_range_succ', h0]; ring
  simp only [sub_mul, mul_sub, sum_sub_distrib]
  rw [e1, e2]; ring

theorem primal1 (p : ℕ) (u de dh : ℕ → ℝ) (m : ℝ) (hm : 0 < m) (hde : ∀ b, b < p+1 → m ≤ de b)
    (hdh : ∀ b, b < p → dh (b+1) = (de b + de (b+1)) / 2) (h0 : u 0 = 0) (h1 : u (p+1) = 0) :
    ∑ b ∈ range (p+1), (u (b+1) - u b)^2 / de b ≤ 4 / m^2 * ∑ b ∈ range p, dh (b+1) * u (b+1)^2 := by
  have s1 : ∑ b ∈ range (p+1), (u (b+1) - u b)^2 / de b ≤
      ∑ b ∈ range (p+1), (2 * u (b+1)^2 / de b + 2 * u b^2 / de b) := by
    refine sum_le_sum fun b hb => ?_
    have := hde b (mem_range.1 hb)
    have hd : 0 < de b := by linarith
    rw [← add_div]
    refine div_le_div_of_nonneg_right ?_ hd.le
    nlinarith [sq_nonneg (u (b+1) + u b)]
  refine s1.trans ?_
  rw [sum_add_distrib, sum_range_succ, h1]
  rw [sum_range_succ' (fun b => 2 * u b^2 / de b), h0]
  simp only [ne_eq, OfNat.ofNat_ne_zero, not_false_eq_true, zero_pow, mul_zero, zero_div, add_zero]
  rw [← sum_add_distrib, mul_sum]
  refine sum_le_sum fun b hb => ?_
  have hb' := mem_range.1 hb
  have d0 := hde b (by omega)
  have d1 := hde (b+1) (by omega)
  rw [hdh b hb']
  have p0 : 0 < de b := by linarith
  have p1 : 0 < de (b+1) := by linarith
  have : 2 * u (b+1)^2 / de b + 2 * u (b+1)^2 / de (b+1) =
      (2 * (de b + de (b+1)) * u (b+1)^2) * (1 / (de b * de (b+1))) := by field_simp; ring
  rw [this, show 4 / m^2 * ((de b + de (b+1)) / 2 * u (b+1)^2) =
    (2 * (de b + de (b+1)) * u (b+1)^2) * (1 / m^2) by field_simp; ring]
  refine mul_le_mul_of_nonneg_left ?_ (by positivity)
  refine one_div_le_one_div_of_le (by positivity) ?_
  rw [pow_two]
  exact mul_le_mul d0 d1 hm.le p0.le

theorem dual1 (p : ℕ) (u de dh : ℕ → ℝ) (m : ℝ) (hm : 0 < m) (hde : ∀ b, b < p+1 → m ≤ de b)
    (hdh : ∀ b, b < p → m ≤ dh (b+1)) :
    ∑ b ∈ range p, (u (b+1) - u b)^2 / dh (b+1) ≤ 4 / m^2 * ∑ b ∈ range (p+1), de b * u b^2 := by
  have s1 : ∑ b ∈ range p, (u (b+1) - u b)^2 / dh (b+1) ≤
      ∑ b ∈ range p, (2 / m * u (b+1)^2 + 2 / m * u b^2) := by
    refine sum_le_sum fun b hb => ?_
    have := hdh b (mem_range.1 hb)
    have hd : 0 < dh (b+1) := by linarith
    calc (u (b+1) - u b)^2 / dh (b+1) ≤ (u (b+1) - u b)^2 / m :=
          div_le_div_of_nonneg_left (sq_nonneg _) hm this
      _ ≤ (2 * u (b+1)^2 + 2 * u b^2) / m := by
          refine div_le_div_of_nonneg_right ?_ hm.le
          nlinarith [sq_nonneg (u (b+1) + u b)]
      _ = _ := by ring
  refine s1.trans ?_
  rw [sum_add_distrib]
  have s2 : ∑ b ∈ range p, 2 / m * u (b+1)^2 ≤ ∑ b ∈ range (p+1), 2 / m * u b^2 := by
    rw [sum_range_succ' (fun b => 2 / m * u b^2)]
    have : 0 ≤ 2 / m * u 0^2 := by positivity
    linarith
  have s3 : ∑ b ∈ range p, 2 / m * u b^2 ≤ ∑ b ∈ range (p+1), 2 / m * u b^2 := by
    rw [sum_range_succ]
    have : 0 ≤ 2 / m * u p^2 := by positivity
    linarith
  have s4 : ∑ b ∈ range (p+1), 2 / m * u b^2 ≤ 2 / m^2 * ∑ b ∈ range (p+1), de b * u b^2 := by
    rw [mul_sum]
    refine sum_le_sum fun b hb => ?_
    have := hde b (mem_range.1 hb)
    rw [show 2 / m * u b^2 = 2 / m^2 * (m * u b^2) by field_simp]
    refine mul_le_mul_of_nonneg_left ?_ (by positivity)
    exact mul_le_mul_of_nonneg_right this (sq_nonneg _)
  have : 4 / m^2 * ∑ b ∈ range (p+1), de b * u b^2 = 2 / m^2 * ∑ b ∈ range (p+1), de b * u b^2 +
    2 / m^2 * ∑ b ∈ range (p+1), de b * u b^2 := by ring
  linarith

/-! ### Three dimensions, derivative along each axis -/

theorem swap13 (p q r : ℕ) (f : F3) : sum3 p q r f = sum3 r q p (fun c b a => f a b c) := by
  rw [swap12, swap23, swap12]

theorem sum3_outer (p q r : ℕ) (f : F3) :
    sum3 p q r f = ∑ b ∈ range q, ∑ c ∈ range r, ∑ a ∈ range p, f a b c := by
  rw [swap12, swap23]; exact (sum_congr rfl fun _ _ => rfl).trans (by
    simp only [sum3])

theorem intA (p q r : ℕ) (f : F3) (h0 : ∀ b c, b < q → c < r → f 0 b c = 0) (h1 : ∀ b c, b < q → c < r → f (p+1) b c = 0) :
    sum3 (p+2) q r f = sum3 p q r (fun a b c => f (a+1) b c) := by
  rw [sum3_outer, sum3_outer]
  exact sum_congr rfl fun b hb => sum_congr rfl fun c hc => int1 p (fun a => f a b c)
    (h0 b c (mem_range.1 hb) (mem_range.1 hc)) (h1 b c (mem_range.1 hb) (mem_range.1 hc))

theorem intB (p q r : ℕ) (f : F3) (h0 : ∀ a c, a < p → c < r → f a 0 c = 0) (h1 : ∀ a c, a < p → c < r → f a (q+1) c = 0) :
    sum3 p (q+2) r f = sum3 p q r (fun a b c => f a (b+1) c) := by
  rw [swap12, intA _ _ _ _ h0 h1, swap12]

theorem intC (p q r : ℕ) (f : F3) (h0 : ∀ a b, a < p → b < q → f a b 0 = 0) (h1 : ∀ a b, a < p → b < q → f a b (r+1) = 0) :
    sum3 p q (r+2) f = sum3 p q r (fun a b c => f a b (c+1)) := by
  rw [swap23, intB _ _ _ _ h0 h1, swap23]

theorem sbpA (p q r : ℕ) (u v : F3) (h0 : ∀ b c, b < q → c < r → u 0 b c = 0) (h1 : ∀ b c, b < q → c < r → u (p+1) b c = 0) :
    sum3 (p+1) q r (fun a b c => (u (a+1) b c - u a b c) * v a b c) =
      - sum3 p q r (fun a b c => u (a+1) b c * (v (a+1) b c - v a b c)) := by
  rw [sum3_outer, sum3_outer, ← sum_neg_distrib]
  refine sum_congr rfl fun b hb => ?_
  rw [← sum_neg_distrib]
  exact sum_congr rfl fun c hc => sbp1 p (fun a => u a b c) (fun a => v a b c)
    (h0 b c (mem_range.1 hb) (mem_range.1 hc)) (h1 b c (mem_range.1 hb) (mem_range.1 hc))

theorem sbpB (p q r : ℕ) (u v : F3) (h0 : ∀ a c, a < p → c < r → u a 0 c = 0) (h1 : ∀ a c, a < p → c < r → u a (q+1) c = 0) :
    sum3 p (q+1) r (fun a b c => (u a (b+1) c - u a b c) * v a b c) =
      - sum3 p q r (fun a b c => u a (b+1) c * (v a (b+1) c - v a b c)) := by
  rw [swap12, swap12 p q r]
  exact sbpA q p r (fun b a c => u a b c) (fun b a c => v a b c) h0 h1

theorem sbpC (p q r : ℕ) (u v : F3) (h0 : ∀ a b, a < p → b < q → u a b 0 = 0) (h1 : ∀ a b, a < p → b < q → u a b (r+1) = 0) :
    sum3 p q (r+1) (fun a b c => (u a b (c+1) - u a b c) * v a b c) =
      - sum3 p q r (fun a b c => u a b (c+1) * (v a b (c+1) - v a b c)) := by
  rw [swap23, swap23 p q r]
  exact sbpB p r q (fun a c b => u a b c) (fun a c b => v a b c) h0 h1

/-- Tensor-mesh data of one axis with `p+1` cells: edges `de 0..p`, dual edges `dh 0..p+1`, lower bound. -/
structure Ax (p : ℕ) where
  de : ℕ → ℝ
  dh : ℕ → ℝ
  m : ℝ
  m_pos : 0 < m
  de_ge : ∀ b, b < p + 1 → m ≤ de b
  dh_mean : ∀ b, b < p → dh (b+1) = (de b + de (b+1)) / 2
  dh_pos : ∀ b, b < p + 2 → 0 < dh b

theorem Ax.de_pos {p : ℕ} (A : Ax p) {b : ℕ} (h : b < p + 1) : 0 < A.de b :=
  lt_of_lt_of_le A.m_pos (A.de_ge b h)
theorem Ax.dh_ge {p : ℕ} (A : Ax p) {b : ℕ} (h : b < p) : A.m ≤ A.dh (b+1) := by
  rw [A.dh_mean b h]; linarith [A.de_ge b (by omega), A.de_ge (b+1) (by omega)]

theorem primA {p : ℕ} (A : Ax p) (q r : ℕ) (u : F3) (w : ℕ → ℕ → ℝ)
    (hw : ∀ b c, b < q → c < r → 0 ≤ w b c) (h0 : ∀ b c, b < q → c < r → u 0 b c = 0) (h1 : ∀ b c, b < q → c < r → u (p+1) b c = 0) :
    sum3 (p+1) q r (fun a b c => w b c * ((u (a+1) b c - u a b c)^2 / A.de a)) ≤
      4 / A.m^2 * sum3 p q r (fun a b c => w b c * (A.dh (a+1) * u (a+1) b c^2)) := by
  rw [sum3_outer, sum3_outer, mul_sum]
  refine sum_le_sum fun b hb => ?_
  rw [mul_sum]
  refine sum_le_sum fun c hc => ?_
  have := primal1 p (fun a => u a b c) A.de A.dh A.m A.m_pos A.de_ge A.dh_mean
    (h0 b c (mem_range.1 hb) (mem_range.1 hc)) (h1 b c (mem_range.1 hb) (mem_range.1 hc))
  rw [← mul_sum, ← mul_sum]
  have hw' := hw b c (mem_range.1 hb) (mem_range.1 hc)
  calc w b c * _ ≤ w b c * _ := mul_le_mul_of_nonneg_left this hw'
    _ = _ := by ring

theorem dualA {p : ℕ} (A : Ax p) (q r : ℕ) (u : F3) (w : ℕ → ℕ → ℝ)
    (hw : ∀ b c, b < q → c < r → 0 ≤ w b c) :
    sum3 p q r (fun a b c => w b c * ((u (a+1) b c - u a b c)^2 / A.dh (a+1))) ≤
      4 / A.m^2 * sum3 (p+1) q r (fun a b c => w b c * (A.de a * u a b c^2)) := by
  rw [sum3_outer, sum3_outer, mul_sum]
  refine sum_le_sum fun b hb => ?_
  rw [mul_sum]
  refine sum_le_sum fun c hc => ?_
  have := dual1 p (fun a => u a b c) A.de A.dh A.m A.m_pos A.de_ge (fun b h => A.dh_ge h)
  rw [← mul_sum, ← mul_sum]
  have hw' := hw b c (mem_range.1 hb) (mem_range.1 hc)
  calc w b c * _ ≤ w b c * _ := mul_le_mul_of_nonneg_left this hw'
    _ = _ := by ring

theorem primB {q : ℕ} (A : Ax q) (p r : ℕ) (u : F3) (w : ℕ → ℕ → ℝ)
    (hw : ∀ a c, a < p → c < r → 0 ≤ w a c) (h0 : ∀ a c, a < p → c < r → u a 0 c = 0) (h1 : ∀ a c, a < p → c < r → u a (q+1) c = 0) :
    sum3 p (q+1) r (fun a b c => w a c * ((u a (b+1) c - u a b c)^2 / A.de b)) ≤
      4 / A.m^2 * sum3 p q r (fun a b c => w a c * (A.dh (b+1) * u a (b+1) c^2)) := by
  rw [swap12, swap12 p q r]
  exact primA A p r (fun b a c => u a b c) w hw h0 h1

theorem dualB {q : ℕ} (A : Ax q) (p r : ℕ) (u : F3) (w : ℕ → ℕ → ℝ)
    (hw : ∀ a c, a < p → c < r → 0 ≤ w a c) :
    sum3 p q r (fun a b c => w a c * ((u a (b+1) c - u a b c)^2 / A.dh (b+1))) ≤
      4 / A.m^2 * sum3 p (q+1) r (fun a b c => w a c * (A.de b * u a b c^2)) := by
  rw [swap12, swap12 p (q+1) r]
  exact dualA A p r (fun b a c => u a b c) w hw

theorem primC {r : ℕ} (A : Ax r) (p q : ℕ) (u : F3) (w : ℕ → ℕ → ℝ)
    (hw : ∀ a b, a < p → b < q → 0 ≤ w a b) (h0 : ∀ a b, a < p → b < q → u a b 0 = 0) (h1 : ∀ a b, a < p → b < q → u a b (r+1) = 0) :
    sum3 p q (r+1) (fun a b c => w a b * ((u a b (c+1) - u a b c)^2 / A.de c)) ≤
      4 / A.m^2 * sum3 p q r (fun a b c => w a b * (A.dh (c+1) * u a b (c+1)^2)) := by
  rw [swap23, swap23 p q r]
  exact primB A p q (fun a c b => u a b c) w hw h0 h1

theorem dualC {r : ℕ} (A : Ax r) (p q : ℕ) (u : F3) (w : ℕ → ℕ → ℝ)
    (hw : ∀ a b, a < p → b < q → 0 ≤ w a b) :
    sum3 p q r (fun a b c => w a b * ((u a b (c+1) - u a b c)^2 / A.dh (c+1))) ≤
      4 / A.m^2 * sum3 p q (r+1) (fun a b c => w a b * (A.de c * u a b c^2)) := by
  rw [swap23, swap23 p q (r+1)]
  exact dualB A p q (fun a c b => u a b c) w hw

end Vulture.Energy
