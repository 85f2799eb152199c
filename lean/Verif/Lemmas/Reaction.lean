import Verif.Lemmas.Balance
import Mathlib.Algebra.BigOperators.NatAntidiagonal
import Mathlib.RingTheory.PowerSeries.NoZeroDivisors
/-
Reciprocity of two driven leap-frog runs in the same box, and the work done by currents. Pure mathematics.
-/
set_option linter.unusedVariables false
namespace Vulture.Energy
open Finset

/-! ### Convolution sums -/

/-- Two bilinear leap-frog ladders with symmetric storage terms have the same convolved drive. -/
theorem ladder {dt : ℝ} (hdt : dt ≠ 0) {a s h c1 c2 j1 j2 k1 k2 : ℕ → ℕ → ℝ}
    (L1 : ∀ n m, a n (m+1) - a n m + (s n (m+1) + s n m) = dt * (c1 n m - j1 n m))
    (L2 : ∀ n m, a (n+1) m - a n m + (s (n+1) m + s n m) = dt * (c2 n m - j2 n m))
    (M2 : ∀ n m, h (n+1) m - h n m = - dt * (c1 (n+1) m + k2 n m))
    (M1 : ∀ n m, h n (m+1) - h n m = - dt * (c2 n (m+1) + k1 n m))
    (a0 : ∀ m, a 0 m = 0) (a1 : ∀ n, a n 0 = 0) (s0 : ∀ m, s 0 m = 0) (s1 : ∀ n, s n 0 = 0)
    (h0 : ∀ m, h 0 m = 0) (h1 : ∀ n, h n 0 = 0) (c0 : ∀ m, c1 0 m = 0) (d0 : ∀ n, c2 n 0 = 0) (N : ℕ) :
    ∑ p ∈ antidiagonal (N+1), j1 p.1 p.2 + ∑ p ∈ antidiagonal N, k2 p.1 p.2 =
      ∑ p ∈ antidiagonal (N+1), j2 p.1 p.2 + ∑ p ∈ antidiagonal N, k1 p.1 p.2 := by
  have up1 : ∀ (f : ℕ → ℕ → ℝ) (hf : ∀ n, f n 0 = 0) (K : ℕ),
      ∑ p ∈ antidiagonal K, f p.1 (p.2+1) = ∑ p ∈ antidiagonal (K+1), f p.1 p.2 := by
    intro f hf K
    rw [Finset.Nat.sum_antidiagonal_succ' (f := fun p => f p.1 p.2)]
    simp [hf]
  have up2 : ∀ (f : ℕ → ℕ → ℝ) (hf : ∀ n, f 0 n = 0) (K : ℕ),
      ∑ p ∈ antidiagonal K, f (p.1+1) p.2 = ∑ p ∈ antidiagonal (K+1), f p.1 p.2 := by
    intro f hf K
    rw [Finset.Nat.sum_antidiagonal_succ (f := fun p => f p.1 p.2)]
    simp [hf]
  have S1 : ∑ p ∈ antidiagonal (N+1), (a p.1 (p.2+1) - a p.1 p.2 + (s p.1 (p.2+1) + s p.1 p.2)) =
      ∑ p ∈ antidiagonal (N+1), dt * (c1 p.1 p.2 - j1 p.1 p.2) := sum_congr rfl fun p _ => L1 _ _
  have S2 : ∑ p ∈ antidiagonal (N+1), (a (p.1+1) p.2 - a p.1 p.2 + (s (p.1+1) p.2 + s p.1 p.2)) =
      ∑ p ∈ antidiagonal (N+1), dt * (c2 p.1 p.2 - j2 p.1 p.2) := sum_congr rfl fun p _ => L2 _ _
  have T2 : ∑ p ∈ antidiagonal N, (h (p.1+1) p.2 - h p.1 p.2) =
      ∑ p ∈ antidiagonal N, - dt * (c1 (p.1+1) p.2 + k2 p.1 p.2) := sum_congr rfl fun p _ => M2 _ _
  have T1 : ∑ p ∈ antidiagonal N, (h p.1 (p.2+1) - h p.1 p.2) =
      ∑ p ∈ antidiagonal N, - dt * (c2 p.1 (p.2+1) + k1 p.1 p.2) := sum_congr rfl fun p _ => M1 _ _
  simp only [← mul_sum, sum_add_distrib, sum_sub_distrib] at S1 S2 T1 T2
  rw [up1 a a1, up1 s s1] at S1
  rw [up2 a a0, up2 s s0] at S2
  rw [up2 h h0, up2 c1 c0] at T2
  rw [up1 h h1, up1 c2 d0] at T1
  refine mul_left_cancel₀ hdt ?_
  linear_combination S1 - S2 + T2 - T1

/-- A nonzero drive can be cancelled from a convolution. -/
theorem cancel {w x y : ℕ → ℝ} (hw : ∃ n, w n ≠ 0)
    (h : ∀ N, ∑ p ∈ antidiagonal N, w p.1 * x p.2 = ∑ p ∈ antidiagonal N, w p.1 * y p.2) : x = y := by
  have e : PowerSeries.mk w * PowerSeries.mk x = PowerSeries.mk w * PowerSeries.mk y := by
    ext N
    simpa [PowerSeries.coeff_mul] using h N
  have hne : PowerSeries.mk w ≠ 0 := by
    obtain ⟨n, hn⟩ := hw
    intro e0
    apply hn
    have := congrArg (PowerSeries.coeff n) e0
    simpa using this
  have := mul_left_cancel₀ hne e
  funext n
  have := congrArg (PowerSeries.coeff n) this
  simpa using this

/-! ### Driven updates tested with a field -/

section
variable {px py pz : ℕ} (X : Ax px) (Y : Ax py) (Z : Ax pz)

theorem dotE_comm (P Q : V3) : dotE X Y Z P Q = dotE X Y Z Q P := by
  unfold dotE; simp only [mul_comm (P.x _ _ _), mul_comm (P.y _ _ _), mul_comm (P.z _ _ _)]
theorem dotH_comm (P Q : V3) : dotH X Y Z P Q = dotH X Y Z Q P := by
  unfold dotH; simp only [mul_comm (P.x _ _ _), mul_comm (P.y _ _ _), mul_comm (P.z _ _ _)]
theorem dotE_weight (w P Q : V3) : dotE X Y Z (wmul w P) Q = dotE X Y Z (wmul w Q) P := by
  unfold dotE wmul
  congr 1
  · congr 1 <;> exact sum3_congr fun a b c _ _ _ => by ring
  · exact sum3_congr fun a b c _ _ _ => by ring
theorem dotH_weight (w P Q : V3) : dotH X Y Z (wmul w P) Q = dotH X Y Z (wmul w Q) P := by
  unfold dotH wmul
  congr 1
  · congr 1 <;> exact sum3_congr fun a b c _ _ _ => by ring
  · exact sum3_congr fun a b c _ _ _ => by ring

/-- One electric sample under a current, tested with `p`: either the law holds or `p` is zero there. -/
def Tested (dt eps sigma p e e' q j : ℝ) : Prop :=
  eps * p * (e' - e) + dt / 2 * (sigma * p * (e' + e)) = dt * (p * (q - j))

theorem tested_sum (dt : ℝ) (eps sigma P E E' H J : V3) (hP : Walls px py pz P)
    (ex : ∀ a b c, a < px+1 → b < py → c < pz → Tested dt (eps.x a (b+1) (c+1)) (sigma.x a (b+1) (c+1))
      (P.x a (b+1) (c+1)) (E.x a (b+1) (c+1)) (E'.x a (b+1) (c+1)) ((curlH X Y Z H).x a b c) (J.x a (b+1) (c+1)))
    (ey : ∀ a b c, a < px → b < py+1 → c < pz → Tested dt (eps.y (a+1) b (c+1)) (sigma.y (a+1) b (c+1))
      (P.y (a+1) b (c+1)) (E.y (a+1) b (c+1)) (E'.y (a+1) b (c+1)) ((curlH X Y Z H).y a b c) (J.y (a+1) b (c+1)))
    (ez : ∀ a b c, a < px → b < py → c < pz+1 → Tested dt (eps.z (a+1) (b+1) c) (sigma.z (a+1) (b+1) c)
      (P.z (a+1) (b+1) c) (E.z (a+1) (b+1) c) (E'.z (a+1) (b+1) c) ((curlH X Y Z H).z a b c) (J.z (a+1) (b+1) c)) :
    dotE X Y Z (wmul eps P) E' - dotE X Y Z (wmul eps P) E +
      (dt / 2 * dotE X Y Z (wmul sigma P) E' + dt / 2 * dotE X Y Z (wmul sigma P) E) =
    dt * (dotH X Y Z (curlE X Y Z P) H - dotE X Y Z P J) := by
  have wW : ∀ (w : V3), Walls px py pz (wmul w P) := fun w =>
    ⟨fun a b c h1 h2 h3 h4 => by simp [wmul, hP.x a b c h1 h2 h3 h4],
     fun a b c h1 h2 h3 h4 => by simp [wmul, hP.y a b c h1 h2 h3 h4],
     fun a b c h1 h2 h3 h4 => by simp [wmul, hP.z a b c h1 h2 h3 h4]⟩
  rw [adjoint X Y Z P H hP, dotE_eq_dotI X Y Z _ _ (wW eps), dotE_eq_dotI X Y Z _ _ (wW eps),
    dotE_eq_dotI X Y Z _ _ (wW sigma), dotE_eq_dotI X Y Z _ _ (wW sigma), dotE_eq_dotI X Y Z _ _ hP]
  unfold dotI inner wmul
  have cx : ∀ (p q r : ℕ) (w A B G D F K : F3),
      (∀ a b c, a < p → b < q → c < r → A a b c - B a b c + (dt/2 * G a b c + dt/2 * D a b c) = dt * (F a b c - K a b c)) →
      sum3 p q r (fun a b c => w a b c * A a b c) - sum3 p q r (fun a b c => w a b c * B a b c) +
        (dt/2 * sum3 p q r (fun a b c => w a b c * G a b c) + dt/2 * sum3 p q r (fun a b c => w a b c * D a b c)) =
      dt * (sum3 p q r (fun a b c => w a b c * F a b c) - sum3 p q r (fun a b c => w a b c * K a b c)) := by
    intro p q r w A B G D F K h
    rw [← sum3_mul, ← sum3_mul, ← sum3_sub, ← sum3_sub, ← sum3_add, ← sum3_add, ← sum3_mul]
    refine sum3_congr fun a b c h1 h2 h3 => ?_
    linear_combination (w a b c) * h a b c h1 h2 h3
  have e1 := cx (px+1) py pz (fun a b c => X.de a * Y.dh (b+1) * Z.dh (c+1)) _ _ _ _ _ _
    (fun a b c h1 h2 h3 => show eps.x a (b+1) (c+1) * P.x a (b+1) (c+1) * E'.x a (b+1) (c+1) -
        eps.x a (b+1) (c+1) * P.x a (b+1) (c+1) * E.x a (b+1) (c+1) +
        (dt/2 * (sigma.x a (b+1) (c+1) * P.x a (b+1) (c+1) * E'.x a (b+1) (c+1)) +
         dt/2 * (sigma.x a (b+1) (c+1) * P.x a (b+1) (c+1) * E.x a (b+1) (c+1))) =
        dt * (P.x a (b+1) (c+1) * (curlH X Y Z H).x a b c - P.x a (b+1) (c+1) * J.x a (b+1) (c+1)) by
      have := ex a b c h1 h2 h3; unfold Tested at this; linear_combination this)
  have e2 := cx px (py+1) pz (fun a b c => X.dh (a+1) * Y.de b * Z.dh (c+1)) _ _ _ _ _ _
    (fun a b c h1 h2 h3 => show eps.y (a+1) b (c+1) * P.y (a+1) b (c+1) * E'.y (a+1) b (c+1) -
        eps.y (a+1) b (c+1) * P.y (a+1) b (c+1) * E.y (a+1) b (c+1) +
        (dt/2 * (sigma.y (a+1) b (c+1) * P.y (a+1) b (c+1) * E'.y (a+1) b (c+1)) +
         dt/2 * (sigma.y (a+1) b (c+1) * P.y (a+1) b (c+1) * E.y (a+1) b (c+1))) =
        dt * (P.y (a+1) b (c+1) * (curlH X Y Z H).y a b c - P.y (a+1) b (c+1) * J.y (a+1) b (c+1)) by
      have := ey a b c h1 h2 h3; unfold Tested at this; linear_combination this)
  have e3 := cx px py (pz+1) (fun a b c => X.dh (a+1) * Y.dh (b+1) * Z.de c) _ _ _ _ _ _
    (fun a b c h1 h2 h3 => show eps.z (a+1) (b+1) c * P.z (a+1) (b+1) c * E'.z (a+1) (b+1) c -
        eps.z (a+1) (b+1) c * P.z (a+1) (b+1) c * E.z (a+1) (b+1) c +
        (dt/2 * (sigma.z (a+1) (b+1) c * P.z (a+1) (b+1) c * E'.z (a+1) (b+1) c) +
         dt/2 * (sigma.z (a+1) (b+1) c * P.z (a+1) (b+1) c * E.z (a+1) (b+1) c)) =
        dt * (P.z (a+1) (b+1) c * (curlH X Y Z H).z a b c - P.z (a+1) (b+1) c * J.z (a+1) (b+1) c) by
      have := ez a b c h1 h2 h3; unfold Tested at this; linear_combination this)
  linear_combination e1 + e2 + e3

/-- The magnetic update under a magnetic current, tested with `Q`. -/
theorem tested_mag (dt : ℝ) (mu H H' E' M Q : V3)
    (hx : ∀ a b c, a < px+2 → b < py+1 → c < pz+1 →
      mu.x a b c * (H'.x a b c - H.x a b c) = - dt * ((curlE X Y Z E').x a b c + M.x a b c))
    (hy : ∀ a b c, a < px+1 → b < py+2 → c < pz+1 →
      mu.y a b c * (H'.y a b c - H.y a b c) = - dt * ((curlE X Y Z E').y a b c + M.y a b c))
    (hz : ∀ a b c, a < px+1 → b < py+1 → c < pz+2 →
      mu.z a b c * (H'.z a b c - H.z a b c) = - dt * ((curlE X Y Z E').z a b c + M.z a b c)) :
    dotH X Y Z (wmul mu H') Q - dotH X Y Z (wmul mu H) Q =
      - dt * (dotH X Y Z (curlE X Y Z E') Q + dotH X Y Z M Q) := by
  have cx : ∀ (p q r : ℕ) (w A B F K : F3),
      (∀ a b c, a < p → b < q → c < r → A a b c - B a b c = - dt * (F a b c + K a b c)) →
      sum3 p q r (fun a b c => w a b c * A a b c) - sum3 p q r (fun a b c => w a b c * B a b c) =
      - dt * (sum3 p q r (fun a b c => w a b c * F a b c) + sum3 p q r (fun a b c => w a b c * K a b c)) := by
    intro p q r w A B F K h
    rw [← sum3_sub, ← sum3_add, ← sum3_mul]
    refine sum3_congr fun a b c h1 h2 h3 => ?_
    linear_combination (w a b c) * h a b c h1 h2 h3
  have e1 := cx (px+2) (py+1) (pz+1) (fun a b c => X.dh a * Y.de b * Z.de c) _ _ _ _
    (fun a b c h1 h2 h3 => show mu.x a b c * H'.x a b c * Q.x a b c - mu.x a b c * H.x a b c * Q.x a b c =
        - dt * ((curlE X Y Z E').x a b c * Q.x a b c + M.x a b c * Q.x a b c) by
      linear_combination (Q.x a b c) * hx a b c h1 h2 h3)
  have e2 := cx (px+1) (py+2) (pz+1) (fun a b c => X.de a * Y.dh b * Z.de c) _ _ _ _
    (fun a b c h1 h2 h3 => show mu.y a b c * H'.y a b c * Q.y a b c - mu.y a b c * H.y a b c * Q.y a b c =
        - dt * ((curlE X Y Z E').y a b c * Q.y a b c + M.y a b c * Q.y a b c) by
      linear_combination (Q.y a b c) * hy a b c h1 h2 h3)
  have e3 := cx (px+1) (py+1) (pz+2) (fun a b c => X.de a * Y.de b * Z.dh c) _ _ _ _
    (fun a b c h1 h2 h3 => show mu.z a b c * H'.z a b c * Q.z a b c - mu.z a b c * H.z a b c * Q.z a b c =
        - dt * ((curlE X Y Z E').z a b c * Q.z a b c + M.z a b c * Q.z a b c) by
      linear_combination (Q.z a b c) * hz a b c h1 h2 h3)
  unfold dotH wmul
  linear_combination e1 + e2 + e3

end
end Vulture.Energy
