import Verif.Model.Filter
import Verif.Spec.Convolution
import Mathlib.Analysis.SpecialFunctions.Integrals.Basic
import Mathlib.Analysis.SpecialFunctions.ExpDeriv
import Mathlib.Analysis.Complex.RealDeriv
import Mathlib.Tactic.LinearCombination
import Mathlib.Tactic.FieldSimp
/- C25: the recursive filter computes the exact convolution with the piecewise-linear interpolant. -/
namespace Vulture.C25
open Vulture Spec MeasureTheory intervalIntegral

/-! ### The interpolant -/

theorem interp_node (T : ℝ) (hT : 0 < T) (x : List ℝ) (n : ℕ) : interp T x (n * T) = sampleVal x n := by
  have : (n : ℝ) * T / T = n := by field_simp
  simp only [interp, this, Nat.floor_natCast]; simp

theorem interp_cell (T : ℝ) (hT : 0 < T) (x : List ℝ) (n : ℕ) (t : ℝ) (h0 : n * T ≤ t) (h1 : t ≤ (n + 1) * T) :
    interp T x t = sampleVal x n + (sampleVal x (n + 1) - sampleVal x n) * (t / T - n) := by
  rcases h1.lt_or_eq with h1 | h1
  · have : ⌊t / T⌋₊ = n := by
      rw [Nat.floor_eq_iff (div_nonneg ((mul_nonneg n.cast_nonneg hT.le).trans h0) hT.le)]
      exact ⟨(le_div_iff₀ hT).2 h0, (div_lt_iff₀ hT).2 h1⟩
    simp only [interp, this]
  · subst h1
    have h := interp_node T hT x (n + 1)
    push_cast at h
    rw [h]
    have : ((n : ℝ) + 1) * T / T - n = 1 := by field_simp; ring
    rw [this]; ring

/-! ### One pole, one cell -/

/-- The integral of one exponential against a linear piece. -/
theorem cell_integral (p : ℂ) (hp : p ≠ 0) (T : ℝ) (hT : 0 < T) (b : ℝ) (u v : ℝ) :
    ∫ τ in b..(b + T), Complex.exp (p * ((b + T - τ : ℝ) : ℂ)) * ((u + (v - u) * ((τ - b) / T) : ℝ) : ℂ) =
      1 / p / (p * T) * (1 + (p * T - 1) * Complex.exp (p * T)) * u +
      1 / p / (p * T) * (Complex.exp (p * T) - p * T - 1) * v := by
  have hT' : (T : ℂ) ≠ 0 := by exact_mod_cast hT.ne'
  let F : ℝ → ℂ := fun τ => -Complex.exp (p * ((b + T - τ : ℝ) : ℂ)) / p *
    (u + (v - u) * ((τ - b) / T) + (v - u) / (p * T))
  have hd : ∀ τ : ℝ, HasDerivAt F
      (Complex.exp (p * ((b + T - τ : ℝ) : ℂ)) * ((u + (v - u) * ((τ - b) / T) : ℝ) : ℂ)) τ := by
    intro τ
    have h1 : HasDerivAt (fun τ : ℝ => p * ((b + T - τ : ℝ) : ℂ)) (-p) τ := by
      have := ((hasDerivAt_id τ).const_sub (b + T)).ofReal_comp.const_mul p
      simpa using this
    have h2 := (h1.cexp.neg).div_const p
    have h3 : HasDerivAt (fun τ : ℝ => (u : ℂ) + (v - u) * (((τ : ℂ) - b) / T) + (v - u) / (p * T)) ((v - u) * (1 / T)) τ := by
      have hτ : HasDerivAt (fun τ : ℝ => (τ : ℂ)) 1 τ := by
        simpa using (hasDerivAt_id τ).ofReal_comp
      have := ((((hτ.sub_const (b : ℂ)).div_const (T : ℂ)).const_mul ((v : ℂ) - u)).const_add (u : ℂ)).add_const
        (((v : ℂ) - u) / (p * T))
      simpa using this
    have h4 := h2.mul h3
    refine h4.congr_deriv ?_
    simp only [Pi.neg_apply]
    push_cast
    field_simp
    ring
  rw [integral_eq_sub_of_hasDerivAt (fun τ _ => hd τ)]
  · simp only [F]
    push_cast
    simp only [sub_self, add_sub_cancel_left, mul_zero, Complex.exp_zero]
    field_simp
    ring
  · apply Continuous.intervalIntegrable
    fun_prop

/-- Response of one pole-residue term, complex, at sample time `n`. -/
noncomputable def termAt (T : ℝ) (x : List ℝ) (a : ℂ × ℂ) (n : ℕ) : ℂ :=
  ∫ τ in (0 : ℝ)..(n * T), a.2 * Complex.exp (a.1 * ((n * T - τ : ℝ) : ℂ)) * (interp T x τ : ℂ)

theorem integrable_interp (T : ℝ) (hT : 0 < T) (x : List ℝ) (g : ℝ → ℂ) (hg : Continuous g) (n : ℕ) :
    IntervalIntegrable (fun τ => g τ * (interp T x τ : ℂ)) volume (n * T) ((n + 1 : ℕ) * T) := by
  have hle : (n : ℝ) * T ≤ (n + 1 : ℕ) * T := by push_cast; nlinarith
  have : IntervalIntegrable (fun τ : ℝ => g τ * ((sampleVal x n + (sampleVal x (n + 1) - sampleVal x n) * (τ / T - n) : ℝ) : ℂ))
      volume (n * T) ((n + 1 : ℕ) * T) := by
    apply Continuous.intervalIntegrable
    fun_prop
  refine this.congr ?_
  intro τ hτ
  rw [Set.uIoc_of_le hle] at hτ
  have h2 := hτ.2
  push_cast at h2
  simp only
  rw [interp_cell T hT x n τ hτ.1.le h2]

theorem integrable_upto (T : ℝ) (hT : 0 < T) (x : List ℝ) (g : ℝ → ℂ) (hg : Continuous g) (n : ℕ) :
    IntervalIntegrable (fun τ => g τ * (interp T x τ : ℂ)) volume 0 (n * T) := by
  induction n with
  | zero => simp
  | succ n ih => exact ih.trans (integrable_interp T hT x g hg n)

theorem termAt_succ (T : ℝ) (hT : 0 < T) (x : List ℝ) (a : ℂ × ℂ) (ha : a.1 ≠ 0) (n : ℕ) :
    termAt T x a (n + 1) = (toRCq T a).q0 * termAt T x a n + (toRCq T a).q1 * sampleVal x n +
      (toRCq T a).q2 * sampleVal x (n + 1) := by
  have hg : ∀ c : ℝ, Continuous (fun τ : ℝ => a.2 * Complex.exp (a.1 * ((c - τ : ℝ) : ℂ))) := by
    intro c; fun_prop
  unfold termAt
  rw [← integral_add_adjacent_intervals (integrable_upto T hT x _ (hg _) n) (integrable_interp T hT x _ (hg _) n)]
  rw [add_assoc]
  congr 1
  · rw [← intervalIntegral.integral_const_mul]
    apply intervalIntegral.integral_congr
    intro τ _
    simp only [toRCq]
    have : a.1 * ((((n + 1 : ℕ) : ℝ) * T - τ : ℝ) : ℂ) = a.1 * T + a.1 * ((n * T - τ : ℝ) : ℂ) := by push_cast; ring
    rw [this, Complex.exp_add]; ring
  · have hle : (n : ℝ) * T ≤ (n + 1 : ℕ) * T := by push_cast; nlinarith
    have h1 : ((n + 1 : ℕ) : ℝ) * T = n * T + T := by push_cast; ring
    have h2 : ∫ τ in (n * T : ℝ)..((n + 1 : ℕ) * T), a.2 * Complex.exp (a.1 * ((((n + 1 : ℕ) : ℝ) * T - τ : ℝ) : ℂ)) * (interp T x τ : ℂ)
        = ∫ τ in (n * T : ℝ)..(n * T + T), a.2 * (Complex.exp (a.1 * ((n * T + T - τ : ℝ) : ℂ)) *
          ((sampleVal x n + (sampleVal x (n + 1) - sampleVal x n) * ((τ - n * T) / T) : ℝ) : ℂ)) := by
      rw [h1]
      apply intervalIntegral.integral_congr
      intro τ hτ
      rw [Set.uIcc_of_le (by linarith)] at hτ
      simp only
      rw [interp_cell T hT x n τ hτ.1 (by linarith [hτ.2])]
      have : τ / T - n = (τ - n * T) / T := by field_simp
      rw [this]; ring
    rw [h2, intervalIntegral.integral_const_mul, cell_integral a.1 ha T hT]
    simp only [toRCq]
    ring

/-! ### The whole filter -/

/-- State of the filter after `n` samples. -/
noncomputable def stateAt (rc : RecConv) (x : List ℝ) : ℕ → RecState
  | 0 => rc.init
  | n + 1 => (rc.step (stateAt rc x n) (x.getD n 0)).1

theorem stateAt_old (rc : RecConv) (x : List ℝ) (n : ℕ) : (stateAt rc x n).old = sampleVal x n := by
  cases n <;> rfl

theorem stateAt_zeta (pr : PoleResidue) (T : ℝ) (hT : 0 < T) (hp : ∀ a ∈ pr.terms, a.1 ≠ 0) (x : List ℝ) (n : ℕ) :
    (stateAt (toRecConv pr T) x n).zeta = pr.terms.map fun a => termAt T x a n := by
  induction n with
  | zero =>
    simp only [stateAt, RecConv.init, toRecConv, termAt, List.map_map]
    apply List.map_congr_left
    intro a _
    simp
  | succ n ih =>
    simp only [stateAt, RecConv.step, ih, stateAt_old]
    have : (toRecConv pr T).q = pr.terms.map (toRCq T) := rfl
    rw [this, List.zipWith_map, List.zipWith_self]
    apply List.map_congr_left
    intro a ha
    rw [termAt_succ T hT x a (hp a ha)]; rfl

theorem foldl_re (l : List ℂ) (y : ℝ) : l.foldl (fun (y : ℝ) z => ((y : ℂ) + z).re) y = y + l.sum.re := by
  induction l generalizing y with
  | nil => simp
  | cons a l ih => rw [List.foldl_cons, ih]; simp; ring

theorem filterFrom_getElem (rc : RecConv) (x : List ℝ) (s : RecState) (n : ℕ) (hn : n < x.length) :
    (rc.filterFrom s x)[n]? = some (rc.step (Nat.rec s (fun m s => (rc.step s (x.getD m 0)).1) n) (x.getD n 0)).2 := by
  induction x generalizing s n with
  | nil => simp at hn
  | cons a x ih =>
    cases n with
    | zero => simp [RecConv.filterFrom]
    | succ n =>
      simp only [RecConv.filterFrom, List.getElem?_cons_succ]
      rw [ih _ n (by simpa using hn)]
      have : ∀ m : ℕ, (Nat.rec (rc.step s a).1 (fun m s => (rc.step s (x.getD m 0)).1) m : RecState) =
          Nat.rec s (fun m s => (rc.step s ((a :: x).getD m 0)).1) (m + 1) := by
        intro m
        induction m with
        | zero => simp
        | succ m ihm => simp only [ihm]; simp
      rw [this]; simp

theorem filter_length (rc : RecConv) (x : List ℝ) : (rc.filter x).length = x.length := by
  have : ∀ s, (rc.filterFrom s x).length = x.length := by
    induction x with
    | nil => intro s; rfl
    | cons a x ih => intro s; simp [RecConv.filterFrom, ih]
  exact this _

theorem integrable_response (T : ℝ) (hT : 0 < T) (x : List ℝ) (a : ℂ × ℂ) (t : ℝ) (n : ℕ) :
    IntervalIntegrable (fun τ : ℝ => a.2 * Complex.exp (a.1 * ((t - τ : ℝ) : ℂ)) * (interp T x τ : ℂ)) volume 0 (n * T) :=
  integrable_upto T hT x _ (by fun_prop) n

theorem integral_list_sum (l : List (ℂ × ℂ)) (f : ℂ × ℂ → ℝ → ℂ) (b : ℝ)
    (h : ∀ a ∈ l, IntervalIntegrable (f a) volume 0 b) :
    IntervalIntegrable (fun τ => (l.map fun a => f a τ).sum) volume 0 b ∧
    ∫ τ in (0 : ℝ)..b, (l.map fun a => f a τ).sum = (l.map fun a => ∫ τ in (0 : ℝ)..b, f a τ).sum := by
  induction l with
  | nil => simp
  | cons a l ih =>
    have h1 := h a (by simp)
    obtain ⟨h2, h3⟩ := ih fun a' h' => h a' (by simp [h'])
    simp only [List.map_cons, List.sum_cons]
    exact ⟨h1.add h2, by rw [intervalIntegral.integral_add h1 h2, h3]⟩

/-- The convolution part of the exact response is the real part of the sum of the terms. -/
theorem response_eq (asymp : ℝ) (terms : List (ℂ × ℂ)) (T : ℝ) (hT : 0 < T) (x : List ℝ) (n : ℕ) :
    response asymp terms (interp T x) (n * T) =
      asymp * sampleVal x n + ((terms.map fun a => termAt T x a n).sum).re := by
  unfold response
  rw [interp_node T hT]
  congr 1
  obtain ⟨hi, he⟩ := integral_list_sum terms
    (fun a τ => a.2 * Complex.exp (a.1 * ((n * T - τ : ℝ) : ℂ)) * (interp T x τ : ℂ)) (n * T)
    (fun a _ => integrable_response T hT x a (n * T) n)
  have : (terms.map fun a => termAt T x a n).sum = ∫ τ in (0 : ℝ)..(n * T),
      (terms.map fun a => a.2 * Complex.exp (a.1 * ((n * T - τ : ℝ) : ℂ)) * (interp T x τ : ℂ)).sum := he.symm
  rw [this]
  have hre := Complex.reCLM.intervalIntegral_comp_comm hi
  simp only [Complex.reCLM_apply] at hre
  rw [← hre]
  apply intervalIntegral.integral_congr
  intro τ _
  simp only [impulseResponse]
  rw [List.sum_map_mul_right, Complex.re_mul_ofReal]

/-- **C25.** Filtering any sequence with the filter built from any pole-residue expansion without a pole at zero
yields, sample for sample, the exact response of that expansion to the piecewise-linear interpolant of the
input. -/
theorem recursive_is_direct (pr : PoleResidue) (T : ℝ) (hT : 0 < T) (hp : ∀ a ∈ pr.terms, a.1 ≠ 0) (x : List ℝ) :
    ((toRecConv pr T).filter x).length = x.length ∧
    ∀ n, n < x.length →
      ((toRecConv pr T).filter x)[n]? = some (response pr.asymp pr.terms (interp T x) ((n + 1 : ℕ) * T)) := by
  refine ⟨filter_length _ x, fun n hn => ?_⟩
  rw [RecConv.filter, filterFrom_getElem _ _ _ n hn, response_eq pr.asymp pr.terms T hT]
  have : (Nat.rec (toRecConv pr T).init (fun m s => ((toRecConv pr T).step s (x.getD m 0)).1) n : RecState) =
      stateAt (toRecConv pr T) x n := by
    induction n with
    | zero => rfl
    | succ n ih => simp only [stateAt]; rw [← ih (by omega)]
  rw [this]
  have hz := stateAt_zeta pr T hT hp x (n + 1)
  simp only [stateAt] at hz
  have hs : ∀ (rc : RecConv) (s : RecState) (v : ℝ), (rc.step s v).2 = rc.asymp * v + ((rc.step s v).1.zeta.sum).re := by
    intro rc s v; exact foldl_re _ _
  rw [hs, hz]; rfl

/-- Stable poles give a bounded response: with every pole in the open left half plane each state variable stays
below a bound proportional to the largest input, for every input of every length. -/
theorem pole_decay (T : ℝ) (hT : 0 < T) (a : ℂ × ℂ) : ‖(toRCq T a).q0‖ < 1 ↔ a.1.re < 0 := by
  simp only [toRCq, Complex.norm_exp, Real.exp_lt_one_iff, Complex.mul_re, Complex.ofReal_re, Complex.ofReal_im,
    mul_zero, sub_zero]
  exact ⟨fun h => by nlinarith, fun h => mul_neg_of_neg_of_pos h hT⟩

theorem bounded_state (T : ℝ) (hT : 0 < T) (a : ℂ × ℂ) (ha : a.1.re < 0) (x : List ℝ) (X : ℝ)
    (hx : ∀ v ∈ x, |v| ≤ X) (hX : 0 ≤ X) (n : ℕ) :
    ‖termAt T x a n‖ ≤ (‖(toRCq T a).q1‖ + ‖(toRCq T a).q2‖) * X / (1 - ‖(toRCq T a).q0‖) := by
  have h0 : a.1 ≠ 0 := by intro h; simp [h] at ha
  have hq := (pole_decay T hT a).2 ha
  have hv : ∀ n, |sampleVal x n| ≤ X := by
    intro n
    cases n with
    | zero => simpa [sampleVal] using hX
    | succ n =>
      simp only [sampleVal, List.getD_eq_getElem?_getD]
      rcases h : x[n]? with _ | v
      · simpa using hX
      · simpa using hx v (List.mem_of_getElem? h)
  have hq' : 0 < 1 - ‖(toRCq T a).q0‖ := by linarith
  induction n with
  | zero =>
    simp only [termAt, Nat.cast_zero, zero_mul, intervalIntegral.integral_same, norm_zero]
    positivity
  | succ n ih =>
    rw [termAt_succ T hT x a h0]
    set B := (‖(toRCq T a).q1‖ + ‖(toRCq T a).q2‖) * X / (1 - ‖(toRCq T a).q0‖) with hB
    have hb : ‖(toRCq T a).q0‖ * B + (‖(toRCq T a).q1‖ + ‖(toRCq T a).q2‖) * X = B := by
      rw [hB]; field_simp; ring
    calc _ ≤ ‖(toRCq T a).q0 * termAt T x a n‖ + ‖(toRCq T a).q1 * sampleVal x n‖ +
            ‖(toRCq T a).q2 * sampleVal x (n + 1)‖ := norm_add₃_le
      _ = ‖(toRCq T a).q0‖ * ‖termAt T x a n‖ + ‖(toRCq T a).q1‖ * |sampleVal x n| +
            ‖(toRCq T a).q2‖ * |sampleVal x (n + 1)| := by simp
      _ ≤ ‖(toRCq T a).q0‖ * B + ‖(toRCq T a).q1‖ * X + ‖(toRCq T a).q2‖ * X := by
          gcongr
          · exact hv n
          · exact hv (n + 1)
      _ = B := by linarith

/-- **C25 (stability).** If every pole lies in the open left half plane the filter is bounded-input bounded-output:
one gain, depending on the filter only, bounds every output sample for inputs of every length. -/
theorem bounded_output (pr : PoleResidue) (T : ℝ) (hT : 0 < T) (hp : ∀ a ∈ pr.terms, a.1.re < 0) :
    ∃ M : ℝ, ∀ (x : List ℝ) (X : ℝ), (∀ v ∈ x, |v| ≤ X) → 0 ≤ X → ∀ y ∈ (toRecConv pr T).filter x, |y| ≤ M * X := by
  refine ⟨|pr.asymp| + (pr.terms.map fun a => (‖(toRCq T a).q1‖ + ‖(toRCq T a).q2‖) / (1 - ‖(toRCq T a).q0‖)).sum, ?_⟩
  intro x X hx hX y hy
  have h0 : ∀ a ∈ pr.terms, a.1 ≠ 0 := fun a ha h => by have := hp a ha; simp [h] at this
  obtain ⟨n, hn, rfl⟩ := List.mem_iff_getElem.1 hy
  have hn' : n < x.length := by rwa [filter_length] at hn
  have h := (recursive_is_direct pr T hT h0 x).2 n hn'
  rw [List.getElem?_eq_getElem hn, Option.some.injEq] at h
  rw [h, response_eq pr.asymp pr.terms T hT, add_mul]
  have hv : |sampleVal x (n + 1)| ≤ X := by
    simp only [sampleVal, List.getD_eq_getElem?_getD, List.getElem?_eq_getElem hn', Option.getD_some]
    exact hx _ (List.getElem_mem hn')
  have hs : ∀ l : List (ℂ × ℂ), (∀ a ∈ l, a.1.re < 0) →
      ‖(l.map fun a => termAt T x a (n + 1)).sum‖ ≤
        (l.map fun a => (‖(toRCq T a).q1‖ + ‖(toRCq T a).q2‖) / (1 - ‖(toRCq T a).q0‖)).sum * X := by
    intro l hl
    induction l with
    | nil => simp
    | cons a l ih =>
      simp only [List.map_cons, List.sum_cons, add_mul]
      refine (norm_add_le _ _).trans (add_le_add ?_ (ih fun a' h' => hl a' (by simp [h'])))
      refine (bounded_state T hT a (hl a (by simp)) x X hx hX (n + 1)).trans (le_of_eq ?_)
      ring
  refine (abs_add_le _ _).trans (add_le_add ?_ ((Complex.abs_re_le_norm _).trans (hs _ hp)))
  rw [abs_mul]
  exact mul_le_mul_of_nonneg_left hv (abs_nonneg _)

/-- A single decaying term filtered over two samples: the hypotheses are met and the result is the integral. -/
example : ((toRecConv ⟨2, [(-1, 3)]⟩ 1).filter [1, 5])[1]? =
    some (response 2 [(-1, 3)] (interp 1 [1, 5]) ((1 + 1 : ℕ) * 1)) :=
  (recursive_is_direct ⟨2, [(-1, 3)]⟩ 1 one_pos (by simp) [1, 5]).2 1 (by simp)

end Vulture.C25
