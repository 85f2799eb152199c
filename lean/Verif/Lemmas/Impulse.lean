import Verif.Props.C11_Linear
import Mathlib.Topology.Algebra.InfiniteSum.Real
import Mathlib.Analysis.SpecificLimits.Normed
/-
The response to any excitation as a sum of impulse responses, and a bound for it.
-/
set_option linter.unusedVariables false
namespace Vulture.Impulse
open Finset

section
variable {K : Type*} [CommRing K] (S : Sim) (C : CRef → K)

/-- Excitation in step 0 only. -/
def first (v : Loc → K) : ℕ → Loc → K := fun n => if n = 0 then v else fun _ => 0

/-- Response to an excitation in step 0. -/
def resp (v : Loc → K) (n : ℕ) : Loc → K := S.state C (first v) (fun _ => 0) n

/-- Excitation in step `m` only: the same response, later. -/
theorem later (v : Loc → K) (m n : ℕ) :
    S.state C (fun q => if q = m then v else fun _ => 0) (fun _ => 0) (m + n) = resp S C v n := by
  induction n with
  | zero =>
    funext l
    rw [Nat.add_zero]
    show _ = (0 : K)
    refine C12.quiet S C _ m (fun q hq l => ?_) l
    rw [if_neg (by omega)]
  | succ n ih =>
    rw [← Nat.add_assoc]
    show S.step.run C (setInputs _ _) = S.step.run C (setInputs _ _)
    rw [ih]
    have : (if m + n = m then v else fun _ => 0) = first v n := by
      unfold first
      by_cases h : n = 0
      · subst h; simp
      · rw [if_neg h, if_neg (by omega)]
    show S.step.run C (setInputs (if m + n = m then v else fun _ => 0) _) = _
    rw [this]; rfl

/-- Excitation cut off before step `N`. -/
theorem cut (u : ℕ → Loc → K) (n : ℕ) (l : Loc) : ∀ N ≤ n,
    S.state C (fun q => if q < N then u q else fun _ => 0) (fun _ => 0) n l =
      ∑ m ∈ range N, resp S C (u m) (n - m) l := by
  intro N
  induction N with
  | zero =>
    intro _
    rw [range_zero, sum_empty]
    exact C12.quiet S C _ n (fun q _ l => by simp) l
  | succ N ih =>
    intro hN
    rw [sum_range_succ, ← ih (by omega), ← later S C (u N) N (n - N), show N + (n - N) = n by omega, ← C11.additive]
    congr 2
    funext q l
    by_cases h1 : q < N
    · simp [h1, show q < N + 1 by omega, show q ≠ N by omega]
    · by_cases h2 : q = N
      · subst h2; simp
      · simp [h1, h2, show ¬ q < N + 1 by omega]

/-- The response before step `n` is the sum of the responses to the single steps. -/
theorem decomposed (u : ℕ → Loc → K) (n : ℕ) (l : Loc) :
    S.state C u (fun _ => 0) n l = ∑ m ∈ range n, resp S C (u m) (n - m) l := by
  rw [← cut S C u n l n (le_refl _)]
  refine congrFun (C11.causal S C _ _ _ n fun m hm l _ => ?_) l
  rw [if_pos hm]

open Classical in
/-- One input equal to one. -/
noncomputable def unit (x : Loc) : Loc → K := fun l => if l = x then 1 else 0

open Classical in
/-- The response to a step in which finitely many inputs are not zero. -/
theorem inputs (T : Finset Loc) : ∀ (v : Loc → K), (∀ l, l.isInput = true → l ∉ T → v l = 0) → ∀ (n : ℕ) (l : Loc),
    resp S C v n l = ∑ x ∈ T, v x * resp S C (unit x) n l := by
  induction T using Finset.induction_on with
  | empty =>
    intro v hv n l
    rw [sum_empty]
    have : resp S C v n = S.state C (fun _ _ => 0) (fun _ => 0) n := by
      refine C11.causal S C _ _ _ n fun m _ l hl => ?_
      unfold first
      by_cases h : m = 0
      · simp [h, hv l hl (by simp)]
      · simp [h]
    rw [this]
    exact C12.quiet S C _ n (fun _ _ _ => rfl) l
  | insert x T hx ih =>
    intro v hv n l
    rw [sum_insert hx]
    have hT : ∑ y ∈ T, v y * resp S C (unit y) n l = ∑ y ∈ T, (fun l => if l = x then 0 else v l) y * resp S C (unit y) n l := by
      refine sum_congr rfl fun y hy => ?_
      have : y ≠ x := fun e => hx (e ▸ hy)
      simp [this]
    rw [hT, ← ih (fun l => if l = x then 0 else v l) ?_ n l]
    · unfold resp
      rw [← C11.homogeneous, ← C11.additive]
      congr 2
      funext q l
      unfold first unit
      by_cases h : q = 0
      · by_cases h2 : l = x
        · simp [h, h2]
        · simp [h, h2]
      · simp [h]
    · intro l hl hT
      by_cases h : l = x
      · simp [h]
      · simp [h]; exact hv l hl (by simp [h, hT])
end

section
variable (S : Sim) (C : CRef → ℝ)

/-- If every input, applied once, gives a bounded response at `l`, then so does every excitation that is absolutely summable. -/
theorem bounded (T : Finset Loc) (u : ℕ → Loc → ℝ) (hu : ∀ n l, l.isInput = true → l ∉ T → u n l = 0)
    (hs : ∀ x ∈ T, Summable fun n => |u n x|) (l : Loc) (hb : ∀ x ∈ T, ∃ M, ∀ n, |resp S C (unit x) n l| ≤ M) :
    ∃ M, ∀ n, |S.state C u (fun _ => 0) n l| ≤ M := by
  classical
  choose! B hB using hb
  have hB0 : ∀ x ∈ T, 0 ≤ B x := fun x hx => (abs_nonneg _).trans (hB x hx 0)
  refine ⟨∑ x ∈ T, (∑' n, |u n x|) * B x, fun n => ?_⟩
  rw [decomposed]
  have e : ∀ m ∈ range n, resp S C (u m) (n - m) l = ∑ x ∈ T, u m x * resp S C (unit x) (n - m) l :=
    fun m _ => inputs S C T (u m) (hu m) (n - m) l
  rw [sum_congr rfl e, sum_comm]
  refine (abs_sum_le_sum_abs _ _).trans (sum_le_sum fun x hx => ?_)
  refine (abs_sum_le_sum_abs _ _).trans ?_
  have h1 : ∀ m ∈ range n, |u m x * resp S C (unit x) (n - m) l| ≤ |u m x| * B x := by
    intro m _
    rw [abs_mul]
    exact mul_le_mul_of_nonneg_left (hB x hx _) (abs_nonneg _)
  refine (sum_le_sum h1).trans ?_
  rw [← sum_mul]
  exact mul_le_mul_of_nonneg_right ((hs x hx).sum_le_tsum _ (fun _ _ => abs_nonneg _)) (hB0 x hx)
end
end Vulture.Impulse
