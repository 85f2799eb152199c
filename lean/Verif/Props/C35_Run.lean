import Verif.Model.Run
import Verif.Spec.Observe
import Verif.Props.C18_Edges
/-
C35. The run performs exactly the requested number of steps.
-/
set_option linter.unusedSimpArgs false
namespace Vulture.C35
open Vulture Run Spec

/-- Running the body for the listed steps. -/
def steps {σ : Type*} (body : BitVec 64 → σ → Option σ) (l : List Nat) (s : σ) : Option σ :=
  l.foldlM (fun s n => body (BitVec.ofNat 64 n) s) s

theorem cond_iff {N : BitVec 64} (hN : N ≠ 0) {t : Nat} (ht : t ≤ N.toNat) :
    BitVec.ofNat 64 t ≤ N - 1 ↔ t < N.toNat := by
  have hp : 0 < N.toNat := Nat.pos_of_ne_zero fun h => hN (BitVec.eq_of_toNat_eq (by simpa using h))
  have hl := N.isLt
  have e : (N - 1).toNat = N.toNat - 1 := by
    rw [BitVec.toNat_sub]
    have : (1 : BitVec 64).toNat = 1 := rfl
    rw [this, show 2 ^ 64 - 1 + N.toNat = (N.toNat - 1) + 2 ^ 64 by omega, Nat.add_mod_right]
    exact Nat.mod_eq_of_lt (by omega)
  rw [BitVec.le_def, e, BitVec.toNat_ofNat, Nat.mod_eq_of_lt (by omega)]
  omega

theorem loop_iff {σ : Type*} {N : BitVec 64} (hN : N ≠ 0) (body : BitVec 64 → σ → Option σ) (k : Nat) :
    ∀ t, t + k = N.toNat → ∀ s r, (∃ fuel, loop N body fuel (BitVec.ofNat 64 t) s = some r) ↔
      steps body (List.range' t k) s = some r := by
  induction k with
  | zero =>
    intro t ht s r
    have hc : ¬ BitVec.ofNat 64 t ≤ N - 1 := by rw [cond_iff hN (by omega)]; omega
    constructor
    · rintro ⟨_ | f, h⟩
      · simp [loop] at h
      · simp only [loop, hc, if_false] at h; simpa [steps] using h
    · intro h
      refine ⟨1, ?_⟩
      simp only [loop, hc, if_false]; simpa [steps] using h
  | succ k ih =>
    intro t ht s r
    have hc : BitVec.ofNat 64 t ≤ N - 1 := by rw [cond_iff hN (by omega)]; omega
    have e : BitVec.ofNat 64 t + 1 = BitVec.ofNat 64 (t + 1) := by
      rw [show (1 : BitVec 64) = BitVec.ofNat 64 1 by rfl, ← BitVec.ofNat_add]
    have i := ih (t + 1) (by omega)
    have u : steps body (List.range' t (k + 1)) s = (body (BitVec.ofNat 64 t) s).bind
        (steps body (List.range' (t + 1) k)) := by
      simp only [steps, List.range'_succ, List.foldlM_cons]; rfl
    rw [u]
    constructor
    · rintro ⟨_ | f, h⟩
      · simp [loop] at h
      · simp only [loop, hc, if_true, e] at h
        obtain ⟨s', h1, h2⟩ := Option.bind_eq_some_iff.1 h
        rw [h1]
        exact (i s' r).1 ⟨f, h2⟩
    · intro h
      obtain ⟨s', h1, h2⟩ := Option.bind_eq_some_iff.1 h
      obtain ⟨f, hf⟩ := (i s' r).2 h2
      exact ⟨f + 1, by simp only [loop, hc, if_true, e]; rw [h1]; exact hf⟩

/-- With a non-zero number of steps `N` the loop runs its body for 0, 1, .., N-1 in order and then ends; nothing else is
executed. -/
theorem exact_steps {σ : Type*} {N : BitVec 64} (hN : N ≠ 0) (body : BitVec 64 → σ → Option σ) (s r : σ) :
    Ends N body s r ↔ steps body (List.range N.toNat) s = some r := by
  rw [List.range_eq_range']
  exact loop_iff hN body N.toNat 0 (by omega) s r

/-- With NT 0, which the card parser accepts, the loop never ends. -/
theorem zero_steps_never_end {σ : Type*} (body : BitVec 64 → σ → Option σ) (s r : σ) : ¬ Ends 0 body s r := by
  rintro ⟨fuel, h⟩
  have : ∀ (fuel : Nat) (t : BitVec 64) s, loop 0 body fuel t s = some r → False := by
    intro fuel
    induction fuel with
    | zero => intro t s h; simp [loop] at h
    | succ f ih =>
      intro t s h
      have hc : t ≤ 0 - 1 := by
        rw [BitVec.le_def]
        have := t.isLt
        show t.toNat ≤ 2 ^ 64 - 1
        omega
      simp only [loop, hc, if_true] at h
      obtain ⟨s', -, h2⟩ := Option.bind_eq_some_iff.1 h
      exact ih _ s' h2
  exact this fuel 0 s h

theorem zero_accepted : parseNT (some 0) = some 0 := by decide

/-- Any number is accepted as it is. -/
theorem nt_value (n : BitVec 64) : parseNT (some n) = some n := by
  unfold parseNT
  simp only [Option.bind_some]
  rw [if_neg (by rw [BitVec.lt_def]; simp)]

section run
variable (S : Sim) (C : CRef → ℝ) (u : Nat → Loc → ℝ) (e : Env) (dt : ℝ)

/-- The output after the steps below `n`: every observer update sees the fields before that step, at time `n dt`. -/
noncomputable def outputs (s0 : Loc → ℝ) : Nat → Option Out
  | 0 => some Out.empty
  | n + 1 => (outputs s0 n).bind fun o =>
      updateObservers e (BitVec.ofNat 64 n) (n * dt) (S.state C u s0 n) o

theorem steps_run (s0 : Loc → ℝ) (n : Nat) (hn : n ≤ 2 ^ 64) :
    steps (body S C u e dt) (List.range n) (s0, Out.empty) =
      (outputs S C u e dt s0 n).map fun o => (S.state C u s0 n, o) := by
  induction n with
  | zero => rfl
  | succ n ih =>
    have h1 : steps (body S C u e dt) (List.range (n + 1)) (s0, Out.empty) =
        (steps (body S C u e dt) (List.range n) (s0, Out.empty)).bind (body S C u e dt (BitVec.ofNat 64 n)) := by
      simp only [steps, List.range_succ, List.foldlM_append, List.foldlM_cons, List.foldlM_nil]
      cases List.foldlM (fun s n => body S C u e dt (BitVec.ofNat 64 n) s) (s0, Out.empty) (List.range n) with
      | none => rfl
      | some x =>
        show (body S C u e dt (BitVec.ofNat 64 n) x).bind some = body S C u e dt (BitVec.ofNat 64 n) x
        cases body S C u e dt (BitVec.ofNat 64 n) x <;> rfl
    have t : (BitVec.ofNat 64 n).toNat = n := by rw [BitVec.toNat_ofNat, Nat.mod_eq_of_lt (by omega)]
    have h2 : outputs S C u e dt s0 (n + 1) = (outputs S C u e dt s0 n).bind fun o =>
      updateObservers e (BitVec.ofNat 64 n) (n * dt) (S.state C u s0 n) o := rfl
    rw [h1, ih (by omega), h2]
    cases outputs S C u e dt s0 n with
    | none => rfl
    | some o =>
      simp only [Option.map_some, Option.bind_some, body, t]
      rfl

/-- The whole run: it ends if no observer loops for ever, after exactly `N` steps, in the state of step `N`, with the
output of the steps below `N`. -/
theorem run_result {N : BitVec 64} (hN : N ≠ 0) (s0 : Loc → ℝ) (m : Loc → ℝ) (out : Out) :
    Ends N (body S C u e dt) (s0, Out.empty) (m, out) ↔
      m = S.state C u s0 N.toNat ∧ outputs S C u e dt s0 N.toNat = some out := by
  rw [exact_steps hN, steps_run S C u e dt s0 N.toNat N.isLt.le]
  cases outputs S C u e dt s0 N.toNat with
  | none => simp
  | some o => simp [eq_comm]

end run

/-- The Courant number of a run is below one and not negative; without a card, or with a negative one, it is √3/2. A
card with zero is accepted. -/
theorem courant_range (card : Option ℝ) (c : ℝ) (h : parseCN card = some c) : 0 ≤ courant (some c) ∧ courant (some c) < 1 := by
  unfold parseCN at h
  obtain ⟨v, rfl, h'⟩ := Option.bind_eq_some_iff.1 h
  clear h
  split_ifs at h' with hv
  rw [Option.some.injEq] at h'
  subst h'
  push Not at hv
  unfold courant
  simp only [Option.getD_some]
  have h3 : Real.sqrt 3 < 2 := by rw [Real.sqrt_lt' (by norm_num)]; norm_num
  split_ifs with h0
  · exact ⟨by positivity, by linarith⟩
  · exact ⟨not_lt.1 h0, hv⟩

/-- A Courant number between zero and one is used as given; a negative one is replaced by the default; one or more is
rejected. -/
theorem courant_used (v : ℝ) : (v ≥ 1 → parseCN (some v) = none) ∧
    (0 ≤ v → v < 1 → parseCN (some v) = some v ∧ courant (some v) = v) ∧
    (v < 0 → parseCN (some v) = some v ∧ courant (some v) = Real.sqrt 3 / 2) := by
  refine ⟨fun h => ?_, fun h0 h1 => ⟨?_, ?_⟩, fun h => ⟨?_, ?_⟩⟩
  · simp [parseCN, h]
  · simp [parseCN, h1]
  · simp [courant, not_lt.mpr h0]
  · simp [parseCN, lt_trans h one_pos]
  · simp [courant, h]


theorem courant_default : courant none = Real.sqrt 3 / 2 ∧ 0 < courant none ∧ courant none < 1 := by
  have h3 : Real.sqrt 3 < 2 := by rw [Real.sqrt_lt' (by norm_num)]; norm_num
  have : courant none = Real.sqrt 3 / 2 := by unfold courant; norm_num
  rw [this]
  exact ⟨rfl, by positivity, by linarith⟩

theorem courant_zero_accepted : parseCN (some 0) = some 0 ∧ courant (some 0) = 0 := by
  constructor
  · unfold parseCN; norm_num
  · unfold courant; norm_num

/-- With a positive Courant number, every cell of the mesh is within the stability limit. -/
theorem within_limit (card : Option ℝ) (c c0 : ℝ) (h : parseCN card = some c) (hpos : c ≠ 0) (hc : 0 < c0)
    (dmin : Axis → ℝ) (hd : ∀ a, 0 < dmin a) (d : Axis → ℝ) (hdd : ∀ a, dmin a ≤ d a) :
    0 < timeStep (courant (some c)) c0 dmin ∧
    (c0 * timeStep (courant (some c)) c0 dmin) ^ 2 * (1 / d .x ^ 2 + 1 / d .y ^ 2 + 1 / d .z ^ 2) < 1 := by
  have r := courant_range card c h
  have p : 0 < courant (some c) := by
    refine lt_of_le_of_ne r.1 ?_
    unfold courant
    simp only [Option.getD_some]
    split_ifs
    · positivity
    · exact fun h => hpos h.symm
  have t := C18.time_step_courant _ c0 hc p dmin hd
  refine ⟨t.1, lt_of_le_of_lt (t.2.2 d hdd) ?_⟩
  nlinarith [r.2]

/-- Three steps. -/
example : (List.range (3 : BitVec 64).toNat) = [0, 1, 2] := by decide
example : Ends 3 (fun t (s : List (BitVec 64)) => some (s ++ [t])) [] [0, 1, 2] := ⟨4, by decide⟩

end Vulture.C35
