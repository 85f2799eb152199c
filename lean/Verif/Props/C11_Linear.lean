import Verif.Model.Sim
import Verif.Lemmas.Prog
/-
C11 (superposition) and C12 (no excitation, no field), for the full time step: main grid, PML, Mur,
Debye blocks, impedance surfaces, all sources, plane waves (analytic and auxiliary grid) and ghosts.
-/
namespace Vulture.C11
variable {K : Type*} [CommRing K]

/-- C11: the field (and every auxiliary quantity) before any step is a linear function of the initial
memory and of the history of excitation values. -/
theorem superposition (S : Sim) (C : CRef → K) (a b : K) (u v : Nat → Loc → K) (s0 t0 : Loc → K)
    (n : Nat) :
    S.state C (fun m l => a * u m l + b * v m l) (fun l => a * s0 l + b * t0 l) n =
      fun l => a * S.state C u s0 n l + b * S.state C v t0 n l := by
  induction n with
  | zero => rfl
  | succ n ih =>
    simp only [Sim.state]
    rw [ih, ← run_linear]
    congr 1
    funext l
    unfold setInputs
    split <;> rfl

/-- Scaling the excitation of a run from the cleared grid scales every response. -/
theorem homogeneous (S : Sim) (C : CRef → K) (a : K) (u : Nat → Loc → K) (n : Nat) (l : Loc) :
    S.state C (fun m l => a * u m l) (fun _ => 0) n l = a * S.state C u (fun _ => 0) n l := by
  have := congrFun (superposition S C a 0 u u (fun _ => 0) (fun _ => 0) n) l
  simpa using this

/-- The response to two excitations together is the sum of the separate responses. -/
theorem additive (S : Sim) (C : CRef → K) (u v : Nat → Loc → K) (n : Nat) (l : Loc) :
    S.state C (fun m l => u m l + v m l) (fun _ => 0) n l =
      S.state C u (fun _ => 0) n l + S.state C v (fun _ => 0) n l := by
  have := congrFun (superposition S C 1 1 u v (fun _ => 0) (fun _ => 0) n) l
  simpa using this

/-- The state before step `n` depends only on the excitation of the steps before it. -/
theorem causal (S : Sim) (C : CRef → K) (u v : Nat → Loc → K) (s0 : Loc → K) (n : Nat)
    (h : ∀ m < n, ∀ l, l.isInput = true → u m l = v m l) : S.state C u s0 n = S.state C v s0 n := by
  induction n with
  | zero => rfl
  | succ n ih =>
    simp only [Sim.state]
    rw [ih fun m hm => h m (by omega)]
    congr 1
    funext l
    unfold setInputs
    split
    · rename_i hl; exact h n (by omega) l hl
    · rfl

/-- A one-cell box with PMC walls and one soft field source. -/
def tiny : Sim :=
  { cfg := ⟨fun _ => 1, fun _ => .pmc, fun _ => 0⟩
    debye := [], sibc := [], pws := []
    srcs := [⟨.efield, .ex, mkBox 1 2 1 1 1 1⟩] }

/-- The theorems are about runs that do something: one excited step leaves a non-zero field. -/
example : tiny.state (K := Int) (fun _ => 1) (fun _ _ => 1) (fun _ => 0) 1 (.fld .ex 1 1 1) = 1 := by
  decide +kernel
example : tiny.state (K := Int) (fun _ => 1) (fun _ _ => 1) (fun _ => 0) 1 (.fld .hz 1 1 1) = -1 := by
  decide +kernel

end Vulture.C11

namespace Vulture.C12
variable {K : Type*} [CommRing K]

/-- C12: from the cleared grid, as long as every excitation value so far was zero, everything is zero. -/
theorem quiet (S : Sim) (C : CRef → K) (u : Nat → Loc → K) (n : Nat)
    (hu : ∀ m < n, ∀ l, u m l = 0) (l : Loc) : S.state C u (fun _ => 0) n l = 0 := by
  induction n generalizing l with
  | zero => rfl
  | succ n ih =>
    have h0 : S.state C u (fun _ => 0) n = fun _ => 0 :=
      funext fun l => ih (fun m hm => hu m (by omega)) l
    have hz : setInputs (u n) (fun _ => (0 : K)) = fun _ => 0 := by
      funext l; unfold setInputs; split
      · exact hu n (by omega) l
      · rfl
    simp only [Sim.state, h0, hz]
    have := congrFun (run_linear C (0 : K) 0 S.step (fun _ => 0) (fun _ => 0)) l
    simpa using this

end Vulture.C12
