import Verif.Model.Threads
import Verif.Spec.Schedule
/-
Specification for C77: executions of a run by several threads, with any arithmetic.

What an assignment stores is given by an arbitrary function `F` of the values it reads: exact or rounded arithmetic of any
precision, fused or not.  Nothing is assumed about it except that it uses no other values.
-/
namespace Vulture.Spec
variable {α : Type*}

/-- An arithmetic: the value every assignment computes from memory. -/
abbrev Arithmetic (α : Type*) := Asg → (Loc → α) → α

/-- Assignments use only what they read. -/
def Arithmetic.Local (F : Arithmetic α) : Prop := ∀ a s t, (∀ l ∈ a.rhs.reads, s l = t l) → F a s = F a t

/-- One iteration. -/
def iterate (F : Arithmetic α) (b : Block) (s : Loc → α) : Loc → α :=
  fun l => match b.find? (fun a => a.tgt = l) with | some a => F a s | none => s l

/-- One thread executes iteration after iteration. -/
def inOrder (F : Arithmetic α) (p : Prog) (s : Loc → α) : Loc → α := p.foldl (fun s b => iterate F b s) s

/-- One memory access in a parallel loop: see `Spec.Mach.step`. -/
def access (F : Arithmetic α) (m : Mach α) : Ev → Mach α
  | .rd n l => { m with log := fun n' l' => if n' = n ∧ l' = l then m.mem l else m.log n' l' }
  | .wr n a => { m with mem := fun l => if l = a.tgt then F a (m.log n) else m.mem l }

/-- Threads may execute the loops in turn and end in this memory: a parallel loop with its accesses interleaved in any way that
keeps the order within each iteration, the rest in order. -/
inductive Executes (F : Arithmetic α) : List Loop → (Loc → α) → (Loc → α) → Prop
  | done (s) : Executes F [] s s
  | seq {p ls s t} : Executes F ls (inOrder F p s) t → Executes F (⟨false, p⟩ :: ls) s t
  | par {p ls s t} (log0 : Nat → Loc → α) (σ : List Ev) : ScheduleOf p σ →
      Executes F ls (σ.foldl (access F) ⟨s, log0⟩).mem t → Executes F (⟨true, p⟩ :: ls) s t

/-- A run: memory before each step, with excitation values `u n` in step `n`; every step may be scheduled differently. -/
def ThreadedRun (F : Arithmetic α) (S : Sim) (u : ℕ → Loc → α) (s0 : Loc → α) (m : ℕ → Loc → α) : Prop :=
  m 0 = s0 ∧ ∀ n, Executes F S.loops (setInputs (u n) (m n)) (m (n + 1))

/-- The run of one thread. -/
def oneThread (F : Arithmetic α) (S : Sim) (u : ℕ → Loc → α) (s0 : Loc → α) : ℕ → Loc → α
  | 0 => s0
  | n + 1 => inOrder F S.step (setInputs (u n) (oneThread F S u s0 n))

end Vulture.Spec
