import Verif.Model.Prog
/-
Thread schedules of a parallel loop.  The iterations (blocks) of a loop may be executed by any number
of threads; each iteration performs memory reads and memory writes, and the accesses of different
iterations may be interleaved in any way.  What a write stores is computed from the values the same
iteration has read.
-/
namespace Vulture.Spec

/-- One shared-memory access of iteration `n`. -/
inductive Ev
  | rd (n : Nat) (l : Loc)
  | wr (n : Nat) (a : Asg)

/-- Shared memory and, per iteration, the values it has read so far. -/
structure Mach (K : Type*) where
  mem : Loc → K
  log : Nat → Loc → K

/-- One access. -/
def Mach.step {K : Type*} [CommRing K] (C : CRef → K) (m : Mach K) : Ev → Mach K
  | .rd n l => { m with log := fun n' l' => if n' = n ∧ l' = l then m.mem l else m.log n' l' }
  | .wr n a => { m with mem := fun l => if l = a.tgt then a.rhs.eval C (m.log n) else m.mem l }

/-- A run of a schedule. -/
def Mach.run {K : Type*} [CommRing K] (C : CRef → K) (m : Mach K) (σ : List Ev) : Mach K :=
  σ.foldl (fun m e => m.step C e) m

/-- `σ` is an execution of the iterations `p`: it consists of accesses of these iterations, every
assignment is executed, an assignment is executed after the reads it needs, and an iteration does not
read an element again after it has overwritten it (it uses the `old...` copy).  Nothing is said about
how accesses of different iterations are ordered. -/
structure ScheduleOf (p : Prog) (σ : List Ev) : Prop where
  ev_rd : ∀ n l, Ev.rd n l ∈ σ → ∃ b, p[n]? = some b ∧ l ∈ b.reads
  ev_wr : ∀ n a, Ev.wr n a ∈ σ → ∃ b, p[n]? = some b ∧ a ∈ b
  complete : ∀ n b, p[n]? = some b → ∀ a ∈ b, Ev.wr n a ∈ σ
  after_reads : ∀ σ1 σ2 n a, σ = σ1 ++ Ev.wr n a :: σ2 → ∀ l ∈ a.rhs.reads, Ev.rd n l ∈ σ1
  old_values : ∀ σ1 σ2 n l, σ = σ1 ++ Ev.rd n l :: σ2 → ∀ a, Ev.wr n a ∈ σ1 → a.tgt ≠ l

end Vulture.Spec
