import Verif.Model.Prog
import Mathlib.Data.List.Perm.Basic
import Mathlib.Data.List.Nodup
import Mathlib.Tactic.Ring
/- Generic facts about programs of array assignments. -/
namespace Vulture
variable {K : Type*} [CommRing K] (C : CRef → K)

theorem mem_intRange {lo hi i : Int} : i ∈ intRange lo hi ↔ lo ≤ i ∧ i ≤ hi := by
  unfold intRange
  simp only [List.mem_map, List.mem_range]
  constructor
  · rintro ⟨t, ht, rfl⟩; omega
  · rintro ⟨h1, h2⟩; exact ⟨(i - lo).toNat, by omega, by omega⟩

theorem nodup_intRange (lo hi : Int) : (intRange lo hi).Nodup := by
  unfold intRange
  refine List.Nodup.map ?_ List.nodup_range
  intro a b h; simp only at h; omega

theorem mem_boxLoop {lim : Face → Int} {i j k : Int} :
    (i, j, k) ∈ boxLoop lim ↔
      (lim .xlo ≤ i ∧ i ≤ lim .xhi) ∧ (lim .ylo ≤ j ∧ j ≤ lim .yhi) ∧
      (lim .zlo ≤ k ∧ k ≤ lim .zhi) := by
  unfold boxLoop
  simp only [List.mem_flatMap, List.mem_map, mem_intRange]
  constructor
  · rintro ⟨a, ha, b, hb, d, hd, h⟩
    injection h with h1 h2; injection h2 with h2 h3
    subst h1 h2 h3; exact ⟨ha, hb, hd⟩
  · rintro ⟨h1, h2, h3⟩; exact ⟨i, h1, j, h2, k, h3, rfl⟩

theorem nodup_boxLoop (lim : Face → Int) : (boxLoop lim).Nodup := by
  unfold boxLoop
  rw [List.nodup_flatMap]
  refine ⟨?_, ?_⟩
  · intro i _
    rw [List.nodup_flatMap]
    refine ⟨?_, ?_⟩
    · intro j _
      refine List.Nodup.map ?_ (nodup_intRange _ _)
      intro a b h; injection h with _ h; injection h
    · refine List.Pairwise.imp ?_ (nodup_intRange _ _)
      intro a b hab x hx hy
      simp only [List.mem_map] at hx hy
      obtain ⟨_, _, rfl⟩ := hx
      obtain ⟨_, _, h⟩ := hy
      injection h with _ h; injection h with h _; exact hab h.symm
  · refine List.Pairwise.imp ?_ (nodup_intRange _ _)
    intro a b hab x hx hy
    simp only [List.mem_flatMap, List.mem_map] at hx hy
    obtain ⟨_, _, _, _, rfl⟩ := hx
    obtain ⟨_, _, _, _, h⟩ := hy
    injection h with h _; exact hab h.symm

theorem eval_congr {s t : Loc → K} (e : Expr) (h : ∀ l ∈ e.reads, s l = t l) :
    e.eval C s = e.eval C t := by
  induction e with
  | zero => rfl
  | rd l => exact h l (by simp [Expr.reads])
  | add a b iha ihb =>
    simp only [Expr.eval]
    rw [iha fun l hl => h l (by simp [Expr.reads, hl]), ihb fun l hl => h l (by simp [Expr.reads, hl])]
  | sub a b iha ihb =>
    simp only [Expr.eval]
    rw [iha fun l hl => h l (by simp [Expr.reads, hl]), ihb fun l hl => h l (by simp [Expr.reads, hl])]
  | neg a iha => simp only [Expr.eval]; rw [iha fun l hl => h l (by simp [Expr.reads, hl])]
  | mul c a iha => simp only [Expr.eval]; rw [iha fun l hl => h l (by simp [Expr.reads, hl])]

theorem eval_linear (a b : K) (s t : Loc → K) (e : Expr) :
    e.eval C (fun l => a * s l + b * t l) = a * e.eval C s + b * e.eval C t := by
  induction e with
  | zero => simp [Expr.eval]
  | rd l => rfl
  | add x y hx hy => simp only [Expr.eval, hx, hy]; ring
  | sub x y hx hy => simp only [Expr.eval, hx, hy]; ring
  | neg x hx => simp only [Expr.eval, hx]; ring
  | mul c x hx => simp only [Expr.eval, hx]; ring

theorem exec_linear (a b : K) (s t : Loc → K) (bl : Block) :
    bl.exec C (fun l => a * s l + b * t l) = fun l => a * bl.exec C s l + b * bl.exec C t l := by
  funext l
  unfold Block.exec
  cases bl.find? (fun x => x.tgt = l) with
  | none => rfl
  | some x => exact eval_linear C a b s t x.rhs

theorem run_linear (a b : K) (p : Prog) (s t : Loc → K) :
    p.run C (fun l => a * s l + b * t l) = fun l => a * p.run C s l + b * p.run C t l := by
  induction p generalizing s t with
  | nil => rfl
  | cons bl p ih =>
    simp only [Prog.run, List.foldl_cons] at *
    rw [exec_linear, ih]

theorem run_append (p q : Prog) (s : Loc → K) : Prog.run C (p ++ q) s = Prog.run C q (Prog.run C p s) := by
  simp [Prog.run]

theorem run_cons (b : Block) (p : Prog) (s : Loc → K) :
    Prog.run C (b :: p) s = Prog.run C p (b.exec C s) := rfl

theorem run_nil (s : Loc → K) : Prog.run C [] s = s := rfl

theorem exec_not_written {b : Block} {s : Loc → K} {l : Loc} (h : l ∉ b.writes) :
    b.exec C s l = s l := by
  unfold Block.exec
  have : b.find? (fun a => a.tgt = l) = none := by
    rw [List.find?_eq_none]
    intro a ha hl
    exact h (List.mem_map.2 ⟨a, ha, by simpa using hl⟩)
  rw [this]

theorem run_not_written {p : Prog} {s : Loc → K} {l : Loc} (h : ∀ b ∈ p, l ∉ b.writes) :
    p.run C s l = s l := by
  induction p generalizing s with
  | nil => rfl
  | cons b p ih =>
    rw [run_cons, ih (fun b hb => h b (by simp [hb])), exec_not_written C (h b (by simp))]

theorem exec_congr {b : Block} {s t : Loc → K} {l : Loc} (hr : ∀ m ∈ b.reads, s m = t m)
    (hl : l ∈ b.writes) : b.exec C s l = b.exec C t l := by
  unfold Block.exec
  cases h : b.find? (fun a => a.tgt = l) with
  | none =>
    exfalso
    rw [List.find?_eq_none] at h
    obtain ⟨a, ha, rfl⟩ := List.mem_map.1 hl
    exact h a ha (by simp)
  | some a =>
    have ha : a ∈ b := List.mem_of_find?_eq_some h
    exact eval_congr C _ fun m hm => hr m (List.mem_flatMap.2 ⟨a, ha, hm⟩)

/-- Two iterations touch disjoint data: neither writes what the other reads or writes. -/
def Indep (b1 b2 : Block) : Prop :=
  (∀ l ∈ b1.writes, l ∉ b2.writes ∧ l ∉ b2.reads) ∧ (∀ l ∈ b2.writes, l ∉ b1.writes ∧ l ∉ b1.reads)

theorem Indep.symm {b1 b2 : Block} (h : Indep b1 b2) : Indep b2 b1 := ⟨h.2, h.1⟩

/-- A program of pairwise independent iterations computes every written element from the initial
memory. -/
theorem run_indep {p : Prog} (hp : p.Pairwise Indep) {s : Loc → K} {b : Block} (hb : b ∈ p) {l : Loc}
    (hl : l ∈ b.writes) : p.run C s l = b.exec C s l := by
  induction p generalizing s with
  | nil => cases hb
  | cons b0 p ih =>
    rw [run_cons]
    obtain ⟨h0, hp'⟩ := List.pairwise_cons.1 hp
    rcases List.mem_cons.1 hb with rfl | hb'
    · exact run_not_written C fun b' hb' => ((h0 b' hb').1 l hl).1
    · rw [ih hp' hb']
      apply exec_congr C _ hl
      intro m hm
      exact exec_not_written C fun hw => ((h0 b hb').1 m hw).2 hm

/-- The order of independent iterations does not matter. -/
theorem run_perm {p q : Prog} (hp : p.Pairwise Indep) (h : p.Perm q) (s : Loc → K) :
    p.run C s = q.run C s := by
  have hq : q.Pairwise Indep := (h.pairwise_iff (fun hab => Indep.symm hab)).1 hp
  funext l
  by_cases hl : ∃ b ∈ p, l ∈ b.writes
  · obtain ⟨b, hb, hw⟩ := hl
    rw [run_indep C hp hb hw, run_indep C hq (h.mem_iff.1 hb) hw]
  · push Not at hl
    rw [run_not_written C hl, run_not_written C fun b hb => hl b (h.mem_iff.2 hb)]

end Vulture
