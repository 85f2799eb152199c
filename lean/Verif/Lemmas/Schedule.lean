import Verif.Spec.Schedule
import Verif.Lemmas.Prog
import Mathlib.Data.List.Induction
/- Every schedule of independent iterations computes what the sequential loop computes. -/
namespace Vulture
open Spec
variable {K : Type*} [CommRing K] (C : CRef → K)

theorem mach_run_snoc (m : Mach K) (σ : List Ev) (e : Ev) :
    m.run C (σ ++ [e]) = (m.run C σ).step C e := by simp [Mach.run]

theorem indep_get {p : Prog} (hp : p.Pairwise Indep) {n m : Nat} {a b : Block} (hnm : n ≠ m)
    (ha : p[n]? = some a) (hb : p[m]? = some b) : Indep a b := by
  obtain ⟨h1, rfl⟩ := List.getElem?_eq_some_iff.1 ha
  obtain ⟨h2, rfl⟩ := List.getElem?_eq_some_iff.1 hb
  rw [List.pairwise_iff_getElem] at hp
  rcases Nat.lt_or_gt_of_ne hnm with h | h
  · exact hp n m h1 h2 h
  · exact (hp m n h2 h1 h).symm

/-- Invariant over the prefixes of a schedule. -/
theorem sched_inv {p : Prog} (hp : p.Pairwise Indep) (hn : ∀ b ∈ p, b.writes.Nodup) {σ : List Ev}
    (hs : ScheduleOf p σ) (s : Loc → K) (log0 : Nat → Loc → K) (σ1 σ2 : List Ev) (hσ : σ = σ1 ++ σ2) :
    let m := Mach.run C ⟨s, log0⟩ σ1
    (∀ n l, Ev.rd n l ∈ σ1 → m.log n l = s l) ∧
    (∀ l, (∀ n a, Ev.wr n a ∈ σ1 → a.tgt ≠ l) → m.mem l = s l) ∧
    (∀ n a, Ev.wr n a ∈ σ1 → m.mem a.tgt = a.rhs.eval C s) := by
  induction σ1 using List.reverseRecOn generalizing σ2 with
  | nil => simp [Mach.run]
  | append_singleton σ1 e ih =>
    have hσ' : σ = σ1 ++ (e :: σ2) := by simpa using hσ
    obtain ⟨i1, i2, i3⟩ := ih (e :: σ2) hσ'
    rw [mach_run_snoc]
    cases e with
    | rd n l =>
      obtain ⟨b, hb, hl⟩ := hs.ev_rd n l (by rw [hσ']; simp)
      have hold : (Mach.run C ⟨s, log0⟩ σ1).mem l = s l := by
        apply i2
        intro n' a' hw heq
        obtain ⟨b', hb', ha'⟩ := hs.ev_wr n' a' (by rw [hσ']; simp [hw])
        by_cases hne : n' = n
        · subst hne
          exact hs.old_values _ _ _ _ hσ' a' hw heq
        · exact ((indep_get hp hne hb' hb).1 l (List.mem_map.2 ⟨a', ha', heq⟩)).2 hl
      refine ⟨?_, ?_, ?_⟩
      · intro n' l' hm
        simp only [Mach.step]
        by_cases hc : n' = n ∧ l' = l
        · rw [if_pos hc, hc.2]; exact hold
        · rw [if_neg hc]
          apply i1
          rcases List.mem_append.1 hm with h | h
          · exact h
          · simp at h; exact absurd h hc
      · intro l' hl'
        exact i2 l' fun n' a' hm => hl' n' a' (by simp [hm])
      · intro n' a' hm
        apply i3
        simpa using hm
    | wr n a =>
      obtain ⟨b, hb, ha⟩ := hs.ev_wr n a (by rw [hσ']; simp)
      have hval : a.rhs.eval C ((Mach.run C ⟨s, log0⟩ σ1).log n) = a.rhs.eval C s :=
        eval_congr C _ fun l hl => i1 n l (hs.after_reads _ _ _ _ hσ' l hl)
      refine ⟨?_, ?_, ?_⟩
      · intro n' l' hm
        exact i1 n' l' (by simpa using hm)
      · intro l' hl'
        simp only [Mach.step]
        rw [if_neg (fun q => hl' n a (by simp) q.symm)]
        exact i2 l' fun n' a' hm => hl' n' a' (by simp [hm])
      · intro n' a' hm
        simp only [Mach.step]
        by_cases hc : a'.tgt = a.tgt
        · rw [if_pos hc, hval]
          obtain ⟨b', hb', ha'⟩ := hs.ev_wr n' a' (by
            rw [hσ]; exact List.mem_append_left _ hm)
          by_cases hne : n' = n
          · subst hne
            rw [hb] at hb'; injection hb' with hb'; subst hb'
            have := hn b (List.mem_of_getElem? hb)
            have e : a = a' := List.inj_on_of_nodup_map this ha ha' hc.symm
            rw [e]
          · exact absurd (List.mem_map.2 ⟨a, ha, hc.symm⟩)
              ((indep_get hp hne hb' hb).1 a'.tgt (List.mem_map.2 ⟨a', ha', rfl⟩)).1
        · rw [if_neg hc]
          apply i3 n' a'
          rcases List.mem_append.1 hm with h | h
          · exact h
          · simp at h; exact absurd (by rw [h.2]) hc

/-- Any interleaving of independent iterations ends in the memory of the sequential loop. -/
theorem schedule_eq_sequential {p : Prog} (hp : p.Pairwise Indep) (hn : ∀ b ∈ p, b.writes.Nodup)
    {σ : List Ev} (hs : ScheduleOf p σ) (s : Loc → K) (log0 : Nat → Loc → K) :
    (Mach.run C ⟨s, log0⟩ σ).mem = p.run C s := by
  obtain ⟨-, i2, i3⟩ := sched_inv C hp hn hs s log0 σ [] (by simp)
  funext l
  by_cases hl : ∃ b ∈ p, l ∈ b.writes
  · obtain ⟨b, hb, hw⟩ := hl
    rw [run_indep C hp hb hw]
    obtain ⟨n, hlt, hbn⟩ := List.mem_iff_getElem.1 hb
    obtain ⟨a, ha, rfl⟩ := List.mem_map.1 hw
    rw [i3 n a (hs.complete n b (List.getElem?_eq_some_iff.2 ⟨hlt, hbn⟩) a ha)]
    unfold Block.exec
    cases hf : b.find? (fun x => x.tgt = a.tgt) with
    | none =>
      rw [List.find?_eq_none] at hf
      exact absurd (hf a ha) (by simp)
    | some a' =>
      have h1 := List.mem_of_find?_eq_some hf
      have h2 := List.find?_some hf
      have e : a' = a := List.inj_on_of_nodup_map (hn b hb) h1 ha (by simpa using h2)
      rw [e]
  · push Not at hl
    rw [run_not_written C hl]
    apply i2
    intro n a hm heq
    obtain ⟨b, hb, ha⟩ := hs.ev_wr n a hm
    exact hl b (List.mem_of_getElem? hb) (List.mem_map.2 ⟨a, ha, heq⟩)

end Vulture
