import Verif.Lemmas.Kinds
/- Values of locations only one iteration of a loop nest touches. -/
namespace Vulture
open Spec C10
variable {K : Type*} [CommRing K] (C : CRef → K)

/-- Value assigned by the only assignment to a location. -/
theorem exec_of_mem {b : Block} {a : Asg} (ha : a ∈ b) (hu : ∀ a' ∈ b, a'.tgt = a.tgt → a' = a) (s : Loc → K) :
    b.exec C s a.tgt = a.rhs.eval C s := by
  unfold Block.exec
  cases h : b.find? (fun a' => a'.tgt = a.tgt) with
  | none => rw [List.find?_eq_none] at h; have := h a ha; simp at this
  | some a' =>
    have h1 := List.mem_of_find?_eq_some h
    have h2 : a'.tgt = a.tgt := by simpa using List.find?_some h
    rw [hu a' h1 h2]

/-- A loop in which only the iteration `x` touches the locations `S`. -/
theorem run_flatMap_sole {α : Type*} {L : List α} {f : α → Prog} {x : α} (hx : x ∈ L) (hn : L.Nodup)
    {S : Set Loc} (h : ∀ y ∈ L, y ≠ x → ∀ l ∈ S, NoWrite (f y) l) (s : Loc → K) :
    ∃ s', (∀ l ∈ S, s' l = s l) ∧ ∀ l ∈ S, Prog.run C (L.flatMap f) s l = Prog.run C (f x) s' l := by
  obtain ⟨p, q, rfl⟩ := List.append_of_mem hx
  have hn' := List.nodup_append.1 hn
  have hp : ∀ l ∈ S, NoWrite (p.flatMap f) l := fun l hl => NoWrite.flatMap fun y hy =>
    h y (by simp [hy]) (fun e => hn'.2.2 _ hy x (by simp) e) l hl
  have hq : ∀ l ∈ S, NoWrite (q.flatMap f) l := fun l hl => NoWrite.flatMap fun y hy =>
    h y (by simp [hy]) (fun e => by subst e; exact (List.nodup_cons.1 hn'.2.1).1 hy) l hl
  refine ⟨Prog.run C (p.flatMap f) s, fun l hl => NoWrite.run C (hp l hl) s, fun l hl => ?_⟩
  rw [List.flatMap_append, List.flatMap_cons, run_append, run_append, NoWrite.run C (hq l hl)]

/-- A triple loop in which only the iteration `(i,j,k)` touches the locations `S`, which contain all its
operands. -/
theorem run_loop_sole {lim : Face → Int} {body : Int → Int → Int → Block} {i j k : Int} (hi : InLim lim i j k)
    {S : Set Loc} (h : ∀ i' j' k', (i', j', k') ≠ (i, j, k) → ∀ l ∈ S, l ∉ (body i' j' k').writes)
    (hr : ∀ l ∈ (body i j k).reads, l ∈ S) (s : Loc → K) :
    ∀ l ∈ S, l ∈ (body i j k).writes → Prog.run C (loopOver lim body) s l = (body i j k).exec C s l := by
  have e : loopOver lim body = (boxLoop lim).flatMap fun t => [body t.1 t.2.1 t.2.2] := by
    unfold loopOver
    rw [List.map_eq_flatMap]
  have hm : (i, j, k) ∈ boxLoop lim := mem_boxLoop.2 hi
  obtain ⟨s', h1, h2⟩ := run_flatMap_sole C (f := fun t : Int × Int × Int => [body t.1 t.2.1 t.2.2]) hm
    (nodup_boxLoop lim) (S := S) (fun y hy hne l hl b hb => by
      simp only [List.mem_singleton] at hb
      subst hb
      exact h _ _ _ hne l hl) s
  intro l hl hw
  rw [e, h2 l hl, run_cons, run_nil]
  exact exec_congr C (fun m hm => h1 m (hr m hm)) hw

end Vulture
