import Verif.Lemmas.TurnPhases
/-
Renaming of the axes: commuting iterations, Mur faces, items. Lemmas for C39.
-/
set_option linter.unusedSimpArgs false
set_option linter.unusedVariables false
set_option linter.unusedSectionVars false
namespace Vulture
open Spec C09 C10

section comm
variable {K : Type*} [CommRing K] (C : CRef → K)

/-- Two iterations may be exchanged. -/
def Comm (a b : Block) : Prop := ∀ s : Loc → K, a.exec C (b.exec C s) = b.exec C (a.exec C s)

theorem Comm.of_indep {a b : Block} (h : Indep a b) : Comm C a b := by
  intro s
  have h1 : Prog.run C [b, a] s = Prog.run C [a, b] s := by
    refine run_perm C ?_ (List.Perm.swap a b []) s
    simp only [List.pairwise_cons, List.mem_singleton, forall_eq, List.not_mem_nil, false_imp_iff,
      implies_true, List.Pairwise.nil, and_true]
    exact h.symm
  simpa [run_cons, run_nil] using h1

theorem run_comm_block {a : Block} {q : Prog} (h : ∀ b ∈ q, Comm C a b) (s : Loc → K) :
    q.run C (a.exec C s) = a.exec C (q.run C s) := by
  induction q generalizing s with
  | nil => rfl
  | cons b q ih =>
    rw [run_cons, run_cons, ← h b (List.mem_cons_self ..) s,
      ih fun b' hb' => h b' (List.mem_cons_of_mem _ hb')]

theorem run_comm {p q : Prog} (h : ∀ a ∈ p, ∀ b ∈ q, Comm C a b) (s : Loc → K) :
    (p ++ q).run C s = (q ++ p).run C s := by
  rw [run_append, run_append]
  induction p generalizing s with
  | nil => rfl
  | cons a p ih =>
    rw [run_cons, run_cons, ih fun a' ha' => h a' (List.mem_cons_of_mem _ ha'),
      run_comm_block C (h a (List.mem_cons_self ..))]

/-- Iterations that may all be exchanged can be done in any order. -/
theorem run_perm_comm {p q : Prog} (hp : ∀ a ∈ p, ∀ b ∈ p, Comm C a b) (h : p.Perm q) (s : Loc → K) :
    p.run C s = q.run C s := by
  induction h generalizing s with
  | nil => rfl
  | cons x h ih =>
    rw [run_cons, run_cons]
    exact ih (fun a ha b hb => hp a (List.mem_cons_of_mem _ ha) b (List.mem_cons_of_mem _ hb)) _
  | swap x y l =>
    rw [run_cons, run_cons, run_cons, run_cons, hp x (by simp) y (by simp) s]
  | trans h1 h2 ih1 ih2 =>
    rw [ih1 hp, ih2 fun a ha b hb => hp a (h1.mem_iff.2 ha) b (h1.mem_iff.2 hb)]

end comm

section mur
variable {K : Type*} [CommRing K] {C C' : CRef → K}

/-- The electric iterations of one Mur face. -/
def murFaceE (c : Cfg) (f : Face) : Prog :=
  if c.bt f = .mur then (murComponents f).flatMap fun fc => loopOver (c.fmlim f fc) (murE f fc) else []

theorem mem_murFaceE (c : Cfg) (f : Face) (b : Block) :
    b ∈ murFaceE c f ↔ c.bt f = .mur ∧ ∃ fc ∈ murComponents f, ∃ i j k : Int,
      InLim (c.fmlim f fc) i j k ∧ b = murE f fc i j k := by
  unfold murFaceE
  by_cases hr : c.bt f = .mur
  · rw [if_pos hr]
    simp only [List.mem_flatMap, loopOver, List.mem_map, hr, true_and]
    constructor
    · rintro ⟨fc, hfc, ⟨i, j, k⟩, ht, rfl⟩
      exact ⟨fc, hfc, i, j, k, mem_boxLoop.1 ht, rfl⟩
    · rintro ⟨fc, hfc, i, j, k, ht, rfl⟩
      exact ⟨fc, hfc, (i, j, k), mem_boxLoop.2 ht, rfl⟩
  · rw [if_neg hr]; simp [hr]

theorem murFaceE_indep (c : Cfg) (f : Face) : (murFaceE c f).Pairwise Indep := by
  unfold murFaceE
  by_cases hr : c.bt f = .mur
  · rw [if_pos hr]
    have hcross : ∀ fc ∈ murComponents f, ∀ fc' ∈ murComponents f, fc ≠ fc' →
        ∀ i j k i' j' k', Indep (murE f fc i j k) (murE f fc' i' j' k') := by
      intro fc hfc fc' hfc' hne i j k i' j' k'
      cases f <;> simp [murComponents] at hfc hfc' <;> rcases hfc with rfl | rfl <;>
        rcases hfc' with rfl | rfl <;> first | exact absurd rfl hne | skip
      all_goals
        simp [Indep, murE, inward, ampere, Block.writes, Block.reads, Expr.reads, ampereX, ampereY,
          ampereZ, curlHx, curlHy, curlHz, EX, EY, EZ, HX, HY, HZ]
    rw [List.pairwise_flatMap]
    refine ⟨fun fc hfc => mur_loop_independent c f fc hfc, ?_⟩
    have hnd : (murComponents f).Nodup := by cases f <;> decide
    refine List.Pairwise.imp_of_mem ?_ hnd
    intro fc fc' hfc hfc' hne x hx y hy
    simp only [loopOver, List.mem_map] at hx hy
    obtain ⟨t, -, rfl⟩ := hx
    obtain ⟨t', -, rfl⟩ := hy
    exact hcross fc hfc fc' hfc' hne _ _ _ _ _ _
  · rw [if_neg hr]; exact List.Pairwise.nil

theorem murComponents_isE {f : Face} {fc : Fc} (h : fc ∈ murComponents f) : fc.isE = true := by
  cases f <;> simp [murComponents] at h <;> rcases h with rfl | rfl <;> rfl
theorem murComponents_next {f : Face} {fc : Fc} : fc.next ∈ murComponents f.next ↔ fc ∈ murComponents f := by
  cases f <;> cases fc <;> decide

theorem turn_murE (c : Cfg) {f : Face} {fc : Fc} (h : fc ∈ murComponents f) (i j k : Int) :
    (murE f fc i j k).rename (turnLoc c) turnRef = murE f.next fc.next k i j := by
  have hE := murComponents_isE h
  unfold murE
  simp only [Block.rename, List.map_cons, List.map_nil, Expr.rename, turn_ampere c hE, turnRef, turnLoc]
  cases f <;> rfl

theorem murE_in (c : Cfg) (f : Face) (fc : Fc) (i j k : Int) : (murE f fc i j k).In (Exists c) := by
  constructor
  · simp [murE, Block.writes, Exists]
  · intro l hl
    simp only [murE, Block.reads, Expr.reads, List.flatMap_cons, List.flatMap_nil, List.append_nil,
      List.mem_append, List.mem_singleton] at hl
    rcases hl with rfl | hl | rfl
    · trivial
    · exact ampere_fld c _ _ _ _ l hl
    · trivial

theorem phase_murFaceE {c : Cfg} (h : ValidCfg c) (hC : ∀ r, C' (turnRef r) = C r) (f : Face) :
    Turned c C C' (murFaceE c f) (murFaceE c.turn f.next) := by
  refine Phase.independent (σ := turnRef) hC (turnLoc_inj h) ?_ (murFaceE_indep c f)
    (murFaceE_indep c.turn f.next) ?_
  · intro b hb
    obtain ⟨_, fc, _, i, j, k, _, rfl⟩ := (mem_murFaceE c f b).1 hb
    exact murE_in c f fc i j k
  · intro b
    simp only [List.mem_map, mem_murFaceE, turn_bt]
    constructor
    · rintro ⟨b0, ⟨hf, fc, hfc, i, j, k, hl, rfl⟩, rfl⟩
      exact ⟨hf, fc.next, murComponents_next.2 hfc, k, i, j,
        (turn_inLim (turn_fmlim c f fc) i j k).2 hl, turn_murE c hfc i j k⟩
    · rintro ⟨hf, fc', hfc, k, i, j, hl, rfl⟩
      obtain ⟨fc, rfl⟩ : ∃ fc : Fc, fc' = fc.next := ⟨fc'.prev, by simp⟩
      have hfc := murComponents_next.1 hfc
      exact ⟨_, ⟨hf, fc, hfc, i, j, k, (turn_inLim (turn_fmlim c f fc) i j k).1 hl, rfl⟩,
        turn_murE c hfc i j k⟩

/-- Mur faces of different axes do not influence each other within a step: their common edges are
left out of both. -/
theorem murFace_cross {c : Cfg} (h : ValidCfg c) {f g : Face} (hfg : f.axis ≠ g.axis) :
    ∀ a ∈ murFaceE c f, ∀ b ∈ murFaceE c g, Indep a b := by
  intro a ha b hb
  obtain ⟨hf, fc, hfc, i, j, k, hl, rfl⟩ := (mem_murFaceE c f a).1 ha
  obtain ⟨hg, gc, hgc, i', j', k', hl', rfl⟩ := (mem_murFaceE c g b).1 hb
  by_cases he : fc = gc
  · subst he
    have fx := cfg_facts h .x; have fy := cfg_facts h .y; have fz := cfg_facts h .z
    simp only [Axis.lo, Axis.hi] at fx fy fz
    cases f <;> cases g <;> simp [Face.axis] at hfg <;>
      simp [murComponents] at hfc hgc <;> rcases hfc with rfl | rfl <;> simp at hgc <;>
      simp [Cfg.fmlim, setFieldLimits, Face.isLo, fieldIsInBoundary, getFaceOfBoundingBox, mkBox,
        Cfg.murInclude, Face.axis, InLim, hf, hg] at hl hl' <;>
      simp [Indep, murE, inward, ampere, Block.writes, Block.reads, Expr.reads, ampereX, ampereY,
        ampereZ, curlHx, curlHy, curlHz, EX, EY, EZ, HX, HY, HZ] <;> omega
  · have h1 := murComponents_isE hfc
    have h2 := murComponents_isE hgc
    have h3 : gc ≠ fc := fun q => he q.symm
    cases fc <;> simp [Fc.isE] at h1 <;> cases gc <;> simp [Fc.isE] at h2 he <;>
      simp [Indep, murE, inward, ampere, Block.writes, Block.reads, Expr.reads, ampereX, ampereY,
        ampereZ, curlHx, curlHy, curlHz, EX, EY, EZ, HX, HY, HZ]

theorem phase_murE {c : Cfg} (h : ValidCfg c) (hC : ∀ r, C' (turnRef r) = C r) :
    Turned c C C' (updateMurEfield c) (updateMurEfield c.turn) := by
  have e : ∀ c : Cfg, updateMurEfield c = (murFaceE c .xlo ++ murFaceE c .xhi) ++
      ((murFaceE c .ylo ++ murFaceE c .yhi) ++ (murFaceE c .zlo ++ murFaceE c .zhi)) := by
    intro c
    unfold updateMurEfield Face.all
    simp only [List.flatMap_cons, List.flatMap_nil, List.append_nil, List.append_assoc]
    rfl
  have hp := (((phase_murFaceE h hC .xlo).append (phase_murFaceE h hC .xhi)).append
    (((phase_murFaceE h hC .ylo).append (phase_murFaceE h hC .yhi)).append
      ((phase_murFaceE h hC .zlo).append (phase_murFaceE h hC .zhi))))
  rw [← e] at hp
  refine hp.trans fun s => ?_
  rw [e c.turn]
  simp only [Face.next]
  rw [run_comm C' (p := murFaceE c.turn .xlo ++ murFaceE c.turn .xhi)]
  · rw [List.append_assoc]
  · intro a ha b hb
    refine Comm.of_indep C' ?_
    simp only [List.mem_append] at ha hb
    rcases ha with ha | ha <;> rcases hb with (hb | hb) | hb | hb <;>
      exact murFace_cross (turn_valid h) (by decide) a ha b hb

end mur

end Vulture
