import Verif.Props.C73_Rooms
import Verif.Props.C10_Order
import Verif.Props.C16_Locality
import Verif.Spec.Threads
/- C77: any number of threads, any rounding. -/
set_option linter.unusedSimpArgs false
set_option linter.unusedVariables false
namespace Vulture.C77
open Vulture Spec Setup
variable {α : Type*} {F : Arithmetic α}

/-! ### Programs under any arithmetic -/

theorem inOrder_append (p q : Prog) (s : Loc → α) : inOrder F (p ++ q) s = inOrder F q (inOrder F p s) := by
  simp [inOrder]

theorem iterate_not_written {b : Block} {s : Loc → α} {l : Loc} (h : l ∉ b.writes) : iterate F b s l = s l := by
  unfold iterate
  have : b.find? (fun a => a.tgt = l) = none := by
    rw [List.find?_eq_none]
    intro a ha hl
    exact h (List.mem_map.2 ⟨a, ha, by simpa using hl⟩)
  rw [this]

theorem inOrder_not_written {p : Prog} {s : Loc → α} {l : Loc} (h : ∀ b ∈ p, l ∉ b.writes) : inOrder F p s l = s l := by
  induction p generalizing s with
  | nil => rfl
  | cons b p ih =>
    show inOrder F p (iterate F b s) l = s l
    rw [ih (fun b hb => h b (by simp [hb])), iterate_not_written (h b (by simp))]

theorem iterate_congr (hF : F.Local) {b : Block} {s t : Loc → α} {l : Loc} (hr : ∀ m ∈ b.reads, s m = t m)
    (hl : l ∈ b.writes) : iterate F b s l = iterate F b t l := by
  unfold iterate
  cases h : b.find? (fun a => a.tgt = l) with
  | none =>
    exfalso
    rw [List.find?_eq_none] at h
    obtain ⟨a, ha, rfl⟩ := List.mem_map.1 hl
    exact h a ha (by simp)
  | some a =>
    have ha : a ∈ b := List.mem_of_find?_eq_some h
    exact hF a s t fun m hm => hr m (List.mem_flatMap.2 ⟨a, ha, hm⟩)

theorem inOrder_indep (hF : F.Local) {p : Prog} (hp : p.Pairwise Indep) {s : Loc → α} {b : Block} (hb : b ∈ p) {l : Loc}
    (hl : l ∈ b.writes) : inOrder F p s l = iterate F b s l := by
  induction p generalizing s with
  | nil => cases hb
  | cons b0 p ih =>
    show inOrder F p (iterate F b0 s) l = _
    obtain ⟨h0, hp'⟩ := List.pairwise_cons.1 hp
    rcases List.mem_cons.1 hb with rfl | hb'
    · exact inOrder_not_written fun b' hb' => ((h0 b' hb').1 l hl).1
    · rw [ih hp' hb']
      refine iterate_congr hF (fun m hm => ?_) hl
      exact iterate_not_written fun hw => ((h0 b hb').1 m hw).2 hm

/-- Invariant over the prefixes of a schedule. -/
theorem sched_inv (hF : F.Local) {p : Prog} (hp : p.Pairwise Indep) (hn : ∀ b ∈ p, b.writes.Nodup) {σ : List Ev}
    (hs : ScheduleOf p σ) (s : Loc → α) (log0 : Nat → Loc → α) (σ1 σ2 : List Ev) (hσ : σ = σ1 ++ σ2) :
    let m := σ1.foldl (access F) ⟨s, log0⟩
    (∀ n l, Ev.rd n l ∈ σ1 → m.log n l = s l) ∧
    (∀ l, (∀ n a, Ev.wr n a ∈ σ1 → a.tgt ≠ l) → m.mem l = s l) ∧
    (∀ n a, Ev.wr n a ∈ σ1 → m.mem a.tgt = F a s) := by
  induction σ1 using List.reverseRecOn generalizing σ2 with
  | nil => simp
  | append_singleton σ1 e ih =>
    have hσ' : σ = σ1 ++ (e :: σ2) := by simpa using hσ
    obtain ⟨i1, i2, i3⟩ := ih (e :: σ2) hσ'
    rw [List.foldl_append, List.foldl_cons, List.foldl_nil]
    cases e with
    | rd n l =>
      obtain ⟨b, hb, hl⟩ := hs.ev_rd n l (by rw [hσ']; simp)
      have hold : (σ1.foldl (access F) ⟨s, log0⟩).mem l = s l := by
        apply i2
        intro n' a' hw heq
        obtain ⟨b', hb', ha'⟩ := hs.ev_wr n' a' (by rw [hσ']; simp [hw])
        by_cases hne : n' = n
        · subst hne
          exact hs.old_values _ _ _ _ hσ' a' hw heq
        · exact ((indep_get hp hne hb' hb).1 l (List.mem_map.2 ⟨a', ha', heq⟩)).2 hl
      refine ⟨?_, ?_, ?_⟩
      · intro n' l' hm
        simp only [access]
        by_cases hc : n' = n ∧ l' = l
        · rw [if_pos hc, hc.2]; exact hold
        · rw [if_neg hc]
          apply i1
          rcases List.mem_append.1 hm with h | h
          · exact h
          · simp at h; exact absurd h hc
      · intro l' hl'
        exact i2 l' fun n' a' hm => hl' n' a' (by simp [hm])
      · intro n' a' hm
        apply i3
        simpa using hm
    | wr n a =>
      obtain ⟨b, hb, ha⟩ := hs.ev_wr n a (by rw [hσ']; simp)
      have hval : F a ((σ1.foldl (access F) ⟨s, log0⟩).log n) = F a s :=
        hF a _ _ fun l hl => i1 n l (hs.after_reads _ _ _ _ hσ' l hl)
      refine ⟨?_, ?_, ?_⟩
      · intro n' l' hm
        exact i1 n' l' (by simpa using hm)
      · intro l' hl'
        simp only [access]
        rw [if_neg (fun q => hl' n a (by simp) q.symm)]
        exact i2 l' fun n' a' hm => hl' n' a' (by simp [hm])
      · intro n' a' hm
        simp only [access]
        by_cases hc : a'.tgt = a.tgt
        · rw [if_pos hc, hval]
          obtain ⟨b', hb', ha'⟩ := hs.ev_wr n' a' (by
            rw [hσ]; exact List.mem_append_left _ hm)
          by_cases hne : n' = n
          · subst hne
            rw [hb] at hb'; injection hb' with hb'; subst hb'
            have := hn b (List.mem_of_getElem? hb)
            have e : a = a' := List.inj_on_of_nodup_map this ha ha' hc.symm
            rw [e]
          · exact absurd (List.mem_map.2 ⟨a, ha, hc.symm⟩)
              ((indep_get hp hne hb' hb).1 a'.tgt (List.mem_map.2 ⟨a', ha', rfl⟩)).1
        · rw [if_neg hc]
          apply i3 n' a'
          rcases List.mem_append.1 hm with h | h
          · exact h
          · simp at h; exact absurd (by rw [h.2]) hc

/-- Any interleaving of independent iterations ends in the memory of the sequential loop. -/
theorem schedule_in_order (hF : F.Local) {p : Prog} (hp : p.Pairwise Indep) (hn : ∀ b ∈ p, b.writes.Nodup)
    {σ : List Ev} (hs : ScheduleOf p σ) (s : Loc → α) (log0 : Nat → Loc → α) :
    (σ.foldl (access F) ⟨s, log0⟩).mem = inOrder F p s := by
  obtain ⟨-, i2, i3⟩ := sched_inv hF hp hn hs s log0 σ [] (by simp)
  funext l
  by_cases hl : ∃ b ∈ p, l ∈ b.writes
  · obtain ⟨b, hb, hw⟩ := hl
    rw [inOrder_indep hF hp hb hw]
    obtain ⟨n, hlt, hbn⟩ := List.mem_iff_getElem.1 hb
    obtain ⟨a, ha, rfl⟩ := List.mem_map.1 hw
    rw [i3 n a (hs.complete n b (List.getElem?_eq_some_iff.2 ⟨hlt, hbn⟩) a ha)]
    unfold iterate
    cases hf : b.find? (fun x => x.tgt = a.tgt) with
    | none =>
      rw [List.find?_eq_none] at hf
      exact absurd (hf a ha) (by simp)
    | some a' =>
      have h1 := List.mem_of_find?_eq_some hf
      have h2 := List.find?_some hf
      have e : a' = a := List.inj_on_of_nodup_map (hn b hb) h1 ha (by simpa using h2)
      rw [e]
  · push Not at hl
    rw [inOrder_not_written hl]
    apply i2
    intro n a hm heq
    obtain ⟨b, hb, ha⟩ := hs.ev_wr n a hm
    exact hl b (List.mem_of_getElem? hb) (List.mem_map.2 ⟨a, ha, heq⟩)

/-! ### The loops of a step -/

/-- The iterations of a loop can run at the same time. -/
def Free (l : Loop) : Prop := l.par = true → l.body.Pairwise Indep ∧ ∀ b ∈ l.body, b.writes.Nodup

theorem executes_in_order (hF : F.Local) : ∀ {ls : List Loop} {s t : Loc → α}, (∀ l ∈ ls, Free l) → Executes F ls s t →
    t = inOrder F (ls.flatMap Loop.body) s := by
  intro ls s t hl h
  induction h with
  | done s => rfl
  | seq _ ih =>
    rw [ih fun l h => hl l (by simp [h]), List.flatMap_cons, inOrder_append]
  | par log0 σ hs _ ih =>
    obtain ⟨h1, h2⟩ := hl _ List.mem_cons_self rfl
    rw [ih fun l h => hl l (by simp [h]), List.flatMap_cons, inOrder_append, schedule_in_order hF h1 h2 hs]

theorem pw_free (lim : Face → Int) (fc : Fc) (g : Int → Int → Int → Expr) (hg : ∀ i j k, ∀ l ∈ (g i j k).reads, ∀ fc' i' j' k', l = .fld fc' i' j' k' →
    fc' = fc ∧ i' = i ∧ j' = j ∧ k' = k) : Free (parLoop lim fun i j k => [⟨.fld fc i j k, g i j k⟩]) := by
  intro _
  refine ⟨?_, ?_⟩
  · show (loopOver lim fun i j k => [⟨.fld fc i j k, g i j k⟩]).Pairwise Indep
    unfold loopOver
    rw [List.pairwise_map]
    refine List.Pairwise.imp ?_ (nodup_boxLoop lim)
    rintro ⟨i, j, k⟩ ⟨i', j', k'⟩ hne
    have h1 := hg i j k
    have h2 := hg i' j' k'
    have hne' : ¬ (i = i' ∧ j = j' ∧ k = k') := by
      rintro ⟨rfl, rfl, rfl⟩; exact hne rfl
    constructor
    · intro l hl
      simp only [Block.writes, List.map_cons, List.map_nil, List.mem_singleton, Block.reads, List.flatMap_cons, List.flatMap_nil, List.append_nil] at hl ⊢
      refine ⟨?_, fun hr => ?_⟩
      · rw [hl]; intro e; injection e with _ e1 e2 e3; exact hne' ⟨e1, e2, e3⟩
      · obtain ⟨-, e1, e2, e3⟩ := h2 l hr _ _ _ _ hl; exact hne' ⟨e1, e2, e3⟩
    · intro l hl
      simp only [Block.writes, List.map_cons, List.map_nil, List.mem_singleton, Block.reads, List.flatMap_cons, List.flatMap_nil, List.append_nil] at hl ⊢
      refine ⟨?_, fun hr => ?_⟩
      · rw [hl]; intro e; injection e with _ e1 e2 e3; exact hne' ⟨e1.symm, e2.symm, e3.symm⟩
      · obtain ⟨-, e1, e2, e3⟩ := h1 l hr _ _ _ _ hl; exact hne' ⟨e1.symm, e2.symm, e3.symm⟩
  · show ∀ b ∈ loopOver lim fun i j k => [⟨.fld fc i j k, g i j k⟩], b.writes.Nodup
    exact forall_loopOver.2 fun i j k _ => by simp [Block.writes]

theorem incField_reads {h : Bool} {n : Nat} {w : PW} {fc : Fc} {t : Int × Int × Int} : ∀ l ∈ (incField h n w fc t).reads, ∀ fc' i j k, l ≠ .fld fc' i j k := by
  intro l hl
  unfold incField at hl
  split at hl <;> simp [Expr.reads] at hl
  · subst hl; intros; simp
  · rcases hl with rfl | rfl <;> (intros; simp)

theorem step_free {S : Sim} (hv : ValidCfg S.cfg) : ∀ l ∈ S.loops, Free l := by
  have hE := C10.electric_independent hv
  have hH := C10.magnetic_independent hv
  have nE := C10.nodup_E (c := S.cfg)
  have nH := C10.nodup_H (c := S.cfg)
  unfold C10.electricUpdate at hE nE
  unfold C10.magneticUpdate at hH nH
  rw [List.pairwise_append] at hE hH
  rw [List.pairwise_append] at hH
  have seq : ∀ p, Free (seqPart p) := fun p h => by cases h
  have pmlE : ∀ l ∈ loopsPmlE S.cfg, Free l := by
    intro l hl _
    obtain ⟨r, hr, hl⟩ := List.mem_flatMap.1 hl
    by_cases hb : S.cfg.bt r = .pml
    · rw [if_pos hb] at hl
      have h1 := (List.pairwise_flatMap.1 hE.1).1 r hr
      have h2 : ∀ b ∈ pmlRegionE S.cfg r, b.writes.Nodup := fun b hb => nE b (List.mem_append_left _ (List.mem_flatMap.2 ⟨r, hr, hb⟩))
      unfold pmlRegionE at h1 h2
      rw [if_pos hb] at h1 h2
      rw [List.pairwise_append, List.pairwise_append] at h1
      simp only [List.mem_cons, List.not_mem_nil, or_false] at hl
      rcases hl with rfl | rfl | rfl
      · exact ⟨h1.1.1, fun b hb => h2 b (by simp only [List.mem_append]; exact Or.inl (Or.inl hb))⟩
      · exact ⟨h1.1.2.1, fun b hb => h2 b (by simp only [List.mem_append]; exact Or.inl (Or.inr hb))⟩
      · exact ⟨h1.2.1, fun b hb => h2 b (by simp only [List.mem_append]; exact Or.inr hb)⟩
    · rw [if_neg hb] at hl; cases hl
  have pmlH : ∀ l ∈ loopsPmlH S.cfg, Free l := by
    intro l hl _
    obtain ⟨r, hr, hl⟩ := List.mem_flatMap.1 hl
    by_cases hb : S.cfg.bt r = .pml
    · rw [if_pos hb] at hl
      have h1 := (List.pairwise_flatMap.1 hH.1.1).1 r hr
      have h2 : ∀ b ∈ pmlRegionH S.cfg r, b.writes.Nodup := fun b hb => nH b (List.mem_append_left _ (List.mem_append_left _ (List.mem_flatMap.2 ⟨r, hr, hb⟩)))
      unfold pmlRegionH at h1 h2
      rw [if_pos hb] at h1 h2
      rw [List.pairwise_append, List.pairwise_append] at h1
      simp only [List.mem_cons, List.not_mem_nil, or_false] at hl
      rcases hl with rfl | rfl | rfl
      · exact ⟨h1.1.1, fun b hb => h2 b (by simp only [List.mem_append]; exact Or.inl (Or.inl hb))⟩
      · exact ⟨h1.1.2.1, fun b hb => h2 b (by simp only [List.mem_append]; exact Or.inl (Or.inr hb))⟩
      · exact ⟨h1.2.1, fun b hb => h2 b (by simp only [List.mem_append]; exact Or.inr hb)⟩
    · rw [if_neg hb] at hl; cases hl
  have murE : ∀ l ∈ loopsMurE S.cfg, Free l := by
    intro l hl _
    obtain ⟨f, hf, hl⟩ := List.mem_flatMap.1 hl
    by_cases hb : S.cfg.bt f = .mur
    · rw [if_pos hb] at hl
      obtain ⟨fc, hfc, rfl⟩ := List.mem_map.1 hl
      exact ⟨C10.mur_loop_independent S.cfg f fc hfc, forall_loopOver.2 fun i j k _ => by simp [Vulture.murE, Block.writes]⟩
    · rw [if_neg hb] at hl; cases hl
  have gridE : ∀ l ∈ loopsGridE S.cfg, Free l := by
    intro l hl _
    have h1 := hE.2.1
    have h2 : ∀ b ∈ updateGridEfield S.cfg, b.writes.Nodup := fun b hb => nE b (List.mem_append_right _ hb)
    unfold updateGridEfield at h1 h2
    rw [List.pairwise_append, List.pairwise_append] at h1
    simp only [loopsGridE, List.mem_cons, List.not_mem_nil, or_false] at hl
    rcases hl with rfl | rfl | rfl
    · exact ⟨h1.1.1, fun b hb => h2 b (by simp only [List.mem_append]; exact Or.inl (Or.inl hb))⟩
    · exact ⟨h1.1.2.1, fun b hb => h2 b (by simp only [List.mem_append]; exact Or.inl (Or.inr hb))⟩
    · exact ⟨h1.2.1, fun b hb => h2 b (by simp only [List.mem_append]; exact Or.inr hb)⟩
  have gridH : ∀ l ∈ loopsGridH S.cfg, Free l := by
    intro l hl _
    have h1 := hH.2.1
    have h2 : ∀ b ∈ updateGridHfield S.cfg, b.writes.Nodup := fun b hb => nH b (List.mem_append_right _ hb)
    unfold updateGridHfield at h1 h2
    rw [List.pairwise_append, List.pairwise_append] at h1
    simp only [loopsGridH, List.mem_cons, List.not_mem_nil, or_false] at hl
    rcases hl with rfl | rfl | rfl
    · exact ⟨h1.1.1, fun b hb => h2 b (by simp only [List.mem_append]; exact Or.inl (Or.inl hb))⟩
    · exact ⟨h1.1.2.1, fun b hb => h2 b (by simp only [List.mem_append]; exact Or.inl (Or.inr hb))⟩
    · exact ⟨h1.2.1, fun b hb => h2 b (by simp only [List.mem_append]; exact Or.inr hb)⟩
  have pwE : ∀ l ∈ loopsPwE S.cfg S.pws, Free l := by
    intro l hl
    obtain ⟨x, hx, hl⟩ := List.mem_flatMap.1 hl
    rcases List.mem_cons.1 hl with rfl | hl
    · exact seq _
    · obtain ⟨r, hr, hl⟩ := List.mem_flatMap.1 hl
      split at hl
      · rw [List.mem_singleton] at hl
        subst hl
        refine pw_free _ r.2.1 _ fun i j k l hl fc' i' j' k' e => ?_
        subst e
        split at hl <;> simp only [Expr.reads, List.mem_append, List.mem_singleton] at hl <;> rcases hl with hl | hl
        · injection hl with e1 e2 e3 e4; exact ⟨e1, e2, e3, e4⟩
        · exact absurd rfl (incField_reads _ hl _ _ _ _)
        · injection hl with e1 e2 e3 e4; exact ⟨e1, e2, e3, e4⟩
        · exact absurd rfl (incField_reads _ hl _ _ _ _)
      · cases hl
  have pwH : ∀ l ∈ loopsPwH S.cfg S.pws, Free l := by
    intro l hl
    obtain ⟨x, hx, hl⟩ := List.mem_flatMap.1 hl
    rcases List.mem_cons.1 hl with rfl | hl
    · exact seq _
    · obtain ⟨r, hr, hl⟩ := List.mem_flatMap.1 hl
      split at hl
      · rw [List.mem_singleton] at hl
        subst hl
        refine pw_free _ r.2.1 _ fun i j k l hl fc' i' j' k' e => ?_
        subst e
        split at hl <;> simp only [Expr.reads, List.mem_append, List.mem_singleton] at hl <;> rcases hl with hl | hl
        · injection hl with e1 e2 e3 e4; exact ⟨e1, e2, e3, e4⟩
        · exact absurd rfl (incField_reads _ hl _ _ _ _)
        · injection hl with e1 e2 e3 e4; exact ⟨e1, e2, e3, e4⟩
        · exact absurd rfl (incField_reads _ hl _ _ _ _)
      · cases hl
  intro l hl
  simp only [Sim.loops, List.mem_append, List.mem_cons, List.not_mem_nil, or_false] at hl
  rcases hl with ((((((h | h) | h) | h) | h) | h) | ((((((h | h) | h) | h) | h) | h)))
  · exact pmlE l h
  · exact murE l h
  · exact gridE l h
  · rcases h with rfl | rfl | rfl <;> exact seq _
  · exact pwE l h
  · rw [h]; exact seq _
  · exact pmlH l h
  · rw [h]; exact seq _
  · exact gridH l h
  · rcases h with rfl | rfl <;> exact seq _
  · exact pwH l h
  · rw [h]; exact seq _

theorem flat_if {p : Prop} [Decidable p] (a b : List Loop) : (if p then a else b).flatMap Loop.body = if p then a.flatMap Loop.body else b.flatMap Loop.body := by
  split <;> rfl

/-- The loops are the step. -/
theorem loops_step (S : Sim) : S.loops.flatMap Loop.body = S.step := by
  have e1 : (loopsPmlE S.cfg).flatMap Loop.body = updatePmlEfield S.cfg := by
    unfold loopsPmlE updatePmlEfield
    rw [List.flatMap_assoc]
    refine congrArg (fun f => List.flatMap f Face.all) (funext fun r => ?_)
    rw [flat_if]
    unfold pmlRegionE
    split <;> simp [parLoop]
  have e2 : (loopsPmlH S.cfg).flatMap Loop.body = updatePmlHfield S.cfg := by
    unfold loopsPmlH updatePmlHfield
    rw [List.flatMap_assoc]
    refine congrArg (fun f => List.flatMap f Face.all) (funext fun r => ?_)
    rw [flat_if]
    unfold pmlRegionH
    split <;> simp [parLoop]
  have e3 : (loopsMurE S.cfg).flatMap Loop.body = updateMurEfield S.cfg := by
    unfold loopsMurE updateMurEfield
    rw [List.flatMap_assoc]
    refine congrArg (fun f => List.flatMap f Face.all) (funext fun r => ?_)
    rw [flat_if, List.flatMap_map]
    rfl
  have e4 : (loopsPwE S.cfg S.pws).flatMap Loop.body = updatePlaneWavesE S.cfg S.pws := by
    unfold loopsPwE updatePlaneWavesE
    rw [List.flatMap_assoc]
    refine congrArg (fun f => List.flatMap f S.pws.zipIdx) (funext fun x => ?_)
    rw [List.flatMap_cons, List.flatMap_assoc]
    refine congrArg₂ (· ++ ·) rfl (congrArg (fun f => List.flatMap f pwTableE) (funext fun r => ?_))
    rw [flat_if]
    split <;> simp [parLoop]
  have e5 : (loopsPwH S.cfg S.pws).flatMap Loop.body = updatePlaneWavesH S.cfg S.pws := by
    unfold loopsPwH updatePlaneWavesH
    rw [List.flatMap_assoc]
    refine congrArg (fun f => List.flatMap f S.pws.zipIdx) (funext fun x => ?_)
    rw [List.flatMap_cons, List.flatMap_assoc]
    refine congrArg₂ (· ++ ·) rfl (congrArg (fun f => List.flatMap f pwTableH) (funext fun r => ?_))
    rw [flat_if]
    split <;> simp [parLoop]
  have e6 : (loopsGridE S.cfg).flatMap Loop.body = updateGridEfield S.cfg := by
    simp [loopsGridE, updateGridEfield, parLoop]
  have e7 : (loopsGridH S.cfg).flatMap Loop.body = updateGridHfield S.cfg := by
    simp [loopsGridH, updateGridHfield, parLoop]
  simp only [Sim.loops, Sim.step, Sim.stepE, Sim.stepH, List.flatMap_append, List.flatMap_cons, List.flatMap_nil, e1, e2, e3, e4, e5, e6, e7, seqPart,
    List.append_nil, List.append_assoc]

/-! ### Runs -/

theorem threads_sim {S : Sim} (hv : ValidCfg S.cfg) (hF : F.Local) {u : ℕ → Loc → α} {s0 : Loc → α} {m : ℕ → Loc → α}
    (hm : ThreadedRun F S u s0 m) : ∀ n, m n = oneThread F S u s0 n
  | 0 => hm.1
  | n + 1 => by
    rw [executes_in_order hF (step_free hv) (hm.2 n), loops_step, threads_sim hv hF hm n]
    rfl

variable {k : Consts} {J : Junk} {X : Experiment} {R : Setup.Run}

/-- C77: whatever the threads do, and however numbers are rounded, every step ends in the memory one thread computes. -/
theorem any_threads (h : setup k J X = some R) (hF : F.Local) {u : ℕ → Loc → α} {s0 : Loc → α} {m : ℕ → Loc → α}
    (hm : ThreadedRun F R.sim u s0 m) (n : ℕ) : m n = oneThread F R.sim u s0 n := by
  obtain ⟨hv, -, -, -, -, -, -, pws, -, eS⟩ := CavityLemmas.run_parts h
  exact threads_sim (by rw [show R.sim.cfg = R.cfg by rw [eS]]; exact hv) hF hm n

/-- C77: two runs of the same model, with different schedules, agree bit for bit. -/
theorem reproducible (h : setup k J X = some R) (hF : F.Local) {u : ℕ → Loc → α} {s0 : Loc → α} {m m' : ℕ → Loc → α}
    (hm : ThreadedRun F R.sim u s0 m) (hm' : ThreadedRun F R.sim u s0 m') (n : ℕ) : m n = m' n := by
  rw [any_threads h hF hm, any_threads h hF hm']

theorem exact_local {K : Type*} [CommRing K] (C : CRef → K) : Arithmetic.Local (fun a s => a.rhs.eval C s) :=
  fun a s t h => eval_congr C _ h

theorem inOrder_exact {K : Type*} [CommRing K] (C : CRef → K) (p : Prog) (s : Loc → K) : inOrder (fun a s => a.rhs.eval C s) p s = p.run C s := rfl

theorem one_exact (R : Setup.Run) : ∀ n, oneThread (fun a s => a.rhs.eval R.coefs s) R.sim R.drive (fun _ => 0) n = R.fields n
  | 0 => rfl
  | n + 1 => by
    rw [C72.fields_succ, ← one_exact R n]
    rfl

/-- C77: in exact arithmetic the result is the fields of the run, that all other properties speak of. -/
theorem threads_fields (h : setup k J X = some R) {m : ℕ → Loc → ℝ}
    (hm : ThreadedRun (fun a s => a.rhs.eval R.coefs s) R.sim R.drive (fun _ => 0) m) (n : ℕ) : m n = R.fields n := by
  rw [any_threads h (exact_local R.coefs) hm, one_exact]

/-- Executions exist: all iterations of each parallel loop read before any of them writes. -/
theorem lockstep_exists (F : Arithmetic α) (log0 : Nat → Loc → α) : ∀ (ls : List Loop) (s : Loc → α), ∃ t, Executes F ls s t
  | [], s => ⟨s, .done s⟩
  | ⟨false, p⟩ :: ls, s => by
    obtain ⟨t, ht⟩ := lockstep_exists F log0 ls (inOrder F p s)
    exact ⟨t, .seq ht⟩
  | ⟨true, p⟩ :: ls, s => by
    obtain ⟨t, ht⟩ := lockstep_exists F log0 ls ((C10.lockstep p).foldl (access F) ⟨s, log0⟩).mem
    exact ⟨t, .par log0 _ (C10.lockstep_schedule p) ht⟩

theorem run_exists (F : Arithmetic α) (S : Sim) (u : ℕ → Loc → α) (s0 : Loc → α) (log0 : Nat → Loc → α) : ∃ m, ThreadedRun F S u s0 m := by
  choose f hf using fun (s : Loc → α) => lockstep_exists F log0 S.loops s
  refine ⟨fun n => Nat.rec s0 (fun n s => f (setInputs (u n) s)) n, rfl, fun n => hf _⟩

/-! ### Locality under rounding -/

theorem closed_inOrder (hF : F.Local) {A : Loc → Prop} {p : Prog} (h : C16.Closed A p) {s t : Loc → α}
    (hst : ∀ l, A l → s l = t l) : ∀ l, A l → inOrder F p s l = inOrder F p t l := by
  induction p generalizing s t with
  | nil => exact hst
  | cons b p ih =>
    refine ih (s := iterate F b s) (t := iterate F b t) (fun b hb => h b (by simp [hb])) fun l hl => ?_
    unfold iterate
    cases e : b.find? (fun a => a.tgt = l) with
    | none => exact hst l hl
    | some a =>
      have h1 := List.mem_of_find?_eq_some e
      have h2 : a.tgt = l := by simpa using List.find?_some e
      exact hF a s t fun m hm => hst m (h b (by simp) a h1 (h2 ▸ hl) m hm)

theorem one_step {S : Sim} (hv : ValidCfg S.cfg) (hF : F.Local) (B : Face → Int) (r : Int) (s t : Loc → α)
    (h : ∀ l, C16.Within2 S B r l → s l = t l) :
    ∀ l, C16.Within2 S B (r - C16.rate S) l → inOrder F S.step s l = inOrder F S.step t l := by
  have hr : 2 ≤ C16.rate S := by unfold C16.rate; split <;> omega
  have hr' : S.sibc ≠ [] → 3 ≤ C16.rate S := by intro h; unfold C16.rate; rw [if_neg h]
  have h1 := closed_inOrder hF (C16.closed_stepE (B := B) (R := r) hv) (s := s) (t := t) (by
    intro l hl
    apply h
    intro q hq a
    have := (hl q hq a).1
    exact C16.near_mono (by split <;> omega) this)
  have h3 := closed_inOrder hF (C16.closed_stepH (B := B) (R := r) hv hr hr') (s := inOrder F S.stepE s) (t := inOrder F S.stepE t) (by
    intro l hl
    apply h1
    intro q hq a
    have := hl q hq a
    exact ⟨C16.near_mono (by split <;> omega) this.1, this.2⟩)
  intro l hl
  unfold Sim.step
  rw [inOrder_append, inOrder_append]
  apply h3
  intro q hq a
  have := hl q hq a
  exact ⟨C16.near_mono (by split <;> omega) this, fun _ _ => C16.near_mono (by omega) this⟩

/-- C77: rounding errors travel no faster than fields: what lies further away than one cell per step (one and a half with
impedance sheets) has no influence on a single bit. -/
theorem rounded_cone (h : setup k J X = some R) (hF : F.Local) {u : ℕ → Loc → α} {s0 t0 : Loc → α} {m m' : ℕ → Loc → α}
    (hm : ThreadedRun F R.sim u s0 m) (hm' : ThreadedRun F R.sim u t0 m') (B : Face → Int) (n : ℕ)
    (hs : ∀ l, C16.Within2 R.sim B (C16.rate R.sim * n) l → s0 l = t0 l) : ∀ l, C16.Within2 R.sim B 0 l → m n l = m' n l := by
  obtain ⟨hv, -, -, -, -, -, -, pws, -, eS⟩ := CavityLemmas.run_parts h
  have hv : ValidCfg R.sim.cfg := by rw [show R.sim.cfg = R.cfg by rw [eS]]; exact hv
  rw [any_threads h hF hm, any_threads h hF hm']
  have key : ∀ j, j ≤ n → ∀ l, C16.Within2 R.sim B (C16.rate R.sim * n - C16.rate R.sim * j) l →
      oneThread F R.sim u s0 j l = oneThread F R.sim u t0 j l := by
    intro j
    induction j with
    | zero => intro _ l hl; exact hs l (by simpa using hl)
    | succ j ih =>
      intro hj l hl
      simp only [oneThread]
      refine one_step hv hF B (C16.rate R.sim * n - C16.rate R.sim * j) _ _ (fun l hl => ?_) l ?_
      · unfold setInputs
        split
        · rfl
        · exact ih (by omega) l hl
      · have e : (C16.rate R.sim * (n : Int) - C16.rate R.sim * j - C16.rate R.sim) = C16.rate R.sim * n - C16.rate R.sim * ((j + 1 : Nat) : Int) := by push_cast; ring
        rw [e]; exact hl
  intro l hl
  exact key n (le_refl n) l (by simpa using hl)

/-! ### Zeros -/

/-- C77: if an arithmetic makes zeros (of either sign) of zeros, a run without excitation that starts from zeros stays zero. -/
theorem zeros_stay (h : setup k J X = some R) (hF : F.Local) (Z : α → Prop) (hZ : ∀ a s, (∀ l ∈ a.rhs.reads, Z (s l)) → Z (F a s))
    {u : ℕ → Loc → α} {s0 : Loc → α} {m : ℕ → Loc → α} (hm : ThreadedRun F R.sim u s0 m) (h0 : ∀ l, Z (s0 l)) (hu : ∀ n l, Z (u n l)) (n : ℕ) (l : Loc) :
    Z (m n l) := by
  rw [any_threads h hF hm]
  have key : ∀ (p : Prog) (s : Loc → α), (∀ l, Z (s l)) → ∀ l, Z (inOrder F p s l) := by
    intro p
    induction p with
    | nil => intro s hs; exact hs
    | cons b p ih =>
      intro s hs
      refine ih (iterate F b s) fun l => ?_
      unfold iterate
      split
      · exact hZ _ _ fun l _ => hs l
      · exact hs l
  induction n generalizing l with
  | zero => exact h0 l
  | succ n ih =>
    refine key _ _ (fun l => ?_) l
    unfold setInputs
    split
    · exact hu n l
    · exact ih l

/-- A rounding arithmetic: halve and round towards minus infinity. It is local, and the room of C73 runs in it on many threads. -/
example (k : Consts) (J : Junk) : ∃ R, setup k J (C73.room 8 .pec 4) = some R ∧ ∃ F : Arithmetic ℤ, F.Local ∧
    (∃ m, ThreadedRun F R.sim (fun _ _ => 3) (fun _ => 5) m) ∧ ∃ l ∈ R.sim.loops, l.par = true ∧ 2 ≤ l.body.length := by
  obtain ⟨R, hR⟩ := C73.room_setup k J (Or.inl ⟨rfl, rfl, rfl⟩)
  refine ⟨R, hR, fun a s => a.rhs.eval (fun _ => (3 : ℤ)) s / 2, fun a s t h => by dsimp only; rw [eval_congr (fun _ => (3 : ℤ)) a.rhs h], run_exists _ _ _ _ fun _ _ => 0, ?_⟩
  obtain ⟨_, -, hc, -⟩ := Scaling.setup_parts hR
  obtain ⟨-, -, -, -, -, -, -, pws, -, eS⟩ := CavityLemmas.run_parts hR
  have hl : ((initExternalSurfaceParameters (fun a => match a with | .x => 8 | .y => 8 | .z => 8) (fun _ => BType.pec) (fun _ => 6)).map fun c =>
      decide (2 ≤ (boxLoop (c.gfilim .ex)).length)) = some true := by decide +kernel
  have e : initExternalSurfaceParameters (fun a => match a with | .x => 8 | .y => 8 | .z => 8) (fun _ => BType.pec) (fun _ => 6) = some R.cfg := hc
  rw [e, Option.map_some] at hl
  refine ⟨parLoop (R.sim.cfg.gfilim .ex) (fun i j k => [⟨.fld .ex i j k, ampereX i j k⟩]), by simp [Sim.loops, loopsGridE], rfl, ?_⟩
  show 2 ≤ (loopOver (R.sim.cfg.gfilim .ex) fun i j k => [⟨.fld .ex i j k, ampereX i j k⟩]).length
  rw [show R.sim.cfg = R.cfg by rw [eS], loopOver, List.length_map]
  simpa using hl

end Vulture.C77
