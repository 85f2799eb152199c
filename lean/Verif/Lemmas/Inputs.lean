import Verif.Lemmas.Pointwise
/- The update code never writes the excitation values. -/
set_option linter.unusedSimpArgs false
namespace Vulture
variable {K : Type*} [CommRing K] (C : CRef → K)

/-- The program writes no excitation value. -/
def InputSafe (p : Prog) : Prop := ∀ l : Loc, l.isInput = true → NoWrite p l

theorem InputSafe.append {p q : Prog} (h : InputSafe p) (h' : InputSafe q) : InputSafe (p ++ q) :=
  fun l hl => (h l hl).append (h' l hl)
theorem InputSafe.nil : InputSafe [] := fun _ _ => NoWrite.nil
theorem InputSafe.flatMap {α : Type*} {L : List α} {f : α → Prog} (h : ∀ x ∈ L, InputSafe (f x)) :
    InputSafe (L.flatMap f) := fun l hl => NoWrite.flatMap fun x hx => h x hx l hl
theorem InputSafe.loop {lim : Face → Int} {body : Int → Int → Int → Block}
    (h : ∀ i j k, ∀ l ∈ (body i j k).writes, l.isInput = false) : InputSafe (loopOver lim body) :=
  fun l hl => NoWrite.loop fun i j k _ hm => by rw [h i j k l hm] at hl; cases hl

theorem inputSafe_gridE (c : Cfg) : InputSafe (updateGridEfield c) := by
  refine (InputSafe.append (InputSafe.append ?_ ?_) ?_) <;>
    exact InputSafe.loop fun i j k l hl => by simp [Block.writes] at hl; subst hl; rfl
theorem inputSafe_gridH (c : Cfg) : InputSafe (updateGridHfield c) := by
  refine (InputSafe.append (InputSafe.append ?_ ?_) ?_) <;>
    exact InputSafe.loop fun i j k l hl => by simp [Block.writes] at hl; subst hl; rfl
theorem inputSafe_pmlE (c : Cfg) : InputSafe (updatePmlEfield c) := by
  refine InputSafe.flatMap fun r _ => ?_
  unfold pmlRegionE
  split
  · refine (InputSafe.append (InputSafe.append ?_ ?_) ?_) <;>
    exact InputSafe.loop fun i j k l hl => by
      simp [Block.writes, pmlExBlock, pmlEyBlock, pmlEzBlock, PPr, Pr] at hl
      rcases hl with rfl | rfl | rfl <;> rfl
  · exact InputSafe.nil
theorem inputSafe_pmlH (c : Cfg) : InputSafe (updatePmlHfield c) := by
  refine InputSafe.flatMap fun r _ => ?_
  unfold pmlRegionH
  split
  · refine (InputSafe.append (InputSafe.append ?_ ?_) ?_) <;>
    exact InputSafe.loop fun i j k l hl => by
      simp [Block.writes, pmlHxBlock, pmlHyBlock, pmlHzBlock, Br] at hl
      rcases hl with rfl | rfl <;> rfl
  · exact InputSafe.nil
theorem inputSafe_murE (c : Cfg) : InputSafe (updateMurEfield c) := by
  refine InputSafe.flatMap fun f _ => ?_
  split
  · exact InputSafe.flatMap fun fc _ => InputSafe.loop fun i j k l hl => by
      simp [Block.writes, murE] at hl; subst hl; rfl
  · exact InputSafe.nil
theorem inputSafe_murH (c : Cfg) : InputSafe (updateMurHfield c) := by
  refine InputSafe.flatMap fun f _ => ?_
  split
  · exact InputSafe.loop fun i j k l hl => by
      simp [Block.writes] at hl; subst hl; rfl
  · exact InputSafe.nil
theorem inputSafe_ghost (c : Cfg) (comps : Face → List Fc) :
    InputSafe (Face.all.flatMap fun f => ghostFace c (comps f) f) := by
  refine InputSafe.flatMap fun f _ l hl b hb => ?_
  unfold ghostFace at hb
  split at hb
  · cases hb
  · cases hb
  · obtain ⟨q, _, hb⟩ := List.mem_flatMap.1 hb
    obtain ⟨fc', h', rfl⟩ := List.mem_map.1 hb
    intro hm
    simp [Block.writes, fldAt] at hm
    subst hm; cases hl
theorem inputSafe_ghostE (c : Cfg) : InputSafe (updateGhostEfield c) := inputSafe_ghost c ghostEcomps
theorem inputSafe_ghostH (c : Cfg) : InputSafe (updateGhostHfield c) := inputSafe_ghost c ghostHcomps

/-- A program whose every iteration leaves a given memory unchanged does nothing to it. -/
theorem run_id {p : Prog} {s : Loc → K} (h : ∀ b ∈ p, b.exec C s = s) : p.run C s = s := by
  induction p with
  | nil => rfl
  | cons b p ih =>
    have : Prog.run C (b :: p) s = Prog.run C p (b.exec C s) := rfl
    rw [this, h b (by simp)]
    exact ih fun b' hb' => h b' (List.mem_cons_of_mem _ hb')

/-- A soft source with a zero drive value changes nothing. -/
theorem silent_srcE {l : List Src} {s : Loc → K} (hsoft : ∀ n, n < l.length → C (.soft n) = 1)
    (hz : ∀ n, n < l.length → s (.src false n) = 0) : (updateSourcesE l).run C s = s := by
  apply run_id
  intro b hb
  obtain ⟨x, hx, hb⟩ := List.mem_flatMap.1 hb
  have hlt : x.2 < l.length := by
    have := List.mem_zipIdx (x := x.1) (i := x.2) (k := 0) hx; omega
  split at hb
  · obtain ⟨t, _, rfl⟩ := List.mem_map.1 hb
    funext loc
    unfold srcEBlock
    split <;> (by_cases e : loc = .fld x.1.field t.1 t.2.1 t.2.2
               · subst e; simp [Block.exec, Expr.eval, hsoft x.2 hlt, hz x.2 hlt]
               · have : ¬ (Loc.fld x.1.field t.1 t.2.1 t.2.2 = loc) := fun h => e h.symm
                 simp [Block.exec, this])
  · cases hb

theorem silent_srcH {l : List Src} {s : Loc → K} (hsoft : ∀ n, n < l.length → C (.soft n) = 1)
    (hz : ∀ n, n < l.length → s (.src true n) = 0) : (updateSourcesH l).run C s = s := by
  apply run_id
  intro b hb
  obtain ⟨x, hx, hb⟩ := List.mem_flatMap.1 hb
  have hlt : x.2 < l.length := by
    have := List.mem_zipIdx (x := x.1) (i := x.2) (k := 0) hx; omega
  split at hb
  · obtain ⟨t, _, rfl⟩ := List.mem_map.1 hb
    funext loc
    unfold srcHBlock
    split <;> (by_cases e : loc = .fld x.1.field t.1 t.2.1 t.2.2
               · subst e; simp [Block.exec, Expr.eval, hsoft x.2 hlt, hz x.2 hlt]
               · have : ¬ (Loc.fld x.1.field t.1 t.2.1 t.2.2 = loc) := fun h => e h.symm
                 simp [Block.exec, this])
  · cases hb

end Vulture
