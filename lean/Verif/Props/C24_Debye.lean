import Verif.Lemmas.Sole
import Verif.Model.Debye
import Verif.Spec.Dispersion
import Mathlib.Analysis.Complex.Basic
import Mathlib.Tactic.LinearCombination
import Mathlib.Tactic.FieldSimp
import Mathlib.Algebra.BigOperators.Group.Finset.Basic
/- C24: media declared with poles satisfy the discrete dispersive Ampere law. -/
set_option linter.unusedSimpArgs false
namespace Vulture.C24
open Vulture Spec C10

variable {K : Type*} [CommRing K] (C : CRef → K)

theorem nodup_zipIdx {α : Type*} (l : List α) : l.zipIdx.Nodup := by
  apply List.Nodup.of_map Prod.snd
  rw [List.zipIdx_map_snd]
  exact List.nodup_range'

theorem eval_sum (s : Loc → K) (l : List Expr) : (Expr.sum l).eval C s = (l.map fun e => e.eval C s).sum := by
  have : ∀ (l : List Expr) (e : Expr), (l.foldl Expr.add e).eval C s = e.eval C s + (l.map fun e => e.eval C s).sum := by
    intro l
    induction l with
    | nil => intro e; simp
    | cons a l ih => intro e; rw [List.foldl_cons, ih]; simp [Expr.eval, add_assoc]
  rw [Expr.sum, this]; simp [Expr.eval]

/-- Locations belonging to sample `(i,j,k)` of component `fc` in Debye block number `b`. -/
def mine (b : Nat) (d : DebyeBlk) (fc : Fc) (i j k : Int) : Set Loc := fun l =>
  l = .fld fc i j k ∨ l = .dl b fc (i - d.flim fc .xlo) (j - d.flim fc .ylo) (k - d.flim fc .zlo) ∨
  ∃ im p, l = .dj im b p fc (i - d.flim fc .xlo) (j - d.flim fc .ylo) (k - d.flim fc .zlo)

theorem writes_block (b : Nat) (d : DebyeBlk) (fc : Fc) (i j k : Int) :
    ∀ l ∈ (debyeBlock b d fc i j k).writes, l ∈ mine b d fc i j k := by
  intro l hl
  simp only [debyeBlock, Block.writes, List.map_cons, List.mem_cons, List.mem_map, List.mem_flatMap,
    List.not_mem_nil, or_false] at hl
  rcases hl with rfl | rfl | ⟨a, ⟨m, _, rfl | rfl⟩, rfl⟩
  · exact Or.inl rfl
  · exact Or.inr (Or.inl rfl)
  · exact Or.inr (Or.inr ⟨_, _, rfl⟩)
  · exact Or.inr (Or.inr ⟨_, _, rfl⟩)

theorem reads_sum (l : List Expr) {m : Loc} (h : m ∈ (Expr.sum l).reads) : ∃ e ∈ l, m ∈ e.reads := by
  have : ∀ (l : List Expr) (e : Expr), m ∈ (l.foldl Expr.add e).reads → m ∈ e.reads ∨ ∃ e ∈ l, m ∈ e.reads := by
    intro l
    induction l with
    | nil => intro e h; exact Or.inl h
    | cons a l ih =>
      intro e h
      rcases ih _ h with h | ⟨e', h1, h2⟩
      · simp only [Expr.reads, List.mem_append] at h
        rcases h with h | h
        · exact Or.inl h
        · exact Or.inr ⟨a, by simp, h⟩
      · exact Or.inr ⟨e', by simp [h1], h2⟩
  rcases this l _ h with h | h
  · simp [Expr.reads] at h
  · exact h

theorem reads_block (b : Nat) (d : DebyeBlk) (fc : Fc) (i j k : Int) :
    ∀ l ∈ (debyeBlock b d fc i j k).reads, l ∈ mine b d fc i j k := by
  have hE : ∀ m ∈ (debyeE b d.numPoles fc i j k (i - d.flim fc .xlo) (j - d.flim fc .ylo) (k - d.flim fc .zlo)).reads,
      m ∈ mine b d fc i j k := by
    intro m hm
    simp only [debyeE, Expr.reads, List.mem_append, List.mem_singleton, List.nil_append] at hm
    rcases hm with rfl | hm
    · exact Or.inl rfl
    · obtain ⟨e, he, hm⟩ := reads_sum _ hm
      obtain ⟨p, _, rfl⟩ := List.mem_map.1 he
      simp only [Expr.reads, djR, djI, List.mem_append, List.mem_singleton, List.nil_append] at hm
      rcases hm with rfl | rfl | rfl <;> exact Or.inr (Or.inr ⟨_, _, rfl⟩)
  intro l hl
  obtain ⟨a, ha, hl⟩ := List.mem_flatMap.1 hl
  simp only [debyeBlock, List.mem_cons, List.mem_flatMap, List.not_mem_nil, or_false] at ha
  rcases ha with rfl | rfl | ⟨m, _, rfl | rfl⟩
  · exact hE _ hl
  · exact hE _ hl
  all_goals
    simp only [Expr.reads, djR, djI, List.mem_append, List.mem_singleton, List.nil_append] at hl
    rcases hl with (rfl | rfl) | hl | rfl
    · exact Or.inr (Or.inr ⟨_, _, rfl⟩)
    · exact Or.inr (Or.inr ⟨_, _, rfl⟩)
    · exact hE _ hl
    · exact Or.inr (Or.inl rfl)

/-- The block sets the sample and the caches belonging to it exactly as its body says. -/
theorem debye_run {l : List DebyeBlk} {b : Nat} {d : DebyeBlk} (hb : l[b]? = some d) {fc : Fc} (hf : fc.isE = true)
    {i j k : Int} (hi : InLim (d.flim fc) i j k)
    (only : ∀ b' d', l[b']? = some d' → InLim (d'.flim fc) i j k → b' = b) (s : Loc → K) :
    ∀ m ∈ (debyeBlock b d fc i j k).writes,
      Prog.run C (updateDebye l) s m = (debyeBlock b d fc i j k).exec C s m := by
  have hm : (d, b) ∈ l.zipIdx := List.mem_zipIdx_iff_getElem?.2 hb
  have hnd : l.zipIdx.Nodup := Vulture.C24.nodup_zipIdx l
  have key : ∀ m ∈ mine b d fc i j k, ∀ b' d' fc' i' j' k', l[b']? = some d' → InLim (d'.flim fc') i' j' k' →
      m ∈ (debyeBlock b' d' fc' i' j' k').writes → b' = b ∧ fc' = fc ∧ (i', j', k') = (i, j, k) := by
    intro m hm b' d' fc' i' j' k' hb' hi' hw
    have hw := writes_block _ _ _ _ _ _ m hw
    rcases hm with rfl | rfl | ⟨im, p, rfl⟩
    · rcases hw with h | h | ⟨_, _, h⟩
      · simp only [Loc.fld.injEq] at h
        obtain ⟨rfl, rfl, rfl, rfl⟩ := h
        exact ⟨only _ _ hb' hi', rfl, rfl⟩
      · cases h
      · cases h
    · rcases hw with h | h | ⟨_, _, h⟩
      · cases h
      · simp only [Loc.dl.injEq] at h
        obtain ⟨rfl, rfl, h1, h2, h3⟩ := h
        rw [hb] at hb'
        cases hb'
        refine ⟨rfl, rfl, ?_⟩
        simp only [Prod.mk.injEq]; omega
      · cases h
    · rcases hw with h | h | ⟨_, _, h⟩
      · cases h
      · cases h
      · simp only [Loc.dj.injEq] at h
        obtain ⟨_, rfl, _, rfl, h1, h2, h3⟩ := h
        rw [hb] at hb'
        cases hb'
        refine ⟨rfl, rfl, ?_⟩
        simp only [Prod.mk.injEq]; omega
  obtain ⟨s1, a1, r1⟩ := run_flatMap_sole C (f := fun x : DebyeBlk × Nat =>
      [Fc.ex, .ey, .ez].flatMap fun fc => loopOver (x.1.flim fc) (debyeBlock x.2 x.1 fc)) hm hnd
    (S := mine b d fc i j k) (by
      rintro ⟨d', b'⟩ hx hne m hm
      refine NoWrite.flatMap fun fc' _ => NoWrite.loop fun i' j' k' hi' hw => hne ?_
      have hb' := List.mem_zipIdx_iff_getElem?.1 hx
      obtain ⟨rfl, -, -⟩ := key m hm b' d' fc' i' j' k' hb' hi' hw
      simp only at hb'
      rw [hb] at hb'
      cases hb'
      rfl) s
  have hfc : fc ∈ [Fc.ex, .ey, .ez] := by rcases fc_isE hf with rfl | rfl | rfl <;> simp
  obtain ⟨s2, a2, r2⟩ := run_flatMap_sole C (f := fun fc => loopOver (d.flim fc) (debyeBlock b d fc)) hfc
    (by decide) (S := mine b d fc i j k) (by
      intro fc' _ hne m hm
      refine NoWrite.loop fun i' j' k' hi' hw => hne ?_
      exact (key m hm b d fc' i' j' k' hb hi' hw).2.1) s1
  intro m hw
  have hm' := writes_block _ _ _ _ _ _ m hw
  unfold updateDebye
  rw [r1 m hm', r2 m hm', run_loop_sole C hi (S := mine b d fc i j k) ?_ (reads_block b d fc i j k) s2 m hm' hw]
  · exact exec_congr C (fun m hm => by
      rw [a2 m (reads_block _ _ _ _ _ _ m hm), a1 m (reads_block _ _ _ _ _ _ m hm)]) hw
  · intro i' j' k' hne m hm hw
    apply hne
    have := writes_block _ _ _ _ _ _ m hw
    rcases hm with rfl | rfl | ⟨im, p, rfl⟩ <;> rcases this with h | h | ⟨_, _, h⟩ <;>
      simp only [Loc.fld.injEq, Loc.dl.injEq, Loc.dj.injEq, reduceCtorEq] at h <;>
      simp only [Prod.mk.injEq] <;> omega

/-! ### One update -/

/-- Polarisation current of pole `p` at a sample of block `b`. -/
def cur (s : Loc → ℝ) (b : Nat) (d : DebyeBlk) (fc : Fc) (i j k : Int) (p : Nat) : ℂ :=
  ⟨s (.dj false b p fc (i - d.flim fc .xlo) (j - d.flim fc .ylo) (k - d.flim fc .zlo)),
   s (.dj true b p fc (i - d.flim fc .xlo) (j - d.flim fc .ylo) (k - d.flim fc .zlo))⟩

/-- The remembered electric field of a sample of block `b`. -/
def last {K : Type*} (s : Loc → K) (b : Nat) (d : DebyeBlk) (fc : Fc) (i j k : Int) : K :=
  s (.dl b fc (i - d.flim fc .xlo) (j - d.flim fc .ylo) (k - d.flim fc .zlo))

section upd
variable {l : List DebyeBlk} {b : Nat} {d : DebyeBlk} (hb : l[b]? = some d) {fc : Fc} (hf : fc.isE = true)
  {i j k : Int} (hi : InLim (d.flim fc) i j k)
  (only : ∀ b' d', l[b']? = some d' → InLim (d'.flim fc) i j k → b' = b)
include hb hf hi only

theorem upd_field (s : Loc → K) : Prog.run C (updateDebye l) s (.fld fc i j k) =
    (debyeE b d.numPoles fc i j k (i - d.flim fc .xlo) (j - d.flim fc .ylo) (k - d.flim fc .zlo)).eval C s := by
  rw [debye_run C hb hf hi only s _ (by simp [debyeBlock, Block.writes])]
  simp [debyeBlock, Block.exec]

theorem upd_last (s : Loc → K) : last (Prog.run C (updateDebye l) s) b d fc i j k =
    Prog.run C (updateDebye l) s (.fld fc i j k) := by
  rw [upd_field C hb hf hi only]
  unfold last
  rw [debye_run C hb hf hi only s _ (by simp [debyeBlock, Block.writes])]
  simp [debyeBlock, Block.exec]

theorem upd_dj (s : Loc → K) {p : Nat} (hp : p < d.numPoles) (im : Bool) :
    Prog.run C (updateDebye l) s (.dj im b p fc (i - d.flim fc .xlo) (j - d.flim fc .ylo) (k - d.flim fc .zlo)) =
      let J := fun im => s (.dj im b p fc (i - d.flim fc .xlo) (j - d.flim fc .ylo) (k - d.flim fc .zlo))
      let dE := Prog.run C (updateDebye l) s (.fld fc i j k) - last s b d fc i j k
      if im then C (.dal false b p) * J true + C (.dal true b p) * J false + C (.dbe true b p) * dE
      else C (.dal false b p) * J false - C (.dal true b p) * J true + C (.dbe false b p) * dE := by
  have hm : ∀ im, (Loc.dj im b p fc (i - d.flim fc .xlo) (j - d.flim fc .ylo) (k - d.flim fc .zlo)) ∈
      (debyeBlock b d fc i j k).writes := by
    intro im
    simp only [debyeBlock, Block.writes, List.map_cons, List.mem_cons, reduceCtorEq, false_or, List.mem_map,
      List.mem_flatMap, List.mem_range, List.not_mem_nil, or_false]
    cases im
    · exact ⟨_, ⟨p, hp, Or.inl rfl⟩, rfl⟩
    · exact ⟨_, ⟨p, hp, Or.inr rfl⟩, rfl⟩
  rw [debye_run C hb hf hi only s _ (hm im), upd_field C hb hf hi only]
  have hx : ∀ a ∈ debyeBlock b d fc i j k, ∀ a' ∈ debyeBlock b d fc i j k, a'.tgt = a.tgt → a' = a := by
    intro a ha a' ha' e
    simp only [debyeBlock, List.mem_cons, List.mem_flatMap, List.not_mem_nil, or_false] at ha ha'
    rcases ha with rfl | rfl | ⟨m, _, rfl | rfl⟩ <;> rcases ha' with rfl | rfl | ⟨m', _, rfl | rfl⟩ <;>
      simp only [Loc.dj.injEq, reduceCtorEq, false_and, true_and, and_true] at e <;> first | rfl | (subst e; rfl)
  obtain ⟨a, ha, e⟩ := List.mem_map.1 (hm im)
  rw [← e, exec_of_mem C ha (hx a ha)]
  simp only [debyeBlock, List.mem_cons, List.mem_flatMap, List.not_mem_nil, or_false] at ha
  rcases ha with rfl | rfl | ⟨m, _, rfl | rfl⟩ <;>
    simp only [Loc.dj.injEq, reduceCtorEq, true_and, and_true] at e
  · obtain ⟨rfl, rfl⟩ := e
    simp [Expr.eval, djR, djI, last]
  · obtain ⟨rfl, rfl⟩ := e
    simp [Expr.eval, djR, djI, last]
end upd

theorem debyeSum_eq (dt eps0 : ℝ) (qs : List DPole) : debyeSum dt eps0 qs = (qs.map fun q => (dbeta dt eps0 q).re).sum := by
  have : ∀ (l : List DPole) (a : ℝ), l.foldl (fun acc q => acc + (dbeta dt eps0 q).re) a =
      a + (l.map fun q => (dbeta dt eps0 q).re).sum := by
    intro l
    induction l with
    | nil => intro a; simp
    | cons q l ih => intro a; rw [List.foldl_cons, ih]; simp [add_assoc]
  rw [debyeSum, this]; simp

/-! ### Time steps -/

/-- The situation of the property: sample `q` of component `a` lies in Debye block `b` and in no other
Debye block, is advanced by the main grid update with the coefficients of the block's medium, and no
source, incident wave or impedance surface acts on it. `h`: dual edge lengths. -/
structure DebyeSample (S : Sim) (C : CRef → ℝ) (dt eps0 mu0 eps_r sigma mu_r : ℝ) (h : Axis → Int → ℝ)
    (qs : List DPole) (b : Nat) (d : DebyeBlk) (a : Axis) (q : Axis → Int) : Prop where
  cfg : ValidCfg S.cfg
  blk : S.debye[b]? = some d
  num : d.numPoles = qs.length
  inBlock : InLim (d.flim a.e) (q .x) (q .y) (q .z)
  inGrid : InLim (S.cfg.gfilim a.e) (q .x) (q .y) (q .z)
  inside : SampleIn S.cfg.gibox a.e (q .x) (q .y) (q .z)
  only : ∀ b' d', S.debye[b']? = some d' → InLim (d'.flim a.e) (q .x) (q .y) (q .z) → b' = b
  noSibc : NoWrite (updateSibcE S.sibc) (.fld a.e (q .x) (q .y) (q .z))
  noSrc : NoWrite (updateSourcesE S.srcs) (.fld a.e (q .x) (q .y) (q .z))
  noPw : NoWrite (updatePlaneWavesE S.cfg S.pws) (.fld a.e (q .x) (q .y) (q .z))
  alpha : C (.alpha a.e (q .x) (q .y) (q .z)) =
    (calcCoeff dt eps0 mu0 (debyeMedium dt eps0 eps_r sigma mu_r qs)).alpha
  beta : C (.beta a.e (q .x) (q .y) (q .z)) =
    (calcCoeff dt eps0 mu0 (debyeMedium dt eps0 eps_r sigma mu_r qs)).beta
  dal : ∀ (p : Nat) (hp : p < qs.length), (⟨C (.dal false b p), C (.dal true b p)⟩ : ℂ) = dalpha dt qs[p]
  dbe : ∀ (p : Nat) (hp : p < qs.length), (⟨C (.dbe false b p), C (.dbe true b p)⟩ : ℂ) = dbeta dt eps0 qs[p]
  edges : ∀ (c : Axis) (n : Int), C (.idh c n) = 1 / h c n
  dt_ne : dt ≠ 0
  den : 2 * eps_r * eps0 + 2 * debyeSum dt eps0 qs * dt + dt * sigma ≠ 0
  poles : ∀ p ∈ qs, (1 : ℂ) - (1 / 2) * dt * p.pole ≠ 0

/-- What the specification calls a pole. -/
def DPole.spec (q : DPole) : Spec.Pole := ⟨q.res, q.pole⟩

section step
variable {S : Sim} {C : CRef → ℝ} {dt eps0 mu0 eps_r sigma mu_r : ℝ} {h : Axis → Int → ℝ} {qs : List DPole}
  {b : Nat} {d : DebyeBlk} {a : Axis} {q : Axis → Int}
  (hd : DebyeSample S C dt eps0 mu0 eps_r sigma mu_r h qs b d a q)
include hd

/-- Locations of the sample are written only by the core and the Debye update. -/
theorem step_val {m : Loc} (hm : m = .fld a.e (q .x) (q .y) (q .z) ∨ m.kind = .dj ∨ m.kind = .dl) (s : Loc → ℝ) :
    S.step.run C s m = Prog.run C (updateDebye S.debye) (Prog.run C
      (updatePmlEfield S.cfg ++ updateMurEfield S.cfg ++ updateGridEfield S.cfg) s) m := by
  have e : S.step = (updatePmlEfield S.cfg ++ updateMurEfield S.cfg ++ updateGridEfield S.cfg) ++
      (updateDebye S.debye ++ (updateSibcE S.sibc ++ updateSourcesE S.srcs ++ updatePlaneWavesE S.cfg S.pws ++
        updateGhostEfield S.cfg ++ S.stepH)) := by
    simp only [Sim.step, Sim.stepE, List.append_assoc]
  have hn : NoWrite (updateSibcE S.sibc ++ updateSourcesE S.srcs ++ updatePlaneWavesE S.cfg S.pws ++
        updateGhostEfield S.cfg ++ S.stepH) m := by
    rcases hm with rfl | hm
    · exact (((hd.noSibc.append hd.noSrc).append hd.noPw).append
        (noWrite_ghostE hd.cfg (sampleIn_mono (gibox_within hd.cfg) hd.inside))).append
        (noE_stepH (axis_e_isE a) _ _ _ S)
    · have k : m.kind ∉ [LKind.fld, .pml, .et, .filt, .aux] := by
        rcases hm with h | h <;> rw [h] <;> decide
      refine NoWrite.append (NoWrite.append (NoWrite.append (NoWrite.append ?_ ?_) ?_) ?_) ?_
      · exact ((wo_sibcE S.sibc).mono (by decide)).noWrite k
      · exact ((wo_srcE S.srcs).mono (by decide)).noWrite k
      · exact ((wo_pwE S.cfg S.pws).mono (by decide)).noWrite k
      · exact ((wo_ghost S.cfg ghostEcomps).mono (by decide)).noWrite k
      · refine NoWrite.append (NoWrite.append (NoWrite.append (NoWrite.append (NoWrite.append (NoWrite.append ?_ ?_) ?_) ?_) ?_) ?_) ?_
        · exact ((wo_pmlH S.cfg).mono (by decide)).noWrite k
        · exact ((wo_murH S.cfg).mono (by decide)).noWrite k
        · exact ((wo_gridH S.cfg).mono (by decide)).noWrite k
        · exact ((wo_sibcH S.sibc).mono (by decide)).noWrite k
        · exact ((wo_srcH S.srcs).mono (by decide)).noWrite k
        · exact ((wo_pwH S.cfg S.pws).mono (by decide)).noWrite k
        · exact ((wo_ghost S.cfg ghostHcomps).mono (by decide)).noWrite k
  rw [e, run_append, run_append, NoWrite.run C hn]

theorem core_keeps {m : Loc} (hm : m.kind = .dj ∨ m.kind = .dl) (s : Loc → ℝ) :
    Prog.run C (updatePmlEfield S.cfg ++ updateMurEfield S.cfg ++ updateGridEfield S.cfg) s m = s m := by
  have k : m.kind ∉ [LKind.fld, .pml] := by
    rcases hm with h | h <;> rw [h] <;> decide
  exact NoWrite.run C ((((wo_pmlE S.cfg).mono (by decide)).noWrite k).append
    (((wo_murE S.cfg).mono (by decide)).noWrite k) |>.append (((wo_gridE S.cfg).mono (by decide)).noWrite k)) s

/-- The remembered field is the field at the end of the step. -/
theorem last_step (s : Loc → ℝ) :
    last (S.step.run C s) b d a.e (q .x) (q .y) (q .z) = at3 (S.step.run C s) a.e q := by
  have h1 := upd_last C hd.blk (axis_e_isE a) hd.inBlock hd.only (Prog.run C
      (updatePmlEfield S.cfg ++ updateMurEfield S.cfg ++ updateGridEfield S.cfg) s)
  unfold last at3 at *
  rw [step_val hd (Or.inr (Or.inr rfl)), step_val hd (Or.inl rfl)]
  exact h1

/-- New current of a pole. -/
theorem cur_step (s : Loc → ℝ) (p : Nat) (hp : p < qs.length) :
    cur (S.step.run C s) b d a.e (q .x) (q .y) (q .z) p = dalpha dt qs[p] * cur s b d a.e (q .x) (q .y) (q .z) p +
      dbeta dt eps0 qs[p] * ((at3 (S.step.run C s) a.e q - last s b d a.e (q .x) (q .y) (q .z) : ℝ) : ℂ) := by
  have h1 := upd_dj C hd.blk (axis_e_isE a) hd.inBlock hd.only (Prog.run C
      (updatePmlEfield S.cfg ++ updateMurEfield S.cfg ++ updateGridEfield S.cfg) s) (p := p) (by rw [hd.num]; exact hp)
  unfold cur at3 last at *
  rw [step_val hd (m := .fld _ _ _ _) (Or.inl rfl), step_val hd (m := .dj false _ _ _ _ _ _) (Or.inr (Or.inl rfl)),
    step_val hd (m := .dj true _ _ _ _ _ _) (Or.inr (Or.inl rfl)), h1, h1, ← hd.dal p hp, ← hd.dbe p hp]
  have k1 : ∀ im x y z, Prog.run C (updatePmlEfield S.cfg ++ updateMurEfield S.cfg ++ updateGridEfield S.cfg) s
      (.dj im b p a.e x y z) = s (.dj im b p a.e x y z) := fun im x y z => core_keeps hd (Or.inl rfl) s
  have k2 : ∀ x y z, Prog.run C (updatePmlEfield S.cfg ++ updateMurEfield S.cfg ++ updateGridEfield S.cfg) s
      (.dl b a.e x y z) = s (.dl b a.e x y z) := fun x y z => core_keeps hd (Or.inr rfl) s
  simp only [k1, k2]
  apply Complex.ext <;> simp <;> ring

/-- New electric field. -/
theorem field_step (s : Loc → ℝ) :
    at3 (S.step.run C s) a.e q = C (.alpha a.e (q .x) (q .y) (q .z)) * at3 s a.e q +
      C (.beta a.e (q .x) (q .y) (q .z)) * (curlOfH h s a q -
        ((List.range qs.length).map fun p => ((1 + (⟨C (.dal false b p), C (.dal true b p)⟩ : ℂ)) *
          cur s b d a.e (q .x) (q .y) (q .z) p).re).sum) := by
  have h1 := upd_field C hd.blk (axis_e_isE a) hd.inBlock hd.only (Prog.run C
      (updatePmlEfield S.cfg ++ updateMurEfield S.cfg ++ updateGridEfield S.cfg) s)
  have k1 : ∀ im p x y z, Prog.run C (updatePmlEfield S.cfg ++ updateMurEfield S.cfg ++ updateGridEfield S.cfg) s
      (.dj im b p a.e x y z) = s (.dj im b p a.e x y z) := fun im p x y z => core_keeps hd (Or.inl rfl) s
  have hE := electric_value C hd.cfg (axis_e_isE a) hd.inGrid s
  unfold at3
  rw [step_val hd (Or.inl rfl), h1]
  simp only [debyeE, Expr.eval, eval_sum, List.map_map, hE, hd.num]
  have e2 : (ampere a.e (q .x) (q .y) (q .z)).eval C s = C (.alpha a.e (q .x) (q .y) (q .z)) * at3 s a.e q +
      C (.beta a.e (q .x) (q .y) (q .z)) * curlOfH h s a q := by
    cases a <;> simp [ampere, ampereX, ampereY, ampereZ, Axis.e, Expr.eval, curlOfH, at3, back, Axis.next, Axis.h,
      curlHx, curlHy, curlHz, EX, EY, EZ, HX, HY, HZ, hd.edges] <;> (left; ring)
  have e3 : ((List.range qs.length).map ((fun e => Expr.eval C (Prog.run C
      (updatePmlEfield S.cfg ++ updateMurEfield S.cfg ++ updateGridEfield S.cfg) s) e) ∘ fun p =>
      (djR b p a.e (q .x - d.flim a.e .xlo) (q .y - d.flim a.e .ylo) (q .z - d.flim a.e .zlo)).add
        (Expr.sub (Expr.mul (.dal false b p) (djR b p a.e (q .x - d.flim a.e .xlo) (q .y - d.flim a.e .ylo) (q .z - d.flim a.e .zlo)))
          (Expr.mul (.dal true b p) (djI b p a.e (q .x - d.flim a.e .xlo) (q .y - d.flim a.e .ylo) (q .z - d.flim a.e .zlo)))))) =
      ((List.range qs.length).map fun p => ((1 + (⟨C (.dal false b p), C (.dal true b p)⟩ : ℂ)) *
          cur s b d a.e (q .x) (q .y) (q .z) p).re) := by
    apply List.map_congr_left
    intro p _
    simp only [Function.comp, Expr.eval, djR, djI, k1, cur, Complex.mul_re, Complex.add_re, Complex.one_re,
      Complex.add_im, Complex.one_im]
    ring
  rw [e2, e3]
  unfold at3
  ring

/-- **C24**, poles: each pole's current obeys the trapezoidal discretisation of its differential
equation with the electric field at the beginning and end of the step. -/
theorem pole_equation (s : Loc → ℝ) (hl : last s b d a.e (q .x) (q .y) (q .z) = at3 s a.e q)
    (p : Nat) (hp : p < qs.length) :
    PoleEquation dt eps0 (DPole.spec qs[p]) (cur s b d a.e (q .x) (q .y) (q .z) p)
      (cur (S.step.run C s) b d a.e (q .x) (q .y) (q .z) p) (at3 s a.e q) (at3 (S.step.run C s) a.e q) := by
  have e := cur_step hd s p hp
  rw [hl] at e
  have h1 := hd.poles qs[p] (List.getElem_mem hp)
  have hdt : (dt : ℂ) ≠ 0 := by exact_mod_cast hd.dt_ne
  unfold PoleEquation DPole.spec
  generalize cur (S.step.run C s) b d a.e (q .x) (q .y) (q .z) p = J' at *
  generalize cur s b d a.e (q .x) (q .y) (q .z) p = J at *
  generalize ((at3 (S.step.run C s) a.e q - at3 s a.e q : ℝ) : ℂ) = D at *
  have e2 : J' * (1 - (1 / 2) * dt * qs[p].pole) = (1 + (1 / 2) * dt * qs[p].pole) * J + eps0 * qs[p].res * D := by
    rw [e, dalpha, dbeta]
    generalize 1 - (1 / 2) * (dt : ℂ) * qs[p].pole = D0 at *
    field_simp
  field_simp
  linear_combination 2 * e2

/-- **C24**, field: the new electric field obeys the discrete Ampere law with the mean over the step of
the polarisation currents of all poles and their conjugates. -/
theorem dispersive_ampere (s : Loc → ℝ) (hl : last s b d a.e (q .x) (q .y) (q .z) = at3 s a.e q) :
    DispersiveAmpere dt eps0 eps_r sigma (at3 s a.e q) (at3 (S.step.run C s) a.e q) (curlOfH h s a q)
      ((List.range qs.length).map (cur s b d a.e (q .x) (q .y) (q .z)))
      ((List.range qs.length).map (cur (S.step.run C s) b d a.e (q .x) (q .y) (q .z))) := by
  have e := field_step hd s
  rw [hd.alpha, hd.beta] at e
  have hs : ∀ J : ℕ → ℂ, (((List.range qs.length).map J).map fun z => (z + star z).re).sum =
      2 * ((List.range qs.length).map fun p => (J p).re).sum := by
    intro J
    rw [List.map_map, ← List.sum_map_mul_left]
    congr 1
    apply List.map_congr_left
    intro p _
    simp; ring
  have hJ : ((List.range qs.length).map fun p => (cur (S.step.run C s) b d a.e (q .x) (q .y) (q .z) p).re).sum +
      ((List.range qs.length).map fun p => (cur s b d a.e (q .x) (q .y) (q .z) p).re).sum =
      ((List.range qs.length).map fun p => ((1 + (⟨C (.dal false b p), C (.dal true b p)⟩ : ℂ)) *
          cur s b d a.e (q .x) (q .y) (q .z) p).re).sum +
      debyeSum dt eps0 qs * (at3 (S.step.run C s) a.e q - at3 s a.e q) := by
    have e4 : debyeSum dt eps0 qs = ((List.range qs.length).map fun p => C (.dbe false b p)).sum := by
      rw [debyeSum_eq]
      congr 1
      apply List.ext_getElem
      · simp
      · intro p h1 h2
        have hp : p < qs.length := by simpa using h1
        simp only [List.getElem_map, List.getElem_range, ← hd.dbe p hp]
    rw [e4, ← List.sum_map_mul_right, ← List.sum_map_add, ← List.sum_map_add]
    congr 1
    apply List.map_congr_left
    intro p hp
    have hp : p < qs.length := by simpa using hp
    have := congrArg Complex.re (cur_step hd s p hp)
    rw [hl, ← hd.dal p hp, ← hd.dbe p hp] at this
    rw [this]
    simp
    ring
  unfold DispersiveAmpere
  rw [hs, hs]
  have hden := hd.den
  have hdt := hd.dt_ne
  simp only [calcCoeff, debyeMedium] at e
  generalize ((List.range qs.length).map fun p => (cur (S.step.run C s) b d a.e (q .x) (q .y) (q .z) p).re).sum = R' at *
  generalize ((List.range qs.length).map fun p => (cur s b d a.e (q .x) (q .y) (q .z) p).re).sum = R at *
  generalize ((List.range qs.length).map fun p => ((1 + (⟨C (.dal false b p), C (.dal true b p)⟩ : ℂ)) *
          cur s b d a.e (q .x) (q .y) (q .z) p).re).sum = T at *
  generalize at3 (S.step.run C s) a.e q = E' at *
  generalize at3 s a.e q = E at *
  generalize curlOfH h s a q = c at *
  generalize debyeSum dt eps0 qs = sm at *
  have e5 : E' * (2 * eps_r * eps0 + 2 * sm * dt + dt * sigma) =
      (2 * eps_r * eps0 + 2 * sm * dt - dt * sigma) * E + 2 * dt * (c - T) := by
    rw [e]
    generalize 2 * eps_r * eps0 + 2 * sm * dt + dt * sigma = D0 at *
    field_simp
  have e6 : R' = T + sm * (E' - E) - R := by linear_combination hJ
  rw [e6]
  field_simp
  linear_combination e5

/-- **C24** for whole runs started from zero fields: after every step, whatever the excitations. -/
theorem debye_run_law (u : Nat → Loc → ℝ) (n : Nat) :
    let s := S.state C u (fun _ => 0)
    (∀ (p : Nat) (hp : p < qs.length),
      PoleEquation dt eps0 (DPole.spec qs[p]) (cur (s n) b d a.e (q .x) (q .y) (q .z) p)
        (cur (s (n + 1)) b d a.e (q .x) (q .y) (q .z) p) (at3 (s n) a.e q) (at3 (s (n + 1)) a.e q)) ∧
    DispersiveAmpere dt eps0 eps_r sigma (at3 (s n) a.e q) (at3 (s (n + 1)) a.e q) (curlOfH h (s n) a q)
      ((List.range qs.length).map (cur (s n) b d a.e (q .x) (q .y) (q .z)))
      ((List.range qs.length).map (cur (s (n + 1)) b d a.e (q .x) (q .y) (q .z))) := by
  intro s
  have inv : ∀ n, last (s n) b d a.e (q .x) (q .y) (q .z) = at3 (s n) a.e q := by
    intro n
    cases n with
    | zero => rfl
    | succ n => exact last_step hd _
  have k1 : ∀ w (t : Loc → ℝ), at3 (setInputs w t) a.e q = at3 t a.e q := fun _ _ => rfl
  have k2 : ∀ w (t : Loc → ℝ), last (setInputs w t) b d a.e (q .x) (q .y) (q .z) = last t b d a.e (q .x) (q .y) (q .z) :=
    fun _ _ => rfl
  have k3 : ∀ w (t : Loc → ℝ), cur (setInputs w t) b d a.e (q .x) (q .y) (q .z) = cur t b d a.e (q .x) (q .y) (q .z) :=
    fun _ _ => rfl
  have k4 : ∀ w (t : Loc → ℝ), curlOfH h (setInputs w t) a q = curlOfH h t a q := fun _ _ => rfl
  have hl : last (setInputs (u n) (s n)) b d a.e (q .x) (q .y) (q .z) = at3 (setInputs (u n) (s n)) a.e q := by
    rw [k1, k2, inv n]
  have h1 := pole_equation hd _ hl
  have h2 := dispersive_ampere hd _ hl
  simp only [k1, k3, k4] at h1 h2
  exact ⟨h1, h2⟩

end step

/-! ### Consequences -/

/-- `|dalpha| ≤ 1` exactly for poles in the closed left half plane. -/
theorem normSq_dalpha (dt : ℝ) (hdt : 0 < dt) (q : DPole) (hq : (1 : ℂ) - (1 / 2) * dt * q.pole ≠ 0) :
    (‖dalpha dt q‖ < 1 ↔ q.pole.re < 0) ∧ (‖dalpha dt q‖ ≤ 1 ↔ q.pole.re ≤ 0) := by
  have hpos : 0 < ‖(1 : ℂ) - (1 / 2) * dt * q.pole‖ := norm_pos_iff.2 hq
  have key : ‖(1 : ℂ) - (1 / 2) * dt * q.pole‖ ^ 2 - ‖(1 : ℂ) + (1 / 2) * dt * q.pole‖ ^ 2 = - (2 * dt * q.pole.re) := by
    rw [← Complex.normSq_eq_norm_sq, ← Complex.normSq_eq_norm_sq, Complex.normSq_apply, Complex.normSq_apply]
    simp
    ring
  unfold dalpha
  rw [norm_div, div_lt_one hpos, div_le_one hpos]
  rw [← abs_norm, ← abs_norm (1 - _), ← sq_lt_sq, ← sq_le_sq]
  constructor
  · constructor
    · intro h; nlinarith
    · intro h; nlinarith
  · constructor
    · intro h; by_contra hc; push Not at hc; nlinarith
    · intro h; nlinarith

/-- Two currents driven by the same field differ by a term that is multiplied by `dalpha` in every step. -/
theorem transient (dt eps0 : ℝ) (hdt : dt ≠ 0) (q : DPole) (hq : (1 : ℂ) - (1 / 2) * dt * q.pole ≠ 0) (E : ℕ → ℝ)
    (J J' : ℕ → ℂ) (h : ∀ n, PoleEquation dt eps0 (DPole.spec q) (J n) (J (n+1)) (E n) (E (n+1)))
    (h' : ∀ n, PoleEquation dt eps0 (DPole.spec q) (J' n) (J' (n+1)) (E n) (E (n+1))) (n : ℕ) :
    J n - J' n = dalpha dt q ^ n * (J 0 - J' 0) := by
  have hdt' : (dt : ℂ) ≠ 0 := by exact_mod_cast hdt
  induction n with
  | zero => simp
  | succ n ih =>
    have e : (J (n+1) - J' (n+1)) * (1 - (1 / 2) * dt * q.pole) = (1 + (1 / 2) * dt * q.pole) * (J n - J' n) := by
      have h1 := h n
      have h2 := h' n
      unfold PoleEquation DPole.spec at h1 h2
      generalize (((E (n+1) - E n : ℝ) : ℂ)) = D at *
      have h3 : (J (n+1) - J n) = dt * (q.pole * ((J (n+1) + J n) / 2) + eps0 * q.res * (D / dt)) := by
        rw [← h1]; field_simp
      have h4 : (J' (n+1) - J' n) = dt * (q.pole * ((J' (n+1) + J' n) / 2) + eps0 * q.res * (D / dt)) := by
        rw [← h2]; field_simp
      linear_combination h3 - h4
    rw [pow_succ, mul_assoc, mul_comm (dalpha dt q), ← mul_assoc, ← ih, dalpha, mul_div_assoc', eq_div_iff hq, e]
    ring

/-- The complex frequency at which trapezoidal integration with step `dt` sees the oscillation `z^n`. -/
noncomputable def warped (dt : ℝ) (z : ℂ) : ℂ := 2 / dt * ((z - 1) / (z + 1))

/-- **C24**, dispersion relation: under an oscillation `E_n = Re(E0 z^n)` the equation of a pole has a solution
in which the pole and its conjugate carry the current `s eps0 (r/(s-p) + r*/(s-p*)) E` of the manual's
relative permittivity, at the warped frequency `s`; by `transient` every other solution approaches it if
`Re p < 0`. -/
theorem dispersion_relation (dt eps0 : ℝ) (hdt : dt ≠ 0) (q : Spec.Pole) (z E0 : ℂ) (hz : z ≠ -1)
    (h1 : warped dt z ≠ q.pole) (h2 : star (warped dt z) ≠ q.pole) :
    ∃ J : ℕ → ℂ,
      (∀ n, PoleEquation dt eps0 q (J n) (J (n+1)) (E0 * z ^ n).re (E0 * z ^ (n+1)).re) ∧
      ∀ n, (J n + star (J n)).re = (warped dt z * eps0 *
        (q.res / (warped dt z - q.pole) + star q.res / (warped dt z - star q.pole)) * (E0 * z ^ n)).re := by
  have hdt' : (dt : ℂ) ≠ 0 := by exact_mod_cast hdt
  have hz1 : z + 1 ≠ 0 := fun h => hz (eq_neg_of_add_eq_zero_left h)
  have hw : warped dt z * dt * (z + 1) = 2 * (z - 1) := by unfold warped; field_simp
  have hw' : star (warped dt z) * dt * (star z + 1) = 2 * (star z - 1) := by
    have := congrArg star hw
    simpa using this
  generalize hs : warped dt z = s at *
  have d1 : s - q.pole ≠ 0 := sub_ne_zero.2 h1
  have d2 : star s - q.pole ≠ 0 := sub_ne_zero.2 h2
  refine ⟨fun n => eps0 / 2 * (q.res * s / (s - q.pole) * (E0 * z ^ n) +
    q.res * star s / (star s - q.pole) * star (E0 * z ^ n)), fun n => ?_, fun n => ?_⟩
  · unfold PoleEquation
    have hre : ∀ w : ℂ, ((w.re : ℝ) : ℂ) = (w + star w) / 2 := by
      intro w
      apply Complex.ext <;> simp
    push_cast
    rw [hre, hre]
    have e1 : E0 * z ^ (n+1) = (E0 * z ^ n) * z := by ring
    rw [e1]
    have e2 : star ((E0 * z ^ n) * z) = star (E0 * z ^ n) * star z := by simp
    rw [e2]
    generalize E0 * z ^ n = w
    generalize star w = w'
    generalize hσ : star s = σ at *
    generalize star z = ζ at *
    have hA : q.res * s / (s - q.pole) * (s - q.pole) = q.res * s := by field_simp
    have hB : q.res * σ / (σ - q.pole) * (σ - q.pole) = q.res * σ := by field_simp
    generalize q.res * s / (s - q.pole) = A at *
    generalize q.res * σ / (σ - q.pole) = B at *
    rw [div_eq_iff hdt', add_mul, mul_assoc (_ * q.res), div_mul_cancel₀ _ hdt']
    linear_combination (eps0 / 4 : ℂ) * (w * dt * (z + 1) * hA + w' * dt * (ζ + 1) * hB -
      w * (A - q.res) * hw - w' * (B - q.res) * hw')
  · have e : star (q.res * star s / (star s - q.pole) * star (E0 * z ^ n)) = star q.res * s / (s - star q.pole) * (E0 * z ^ n) := by
      simp
    have hre : ∀ u v : ℂ, ((eps0 : ℂ) / 2 * (u + v) + star ((eps0 : ℂ) / 2 * (u + v))).re = (eps0 * (u + star v)).re := by
      intro u v; simp; ring
    rw [hre, e]
    congr 1
    ring

/-- **C24**, stability of the stored currents: every pole accepted from a parameter file is not amplified. -/
theorem file_poles_stable (dt : ℝ) (hdt : 0 < dt) (e sg m : ℝ) (rows : List (ℝ × ℝ × ℝ × ℝ)) (e' s' m' : ℝ)
    (qs : List DPole) (h : readDebyeFile e sg m rows = some (e', s', m', qs)) :
    1 ≤ e' ∧ 0 ≤ s' ∧ 1 ≤ m' ∧ ∀ q ∈ qs, ‖dalpha dt q‖ ≤ 1 := by
  unfold readDebyeFile at h
  split at h
  · cases h
  · rename_i hc
    push Not at hc
    simp only [Option.some.injEq, Prod.mk.injEq] at h
    obtain ⟨rfl, rfl, rfl, rfl⟩ := h
    refine ⟨hc.1, hc.2.1, hc.2.2.1, ?_⟩
    intro q hq
    obtain ⟨r, hr, rfl⟩ := List.mem_map.1 hq
    have hre : r.2.2.1 ≤ 0 := hc.2.2.2 r hr
    refine (normSq_dalpha dt hdt _ ?_).2.2 hre
    intro h0
    have := congrArg Complex.re h0
    simp at this
    nlinarith

/-- **C24**, finding: a pole written on the card is not checked; a positive one is accepted and its current
grows without bound although the field stays zero. -/
theorem card_pole_unchecked (dt eps0 : ℝ) (hdt : 0 < dt) (hsmall : dt < 1) :
    ∃ qs, parseDebye [1, 0, 1, 1, 1] = some (1, 0, 1, qs) ∧ ∃ q ∈ qs, 1 < ‖dalpha dt q‖ ∧
      ∀ J : ℕ → ℂ, (∀ n, PoleEquation dt eps0 (DPole.spec q) (J n) (J (n+1)) 0 0) →
        ∀ n, ‖J n‖ = ‖dalpha dt q‖ ^ n * ‖J 0‖ := by
  refine ⟨[⟨(1 : ℝ), (1 : ℝ)⟩], ?_, ⟨(1 : ℝ), (1 : ℝ)⟩, by simp, ?_, ?_⟩
  · unfold parseDebye parseDebye.chk
    norm_num
  · have hq : (1 : ℂ) - (1 / 2) * dt * ((1 : ℝ) : ℂ) ≠ 0 := by
      intro h0
      have := congrArg Complex.re h0
      simp at this
      nlinarith
    have := (normSq_dalpha dt hdt ⟨(1 : ℝ), (1 : ℝ)⟩ hq).2
    by_contra hc
    push Not at hc
    have := this.1 hc
    simp at this
    linarith
  · intro J hJ n
    have hq : (1 : ℂ) - (1 / 2) * dt * ((1 : ℝ) : ℂ) ≠ 0 := by
      intro h0
      have := congrArg Complex.re h0
      simp at this
      nlinarith
    have := transient dt eps0 hdt.ne' ⟨(1 : ℝ), (1 : ℝ)⟩ hq (fun _ => 0) J (fun _ => 0) hJ
      (by intro n; unfold PoleEquation; simp) n
    simp only [sub_zero] at this
    rw [this, norm_mul, norm_pow]

/-! ### A concrete case -/

/-- A 2x2x2 mesh with magnetic walls filled with a two-pole medium. -/
def exCfg : Cfg := ⟨fun _ => 2, fun _ => .pmc, fun _ => 0⟩
noncomputable def exPoles : List DPole := [⟨1, -1⟩, ⟨Complex.I, -1 + Complex.I⟩]
noncomputable def exBlk : DebyeBlk := ⟨setFieldLimits exCfg.gibox (fun _ => true), 2⟩
noncomputable def exSim : Sim := ⟨exCfg, [exBlk], [], [], []⟩
noncomputable def exC : CRef → ℝ
  | .alpha .. => (calcCoeff 1 1 1 (debyeMedium 1 1 2 3 1 exPoles)).alpha
  | .beta .. => (calcCoeff 1 1 1 (debyeMedium 1 1 2 3 1 exPoles)).beta
  | .dal im _ p => if im then (dalpha 1 (exPoles.getD p ⟨0, 0⟩)).im else (dalpha 1 (exPoles.getD p ⟨0, 0⟩)).re
  | .dbe im _ p => if im then (dbeta 1 1 (exPoles.getD p ⟨0, 0⟩)).im else (dbeta 1 1 (exPoles.getD p ⟨0, 0⟩)).re
  | _ => 1

theorem exPoles_ne : ∀ p ∈ exPoles, (1 : ℂ) - (1 / 2) * (1 : ℝ) * p.pole ≠ 0 := by
  intro p hp
  simp [exPoles] at hp
  rcases hp with rfl | rfl <;> intro h0 <;> have := congrArg Complex.re h0 <;> norm_num at this

/-- Non-vacuity: the hypotheses hold at an inner sample of that mesh. -/
theorem ex_sample : DebyeSample exSim exC 1 1 1 2 3 1 (fun _ _ => 1) exPoles 0 exBlk .x
    (fun _ => exCfg.gibox .xlo + 1) where
  cfg := by constructor <;> simp [exSim, exCfg]
  blk := rfl
  num := rfl
  inBlock := by unfold InLim exBlk; decide
  inGrid := by unfold InLim exSim; decide
  inside := by unfold SampleIn exSim; decide
  only := by
    intro b' d' h _
    by_contra hb
    have : exSim.debye[b']? = none := by
      apply List.getElem?_eq_none
      simp [exSim]; omega
    rw [this] at h; cases h
  noSibc := NoWrite.nil
  noSrc := NoWrite.nil
  noPw := NoWrite.nil
  alpha := rfl
  beta := rfl
  dal := by
    intro p hp
    apply Complex.ext <;> simp [exC, hp]
  dbe := by
    intro p hp
    apply Complex.ext <;> simp [exC, hp]
  edges := by intro c n; simp [exC]
  dt_ne := one_ne_zero
  den := by
    rw [debyeSum_eq]
    simp [exPoles, dbeta, Complex.div_re, Complex.normSq_apply]
    norm_num
  poles := exPoles_ne
