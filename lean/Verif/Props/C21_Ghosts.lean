import Verif.Lemmas.Pointwise
import Verif.Spec.Ghosts
/- C21: ghost fields outside PEC, PMC and periodic walls. -/
set_option linter.unusedSimpArgs false
namespace Vulture.C21
open Spec
variable {K : Type*} [CommRing K] (C : CRef → K)

local notation "T3" => Int × Int × Int

/-- A face whose ghosts are maintained. -/
def Active (c : Cfg) (f : Face) : Prop := c.bt f ≠ .pml ∧ c.bt f ≠ .mur

/-- Sign of the copy. -/
def sgn (c : Cfg) (f : Face) : K := if c.bt f = .pmc then -1 else 1

/-- Triple in the loop of a ghost face. -/
def OnFace (c : Cfg) (f : Face) (t : T3) : Prop :=
  coord f.axis t = ghostTarget c f ∧ ∀ a : Axis, a ≠ f.axis → c.gobox a.lo - 1 ≤ coord a t ∧ coord a t ≤ c.gobox a.hi

theorem mem_face {c : Cfg} {f : Face} {t : T3} :
    t ∈ boxLoop (ghostFaceLim c f.axis (ghostTarget c f)) ↔ OnFace c f t := by
  obtain ⟨i, j, k⟩ := t
  rw [mem_boxLoop]
  have h3 : ∀ p : Axis → Prop, (∀ a, p a) ↔ p .x ∧ p .y ∧ p .z :=
    fun p => ⟨fun h => ⟨h _, h _, h _⟩, fun h a => by cases a <;> simp [h]⟩
  unfold OnFace
  rw [h3]
  cases f <;> simp [ghostFaceLim, Face.axis, Face.isLo, coord, Axis.lo, Axis.hi] <;> omega

theorem fldAt_inj {fc fc' : Fc} {t t' : T3} : fldAt fc t = fldAt fc' t' ↔ fc = fc' ∧ t = t' := by
  obtain ⟨i, j, k⟩ := t; obtain ⟨i', j', k'⟩ := t'
  simp [fldAt]

theorem coord_setAx {a b : Axis} {v : Int} {t : T3} :
    coord a (setAx b v t) = if a = b then v else coord a t := by
  cases a <;> cases b <;> rfl

theorem t3_ext {t t' : T3} (h : ∀ a, coord a t = coord a t') : t = t' := by
  obtain ⟨i, j, k⟩ := t; obtain ⟨i', j', k'⟩ := t'
  have := h .x; have := h .y; have := h .z
  simp only [coord] at *
  simp [*]

theorem source_ne_target {c : Cfg} (h : ValidCfg c) (f : Face) : ghostSource c f ≠ ghostTarget c f := by
  have hx := cfg_facts h f.axis
  unfold ghostSource ghostTarget
  cases f <;> simp only [Face.axis, Axis.lo, Axis.hi, Face.isLo, Face.opposite] at hx ⊢ <;> split <;> simp <;> omega

theorem source_range {c : Cfg} (h : ValidCfg c) (f : Face) :
    c.gobox f.axis.lo ≤ ghostSource c f ∧ ghostSource c f + 1 ≤ c.gobox f.axis.hi := by
  have hx := cfg_facts h f.axis
  unfold ghostSource
  cases f <;> simp only [Face.axis, Axis.lo, Axis.hi, Face.isLo, Face.opposite] at hx ⊢ <;> split <;> simp <;> omega

theorem target_range {c : Cfg} (h : ValidCfg c) (f : Face) :
    c.gobox f.axis.lo - 1 ≤ ghostTarget c f ∧ ghostTarget c f ≤ c.gobox f.axis.hi := by
  have hx := cfg_facts h f.axis
  unfold ghostTarget
  cases f <;> simp only [Face.axis, Axis.lo, Axis.hi, Face.isLo, Face.opposite] at hx ⊢ <;> simp <;> omega

theorem target_out {c : Cfg} (f : Face) :
    ghostTarget c f = c.gobox f.axis.lo - 1 ∨ ghostTarget c f = c.gobox f.axis.hi := by
  unfold ghostTarget
  cases f <;> simp [Face.axis, Axis.lo, Axis.hi, Face.isLo]

theorem face_eq {c : Cfg} {f : Face} (ha : Active c f) (comps : List Fc) :
    ghostFace c comps f = (boxLoop (ghostFaceLim c f.axis (ghostTarget c f))).flatMap fun q => comps.map fun fc =>
      [⟨fldAt fc q, ghostVal (decide (c.bt f = .pmc)) (fldAt fc (setAx f.axis (ghostSource c f) q))⟩] := by
  obtain ⟨h1, h2⟩ := ha
  unfold ghostFace
  cases hb : c.bt f <;> first | (exfalso; simp_all; done) | rfl

/-- What one face program does. -/
theorem run_face {c : Cfg} (h : ValidCfg c) {f : Face} (ha : Active c f) {comps : List Fc} (hn : comps.Nodup)
    (s : Loc → K) (fc : Fc) (t : T3) :
    (fc ∈ comps ∧ OnFace c f t → (ghostFace c comps f).run C s (fldAt fc t) =
      sgn c f * s (fldAt fc (setAx f.axis (ghostSource c f) t))) ∧
    (¬ (fc ∈ comps ∧ OnFace c f t) → (ghostFace c comps f).run C s (fldAt fc t) = s (fldAt fc t)) := by
  rw [face_eq ha]
  constructor
  · rintro ⟨hfc, ht⟩
    have hp : ((boxLoop (ghostFaceLim c f.axis (ghostTarget c f))).flatMap fun q => comps.map fun fc =>
      ([⟨fldAt fc q, ghostVal (decide (c.bt f = .pmc)) (fldAt fc (setAx f.axis (ghostSource c f) q))⟩] :
        Block)).Pairwise Indep := by
      have key : ∀ (q q' : T3) (g g' : Fc), OnFace c f q → OnFace c f q' → (g ≠ g' ∨ q ≠ q') →
          Indep [⟨fldAt g q, ghostVal (decide (c.bt f = .pmc)) (fldAt g (setAx f.axis (ghostSource c f) q))⟩]
            [⟨fldAt g' q', ghostVal (decide (c.bt f = .pmc)) (fldAt g' (setAx f.axis (ghostSource c f) q'))⟩] := by
        intro q q' g g' hq hq' hne
        have hs : ∀ (u v : T3), OnFace c f u → v ≠ v ∨ u ≠ setAx f.axis (ghostSource c f) v := by
          intro u v hu
          right
          intro he
          have := hu.1
          rw [he, coord_setAx, if_pos rfl] at this
          exact source_ne_target h f this
        unfold Indep
        have e1 := hs q q' hq; have e2 := hs q' q hq'
        simp only [ne_eq, not_true_eq_false, false_or] at e1 e2
        have hne' : ¬ (g = g' ∧ q = q') := by rintro ⟨h1, h2⟩; rcases hne with hh | hh <;> contradiction
        have hne2 : ¬ (g' = g ∧ q' = q) := by rintro ⟨h1, h2⟩; exact hne' ⟨h1.symm, h2.symm⟩
        constructor <;> intro l hl <;>
          simp only [Block.writes, Block.reads, List.map_cons, List.map_nil, List.mem_singleton,
            List.flatMap_cons, List.flatMap_nil, List.append_nil, ghostVal] at hl ⊢ <;> subst hl <;>
          split <;> simp [Expr.reads, fldAt_inj, hne', hne2, e1, e2]
      rw [List.pairwise_flatMap]
      refine ⟨fun q hq => ?_, ?_⟩
      · rw [List.pairwise_map]
        exact hn.imp fun {a b} hab => key q q a b (mem_face.1 hq) (mem_face.1 hq) (Or.inl hab)
      · refine (List.Pairwise.and_mem.1 (List.nodup_iff_pairwise_ne.1 (nodup_boxLoop _))).imp ?_
        rintro q q' ⟨hq, hq', hne⟩ b hb b' hb'
        obtain ⟨g, _, rfl⟩ := List.mem_map.1 hb
        obtain ⟨g', _, rfl⟩ := List.mem_map.1 hb'
        exact key q q' g g' (mem_face.1 hq) (mem_face.1 hq') (Or.inr hne)
    rw [run_indep (C := C) hp (s := s) (b := [⟨fldAt fc t, ghostVal (decide (c.bt f = .pmc))
        (fldAt fc (setAx f.axis (ghostSource c f) t))⟩])
      (List.mem_flatMap.2 ⟨t, mem_face.2 ht, List.mem_map.2 ⟨fc, hfc, rfl⟩⟩) (by simp [Block.writes])]
    simp only [Block.exec, List.foldl]
    unfold sgn ghostVal
    by_cases hb : c.bt f = .pmc <;> simp [hb, Expr.eval]
  · intro hno
    refine run_not_written C fun b hb => ?_
    obtain ⟨q, hq, hb⟩ := List.mem_flatMap.1 hb
    obtain ⟨g, hg, rfl⟩ := List.mem_map.1 hb
    simp only [Block.writes, List.map_cons, List.map_nil, List.mem_singleton, fldAt_inj]
    rintro ⟨rfl, rfl⟩
    exact hno ⟨hg, mem_face.1 hq⟩

/-- The condition one face establishes. -/
def Inv (c : Cfg) (comps : Face → List Fc) (f : Face) (s : Loc → K) : Prop :=
  ∀ fc ∈ comps f, ∀ t, OnFace c f t →
    s (fldAt fc t) = sgn c f * s (fldAt fc (setAx f.axis (ghostSource c f) t))

theorem inv_establish {c : Cfg} (h : ValidCfg c) {comps : Face → List Fc} (hn : ∀ f, (comps f).Nodup) {f : Face}
    (ha : Active c f) (s : Loc → K) : Inv c comps f ((ghostFace c (comps f) f).run C s) := by
  intro fc hfc t ht
  rw [(run_face C h ha (hn f) s fc t).1 ⟨hfc, ht⟩, (run_face C h ha (hn f) s fc _).2]
  rintro ⟨_, h1, _⟩
  rw [coord_setAx, if_pos rfl] at h1
  exact source_ne_target h f h1

theorem setAx_comm {a b : Axis} (hab : a ≠ b) (u v : Int) (t : T3) : setAx a u (setAx b v t) = setAx b v (setAx a u t) := by
  cases a <;> cases b <;> first | rfl | exact absurd rfl hab

theorem inv_preserve {c : Cfg} (h : ValidCfg c) {comps : Face → List Fc} (hn : ∀ f, (comps f).Nodup) {f g : Face}
    (hfg : f ≠ g) {s : Loc → K} (hi : Inv c comps f s) : Inv c comps f ((ghostFace c (comps g) g).run C s) := by
  by_cases ha : Active c g
  swap
  · have : ghostFace c (comps g) g = [] := by
      unfold Active at ha
      unfold ghostFace
      cases hb : c.bt g <;> simp_all
    rw [this, run_nil]
    exact hi
  intro fc hfc t ht
  have R := run_face C h ha (hn g) s fc
  have hsr := source_range h f
  have htr := target_range h f
  have hgt := target_out (c := c) g
  by_cases hax : f.axis = g.axis
  · have h1 : ¬ OnFace c g t := by
      rintro ⟨h1, _⟩
      rw [← hax, ht.1] at h1
      revert h1 hfg
      have hx := cfg_facts h f.axis
      unfold ghostTarget
      cases f <;> cases g <;> simp [Face.axis, Face.isLo, Axis.lo, Axis.hi] at hx hax ⊢ <;> omega
    have h2 : ¬ OnFace c g (setAx f.axis (ghostSource c f) t) := by
      rintro ⟨h1, _⟩
      rw [← hax, coord_setAx, if_pos rfl] at h1
      rw [← hax] at hgt
      omega
    rw [(R t).2 (fun hh => h1 hh.2), (R _).2 (fun hh => h2 hh.2)]
    exact hi fc hfc t ht
  · have hiff : OnFace c g (setAx f.axis (ghostSource c f) t) ↔ OnFace c g t := by
      unfold OnFace
      rw [coord_setAx, if_neg (Ne.symm hax)]
      refine and_congr_right fun _ => forall_congr' fun a => imp_congr_right fun _ => ?_
      rw [coord_setAx]
      split
      · rename_i hh
        subst hh
        rw [ht.1]
        constructor <;> intro _ <;> omega
      · rfl
    by_cases hw : fc ∈ comps g ∧ OnFace c g t
    · rw [(R t).1 hw, (R _).1 ⟨hw.1, hiff.2 hw.2⟩, setAx_comm (Ne.symm hax), hi fc hfc]
      · ring
      · refine ⟨by rw [coord_setAx, if_neg hax]; exact ht.1, fun a hne => ?_⟩
        rw [coord_setAx]
        have := source_range h g
        split
        · rename_i hh; subst hh; omega
        · exact ht.2 a hne
    · rw [(R t).2 hw, (R _).2 (fun hh => hw ⟨hh.1, hiff.1 hh.2⟩)]
      exact hi fc hfc t ht

theorem inv_run {c : Cfg} (h : ValidCfg c) {comps : Face → List Fc} (hn : ∀ f, (comps f).Nodup) {f : Face}
    (ha : Active c f) (L : List Face) (hL : L.Nodup) (hf : f ∈ L) (s : Loc → K) :
    Inv c comps f (Prog.run C (L.flatMap fun f => ghostFace c (comps f) f) s) := by
  have keep : ∀ (L : List Face), f ∉ L → ∀ s : Loc → K, Inv c comps f s →
      Inv c comps f (Prog.run C (L.flatMap fun f => ghostFace c (comps f) f) s) := by
    intro L
    induction L with
    | nil => intro _ s hs; exact hs
    | cons g L ih =>
      intro hg s hs
      rw [List.flatMap_cons, run_append]
      exact ih (fun hh => hg (List.mem_cons_of_mem _ hh)) _
        (inv_preserve C h hn (fun (hh : f = g) => hg (by rw [hh]; exact List.mem_cons_self)) hs)
  induction L generalizing s with
  | nil => cases hf
  | cons g L ih =>
    rw [List.flatMap_cons, run_append]
    obtain ⟨hg, hL'⟩ := List.nodup_cons.1 hL
    rcases List.mem_cons.1 hf with rfl | hf'
    · exact keep L hg _ (inv_establish C h hn ha s)
    · exact ih hL' hf' _

/-! ### The statements -/

/-- Value stored for a sample. -/
def val (s : Loc → K) (fc : Fc) (q : Axis → Int) : K := s (.fld fc (q .x) (q .y) (q .z))

/-- The ghost samples of a state agree with the walls. -/
structure WallGhosts (c : Cfg) (s : Loc → K) : Prop where
  pmc : ∀ f, c.bt f = .pmc → ∀ fc q r, HalfOutside c.gobox f fc q → OnExtendedGrid c.gobox f q →
    MirrorImage c.gobox f fc q r → val s fc q = - val s fc r
  pec : ∀ f, c.bt f = .pec → ∀ fc q r, HalfOutside c.gobox f fc q → OnExtendedGrid c.gobox f q →
    MirrorImage c.gobox f fc q r → val s fc q = val s fc r
  periodic : ∀ f, c.bt f = .periodic → ∀ fc q r, HalfOutside c.gobox f fc q → OnExtendedGrid c.gobox f q →
    PeriodImage c.gobox f fc q r → val s fc q = val s fc r

/-- The components stored half a cell from a wall: tangential magnetic or normal electric. -/
theorem comps_half {b : BBox} {f : Face} {fc : Fc} {q : Axis → Int} (h : HalfOutside b f fc q) :
    fc ∈ ghostEcomps f ∨ fc ∈ ghostHcomps f := by
  unfold HalfOutside place at h
  cases f <;> cases fc <;> simp [ghostEcomps, ghostHcomps, pos2, Face.axis, Face.isLo] at h ⊢ <;> omega

theorem onFace_of {c : Cfg} {f : Face} {fc : Fc} {q : Axis → Int} (h : HalfOutside c.gobox f fc q)
    (he : OnExtendedGrid c.gobox f q) : OnFace c f (q .x, q .y, q .z) := by
  have hc : ∀ a, coord a (q .x, q .y, q .z) = q a := by intro a; cases a <;> rfl
  refine ⟨?_, fun a ha => by rw [hc]; exact he a ha⟩
  rw [hc]
  unfold HalfOutside place at h
  unfold ghostTarget
  cases f <;> cases fc <;> simp [pos2, Face.axis, Face.isLo] at h ⊢ <;> omega

theorem pos2_inj {fc : Fc} {a : Axis} {i j : Int} (h : pos2 fc a i = pos2 fc a j) : i = j := by
  cases fc <;> cases a <;> simp [pos2] at h <;> omega

theorem source_mirror {c : Cfg} {f : Face} {fc : Fc} {q r : Axis → Int} (hp : c.bt f ≠ .periodic)
    (h : HalfOutside c.gobox f fc q) (hm : MirrorImage c.gobox f fc q r) :
    setAx f.axis (ghostSource c f) (q .x, q .y, q .z) = (r .x, r .y, r .z) := by
  have hc : ∀ (a : Axis) (q : Axis → Int), coord a (q .x, q .y, q .z) = q a := by intro a q; cases a <;> rfl
  refine t3_ext fun a => ?_
  rw [coord_setAx, hc, hc]
  split
  · rename_i hh
    subst hh
    have h1 := hm.1
    unfold HalfOutside at h
    unfold place at h h1
    have : ghostSource c f = if f.isLo then c.gobox f else c.gobox f - 1 := by
      unfold ghostSource; split
      · contradiction
      · rfl
    rw [this]
    cases f <;> cases fc <;> simp [pos2, Face.axis, Face.isLo] at h h1 ⊢ <;> omega
  · rename_i hh
    exact (pos2_inj (hm.2 a hh)).symm

theorem source_period {c : Cfg} {f : Face} {fc : Fc} {q r : Axis → Int} (hp : c.bt f = .periodic)
    (h : HalfOutside c.gobox f fc q) (hm : PeriodImage c.gobox f fc q r) :
    setAx f.axis (ghostSource c f) (q .x, q .y, q .z) = (r .x, r .y, r .z) := by
  have hc : ∀ (a : Axis) (q : Axis → Int), coord a (q .x, q .y, q .z) = q a := by intro a q; cases a <;> rfl
  refine t3_ext fun a => ?_
  rw [coord_setAx, hc, hc]
  split
  · rename_i hh
    subst hh
    have h1 := hm.1
    unfold HalfOutside at h
    unfold place at h h1
    have : ghostSource c f = if f.isLo then c.gobox f.opposite - 1 else c.gobox f.opposite := by
      unfold ghostSource; rw [hp]
    rw [this]
    cases f <;> cases fc <;> simp [pos2, Face.axis, Face.isLo, Face.opposite, Axis.lo, Axis.hi] at h h1 ⊢ <;> omega
  · rename_i hh
    exact (pos2_inj (hm.2 a hh)).symm

theorem wall_of_inv {c : Cfg} {s : Loc → K}
    (hE : ∀ f, Active c f → Inv c ghostEcomps f s) (hH : ∀ f, Active c f → Inv c ghostHcomps f s) :
    WallGhosts c s := by
  have key : ∀ f, Active c f → ∀ fc q r, HalfOutside c.gobox f fc q → OnExtendedGrid c.gobox f q →
      setAx f.axis (ghostSource c f) (q .x, q .y, q .z) = (r .x, r .y, r .z) →
      val s fc q = sgn c f * val s fc r := by
    intro f ha fc q r h he hs
    have ht := onFace_of h he
    rcases comps_half h with hc | hc
    · have := hE f ha fc hc _ ht; rw [hs] at this; exact this
    · have := hH f ha fc hc _ ht; rw [hs] at this; exact this
  constructor
  · intro f hf fc q r h he hm
    rw [key f (by simp [Active, hf]) fc q r h he (source_mirror (by simp [hf]) h hm)]
    simp [sgn, hf]
  · intro f hf fc q r h he hm
    rw [key f (by simp [Active, hf]) fc q r h he (source_mirror (by simp [hf]) h hm)]
    simp [sgn, hf]
  · intro f hf fc q r h he hm
    rw [key f (by simp [Active, hf]) fc q r h he (source_period hf h hm)]
    simp [sgn, hf]

theorem inv_congr {c : Cfg} {comps : Face → List Fc} {f : Face} {s s' : Loc → K}
    (h : ∀ fc ∈ comps f, ∀ i j k, s' (.fld fc i j k) = s (.fld fc i j k)) (hi : Inv c comps f s) :
    Inv c comps f s' := by
  intro fc hfc t ht
  rw [fldAt, h fc hfc, fldAt, h fc hfc]
  exact hi fc hfc t ht

theorem nodupE (f : Face) : (ghostEcomps f).Nodup := by cases f <;> decide
theorem nodupH (f : Face) : (ghostHcomps f).Nodup := by cases f <;> decide

/-- **C21.** After every complete time step, whatever the boundary combination, grid size, media,
sources and field values: outside a PMC wall every ghost sample (tangential magnetic and normal
electric field, edges and corners of the ghost layer included) is minus its mirror image in the wall,
outside a PEC wall it equals its mirror image, and outside a periodic wall it equals the sample one
period away. -/
theorem ghosts_after_step (S : Sim) (h : ValidCfg S.cfg) (s : Loc → K) : WallGhosts S.cfg (S.step.run C s) := by
  have hE : ∀ f, Active S.cfg f → Inv S.cfg ghostEcomps f (S.step.run C s) := by
    intro f ha
    unfold Sim.step
    rw [run_append]
    refine inv_congr (s := S.stepE.run C s) (fun fc hfc i j k => ?_) ?_
    · refine run_not_written C (noE_stepH ?_ i j k S)
      cases f <;> simp [ghostEcomps] at hfc <;> subst hfc <;> rfl
    · unfold Sim.stepE
      rw [run_append]
      exact inv_run C h nodupE ha Face.all (by decide) (by cases f <;> decide) _
  have hH : ∀ f, Active S.cfg f → Inv S.cfg ghostHcomps f (S.step.run C s) := by
    intro f ha
    unfold Sim.step Sim.stepH
    rw [run_append, run_append]
    exact inv_run C h nodupH ha Face.all (by decide) (by cases f <;> decide) _
  exact wall_of_inv hE hH

/-- Hence at the start of every step of a run started from cleared arrays. -/
theorem ghosts_always (S : Sim) (h : ValidCfg S.cfg) (u : Nat → Loc → K) (n : Nat) :
    WallGhosts S.cfg (S.state C u (fun _ => 0) n) := by
  cases n with
  | zero => constructor <;> intros <;> simp [val, Sim.state]
  | succ n => exact ghosts_after_step C S h _

/-- The tangential magnetic field on a PMC wall, taken as the mean of the samples half a cell outside
and half a cell inside, vanishes at all times. -/
theorem pmc_mean_zero (S : Sim) (h : ValidCfg S.cfg) (u : Nat → Loc → K) (n : Nat) (f : Face)
    (hf : S.cfg.bt f = .pmc) (fc : Fc) (q r : Axis → Int) (hq : HalfOutside S.cfg.gobox f fc q)
    (he : OnExtendedGrid S.cfg.gobox f q) (hm : MirrorImage S.cfg.gobox f fc q r) :
    val (S.state C u (fun _ => 0) n) fc q + val (S.state C u (fun _ => 0) n) fc r = 0 := by
  rw [(ghosts_always C S h u n).pmc f hf fc q r hq he hm]; ring

/-! ### Witness: a box with PMC, periodic and PEC walls and a nonzero field -/

/-- 2×3×2 cells: PMC at low x, PEC at high x, periodic in y, Mur at low z, PML at high z. -/
def wcfg : Cfg where
  n := fun | .x => 2 | .y => 3 | .z => 2
  bt := fun | .xlo => .pmc | .xhi => .pec | .ylo => .periodic | .yhi => .periodic | .zlo => .mur | .zhi => .pml
  layers := fun | .zhi => 2 | _ => 0

example : ValidCfg wcfg := by constructor <;> decide

/-- Corner ghost of `Hz` outside low x and low y. -/
def gq : Axis → Int := fun | .x => 0 | .y => 0 | .z => 1
def gr : Axis → Int := fun | .x => 1 | .y => 0 | .z => 1
example : HalfOutside wcfg.gobox .xlo .hz gq ∧ OnExtendedGrid wcfg.gobox .xlo gq ∧
    MirrorImage wcfg.gobox .xlo .hz gq gr := by
  unfold HalfOutside OnExtendedGrid MirrorImage; decide

/-- Memory with a distinct value in every field element. -/
def wmem : Loc → Int
  | .fld _ i j k => 1 + i + 10 * j + 100 * k
  | _ => 0
/-- The ghost copies act on a nonzero field: the corner ghost of `Hz` outside the low x and low y
walls becomes minus its mirror image, which is itself the copy from the far side. -/
example : val (Prog.run (fun _ => 1) (updateGhostHfield wcfg) wmem) .hz gq = -132 ∧
    val (Prog.run (fun _ => 1) (updateGhostHfield wcfg) wmem) .hz gr = 132 := by decide +kernel

end Vulture.C21
