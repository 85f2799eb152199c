import Verif.Lemmas.MirrorPhases
import Mathlib.Tactic.LinearCombination
/-
Reflection: Mur faces, ghosts, items. Lemmas for C52.
-/
set_option linter.unusedSimpArgs false
set_option linter.unusedVariables false
set_option linter.unusedSectionVars false
namespace Vulture
open Spec C09 C10

section mur
variable {K : Type*} [CommRing K] {C C' : CRef → K} {c : Cfg} {a : Axis} {D : List DebyeBlk} {L : List Src}

theorem mirror_murComponents {f : Face} : murComponents (f.mirror a) = murComponents f := by
  cases a <;> cases f <;> rfl

theorem inward_image {f : Face} {fc : Fc} (h : fc ∈ murComponents f) (i j k : Int) :
    inward (f.mirror a) (image c a fc .x i) (image c a fc .y j) (image c a fc .z k) =
      (image c a fc .x (inward f i j k).1, image c a fc .y (inward f i j k).2.1,
        image c a fc .z (inward f i j k).2.2) := by
  cases f <;> simp only [murComponents, List.mem_cons, List.not_mem_nil, or_false] at h <;>
    rcases h with rfl | rfl <;> cases a <;>
    simp [inward, Face.mirror, Face.axis, Face.opposite, image, onNodes, nodeImage, cellImage] <;> omega

theorem img_murE (hC : MirrorCoef c a C C') {f : Face} {fc : Fc} (h : fc ∈ murComponents f) (i j k : Int) :
    Img C C' (mLoc c a D) (mSign a L) (murE f fc i j k)
      (murE (f.mirror a) fc (image c a fc .x i) (image c a fc .y j) (image c a fc .z k)) := by
  unfold murE
  rw [inward_image h]
  refine img_one fun s' => ?_
  simp only [Expr.eval, img_ampere (D := D) (L := L) hC (murComponents_isE h), m_zeta hC]
  have pl : ∀ i j k, pull (mLoc c a D) (mSign a L) s' (.fld fc i j k) =
    parity a fc * s' (.fld fc (image c a fc .x i) (image c a fc .y j) (image c a fc .z k)) :=
    fun _ _ _ => rfl
  rw [pl, pl]
  have hp := parity_sq (K := K) a fc
  linear_combination (-(s' (.fld fc (image c a fc .x (inward f i j k).1)
    (image c a fc .y (inward f i j k).2.1) (image c a fc .z (inward f i j k).2.2))) +
    C (.zeta f) * s' (.fld fc (image c a fc .x i) (image c a fc .y j) (image c a fc .z k))) * hp

theorem murE_MV (h : ValidCfg c) {f : Face} {fc : Fc} (hm : fc ∈ murComponents f) {i j k : Int}
    (hl : InLim (c.fmlim f fc) i j k) : ∀ l ∈ (murE f fc i j k).reads, MV c a D l := by
  have h0 := lim_inMesh h (face_within h f) hl a
  have h1 : InMesh c a fc (coord a ((inward f i j k).1, (inward f i j k).2.1, (inward f i j k).2.2)) := by
    have fx := cfg_facts h .x; have fy := cfg_facts h .y; have fz := cfg_facts h .z
    simp only [Axis.lo, Axis.hi] at fx fy fz
    cases f <;> simp only [murComponents, List.mem_cons, List.not_mem_nil, or_false] at hm <;>
      rcases hm with rfl | rfl <;> cases a <;>
      simp [InMesh, coord, inward, onNodes, Axis.lo, Axis.hi] at h0 ⊢ <;>
      simp [Cfg.fmlim, setFieldLimits, Face.isLo, fieldIsInBoundary, getFaceOfBoundingBox, mkBox,
        Cfg.murInclude, Face.axis, InLim] at hl <;> omega
  have hv : ∀ i j k, InMesh c a fc (coord a (i, j, k)) → MV c a D (.fld fc i j k) := by
    intro i j k hq
    simp only [MV, InRange, InMesh] at hq ⊢
    split at hq <;> simp_all <;> omega
  intro l hl'
  simp only [murE, Block.reads, Expr.reads, List.flatMap_cons, List.flatMap_nil, List.append_nil,
    List.mem_append, List.mem_singleton] at hl'
  rcases hl' with rfl | hl' | rfl
  · exact hv _ _ _ h1
  · exact ampere_MV (murComponents_isE hm) h1 l hl'
  · exact hv _ _ _ h0

theorem mirror_murSet (h : ValidCfg c) (hC : MirrorCoef c a C C') {F F' : List Face}
    (hF : ∀ f, f.mirror a ∈ F' ↔ f ∈ F) (h1 : (F.flatMap (murFaceE c)).Pairwise Indep)
    (h2 : (F'.flatMap (murFaceE (c.mirror a))).Pairwise Indep) :
    Mirrored c a D L C C' (F.flatMap (murFaceE c)) (F'.flatMap (murFaceE (c.mirror a))) := by
  refine SPhase.independent (mLoc_inj c a D) mirror_sq h1 h2 ?_ ?_ ?_
  · intro b hb _
    obtain ⟨f, _, hb⟩ := List.mem_flatMap.1 hb
    obtain ⟨_, fc, hfc, i, j, k, hl, rfl⟩ := (mem_murFaceE c f b).1 hb
    exact murE_MV h hfc hl
  · intro b hb
    obtain ⟨f, hf, hb⟩ := List.mem_flatMap.1 hb
    obtain ⟨hm, fc, hfc, i, j, k, hl, rfl⟩ := (mem_murFaceE c f b).1 hb
    refine ⟨_, List.mem_flatMap.2 ⟨f.mirror a, (hF f).2 hf, (mem_murFaceE _ _ _).2
      ⟨by rw [mirror_bt, hm], fc, by rwa [mirror_murComponents], _, _, _, ?_, rfl⟩⟩, img_murE hC hfc i j k⟩
    rw [mirror_fmlim]; exact (inLim_image c a _ _ i j k).2 hl
  · intro b hb
    obtain ⟨f', hf, hb⟩ := List.mem_flatMap.1 hb
    obtain ⟨f, rfl⟩ : ∃ r : Face, f' = r.mirror a := ⟨f'.mirror a, by simp⟩
    obtain ⟨hm, fc, hfc, i', j', k', hl, rfl⟩ := (mem_murFaceE _ _ b).1 hb
    obtain ⟨i, j, k, rfl, rfl, rfl⟩ := all_image (c := c) (a := a) fc i' j' k'
    rw [mirror_fmlim, inLim_image] at hl
    rw [mirror_bt] at hm
    rw [mirror_murComponents] at hfc
    exact ⟨_, List.mem_flatMap.2 ⟨f, (hF f).1 hf, (mem_murFaceE _ _ _).2 ⟨hm, fc, hfc, i, j, k, hl, rfl⟩⟩,
      img_murE hC hfc i j k⟩

/-- Two Mur faces of an axis influence each other within a step only if there is just one cell between
them. -/
theorem mur_opposite {c : Cfg} (h : ValidCfg c) {b : Axis}
    (hn : c.bt b.lo = .mur → c.bt b.hi = .mur → 2 ≤ c.n b) :
    ∀ x ∈ murFaceE c b.lo, ∀ y ∈ murFaceE c b.hi, Indep x y := by
  intro x hx y hy
  obtain ⟨hf, fc, hfc, i, j, k, hl, rfl⟩ := (mem_murFaceE c _ x).1 hx
  obtain ⟨hg, gc, hgc, i', j', k', hl', rfl⟩ := (mem_murFaceE c _ y).1 hy
  have hn := hn hf hg
  have hin := C07.inner_offset c b
  have fx := cfg_facts h .x; have fy := cfg_facts h .y; have fz := cfg_facts h .z
  simp only [Axis.lo, Axis.hi] at fx fy fz
  by_cases he : fc = gc
  · subst he
    cases b <;> simp [Axis.lo, Axis.hi, murComponents] at hfc hgc hf hg hin <;> rcases hfc with rfl | rfl <;>
      simp [Axis.lo, Axis.hi, Cfg.fmlim, setFieldLimits, Face.isLo, fieldIsInBoundary, getFaceOfBoundingBox,
        mkBox, Cfg.murInclude, Face.axis, InLim, hf, hg] at hl hl' <;>
      simp [Axis.lo, Axis.hi, Indep, murE, inward, ampere, Block.writes, Block.reads, Expr.reads, ampereX,
        ampereY, ampereZ, curlHx, curlHy, curlHz, EX, EY, EZ, HX, HY, HZ] <;> omega
  · have h1 := murComponents_isE hfc
    have h2 := murComponents_isE hgc
    have h3 : gc ≠ fc := fun q => he q.symm
    cases fc <;> simp [Fc.isE] at h1 <;> cases gc <;> simp [Fc.isE] at h2 he <;> cases b <;>
      simp [Axis.lo, Axis.hi, Indep, murE, inward, ampere, Block.writes, Block.reads, Expr.reads, ampereX,
        ampereY, ampereZ, curlHx, curlHy, curlHz, EX, EY, EZ, HX, HY, HZ]

theorem mur_pair_indep {c : Cfg} (h : ValidCfg c) {b : Axis}
    (hn : c.bt b.lo = .mur → c.bt b.hi = .mur → 2 ≤ c.n b) :
    ([b.lo, b.hi].flatMap (murFaceE c)).Pairwise Indep := by
  simp only [List.flatMap_cons, List.flatMap_nil, List.append_nil]
  exact List.pairwise_append.2 ⟨murFaceE_indep c _, murFaceE_indep c _, mur_opposite h hn⟩

theorem mirror_murE (h : ValidCfg c) (hC : MirrorCoef c a C C')
    (hn : c.bt a.lo = .mur → c.bt a.hi = .mur → 2 ≤ c.n a) :
    Mirrored c a D L C C' (updateMurEfield c) (updateMurEfield (c.mirror a)) := by
  have e : ∀ c : Cfg, updateMurEfield c = [Axis.x, .y, .z].flatMap fun b =>
      [b.lo, b.hi].flatMap (murFaceE c) := by
    intro c
    unfold updateMurEfield Face.all
    simp only [List.flatMap_cons, List.flatMap_nil, List.append_nil, List.append_assoc, Axis.lo, Axis.hi]
    rfl
  rw [e, e]
  refine SPhase.flatMap ?_
  intro b _
  by_cases hb : b = a
  · subst hb
    refine mirror_murSet h hC ?_ (mur_pair_indep h hn) (mur_pair_indep (mirror_valid h b) ?_)
    · cases b <;> decide
    · have e1 : b.lo = b.hi.mirror b := by cases b <;> rfl
      have e2 : b.hi = b.lo.mirror b := by cases b <;> rfl
      intro h1 h2
      rw [e1, mirror_bt] at h1
      rw [e2, mirror_bt] at h2
      exact hn h2 h1
  · have e1 : b.lo.mirror a = b.lo := by cases a <;> cases b <;> first | rfl | exact absurd rfl hb
    have e2 : b.hi.mirror a = b.hi := by cases a <;> cases b <;> first | rfl | exact absurd rfl hb
    have one : ∀ f : Face, f.mirror a = f →
        Mirrored c a D L C C' ([f].flatMap (murFaceE c)) ([f].flatMap (murFaceE (c.mirror a))) := by
      intro f hf
      refine mirror_murSet h hC ?_ ?_ ?_
      · intro g
        simp only [List.mem_singleton]
        exact ⟨fun q => Face.mirror_inj (a := a) (by rw [q, hf]), fun q => by rw [q, hf]⟩
      · simpa using murFaceE_indep c f
      · simpa using murFaceE_indep (c.mirror a) f
    have := (one _ e1).append (one _ e2)
    simpa using this

end mur

/-! ### Ghosts -/

section ghost
variable {K : Type*} [CommRing K] {C C' : CRef → K} {c : Cfg} {a : Axis} {D : List DebyeBlk} {L : List Src}

local notation "T3" => Int × Int × Int

/-- Image of a sample of a component. -/
def imagePt (c : Cfg) (a : Axis) (fc : Fc) (t : T3) : T3 :=
  (image c a fc .x t.1, image c a fc .y t.2.1, image c a fc .z t.2.2)

theorem coord_image (fc : Fc) (b : Axis) (t : T3) : coord b (imagePt c a fc t) = image c a fc b (coord b t) := by
  cases b <;> rfl

theorem image_other {fc : Fc} {b : Axis} (hb : b ≠ a) (i : Int) : image c a fc b i = i := by
  unfold image nodeImage cellImage; simp [hb]

/-- The ghost plane and the plane copied from lie halfway between nodes: their images. -/
theorem mirror_target (f : Face) (fc : Fc) (hf : onNodes fc f.axis = false) :
    ghostTarget (c.mirror a) (f.mirror a) = image c a fc f.axis (ghostTarget c f) := by
  rw [image_cell hf]
  unfold ghostTarget cellImage span
  rw [mirror_gobox]
  by_cases h : f.axis = a
  · have e : f.mirror a = f.opposite := if_pos h
    rw [e, if_pos h, ← h]
    cases f <;> simp [Face.opposite, Face.isLo, Face.axis, Axis.lo, Axis.hi] <;> omega
  · have e : f.mirror a = f := if_neg h
    rw [e, if_neg h]

theorem mirror_source (f : Face) (fc : Fc) (hf : onNodes fc f.axis = false) :
    ghostSource (c.mirror a) (f.mirror a) = image c a fc f.axis (ghostSource c f) := by
  rw [image_cell hf]
  unfold ghostSource cellImage span
  rw [mirror_gobox, mirror_gobox, mirror_bt]
  by_cases h : f.axis = a
  · have e : f.mirror a = f.opposite := if_pos h
    rw [e, if_pos h, ← h]
    cases hb : c.bt f <;> cases f <;> simp [Face.opposite, Face.isLo, Face.axis, Axis.lo, Axis.hi] <;> omega
  · have e : f.mirror a = f := if_neg h
    rw [e, if_neg h]

theorem mirror_onFace (f : Face) (fc : Fc) (hf : onNodes fc f.axis = false) (t : T3)
    (hv : InRange c a fc (coord a t)) :
    C21.OnFace (c.mirror a) (f.mirror a) (imagePt c a fc t) ↔ C21.OnFace c f t := by
  unfold C21.OnFace
  rw [Face.mirror_axis, mirror_target f fc hf, coord_image]
  refine and_congr ⟨fun q => image_inj c a fc _ q, fun q => by rw [q]⟩ (forall_congr' fun d => ?_)
  refine imp_congr Iff.rfl ?_
  rw [mirror_gobox, mirror_gobox, coord_image]
  by_cases hd : d = a
  · subst hd
    unfold InRange at hv
    unfold image nodeImage cellImage span
    revert hv
    cases onNodes fc d <;> simp only [if_true, Bool.false_eq_true, if_false] <;> rintro ⟨_, _⟩ <;>
      constructor <;> rintro ⟨_, _⟩ <;> constructor <;> omega
  · rw [image_other hd]

theorem mLoc_at (fc : Fc) (t : T3) : mLoc c a D (fldAt fc t) = fldAt fc (imagePt c a fc t) := rfl

theorem imagePt_setAx (fc : Fc) (b : Axis) (v : Int) (t : T3) :
    imagePt c a fc (setAx b v t) = setAx b (image c a fc b v) (imagePt c a fc t) := by
  cases b <;> rfl

theorem mirror_ghostFace (h : ValidCfg c) {comps : List Fc} (hn : comps.Nodup) (f : Face)
    (hc : ∀ fc ∈ comps, onNodes fc f.axis = false) :
    Mirrored c a D L C C' (ghostFace c comps f) (ghostFace (c.mirror a) comps (f.mirror a)) := by
  intro s s' hs l hl
  by_cases ha : C21.Active c f
  · have ha' : C21.Active (c.mirror a) (f.mirror a) := by unfold C21.Active; rw [mirror_bt]; exact ha
    by_cases hf : ∃ fc t, l = fldAt fc t
    · obtain ⟨fc, t, rfl⟩ := hf
      have r1 := C21.run_face C h ha hn s fc t
      have r2 := C21.run_face C' (mirror_valid h a) ha' hn s' fc (imagePt c a fc t)
      rw [mLoc_at]
      by_cases hm : fc ∈ comps
      · have ho := hc fc hm
        have hiff := mirror_onFace f fc ho t hl
        by_cases hq : C21.OnFace c f t
        · rw [r1.1 ⟨hm, hq⟩, r2.1 ⟨hm, hiff.2 hq⟩, Face.mirror_axis, mirror_source f fc ho, ← imagePt_setAx,
            ← mLoc_at (D := D)]
          have hsg : C21.sgn (K := K) (c.mirror a) (f.mirror a) = C21.sgn c f := by
            unfold C21.sgn; rw [mirror_bt]
          rw [hsg, hs (fldAt fc (setAx f.axis (ghostSource c f) t)) ?_]
          · have e : (mSign a L (fldAt fc (setAx f.axis (ghostSource c f) t)) : K) = mSign a L (fldAt fc t) := rfl
            rw [e]; ring
          · show InRange c a fc (coord a (setAx f.axis (ghostSource c f) t))
            rw [C21.coord_setAx]
            split
            · rename_i e
              subst e
              have := C21.source_range h f
              unfold InRange
              rw [ho]
              simp only [Bool.false_eq_true, if_false]
              omega
            · exact hl
        · rw [r1.2 fun q => hq q.2, r2.2 fun q => hq (hiff.1 q.2), ← mLoc_at (D := D)]
          exact hs _ hl
      · rw [r1.2 fun q => hm q.1, r2.2 fun q => hm q.1, ← mLoc_at (D := D)]
        exact hs _ hl
    · have n1 : ∀ fc t, l ≠ fldAt fc t := fun fc t e => hf ⟨fc, t, e⟩
      have n2 : ∀ fc t, mLoc c a D l ≠ fldAt fc t := by
        intro fc t e
        cases l <;> simp [mLoc, fldAt] at e
        exact n1 _ (_, _, _) rfl
      rw [ghost_not_fld (C := C) s l n1, ghost_not_fld (C := C') s' _ n2]
      exact hs l hl
  · have ha' : ¬ C21.Active (c.mirror a) (f.mirror a) := by
      unfold C21.Active at ha ⊢; rw [mirror_bt]; exact ha
    rw [ghost_inactive ha, ghost_inactive ha']
    exact hs l hl

/-- The ghosts of the two faces of an axis may be filled in any order. -/
theorem ghost_pair {c : Cfg} (h : ValidCfg c) {cf cg : List Fc} (hn : cf.Nodup) (hn' : cg.Nodup)
    (b : Axis) (s : Loc → K) :
    (ghostFace c cg b.hi).run C ((ghostFace c cf b.lo).run C s) =
      (ghostFace c cf b.lo).run C ((ghostFace c cg b.hi).run C s) := by
  by_cases hf : C21.Active c b.lo
  · by_cases hg : C21.Active c b.hi
    · funext l
      by_cases hl : ∃ fc t, l = fldAt fc t
      · obtain ⟨fc, t, rfl⟩ := hl
        have F := fun s t => C21.run_face C h hf hn s fc t
        have G := fun s t => C21.run_face C h hg hn' s fc t
        have al : b.lo.axis = b := by cases b <;> rfl
        have ah : b.hi.axis = b := by cases b <;> rfl
        have tl : ghostTarget c b.lo = c.gobox b.lo - 1 := by cases b <;> rfl
        have th : ghostTarget c b.hi = c.gobox b.hi := by cases b <;> rfl
        have sl := C21.source_range h b.lo
        have sh := C21.source_range h b.hi
        rw [al] at sl
        rw [ah] at sh
        have nl : ∀ t, ¬ C21.OnFace c b.lo (setAx b (ghostSource c b.hi) t) := by
          rintro t ⟨h1, -⟩
          rw [al, C21.coord_setAx, if_pos rfl, tl] at h1
          omega
        have nh : ∀ t, ¬ C21.OnFace c b.hi (setAx b (ghostSource c b.lo) t) := by
          rintro t ⟨h1, -⟩
          rw [ah, C21.coord_setAx, if_pos rfl, th] at h1
          omega
        have nn : C21.OnFace c b.lo t → C21.OnFace c b.hi t → False := by
          rintro ⟨h1, -⟩ ⟨h2, -⟩
          rw [al, tl] at h1
          rw [ah, th] at h2
          omega
        by_cases hA : fc ∈ cf ∧ C21.OnFace c b.lo t
        · have hB : ¬ (fc ∈ cg ∧ C21.OnFace c b.hi t) := fun q => nn hA.2 q.2
          rw [(G _ t).2 hB, (F _ t).1 hA, (F _ t).1 hA, al, (G s _).2 fun q => nh t q.2]
        · by_cases hB : fc ∈ cg ∧ C21.OnFace c b.hi t
          · rw [(G _ t).1 hB, (F _ t).2 hA, (G _ t).1 hB, ah, (F s _).2 fun q => nl t q.2]
          · rw [(G _ t).2 hB, (F _ t).2 hA, (F _ t).2 hA, (G _ t).2 hB]
      · have n : ∀ fc t, l ≠ fldAt fc t := fun fc t e => hl ⟨fc, t, e⟩
        rw [ghost_not_fld _ _ n, ghost_not_fld _ _ n, ghost_not_fld _ _ n, ghost_not_fld _ _ n]
    · rw [ghost_inactive hg]; rfl
  · rw [ghost_inactive hf]; rfl

theorem mirror_ghosts (h : ValidCfg c) {comps : Face → List Fc} (hn : ∀ f, (comps f).Nodup)
    (hm : ∀ f, comps (f.mirror a) = comps f)
    (hc : ∀ f, ∀ fc ∈ comps f, onNodes fc f.axis = false) :
    Mirrored c a D L C C' (Face.all.flatMap fun f => ghostFace c (comps f) f)
      (Face.all.flatMap fun f => ghostFace (c.mirror a) (comps f) f) := by
  have e : ∀ c : Cfg, (Face.all.flatMap fun f => ghostFace c (comps f) f) =
      [Axis.x, .y, .z].flatMap fun b => ghostFace c (comps b.lo) b.lo ++ ghostFace c (comps b.hi) b.hi := by
    intro c
    simp only [Face.all, List.flatMap_cons, List.flatMap_nil, List.append_nil, List.append_assoc, Axis.lo,
      Axis.hi]
  rw [e, e]
  refine SPhase.flatMap ?_
  intro b _
  have P := fun f => mirror_ghostFace (C := C) (C' := C') (a := a) (D := D) (L := L) h (hn f) f (hc f)
  have hp := (P b.lo).append (P b.hi)
  by_cases hb : b = a
  · subst hb
    have e1 : b.hi.mirror b = b.lo := by cases b <;> rfl
    have e2 : b.lo.mirror b = b.hi := by cases b <;> rfl
    have c1 := hm b.lo
    have c2 := hm b.hi
    rw [e2] at c1
    rw [e1] at c2
    rw [e1, e2] at hp
    refine hp.trans fun s => ?_
    rw [run_append, run_append, ← c1]
    rw [ghost_pair (mirror_valid h b) (hn _) (hn _) b s]
  · have e1 : b.lo.mirror a = b.lo := by cases a <;> cases b <;> first | rfl | exact absurd rfl hb
    have e2 : b.hi.mirror a = b.hi := by cases a <;> cases b <;> first | rfl | exact absurd rfl hb
    rw [e1, e2] at hp
    exact hp

theorem mirror_ghostE (h : ValidCfg c) :
    Mirrored c a D L C C' (updateGhostEfield c) (updateGhostEfield (c.mirror a)) :=
  mirror_ghosts h C21.nodupE (by intro f; cases a <;> cases f <;> rfl)
    (by intro f fc; cases f <;> cases fc <;> decide)

theorem mirror_ghostH (h : ValidCfg c) :
    Mirrored c a D L C C' (updateGhostHfield c) (updateGhostHfield (c.mirror a)) :=
  mirror_ghosts h C21.nodupH (by intro f; cases a <;> cases f <;> rfl)
    (by intro f fc; cases f <;> cases fc <;> decide)

end ghost

end Vulture
