import Verif.Lemmas.Mirror
/-
Reflection, phase by phase: absorbing layers, main grid, Mur faces. Lemmas for C52.
-/
set_option linter.unusedSimpArgs false
set_option linter.unusedVariables false
set_option linter.unusedSectionVars false
namespace Vulture
open Spec C09 C10

/-- Coefficients of the mirrored experiment. -/
abbrev MirrorCoef {K : Type*} [CommRing K] (c : Cfg) (a : Axis) (C C' : CRef → K) : Prop :=
  ∀ r, C' (mirrorRef c a r) = refSign a r * C r

/-- Corresponding phases of the two experiments. -/
abbrev Mirrored {K : Type*} [CommRing K] (c : Cfg) (a : Axis) (D : List DebyeBlk) (L : List Src)
    (C C' : CRef → K) (p p' : Prog) : Prop := SPhase C C' (MV c a D) (mLoc c a D) (mSign a L) p p'

section coef
variable {K : Type*} [CommRing K] {C C' : CRef → K} {c : Cfg} {a : Axis}

theorem image_node {fc : Fc} {b : Axis} (h : onNodes fc b = true) (i : Int) :
    image c a fc b i = nodeImage c a b i := by
  unfold image
  by_cases e : b = a
  · subst e; rw [if_pos h]
  · simp [nodeImage, cellImage, e]
theorem image_cell {fc : Fc} {b : Axis} (h : onNodes fc b = false) (i : Int) :
    image c a fc b i = cellImage c a b i := by
  unfold image
  by_cases e : b = a
  · subst e; simp [h]
  · simp [nodeImage, cellImage, e]

variable (hC : MirrorCoef c a C C')
include hC
theorem m_alpha (fc : Fc) (i j k : Int) : C' (.alpha fc (image c a fc .x i) (image c a fc .y j)
    (image c a fc .z k)) = C (.alpha fc i j k) := by
  simpa [mirrorRef, refSign] using hC (.alpha fc i j k)
theorem m_beta (fc : Fc) (i j k : Int) : C' (.beta fc (image c a fc .x i) (image c a fc .y j)
    (image c a fc .z k)) = C (.beta fc i j k) := by
  simpa [mirrorRef, refSign] using hC (.beta fc i j k)
theorem m_gamma (fc : Fc) (i j k : Int) : C' (.gamma fc (image c a fc .x i) (image c a fc .y j)
    (image c a fc .z k)) = C (.gamma fc i j k) := by
  simpa [mirrorRef, refSign] using hC (.gamma fc i j k)
theorem m_idh (fc : Fc) (b : Axis) (h : onNodes fc b = true) (i : Int) :
    C' (.idh b (image c a fc b i)) = C (.idh b i) := by
  rw [image_node h]; simpa [mirrorRef, refSign] using hC (.idh b i)
theorem m_ide (fc : Fc) (b : Axis) (h : onNodes fc b = false) (i : Int) :
    C' (.ide b (image c a fc b i)) = C (.ide b i) := by
  rw [image_cell h]; simpa [mirrorRef, refSign] using hC (.ide b i)
theorem m_ad (fc : Fc) (b : Axis) (h : onNodes fc b = true) (i : Int) :
    C' (.ad b (image c a fc b i)) = C (.ad b i) := by
  rw [image_node h]; simpa [mirrorRef, refSign] using hC (.ad b i)
theorem m_bd (fc : Fc) (b : Axis) (h : onNodes fc b = true) (i : Int) :
    C' (.bd b (image c a fc b i)) = C (.bd b i) := by
  rw [image_node h]; simpa [mirrorRef, refSign] using hC (.bd b i)
theorem m_ibd (fc : Fc) (b : Axis) (h : onNodes fc b = true) (i : Int) :
    C' (.ibd b (image c a fc b i)) = C (.ibd b i) := by
  rw [image_node h]; simpa [mirrorRef, refSign] using hC (.ibd b i)
theorem m_ah (fc : Fc) (b : Axis) (h : onNodes fc b = false) (i : Int) :
    C' (.ah b (image c a fc b i)) = C (.ah b i) := by
  rw [image_cell h]; simpa [mirrorRef, refSign] using hC (.ah b i)
theorem m_bh (fc : Fc) (b : Axis) (h : onNodes fc b = false) (i : Int) :
    C' (.bh b (image c a fc b i)) = C (.bh b i) := by
  rw [image_cell h]; simpa [mirrorRef, refSign] using hC (.bh b i)
theorem m_ibh (fc : Fc) (b : Axis) (h : onNodes fc b = false) (i : Int) :
    C' (.ibh b (image c a fc b i)) = C (.ibh b i) := by
  rw [image_cell h]; simpa [mirrorRef, refSign] using hC (.ibh b i)
theorem m_zeta (f : Face) : C' (.zeta (f.mirror a)) = C (.zeta f) := by
  simpa [mirrorRef, refSign] using hC (.zeta f)

end coef

theorem idx1 (m i : Int) : m - (i - 1) - 1 = m - i := by omega
theorem idx2 (m i : Int) : m - (i + 1) = m - i - 1 := by omega

section phases
variable {K : Type*} [CommRing K] {C C' : CRef → K} {c : Cfg} {a : Axis} {D : List DebyeBlk} {L : List Src}

theorem img_ampere (hC : MirrorCoef c a C C') {fc : Fc} (hf : fc.isE = true) (i j k : Int) (s' : Loc → K) :
    (ampere fc (image c a fc .x i) (image c a fc .y j) (image c a fc .z k)).eval C' s' =
      parity a fc * (ampere fc i j k).eval C (pull (mLoc c a D) (mSign a L) s') := by
  have e1 := m_alpha hC fc i j k
  have e2 := m_beta hC fc i j k
  have ex := m_idh hC fc .x
  have ey := m_idh hC fc .y
  have ez := m_idh hC fc .z
  cases fc <;> simp only [Fc.isE, reduceCtorEq, Bool.false_eq_true] at hf <;>
    simp only [ampere, ampereX, ampereY, ampereZ, curlHx, curlHy, curlHz, EX, EY, EZ, HX, HY, HZ, Expr.eval,
      e1, e2] <;>
    simp only [onNodes, bne_self_eq_false, Bool.false_eq_true, false_imp_iff, bne_iff_ne, ne_eq,
      reduceCtorEq, not_false_eq_true, true_imp_iff] at ex ey ez <;>
    simp only [ex, ey, ez] <;>
    cases a <;> simp [image, nodeImage, cellImage, onNodes, pull, mLoc, mSign, parity, idx1, idx2] <;>
    ring

theorem img_faraday (hC : MirrorCoef c a C C') {fc : Fc} (hf : fc.isE = false) (i j k : Int) (s' : Loc → K) :
    (faraday fc (image c a fc .x i) (image c a fc .y j) (image c a fc .z k)).eval C' s' =
      parity a fc * (faraday fc i j k).eval C (pull (mLoc c a D) (mSign a L) s') := by
  have e1 := m_gamma hC fc i j k
  have ex := m_ide hC fc .x
  have ey := m_ide hC fc .y
  have ez := m_ide hC fc .z
  cases fc <;> simp only [Fc.isE, reduceCtorEq, Bool.true_eq_false] at hf <;>
    simp only [faraday, faradayX, faradayY, faradayZ, curlEx, curlEy, curlEz, EX, EY, EZ, HX, HY, HZ,
      Expr.eval, e1] <;>
    simp only [onNodes, beq_self_eq_true, Bool.true_eq_false, false_imp_iff, beq_eq_false_iff_ne, ne_eq,
      reduceCtorEq, not_false_eq_true, true_imp_iff] at ex ey ez <;>
    simp only [ex, ey, ez] <;>
    cases a <;> simp [image, nodeImage, cellImage, onNodes, pull, mLoc, mSign, parity, idx1, idx2] <;>
    ring

/-! ### Absorbing layers -/

theorem rel_image (fc : Fc) (lim : Face → Int) :
    (∀ i, image c a fc .x i - limImage c a fc lim .xlo = relImage a .x lim (i - lim .xlo)) ∧
    (∀ j, image c a fc .y j - limImage c a fc lim .ylo = relImage a .y lim (j - lim .ylo)) ∧
    (∀ k, image c a fc .z k - limImage c a fc lim .zlo = relImage a .z lim (k - lim .zlo)) := by
  refine ⟨?_, ?_, ?_⟩ <;> intro i <;> unfold image limImage relImage image nodeImage cellImage <;>
    cases a <;> simp [Face.axis, Face.opposite, Axis.lo, Axis.hi] <;> split <;> omega

theorem mLoc_PP (r : Face) (fc : Fc) (i j k : Int) :
    mLoc c a D (PPr r fc (c.fplim r fc) i j k) = PPr (r.mirror a) fc ((c.mirror a).fplim (r.mirror a) fc)
      (image c a fc .x i) (image c a fc .y j) (image c a fc .z k) := by
  obtain ⟨h1, h2, h3⟩ := rel_image (c := c) (a := a) fc (c.fplim r fc)
  simp only [PPr, mLoc, mirror_fplim, h1, h2, h3]
theorem mLoc_P (r : Face) (fc : Fc) (i j k : Int) :
    mLoc c a D (Pr r fc (c.fplim r fc) i j k) = Pr (r.mirror a) fc ((c.mirror a).fplim (r.mirror a) fc)
      (image c a fc .x i) (image c a fc .y j) (image c a fc .z k) := by
  obtain ⟨h1, h2, h3⟩ := rel_image (c := c) (a := a) fc (c.fplim r fc)
  simp only [Pr, mLoc, mirror_fplim, h1, h2, h3]
theorem mLoc_B (r : Face) (fc : Fc) (i j k : Int) :
    mLoc c a D (Br r fc (c.fplim r fc) i j k) = Br (r.mirror a) fc ((c.mirror a).fplim (r.mirror a) fc)
      (image c a fc .x i) (image c a fc .y j) (image c a fc .z k) := by
  obtain ⟨h1, h2, h3⟩ := rel_image (c := c) (a := a) fc (c.fplim r fc)
  simp only [Br, mLoc, mirror_fplim, h1, h2, h3]

theorem img_pml (hC : MirrorCoef c a C C') (r : Face) (fc : Fc) (i j k : Int) :
    Img C C' (mLoc c a D) (mSign a L) (pmlBlock fc r (c.fplim r fc) i j k)
      (pmlBlock fc (r.mirror a) ((c.mirror a).fplim (r.mirror a) fc)
        (image c a fc .x i) (image c a fc .y j) (image c a fc .z k)) := by
  have e1 := m_alpha hC fc i j k
  have e2 := m_beta hC fc i j k
  have e3 := m_gamma hC fc i j k
  have hx := m_idh hC fc .x
  have hy := m_idh hC fc .y
  have hz := m_idh hC fc .z
  have gx := m_ide hC fc .x
  have gy := m_ide hC fc .y
  have gz := m_ide hC fc .z
  have ax := m_ad hC fc .x
  have ay := m_ad hC fc .y
  have az := m_ad hC fc .z
  have bx := m_bd hC fc .x
  have by' := m_bd hC fc .y
  have bz := m_bd hC fc .z
  have ibx := m_ibd hC fc .x
  have iby := m_ibd hC fc .y
  have ibz := m_ibd hC fc .z
  have ahx := m_ah hC fc .x
  have ahy := m_ah hC fc .y
  have ahz := m_ah hC fc .z
  have bhx := m_bh hC fc .x
  have bhy := m_bh hC fc .y
  have bhz := m_bh hC fc .z
  have ihx := m_ibh hC fc .x
  have ihy := m_ibh hC fc .y
  have ihz := m_ibh hC fc .z
  have p1 := mLoc_PP (c := c) (a := a) (D := D) r fc i j k
  have p2 := mLoc_P (c := c) (a := a) (D := D) r fc i j k
  have p3 := mLoc_B (c := c) (a := a) (D := D) r fc i j k
  have q1 : (mSign a L (PPr r fc (c.fplim r fc) i j k) : K) = parity a fc := rfl
  have q2 : (mSign a L (Pr r fc (c.fplim r fc) i j k) : K) = parity a fc := rfl
  have q3 : (mSign a L (Br r fc (c.fplim r fc) i j k) : K) = parity a fc := rfl
  have pl : ∀ (l : Loc) (s' : Loc → K), pull (mLoc c a D) (mSign a L) s' l = mSign a L l * s' (mLoc c a D l) :=
    fun _ _ => rfl
  have pf : ∀ g i j k, (mSign a L (.fld g i j k) : K) = parity a g := fun _ _ _ _ => rfl
  have pm : ∀ g i j k, mLoc c a D (.fld g i j k) =
    .fld g (image c a g .x i) (image c a g .y j) (image c a g .z k) := fun _ _ _ _ => rfl
  cases fc <;>
    simp only [onNodes, bne_self_eq_false, beq_self_eq_true, Bool.false_eq_true, Bool.true_eq_false,
      false_imp_iff, bne_iff_ne, beq_iff_eq, bne_eq_false_iff_eq, beq_eq_false_iff_ne, ne_eq,
      reduceCtorEq, not_false_eq_true, not_true_eq_false, true_imp_iff, implies_true] at hx hy hz gx gy gz ax ay az bx by' bz ibx iby ibz ahx ahy ahz bhx bhy bhz ihx ihy ihz <;>
    simp only [pmlBlock, pmlExBlock, pmlEyBlock, pmlEzBlock, pmlHxBlock, pmlHyBlock, pmlHzBlock] <;>
    first
    | refine .cons ⟨p1.symm, fun s' => ?_⟩ (.cons ⟨p2.symm, fun s' => ?_⟩ (.cons ⟨(pm _ _ _ _).symm, fun s' => ?_⟩ .nil))
    | refine .cons ⟨p3.symm, fun s' => ?_⟩ (.cons ⟨(pm _ _ _ _).symm, fun s' => ?_⟩ .nil)
  all_goals
    simp only [curlHx, curlHy, curlHz, curlEx, curlEy, curlEz, EX, EY, EZ, HX, HY, HZ, Expr.eval, e1, e2, e3,
      hx, hy, hz, gx, gy, gz, ax, ay, az, bx, by', bz, ibx, iby, ibz, ahx, ahy, ahz, bhx, bhy, bhz, ihx, ihy,
      ihz, pl, p1, p2, p3, q1, q2, q3, pf, pm]
  all_goals
    cases a <;> simp [image, nodeImage, cellImage, onNodes, parity, idx1, idx2] <;> ring

/-! ### Samples of the mesh -/

theorem lim_inMesh (h : ValidCfg c) {b : BBox} (hb : Within b c.gobox) {incl : Face → Bool} {fc : Fc}
    {i j k : Int} (hi : InLim (setFieldLimits b incl fc) i j k) (d : Axis) :
    InMesh c d fc (coord d (i, j, k)) := by
  have hl := lim_facts h b hb incl fc hi
  have fx := cfg_facts h .x; have fy := cfg_facts h .y; have fz := cfg_facts h .z
  have wx := hb .x; have wy := hb .y; have wz := hb .z
  simp only [Axis.lo, Axis.hi] at fx fy fz wx wy wz
  unfold InMesh
  cases d <;> cases fc <;> simp [onNodes, coord, Axis.lo, Axis.hi, fieldIsInBoundary] at hl ⊢ <;> omega

theorem ampere_MV {fc : Fc} (hf : fc.isE = true) {i j k : Int}
    (h : InMesh c a fc (coord a (i, j, k))) : ∀ l ∈ (ampere fc i j k).reads, MV c a D l := by
  unfold InMesh at h
  cases fc <;> simp only [Fc.isE, reduceCtorEq, Bool.false_eq_true] at hf <;> cases a <;>
    simp [coord, onNodes] at h <;>
    simp [ampere, Expr.reads, ampereX, ampereY, ampereZ, curlHx, curlHy, curlHz, EX, EY, EZ, HX,
      HY, HZ, MV, InRange, onNodes, coord, or_imp, forall_and] <;> omega

theorem faraday_MV {fc : Fc} (hf : fc.isE = false) {i j k : Int}
    (h : InMesh c a fc (coord a (i, j, k))) : ∀ l ∈ (faraday fc i j k).reads, MV c a D l := by
  unfold InMesh at h
  cases fc <;> simp only [Fc.isE, reduceCtorEq, Bool.true_eq_false] at hf <;> cases a <;>
    simp [coord, onNodes] at h <;>
    simp [faraday, Expr.reads, faradayX, faradayY, faradayZ, curlEx, curlEy, curlEz, EX, EY, EZ, HX,
      HY, HZ, MV, InRange, onNodes, coord, or_imp, forall_and] <;> omega

theorem pml_MV {r : Face} {fc : Fc} {lim : Face → Int} {i j k : Int}
    (h : InMesh c a fc (coord a (i, j, k))) : ∀ l ∈ (pmlBlock fc r lim i j k).reads, MV c a D l := by
  have h1 : MV c a D (PPr r fc lim i j k) := trivial
  have h2 : MV c a D (Pr r fc lim i j k) := trivial
  have h3 : MV c a D (Br r fc lim i j k) := trivial
  unfold InMesh at h
  cases fc <;> cases a <;>
    simp [coord, onNodes] at h <;>
    simp [pmlBlock, Block.reads, Expr.reads, pmlExBlock, pmlEyBlock, pmlEzBlock, pmlHxBlock,
      pmlHyBlock, pmlHzBlock, curlHx, curlHy, curlHz, curlEx, curlEy, curlEz, EX, EY, EZ, HX, HY, HZ, h1,
      h2, h3, or_imp, forall_and] <;>
    simp [MV, InRange, onNodes, coord] <;> omega

theorem mirror_sq : ∀ l, (mSign a L l : K) * mSign a L l = 1 := mSign_sq a L

/-! ### Phases -/

theorem slab_forward (hC : MirrorCoef c a C C') {r : Face} {fc : Fc} {i j k : Int} (hr : c.bt r = .pml)
    (hl : InLim (c.fplim r fc) i j k) :
    ∃ (r' : Face) (i' j' k' : Int), (c.mirror a).bt r' = .pml ∧ InLim ((c.mirror a).fplim r' fc) i' j' k' ∧
      Img C C' (mLoc c a D) (mSign a L) (pmlBlock fc r (c.fplim r fc) i j k)
        (pmlBlock fc r' ((c.mirror a).fplim r' fc) i' j' k') :=
  ⟨r.mirror a, _, _, _, by rw [mirror_bt, hr], by
    rw [mirror_fplim]; exact (inLim_image c a fc _ i j k).2 hl, img_pml hC r fc i j k⟩

theorem slab_backward (hC : MirrorCoef c a C C') {r' : Face} {fc : Fc} {i' j' k' : Int}
    (hr : (c.mirror a).bt r' = .pml) (hl : InLim ((c.mirror a).fplim r' fc) i' j' k') :
    ∃ (r : Face) (i j k : Int), c.bt r = .pml ∧ InLim (c.fplim r fc) i j k ∧
      Img C C' (mLoc c a D) (mSign a L) (pmlBlock fc r (c.fplim r fc) i j k)
        (pmlBlock fc r' ((c.mirror a).fplim r' fc) i' j' k') := by
  obtain ⟨r, rfl⟩ : ∃ r : Face, r' = r.mirror a := ⟨r'.mirror a, by simp⟩
  obtain ⟨i, rfl⟩ : ∃ i, i' = image c a fc .x i := ⟨_, (image_image c a fc .x i').symm⟩
  obtain ⟨j, rfl⟩ : ∃ j, j' = image c a fc .y j := ⟨_, (image_image c a fc .y j').symm⟩
  obtain ⟨k, rfl⟩ : ∃ k, k' = image c a fc .z k := ⟨_, (image_image c a fc .z k').symm⟩
  rw [mirror_fplim, inLim_image] at hl
  exact ⟨r, i, j, k, by rw [← mirror_bt c a r, hr], hl, img_pml hC r fc i j k⟩

theorem mirror_pmlE (h : ValidCfg c) (hC : MirrorCoef c a C C') :
    Mirrored c a D L C C' (updatePmlEfield c) (updatePmlEfield (c.mirror a)) := by
  refine SPhase.independent (mLoc_inj c a D) mirror_sq
    (List.pairwise_append.1 (electric_independent h)).1
    (List.pairwise_append.1 (electric_independent (mirror_valid h a))).1 ?_ ?_ ?_
  · intro b hb _
    obtain ⟨r, fc, i, j, k, _, hr, hl, rfl⟩ := (mem_pmlE c b).1 hb
    exact pml_MV (lim_inMesh h (pbox_within h r) hl a)
  · intro b hb
    obtain ⟨r, fc, i, j, k, hf, hr, hl, rfl⟩ := (mem_pmlE c b).1 hb
    obtain ⟨r', i', j', k', hr', hl', hi⟩ := slab_forward hC hr hl
    exact ⟨_, (mem_pmlE _ _).2 ⟨r', fc, i', j', k', hf, hr', hl', rfl⟩, hi⟩
  · intro b hb
    obtain ⟨r', fc, i', j', k', hf, hr, hl, rfl⟩ := (mem_pmlE _ b).1 hb
    obtain ⟨r, i, j, k, hr', hl', hi⟩ := slab_backward hC hr hl
    exact ⟨_, (mem_pmlE _ _).2 ⟨r, fc, i, j, k, hf, hr', hl', rfl⟩, hi⟩

theorem mirror_pmlH (h : ValidCfg c) (hC : MirrorCoef c a C C') :
    Mirrored c a D L C C' (updatePmlHfield c) (updatePmlHfield (c.mirror a)) := by
  refine SPhase.independent (mLoc_inj c a D) mirror_sq
    (List.pairwise_append.1 (List.pairwise_append.1 (magnetic_independent h)).1).1
    (List.pairwise_append.1 (List.pairwise_append.1 (magnetic_independent (mirror_valid h a))).1).1 ?_ ?_ ?_
  · intro b hb _
    obtain ⟨r, fc, i, j, k, _, hr, hl, rfl⟩ := (mem_pmlH c b).1 hb
    exact pml_MV (lim_inMesh h (pbox_within h r) hl a)
  · intro b hb
    obtain ⟨r, fc, i, j, k, hf, hr, hl, rfl⟩ := (mem_pmlH c b).1 hb
    obtain ⟨r', i', j', k', hr', hl', hi⟩ := slab_forward hC hr hl
    exact ⟨_, (mem_pmlH _ _).2 ⟨r', fc, i', j', k', hf, hr', hl', rfl⟩, hi⟩
  · intro b hb
    obtain ⟨r', fc, i', j', k', hf, hr, hl, rfl⟩ := (mem_pmlH _ b).1 hb
    obtain ⟨r, i, j, k, hr', hl', hi⟩ := slab_backward hC hr hl
    exact ⟨_, (mem_pmlH _ _).2 ⟨r, fc, i, j, k, hf, hr', hl', rfl⟩, hi⟩

theorem img_one {fc : Fc} {i j k : Int} {e e' : Expr}
    (he : ∀ s', e'.eval C' s' = parity a fc * e.eval C (pull (mLoc c a D) (mSign a L) s')) :
    Img C C' (mLoc c a D) (mSign a L) [⟨.fld fc i j k, e⟩]
      [⟨.fld fc (image c a fc .x i) (image c a fc .y j) (image c a fc .z k), e'⟩] :=
  .cons ⟨rfl, he⟩ .nil

theorem all_image (fc : Fc) (i' j' k' : Int) : ∃ i j k, i' = image c a fc .x i ∧ j' = image c a fc .y j ∧
    k' = image c a fc .z k :=
  ⟨_, _, _, (image_image c a fc .x i').symm, (image_image c a fc .y j').symm, (image_image c a fc .z k').symm⟩

theorem mirror_gridE (h : ValidCfg c) (hC : MirrorCoef c a C C') :
    Mirrored c a D L C C' (updateGridEfield c) (updateGridEfield (c.mirror a)) := by
  refine SPhase.independent (mLoc_inj c a D) mirror_sq
    (List.pairwise_append.1 (electric_independent h)).2.1
    (List.pairwise_append.1 (electric_independent (mirror_valid h a))).2.1 ?_ ?_ ?_
  · intro b hb _
    obtain ⟨fc, i, j, k, hf, hl, rfl⟩ := (mem_gridE c b).1 hb
    intro l hl'
    simp only [Block.reads, List.flatMap_cons, List.flatMap_nil, List.append_nil] at hl'
    exact ampere_MV hf (lim_inMesh h (gibox_within h) hl a) l hl'
  · intro b hb
    obtain ⟨fc, i, j, k, hf, hl, rfl⟩ := (mem_gridE c b).1 hb
    exact ⟨_, (mem_gridE _ _).2 ⟨fc, _, _, _, hf, by
      rw [mirror_gfilim]; exact (inLim_image c a fc _ i j k).2 hl, rfl⟩, img_one (img_ampere hC hf i j k)⟩
  · intro b hb
    obtain ⟨fc, i', j', k', hf, hl, rfl⟩ := (mem_gridE _ b).1 hb
    obtain ⟨i, j, k, rfl, rfl, rfl⟩ := all_image (c := c) (a := a) fc i' j' k'
    rw [mirror_gfilim, inLim_image] at hl
    exact ⟨_, (mem_gridE _ _).2 ⟨fc, i, j, k, hf, hl, rfl⟩, img_one (img_ampere hC hf i j k)⟩

theorem mirror_gridH (h : ValidCfg c) (hC : MirrorCoef c a C C') :
    Mirrored c a D L C C' (updateGridHfield c) (updateGridHfield (c.mirror a)) := by
  refine SPhase.independent (mLoc_inj c a D) mirror_sq
    (List.pairwise_append.1 (magnetic_independent h)).2.1
    (List.pairwise_append.1 (magnetic_independent (mirror_valid h a))).2.1 ?_ ?_ ?_
  · intro b hb _
    obtain ⟨fc, i, j, k, hf, hl, rfl⟩ := (mem_gridH c b).1 hb
    intro l hl'
    simp only [Block.reads, List.flatMap_cons, List.flatMap_nil, List.append_nil] at hl'
    exact faraday_MV hf (lim_inMesh h (gibox_within h) hl a) l hl'
  · intro b hb
    obtain ⟨fc, i, j, k, hf, hl, rfl⟩ := (mem_gridH c b).1 hb
    exact ⟨_, (mem_gridH _ _).2 ⟨fc, _, _, _, hf, by
      rw [mirror_gfilim]; exact (inLim_image c a fc _ i j k).2 hl, rfl⟩, img_one (img_faraday hC hf i j k)⟩
  · intro b hb
    obtain ⟨fc, i', j', k', hf, hl, rfl⟩ := (mem_gridH _ b).1 hb
    obtain ⟨i, j, k, rfl, rfl, rfl⟩ := all_image (c := c) (a := a) fc i' j' k'
    rw [mirror_gfilim, inLim_image] at hl
    exact ⟨_, (mem_gridH _ _).2 ⟨fc, i, j, k, hf, hl, rfl⟩, img_one (img_faraday hC hf i j k)⟩

theorem mirror_murNormal (f : Face) : murNormal (f.mirror a) = murNormal f := by
  cases a <;> cases f <;> rfl

theorem mirror_murH (h : ValidCfg c) (hC : MirrorCoef c a C C') :
    Mirrored c a D L C C' (updateMurHfield c) (updateMurHfield (c.mirror a)) := by
  refine SPhase.independent (mLoc_inj c a D) mirror_sq
    (List.pairwise_append.1 (List.pairwise_append.1 (magnetic_independent h)).1).2.1
    (List.pairwise_append.1 (List.pairwise_append.1 (magnetic_independent (mirror_valid h a))).1).2.1 ?_ ?_ ?_
  · intro b hb _
    obtain ⟨f, i, j, k, hf, hl, rfl⟩ := (mem_murH c b).1 hb
    intro l hl'
    simp only [Block.reads, List.flatMap_cons, List.flatMap_nil, List.append_nil] at hl'
    exact faraday_MV (murNormal_isE f) (lim_inMesh h (face_within h f) hl a) l hl'
  · intro b hb
    obtain ⟨f, i, j, k, hf, hl, rfl⟩ := (mem_murH c b).1 hb
    refine ⟨_, (mem_murH _ _).2 ⟨f.mirror a, image c a (murNormal f) .x i, image c a (murNormal f) .y j,
      image c a (murNormal f) .z k, by rw [mirror_bt, hf], ?_, rfl⟩, ?_⟩
    · rw [mirror_fmlim, mirror_murNormal]; exact (inLim_image c a _ _ i j k).2 hl
    · rw [mirror_murNormal]; exact img_one (img_faraday hC (murNormal_isE f) i j k)
  · intro b hb
    obtain ⟨f', i', j', k', hf, hl, rfl⟩ := (mem_murH _ b).1 hb
    obtain ⟨f, rfl⟩ : ∃ r : Face, f' = r.mirror a := ⟨f'.mirror a, by simp⟩
    rw [mirror_murNormal] at hl ⊢
    obtain ⟨i, j, k, rfl, rfl, rfl⟩ := all_image (c := c) (a := a) (murNormal f) i' j' k'
    rw [mirror_fmlim, inLim_image] at hl
    rw [mirror_bt] at hf
    exact ⟨_, (mem_murH _ _).2 ⟨f, i, j, k, hf, hl, rfl⟩, img_one (img_faraday hC (murNormal_isE f) i j k)⟩

end phases

end Vulture
