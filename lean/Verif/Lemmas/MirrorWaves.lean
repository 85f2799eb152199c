import Verif.Lemmas.MirrorItems
/-
Reflection: Debye blocks, sources, plane waves. Lemmas for C52.
-/
set_option linter.unusedSimpArgs false
set_option linter.unusedVariables false
set_option linter.unusedSectionVars false
namespace Vulture
open Spec C09 C10

section items
variable {K : Type*} [CommRing K] {C C' : CRef → K} {c : Cfg} {a : Axis} {D : List DebyeBlk} {L : List Src}

theorem eval_sum (s : Loc → K) (l : List Expr) : (Expr.sum l).eval C s = (l.map (Expr.eval C s)).sum := by
  have key : ∀ (l : List Expr) (e : Expr), (l.foldl Expr.add e).eval C s = e.eval C s + (l.map (Expr.eval C s)).sum := by
    intro l
    induction l with
    | nil => intro e; simp
    | cons x l ih => intro e; simp only [List.foldl_cons, ih, Expr.eval, List.map_cons, List.sum_cons]; ring
  unfold Expr.sum
  rw [key]; simp [Expr.eval]

theorem img_debye (hC : MirrorCoef c a C C') {n : Nat} {d : DebyeBlk} (hd : D[n]? = some d) (fc : Fc)
    (i j k : Int) :
    Img C C' (mLoc c a D) (mSign a L) (debyeBlock n d fc i j k)
      (debyeBlock n (d.mirror c a) fc (image c a fc .x i) (image c a fc .y j) (image c a fc .z k)) := by
  have hl : limOf D n fc = d.flim fc := by unfold limOf; rw [hd]
  obtain ⟨h1, h2, h3⟩ := rel_image (c := c) (a := a) fc (d.flim fc)
  have hf : (d.mirror c a).flim fc = limImage c a fc (d.flim fc) := rfl
  have hp := parity_sq (K := K) a fc
  have e2 := m_beta hC fc i j k
  have ed : ∀ im p, C' (.dal im n p) = C (.dal im n p) := fun im p => by
    simpa [mirrorRef, refSign] using hC (.dal im n p)
  have eb : ∀ im p, C' (.dbe im n p) = C (.dbe im n p) := fun im p => by
    simpa [mirrorRef, refSign] using hC (.dbe im n p)
  have mj : ∀ im p, mLoc c a D (.dj im n p fc (i - d.flim fc .xlo) (j - d.flim fc .ylo) (k - d.flim fc .zlo)) =
      .dj im n p fc (image c a fc .x i - (d.mirror c a).flim fc .xlo)
        (image c a fc .y j - (d.mirror c a).flim fc .ylo) (image c a fc .z k - (d.mirror c a).flim fc .zlo) := by
    intro im p
    simp only [mLoc, hl, hf, h1, h2, h3]
  have ml : mLoc c a D (.dl n fc (i - d.flim fc .xlo) (j - d.flim fc .ylo) (k - d.flim fc .zlo)) =
      .dl n fc (image c a fc .x i - (d.mirror c a).flim fc .xlo)
        (image c a fc .y j - (d.mirror c a).flim fc .ylo) (image c a fc .z k - (d.mirror c a).flim fc .zlo) := by
    simp only [mLoc, hl, hf, h1, h2, h3]
  have pj : ∀ im p (s' : Loc → K), pull (mLoc c a D) (mSign a L) s'
      (.dj im n p fc (i - d.flim fc .xlo) (j - d.flim fc .ylo) (k - d.flim fc .zlo)) =
      parity a fc * s' (.dj im n p fc (image c a fc .x i - (d.mirror c a).flim fc .xlo)
        (image c a fc .y j - (d.mirror c a).flim fc .ylo) (image c a fc .z k - (d.mirror c a).flim fc .zlo)) := by
    intro im p s'; unfold pull; rw [mj]; rfl
  have plx : ∀ (s' : Loc → K), pull (mLoc c a D) (mSign a L) s'
      (.dl n fc (i - d.flim fc .xlo) (j - d.flim fc .ylo) (k - d.flim fc .zlo)) =
      parity a fc * s' (.dl n fc (image c a fc .x i - (d.mirror c a).flim fc .xlo)
        (image c a fc .y j - (d.mirror c a).flim fc .ylo) (image c a fc .z k - (d.mirror c a).flim fc .zlo)) := by
    intro s'; unfold pull; rw [ml]; rfl
  have pf : ∀ (s' : Loc → K), pull (mLoc c a D) (mSign a L) s' (.fld fc i j k) =
      parity a fc * s' (.fld fc (image c a fc .x i) (image c a fc .y j) (image c a fc .z k)) := fun _ => rfl
  have hE : ∀ s' : Loc → K, (debyeE n (d.mirror c a).numPoles fc (image c a fc .x i) (image c a fc .y j)
      (image c a fc .z k) (image c a fc .x i - (d.mirror c a).flim fc .xlo)
        (image c a fc .y j - (d.mirror c a).flim fc .ylo)
        (image c a fc .z k - (d.mirror c a).flim fc .zlo)).eval C' s' =
      parity a fc * (debyeE n d.numPoles fc i j k (i - d.flim fc .xlo) (j - d.flim fc .ylo)
        (k - d.flim fc .zlo)).eval C (pull (mLoc c a D) (mSign a L) s') := by
    intro s'
    have hn : (d.mirror c a).numPoles = d.numPoles := rfl
    unfold debyeE
    simp only [Expr.eval, eval_sum, List.map_map, Function.comp_def, djR, djI, e2, ed, pj, pf, hn]
    have hs : ∀ (X Y : Nat → K) (l : List Nat), (l.map fun p => parity a fc * X p +
        (C (.dal false n p) * (parity a fc * X p) - C (.dal true n p) * (parity a fc * Y p))).sum =
        parity a fc * (l.map fun p => X p + (C (.dal false n p) * X p - C (.dal true n p) * Y p)).sum := by
      intro X Y l
      induction l with
      | nil => simp
      | cons p l ih => simp only [List.map_cons, List.sum_cons, ih]; ring
    rw [hs]
    have fin : ∀ B Q R : K, R - B * Q =
        parity a fc * (parity a fc * R - B * (parity a fc * Q)) := fun B Q R => by
      linear_combination (B * Q - R) * hp
    exact fin _ _ _
  unfold debyeBlock
  refine .cons ⟨rfl, hE⟩ (.cons ⟨ml.symm, hE⟩ ?_)
  have hn : (d.mirror c a).numPoles = d.numPoles := rfl
  rw [hn]
  induction List.range d.numPoles with
  | nil => exact .nil
  | cons p l ih =>
    rw [List.flatMap_cons, List.flatMap_cons]
    refine .cons ⟨(mj _ _).symm, fun s' => ?_⟩ (.cons ⟨(mj _ _).symm, fun s' => ?_⟩ ih)
    all_goals
      have hE' := hE s'
      rw [hn] at hE'
      have sg : ∀ im p i j k, (mSign a L (.dj im n p fc i j k) : K) = parity a fc := fun _ _ _ _ _ => rfl
      simp only [Expr.eval, djR, djI, ed, eb, hE', pj, plx, sg]
      generalize s' (.dj false n p fc _ _ _) = X
      generalize s' (.dj true n p fc _ _ _) = Y
      generalize s' (.dl n fc _ _ _) = Z
    · linear_combination (-(C (.dal false n p)) * X + C (.dal true n p) * Y + C (.dbe false n p) * Z) * hp
    · linear_combination (-(C (.dal false n p)) * Y - C (.dal true n p) * X + C (.dbe true n p) * Z) * hp

theorem mirror_debye (hC : MirrorCoef c a C C') :
    Mirrored c a D L C C' (updateDebye D) (updateDebye (D.map (DebyeBlk.mirror c a))) := by
  refine SPhase.items (f := fun x => debyeItem x.1 x.2) (g := fun x => debyeItem x.1 x.2) ?_
  intro d n hd
  have hl : ∀ fc, limOf D n fc = d.flim fc := by intro fc; unfold limOf; rw [hd]
  refine SPhase.independent (mLoc_inj c a D) mirror_sq (debyeItem_indep d n)
    (debyeItem_indep (d.mirror c a) n) ?_ ?_ ?_
  · intro b hb hw
    obtain ⟨fc, i, j, k, _, _, rfl⟩ := (mem_debyeItem d n b).1 hb
    have own := debye_own d n fc i j k
    have e : coord a (i - d.flim fc .xlo, j - d.flim fc .ylo, k - d.flim fc .zlo) + d.flim fc a.lo =
        coord a (i, j, k) := by cases a <;> simp [coord, Axis.lo]
    have all : ∀ l, OwnD d n fc i j k l → (MV c a D l ↔ InRange c a fc (coord a (i, j, k))) := by
      rintro l (rfl | rfl | ⟨_, _, rfl⟩) <;> simp only [MV, hl, e]
    obtain ⟨l, hlw, hv⟩ := hw
    have hr := (all l (own.1 l hlw)).1 hv
    exact fun l' hl' => (all l' (own.2 l' hl')).2 hr
  · intro b hb
    obtain ⟨fc, i, j, k, hf, hl, rfl⟩ := (mem_debyeItem d n b).1 hb
    exact ⟨_, (mem_debyeItem _ _ _).2 ⟨fc, _, _, _, hf, (inLim_image c a fc _ i j k).2 hl, rfl⟩,
      img_debye hC hd fc i j k⟩
  · intro b hb
    obtain ⟨fc, i', j', k', hf, hl, rfl⟩ := (mem_debyeItem _ n b).1 hb
    obtain ⟨i, j, k, rfl, rfl, rfl⟩ := all_image (c := c) (a := a) fc i' j' k'
    exact ⟨_, (mem_debyeItem _ _ _).2 ⟨fc, i, j, k, hf, (inLim_image c a fc _ i j k).1 hl, rfl⟩,
      img_debye hC hd fc i j k⟩

/-! ### Loops of single assignments -/

theorem loop_pairwise {lim : Face → Int} {body : Int → Int → Int → Block}
    (hi : ∀ i j k i' j' k', (i, j, k) ≠ (i', j', k') → Indep (body i j k) (body i' j' k')) :
    (loopOver lim body).Pairwise Indep := by
  unfold loopOver
  rw [List.pairwise_map]
  refine List.Pairwise.imp_of_mem ?_ (nodup_boxLoop lim)
  rintro ⟨i, j, k⟩ ⟨i', j', k'⟩ _ _ hne
  exact hi _ _ _ _ _ _ hne

theorem mem_loop {lim : Face → Int} {body : Int → Int → Int → Block} {b : Block} :
    b ∈ loopOver lim body ↔ ∃ i j k, InLim lim i j k ∧ b = body i j k := by
  simp only [loopOver, List.mem_map]
  constructor
  · rintro ⟨⟨i, j, k⟩, ht, rfl⟩; exact ⟨i, j, k, mem_boxLoop.1 ht, rfl⟩
  · rintro ⟨i, j, k, ht, rfl⟩; exact ⟨(i, j, k), mem_boxLoop.2 ht, rfl⟩

theorem mirror_loop {fc : Fc} {lim lim' : Face → Int} (hl : lim' = limImage c a fc lim)
    {body body' : Int → Int → Int → Block}
    (hb : ∀ i j k, Img C C' (mLoc c a D) (mSign a L) (body i j k)
      (body' (image c a fc .x i) (image c a fc .y j) (image c a fc .z k)))
    (hr : ∀ i j k, (∃ l ∈ (body i j k).writes, MV c a D l) → ∀ l ∈ (body i j k).reads, MV c a D l)
    (hi : ∀ i j k i' j' k', (i, j, k) ≠ (i', j', k') → Indep (body i j k) (body i' j' k'))
    (hi' : ∀ i j k i' j' k', (i, j, k) ≠ (i', j', k') → Indep (body' i j k) (body' i' j' k')) :
    Mirrored c a D L C C' (loopOver lim body) (loopOver lim' body') := by
  subst hl
  refine SPhase.independent (mLoc_inj c a D) mirror_sq (loop_pairwise hi) (loop_pairwise hi') ?_ ?_ ?_
  · intro b hb' hw
    obtain ⟨i, j, k, _, rfl⟩ := mem_loop.1 hb'
    exact hr i j k hw
  · intro b hb'
    obtain ⟨i, j, k, hl, rfl⟩ := mem_loop.1 hb'
    exact ⟨_, mem_loop.2 ⟨_, _, _, (inLim_image c a fc _ i j k).2 hl, rfl⟩, hb i j k⟩
  · intro b hb'
    obtain ⟨i', j', k', hl, rfl⟩ := mem_loop.1 hb'
    obtain ⟨i, j, k, rfl, rfl, rfl⟩ := all_image (c := c) (a := a) fc i' j' k'
    exact ⟨_, mem_loop.2 ⟨i, j, k, (inLim_image c a fc _ i j k).1 hl, rfl⟩, hb i j k⟩

/-! ### Sources -/

theorem mirror_srcFlim (s : Src) (fc : Fc) : (s.mirror c a).flim fc = limImage c a fc (s.flim fc) :=
  mirror_limits c a s.gbbox (fun _ => rfl) fc

theorem pull_fld (fc : Fc) (i j k : Int) (s' : Loc → K) :
    pull (mLoc c a D) (mSign a L) s' (.fld fc i j k) =
      parity a fc * s' (.fld fc (image c a fc .x i) (image c a fc .y j) (image c a fc .z k)) := rfl

theorem pull_src {n : Nat} {s : Src} (hs : L[n]? = some s) (h : Bool) (s' : Loc → K) :
    pull (mLoc c a D) (mSign a L) s' (.src h n) = parity a s.field * s' (.src h n) := by
  simp [pull, mLoc, mSign, hs]

theorem img_srcE (hC : MirrorCoef c a C C') {n : Nat} {s : Src} (hs : L[n]? = some s) (i j k : Int) :
    Img C C' (mLoc c a D) (mSign a L) (srcEBlock n s i j k)
      (srcEBlock n (s.mirror c a) (image c a s.field .x i) (image c a s.field .y j) (image c a s.field .z k)) := by
  have e1 : C' (.soft n) = C (.soft n) := by simpa [mirrorRef, refSign] using hC (.soft n)
  have e2 := m_beta hC s.field i j k
  have hp := parity_sq (K := K) a s.field
  unfold srcEBlock
  simp only [Src.mirror]
  cases s.kind <;> refine img_one fun s' => ?_ <;>
    simp only [Expr.eval, e1, e2, pull_fld, pull_src hs]
  · linear_combination (-(C (.soft n)) * s' (.fld s.field (image c a s.field .x i) (image c a s.field .y j)
      (image c a s.field .z k)) - s' (.src false n)) * hp
  all_goals
    linear_combination (-(C (.soft n)) * s' (.fld s.field (image c a s.field .x i) (image c a s.field .y j)
      (image c a s.field .z k)) + C (.beta s.field i j k) * s' (.src false n)) * hp

theorem img_srcH (hC : MirrorCoef c a C C') {n : Nat} {s : Src} (hs : L[n]? = some s) (i j k : Int) :
    Img C C' (mLoc c a D) (mSign a L) (srcHBlock n s i j k)
      (srcHBlock n (s.mirror c a) (image c a s.field .x i) (image c a s.field .y j) (image c a s.field .z k)) := by
  have e1 : C' (.soft n) = C (.soft n) := by simpa [mirrorRef, refSign] using hC (.soft n)
  have e2 := m_gamma hC s.field i j k
  have hp := parity_sq (K := K) a s.field
  unfold srcHBlock
  simp only [Src.mirror]
  cases s.kind <;> refine img_one fun s' => ?_ <;>
    simp only [Expr.eval, e1, e2, pull_fld, pull_src hs]
  case hfield =>
    linear_combination (-(C (.soft n)) * s' (.fld s.field (image c a s.field .x i) (image c a s.field .y j)
      (image c a s.field .z k)) - s' (.src true n)) * hp
  all_goals
    linear_combination (-(C (.soft n)) * s' (.fld s.field (image c a s.field .x i) (image c a s.field .y j)
      (image c a s.field .z k)) + C (.gamma s.field i j k) * s' (.src true n)) * hp

theorem mirror_srcE (hC : MirrorCoef c a C C') :
    Mirrored c a D L C C' (updateSourcesE L) (updateSourcesE (L.map (Src.mirror c a))) := by
  refine SPhase.items ?_
  intro s n hs
  have e : (((s.mirror c a).kind = .efield ∨ (s.mirror c a).kind = .ecurr) ∧ (s.mirror c a).field.isE = true) ↔
      ((s.kind = .efield ∨ s.kind = .ecurr) ∧ s.field.isE = true) := Iff.rfl
  dsimp only
  by_cases hc : (s.kind = .efield ∨ s.kind = .ecurr) ∧ s.field.isE = true
  · rw [if_pos hc, if_pos (e.2 hc)]
    refine mirror_loop (mirror_srcFlim s s.field) (img_srcE hC hs) ?_ (srcE_indep n s)
      (srcE_indep n (s.mirror c a))
    intro i j k
    unfold srcEBlock
    cases s.kind <;> simp [Block.writes, Block.reads, Expr.reads, MV]
  · rw [if_neg hc, if_neg fun q => hc (e.1 q)]; exact SPhase.nil

theorem mirror_srcH (hC : MirrorCoef c a C C') :
    Mirrored c a D L C C' (updateSourcesH L) (updateSourcesH (L.map (Src.mirror c a))) := by
  refine SPhase.items ?_
  intro s n hs
  have e : (((s.mirror c a).kind = .hfield ∨ (s.mirror c a).kind = .hcurr) ∧ (s.mirror c a).field.isE = false) ↔
      ((s.kind = .hfield ∨ s.kind = .hcurr) ∧ s.field.isE = false) := Iff.rfl
  dsimp only
  by_cases hc : (s.kind = .hfield ∨ s.kind = .hcurr) ∧ s.field.isE = false
  · rw [if_pos hc, if_pos (e.2 hc)]
    refine mirror_loop (mirror_srcFlim s s.field) (img_srcH hC hs) ?_ (srcH_indep n s)
      (srcH_indep n (s.mirror c a))
    intro i j k
    unfold srcHBlock
    cases s.kind <;> simp [Block.writes, Block.reads, Expr.reads, MV]
  · rw [if_neg hc, if_neg fun q => hc (e.1 q)]; exact SPhase.nil

end items

end Vulture
