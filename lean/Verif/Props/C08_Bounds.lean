import Verif.Lemmas.Limits
/-
C08: no field update reads or writes outside the allocated arrays (field arrays, PML auxiliary
arrays and coefficient arrays).
-/
set_option linter.unusedSimpArgs false
namespace Vulture.C08
open Spec

theorem safe_append {c : Cfg} {p q : Prog} (hp : Safe c p) (hq : Safe c q) : Safe c (p ++ q) := by
  intro b hb
  rcases List.mem_append.1 hb with h | h
  · exact hp b h
  · exact hq b h

theorem safe_faces {c : Cfg} {g : Face → Prog} (h : ∀ f, Safe c (g f)) :
    Safe c (Face.all.flatMap g) := by
  intro b hb
  obtain ⟨f, _, hf⟩ := List.mem_flatMap.1 hb
  exact h f b hf

theorem safe_loop {c : Cfg} {lim : Face → Int} {body : Int → Int → Int → Block}
    (h : ∀ i j k, InLim lim i j k →
      (∀ l ∈ (body i j k).writes, Allocated c l) ∧ (∀ l ∈ (body i j k).reads, Allocated c l) ∧
      (∀ r ∈ (body i j k).coefs, CAllocated c r)) : Safe c (loopOver lim body) := by
  unfold Safe; rw [forall_loopOver]; exact h

/-- Unfold the syntax of a body and solve the index inequalities. -/
macro "bounds" : tactic => `(tactic| (
  simp [Block.writes, Block.reads, Block.coefs, Expr.reads, Expr.coefs, ampereX, ampereY, ampereZ,
    faradayX, faradayY, faradayZ, curlHx, curlHy, curlHz, curlEx, curlEy, curlEz,
    EX, EY, EZ, HX, HY, HZ, Allocated, CAllocated, InGrid, InSlab, PPr, Pr, Br] <;> omega))

/-- C08, main grid, electric update. -/
theorem updateGridEfield_safe {c : Cfg} (h : ValidCfg c) : Safe c (updateGridEfield c) := by
  refine safe_append (safe_append ?_ ?_) ?_ <;>
  · apply safe_loop
    intro i j k hi
    have := lim_facts h c.gibox (gibox_within h) _ _ hi
    bounds

/-- C08, main grid, magnetic update. -/
theorem updateGridHfield_safe {c : Cfg} (h : ValidCfg c) : Safe c (updateGridHfield c) := by
  refine safe_append (safe_append ?_ ?_) ?_ <;>
  · apply safe_loop
    intro i j k hi
    have := lim_facts h c.gibox (gibox_within h) _ _ hi
    simp [fieldIsInBoundary] at this
    bounds

/-- C08, PML slabs, electric update. -/
theorem updatePmlEfield_safe {c : Cfg} (h : ValidCfg c) : Safe c (updatePmlEfield c) := by
  apply safe_faces
  intro r
  unfold pmlRegionE
  split
  · rename_i hr
    refine safe_append (safe_append ?_ ?_) ?_ <;>
    · apply safe_loop
      intro i j k hi
      have := lim_facts h (c.pbox r) (pbox_within h r) _ _ hi
      obtain ⟨h1, h2, h3⟩ := hi
      simp only [pmlExBlock, pmlEyBlock, pmlEzBlock]
      simp [Block.writes, Block.reads, Block.coefs, Expr.reads, Expr.coefs,
        curlHx, curlHy, curlHz, HX, HY, HZ, EX, EY, EZ, Allocated, CAllocated, InGrid, InSlab,
        PPr, Pr, hr]
      omega
  · intro b hb; cases hb

/-- C08, PML slabs, magnetic update. -/
theorem updatePmlHfield_safe {c : Cfg} (h : ValidCfg c) : Safe c (updatePmlHfield c) := by
  apply safe_faces
  intro r
  unfold pmlRegionH
  split
  · rename_i hr
    refine safe_append (safe_append ?_ ?_) ?_ <;>
    · apply safe_loop
      intro i j k hi
      have := lim_facts h (c.pbox r) (pbox_within h r) _ _ hi
      simp [fieldIsInBoundary] at this
      obtain ⟨h1, h2, h3⟩ := hi
      simp only [pmlHxBlock, pmlHyBlock, pmlHzBlock]
      simp [Block.writes, Block.reads, Block.coefs, Expr.reads, Expr.coefs,
        curlEx, curlEy, curlEz, HX, HY, HZ, EX, EY, EZ, Allocated, CAllocated, InGrid, InSlab,
        Br, hr]
      omega
  · intro b hb; cases hb

/-- C08, Mur faces, electric update (reads up to two cells inside the face). -/
theorem updateMurEfield_safe {c : Cfg} (h : ValidCfg c) : Safe c (updateMurEfield c) := by
  apply safe_faces
  intro f
  split
  · intro b hb0
    obtain ⟨fc, hfc, hb⟩ := List.mem_flatMap.1 hb0
    refine safe_loop ?_ b hb
    clear hb hb0 b
    intro i j k hi
    have := lim_facts h _ (face_within h f) _ _ hi
    have fx := cfg_facts h .x; have fy := cfg_facts h .y; have fz := cfg_facts h .z
    simp only [Axis.lo, Axis.hi] at fx fy fz
    cases f <;> simp [murComponents] at hfc <;> rcases hfc with rfl | rfl <;>
      simp [getFaceOfBoundingBox, mkBox] at this <;>
      simp [murE, inward, ampere, Block.writes, Block.reads, Block.coefs, Expr.reads, Expr.coefs,
        ampereX, ampereY, ampereZ, curlHx, curlHy, curlHz, EX, EY, EZ, HX, HY, HZ, Allocated,
        CAllocated, InGrid] <;> omega
  · intro b hb; cases hb

/-- C08, Mur faces, magnetic update. -/
theorem updateMurHfield_safe {c : Cfg} (h : ValidCfg c) : Safe c (updateMurHfield c) := by
  apply safe_faces
  intro f
  split
  · apply safe_loop
    intro i j k hi
    have := lim_facts h _ (face_within h f) _ _ hi
    have fx := cfg_facts h .x; have fy := cfg_facts h .y; have fz := cfg_facts h .z
    simp only [Axis.lo, Axis.hi] at fx fy fz
    cases f <;> simp [getFaceOfBoundingBox, mkBox, murNormal, fieldIsInBoundary] at this <;>
      simp [murNormal, faraday, Block.writes, Block.reads, Block.coefs, Expr.reads, Expr.coefs,
        faradayX, faradayY, faradayZ, curlEx, curlEy, curlEz, EX, EY, EZ, HX, HY, HZ, Allocated,
        CAllocated, InGrid] <;> omega
  · intro b hb; cases hb

theorem ghostFace_safe {c : Cfg} (h : ValidCfg c) (comps : List Fc) (f : Face) :
    Safe c (ghostFace c comps f) := by
  have fx := cfg_facts h .x; have fy := cfg_facts h .y; have fz := cfg_facts h .z
  simp only [Axis.lo, Axis.hi] at fx fy fz
  have key : ∀ neg : Bool, Safe c ((boxLoop (ghostFaceLim c f.axis (ghostTarget c f))).flatMap
      fun q => comps.map fun fc =>
        [⟨fldAt fc q, ghostVal neg (fldAt fc (setAx f.axis (ghostSource c f) q))⟩]) := by
    intro neg b hb
    obtain ⟨⟨i, j, k⟩, hq, hb⟩ := List.mem_flatMap.1 hb
    obtain ⟨fc, _, rfl⟩ := List.mem_map.1 hb
    have hq := mem_boxLoop.1 hq
    have hs : (c.bt f = .periodic ∧ ghostSource c f =
        if f.isLo then c.gobox f.opposite - 1 else c.gobox f.opposite) ∨
        ghostSource c f = if f.isLo then c.gobox f else c.gobox f - 1 := by
      unfold ghostSource; cases e : c.bt f <;> simp
    cases f <;> simp [ghostFaceLim, ghostTarget, Face.axis, Face.isLo, Face.opposite] at hq hs <;>
      cases neg <;>
      simp [Block.writes, Block.reads, Block.coefs, ghostVal, Expr.reads, Expr.coefs, fldAt, setAx,
        Face.axis, Allocated, InGrid] <;> omega
  unfold ghostFace
  cases e : c.bt f with
  | pml => intro b hb; cases hb
  | mur => intro b hb; cases hb
  | pec => exact key _
  | pmc => exact key _
  | periodic => exact key _

/-- C08, ghost updates. -/
theorem updateGhost_safe {c : Cfg} (h : ValidCfg c) :
    Safe c (updateGhostEfield c) ∧ Safe c (updateGhostHfield c) :=
  ⟨safe_faces fun f => ghostFace_safe h _ f, safe_faces fun f => ghostFace_safe h _ f⟩

/-- C08, initialisation: `clearGrid` stays inside, and `clearPml`, which loops over all six regions
including those whose arrays are `NULL`, only touches existing elements. -/
theorem clear_safe {c : Cfg} (h : ValidCfg c) :
    (∀ l ∈ clearGrid c, Allocated c l) ∧ (∀ l ∈ clearPml c, Allocated c l) := by
  constructor
  · intro l hl
    simp only [clearGrid, List.mem_flatMap] at hl
    obtain ⟨⟨i, j, k⟩, ht, hl⟩ := hl
    have := mem_boxLoop.1 ht
    obtain ⟨fc, _, rfl⟩ := List.mem_map.1 hl
    have fx := cfg_facts h .x; have fy := cfg_facts h .y; have fz := cfg_facts h .z
    simp only [Axis.lo, Axis.hi] at fx fy fz
    simp only [Allocated, InGrid] at *
    omega
  · have key : ∀ r fc i j k, (i, j, k) ∈ boxLoop (fun f =>
        match f with
        | .xlo => 0 | .xhi => c.fplim r fc .xhi - c.fplim r fc .xlo
        | .ylo => 0 | .yhi => c.fplim r fc .yhi - c.fplim r fc .ylo
        | .zlo => 0 | .zhi => c.fplim r fc .zhi - c.fplim r fc .zlo) → InSlab c r fc i j k := by
      intro r fc i j k hm
      have hb := mem_boxLoop.1 hm
      simp only at hb
      have hr : c.bt r = .pml := by
        by_contra hne
        refine slab_empty h r hne fc (c.fplim r fc .xlo + i) (c.fplim r fc .ylo + j)
          (c.fplim r fc .zlo + k) ?_
        refine ⟨?_, ?_, ?_⟩ <;> omega
      refine ⟨hr, ?_, ?_, ?_⟩ <;> omega
    intro l hl
    simp only [clearPml, List.mem_flatMap, List.mem_append, List.mem_map] at hl
    obtain ⟨r, _, hl⟩ := hl
    rcases hl with ⟨fc, _, ⟨⟨i, j, k⟩, ht, hl⟩⟩ | ⟨fc, _, ⟨⟨i, j, k⟩, ht, rfl⟩⟩
    · simp only [List.mem_cons, List.not_mem_nil, or_false] at hl
      rcases hl with rfl | rfl <;> exact key _ _ _ _ _ ht
    · exact key _ _ _ _ _ ht

/-- Every field sample that can ever be read starts from the value `clearGrid` stored: the loop
covers the whole allocation, ghosts included. -/
theorem clear_complete {c : Cfg} (h : ValidCfg c) (fc : Fc) (i j k : Int)
    (ha : Allocated c (.fld fc i j k)) : Loc.fld fc i j k ∈ clearGrid c := by
  have fx := cfg_facts h .x; have fy := cfg_facts h .y; have fz := cfg_facts h .z
  simp only [Axis.lo, Axis.hi] at fx fy fz
  simp only [Allocated, InGrid] at ha
  refine List.mem_flatMap.2 ⟨(i, j, k), mem_boxLoop.2 ?_, List.mem_map.2 ⟨fc, ?_, rfl⟩⟩
  · simp only; omega
  · cases fc <;> simp

/-- Non-vacuity: a valid configuration with all update kinds, and programs that really touch
memory: the first electric sample of the main grid and the last ghost element. -/
example : ValidCfg C07.sampleCfg := C07.sampleCfg_valid
example : [⟨Loc.fld .ex 4 1 1, ampereX 4 1 1⟩] ∈ updateGridEfield C07.sampleCfg := by
  refine List.mem_append_left _ (List.mem_append_left _ (List.mem_map.2 ⟨(4, 1, 1), ?_, rfl⟩))
  rw [mem_boxLoop]; decide
/-- The allocation is tight: the ghost update writes the last plane. -/
example : ¬ Allocated C07.sampleCfg (.fld .hx 1 1 (C07.sampleCfg.gobox .zhi + 1)) := by
  simp [Allocated, InGrid, Cfg.numCells, Cfg.gobox, Axis.hi, Axis.lo, Cfg.goboxLo, NUM_GHOST_CELLS]
  omega

end Vulture.C08
