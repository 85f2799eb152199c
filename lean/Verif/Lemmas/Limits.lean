import Verif.Model.Alloc
import Verif.Lemmas.Prog
import Verif.Props.C07_Extents
/- Bounds on field limits. -/
set_option linter.unusedSimpArgs false
namespace Vulture
open Spec

theorem forall_loopOver {lim : Face → Int} {body : Int → Int → Int → Block} {Q : Block → Prop} :
    (∀ b ∈ loopOver lim body, Q b) ↔ ∀ i j k, InLim lim i j k → Q (body i j k) := by
  unfold loopOver
  simp only [List.mem_map]
  constructor
  · intro h i j k hi
    exact h _ ⟨(i, j, k), mem_boxLoop.2 hi, rfl⟩
  · rintro h b ⟨⟨i, j, k⟩, hm, rfl⟩
    exact h i j k (mem_boxLoop.1 hm)

theorem lim_lo (b : BBox) (incl : Face → Bool) (fc : Fc) (f : Face) (h : f.isLo = true) :
    b f ≤ setFieldLimits b incl fc f := by
  unfold setFieldLimits
  rw [if_pos h]
  split
  · split <;> omega
  · omega

theorem lim_hi (b : BBox) (incl : Face → Bool) (fc : Fc) (f : Face) (h : f.isLo = false) :
    setFieldLimits b incl fc f ≤ b f := by
  unfold setFieldLimits
  rw [if_neg (by simp [h])]
  split
  · split <;> omega
  · omega

theorem lim_hi' (b : BBox) (incl : Face → Bool) (fc : Fc) (f : Face) (h : f.isLo = false)
    (hb : fieldIsInBoundary fc f = false) :
    setFieldLimits b incl fc f = b f - 1 := by
  unfold setFieldLimits
  rw [if_neg (by simp [h]), if_neg (by simp [hb])]

/-- Numeric facts about a valid configuration. -/
theorem cfg_facts {c : Cfg} (h : ValidCfg c) (a : Axis) :
    c.gobox a.lo = 1 ∧ 1 ≤ c.gibox a.lo ∧ c.gibox a.lo + 1 ≤ c.gibox a.hi ∧
    c.gibox a.hi ≤ c.gobox a.hi ∧ c.numCells a = c.gobox a.hi + 1 := by
  have h1 := C07.inner_offset c a
  have h2 := (C07.allocation c a).1
  have h3 := h.cells a
  have h4 := C07.layers_nonneg h a.lo
  have h5 := C07.layers_nonneg h a.hi
  have h6 : c.gobox a.lo = 1 := by cases a <;> rfl
  omega

/-- Limits of a box inside the outer grid, for one component: index range and one-cell headroom. -/
theorem lim_facts {c : Cfg} (h : ValidCfg c) (b : BBox) (hb : Within b c.gobox) (incl : Face → Bool)
    (fc : Fc) {i j k : Int} (hi : InLim (setFieldLimits b incl fc) i j k) :
    (1 ≤ i ∧ i ≤ b .xhi ∧ b .xlo ≤ i ∧ i < c.numCells .x) ∧
    (1 ≤ j ∧ j ≤ b .yhi ∧ b .ylo ≤ j ∧ j < c.numCells .y) ∧
    (1 ≤ k ∧ k ≤ b .zhi ∧ b .zlo ≤ k ∧ k < c.numCells .z) ∧
    (fieldIsInBoundary fc .xhi = false → i + 1 ≤ b .xhi ∧ i + 1 < c.numCells .x) ∧
    (fieldIsInBoundary fc .yhi = false → j + 1 ≤ b .yhi ∧ j + 1 < c.numCells .y) ∧
    (fieldIsInBoundary fc .zhi = false → k + 1 ≤ b .zhi ∧ k + 1 < c.numCells .z) := by
  obtain ⟨⟨i1, i2⟩, ⟨j1, j2⟩, ⟨k1, k2⟩⟩ := hi
  have ax := lim_lo b incl fc .xlo rfl; have bx := lim_hi b incl fc .xhi rfl
  have ay := lim_lo b incl fc .ylo rfl; have by' := lim_hi b incl fc .yhi rfl
  have az := lim_lo b incl fc .zlo rfl; have bz := lim_hi b incl fc .zhi rfl
  have fx := cfg_facts h .x; have fy := cfg_facts h .y; have fz := cfg_facts h .z
  have wx := hb .x; have wy := hb .y; have wz := hb .z
  simp only [Axis.lo, Axis.hi] at *
  refine ⟨by omega, by omega, by omega, ?_, ?_, ?_⟩
  · intro e; have := lim_hi' b incl fc .xhi rfl e; omega
  · intro e; have := lim_hi' b incl fc .yhi rfl e; omega
  · intro e; have := lim_hi' b incl fc .zhi rfl e; omega

theorem within_refl (b : BBox) : Within b b := fun _ => ⟨Int.le_refl _, Int.le_refl _⟩

theorem gibox_within {c : Cfg} (h : ValidCfg c) : Within c.gibox c.gobox := (C07.nesting c h).2.1

theorem pbox_within {c : Cfg} (h : ValidCfg c) (r : Face) : Within (c.pbox r) c.gobox := by
  intro a
  have fx := cfg_facts h .x; have fy := cfg_facts h .y; have fz := cfg_facts h .z
  simp only [Axis.lo, Axis.hi] at *
  cases r <;> cases a <;> simp only [Cfg.pbox, mkBox, Axis.lo, Axis.hi] <;> omega

theorem face_within {c : Cfg} (h : ValidCfg c) (r : Face) :
    Within (getFaceOfBoundingBox c.gibox r) c.gobox := by
  intro a
  have fx := cfg_facts h .x; have fy := cfg_facts h .y; have fz := cfg_facts h .z
  simp only [Axis.lo, Axis.hi] at *
  cases r <;> cases a <;> simp only [getFaceOfBoundingBox, mkBox, Axis.lo, Axis.hi] <;> omega

/-- The slab of a face that is not PML is empty. -/
theorem slab_empty {c : Cfg} (h : ValidCfg c) (r : Face) (hr : c.bt r ≠ .pml) (fc : Fc) (i j k : Int) :
    ¬ InLim (c.fplim r fc) i j k := by
  have hl := h.other r hr
  have fx := C07.inner_offset c .x; have fy := C07.inner_offset c .y; have fz := C07.inner_offset c .z
  simp only [Axis.lo, Axis.hi] at *
  rintro ⟨hx, hy, hz⟩
  cases r <;> cases fc <;>
    simp [Cfg.fplim, setFieldLimits, Face.isLo, fieldIsInBoundary, pmlInclude, Cfg.pbox, mkBox] at * <;>
    omega

end Vulture
