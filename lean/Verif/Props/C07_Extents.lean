import Verif.Spec.Grid
import Verif.Spec.Geometry
/- C07: grid extents. -/
namespace Vulture.C07
open Spec

theorem layers_nonneg {c : Cfg} (h : ValidCfg c) (f : Face) : 0 ≤ c.layers f := by
  by_cases e : c.bt f = .pml
  · have := h.pml f e; omega
  · have := h.other f e; omega

/-- The set-up code only lets valid configurations through (given the `DM` card check `n >= 1`). -/
theorem setup_valid (n : Axis → Int) (bt : Face → BType) (d : Face → Int) (c : Cfg)
    (hn : ∀ a, 1 ≤ n a) (h : initExternalSurfaceParameters n bt d = some c) : ValidCfg c := by
  unfold initExternalSurfaceParameters at h
  split at h
  · cases h
  · rename_i hany
    injection h with h
    subst h
    have hf : ∀ f : Face, (surfaceLayers (bt f) (d f)).isNone = false ∧
        (bt f = .periodic → bt f.opposite = .periodic) := by
      intro f
      have hm : f ∈ Face.all := by cases f <;> decide
      have := fun hh => hany (List.any_eq_true.2 ⟨f, hm, hh⟩)
      simp only [Bool.or_eq_true, Bool.and_eq_true, Bool.not_eq_true'] at this
      refine ⟨?_, ?_⟩
      · cases e : (surfaceLayers (bt f) (d f)).isNone
        · rfl
        · exact absurd (Or.inl e) this
      · intro hp
        by_cases e : bt f.opposite = .periodic
        · exact e
        · exact absurd (Or.inr ⟨by simp [hp], by simp [e]⟩) this
    refine ⟨hn, ?_, ?_, fun f => (hf f).2⟩
    · intro f hp
      have := (hf f).1
      simp only at hp ⊢
      rw [hp] at this ⊢
      simp only [surfaceLayers] at this ⊢
      split at this
      · simp at this
      · rename_i hl; simp [hl]; omega
    · intro f hp
      simp only at hp ⊢
      cases e : bt f <;> simp_all [surfaceLayers]

/-- The user region sits in the outer grid at an offset equal to the low-side layers, and has the
user's number of cells. -/
theorem inner_offset (c : Cfg) (a : Axis) :
    c.gibox a.lo - c.gobox a.lo = c.layers a.lo ∧ c.gobox a.hi - c.gibox a.hi = c.layers a.hi ∧
    c.gibox a.hi - c.gibox a.lo = c.n a ∧
    c.gobox a.hi - c.gobox a.lo = c.layers a.lo + c.n a + c.layers a.hi := by
  cases a <;> simp only [Axis.lo, Axis.hi, Cfg.gibox, Cfg.gobox, Cfg.giboxLo, Cfg.giboxHi, Cfg.goboxHi,
    Cfg.numLines, Cfg.goboxLo] <;> omega

/-- Nesting: user region within outer grid within ghost box; exactly one ghost layer. -/
theorem nesting (c : Cfg) (h : ValidCfg c) :
    Normal c.gibox ∧ Within c.gibox c.gobox ∧ Within c.gobox c.ggbox ∧
    ∀ a : Axis, c.gobox a.lo - c.ggbox a.lo = 1 ∧ c.ggbox a.hi - c.gobox a.hi = 1 := by
  have hl := layers_nonneg h
  have hx := h.cells .x; have hy := h.cells .y; have hz := h.cells .z
  have l1 := hl .xlo; have l2 := hl .xhi; have l3 := hl .ylo; have l4 := hl .yhi
  have l5 := hl .zlo; have l6 := hl .zhi
  refine ⟨?_, ?_, ?_, ?_⟩
  · intro a; cases a <;> simp only [Axis.lo, Axis.hi, Cfg.gibox, Cfg.giboxHi, Cfg.numLines] <;> omega
  · intro a; cases a <;> simp only [Axis.lo, Axis.hi, Cfg.gibox, Cfg.gobox, Cfg.giboxHi,
      Cfg.goboxHi, Cfg.giboxLo] <;> omega
  · intro a; cases a <;> simp only [Axis.lo, Axis.hi, Cfg.ggbox, Cfg.gobox, Cfg.goboxLo, NUM_GHOST_CELLS] <;> omega
  · intro a; cases a <;> simp only [Axis.lo, Axis.hi, Cfg.ggbox, Cfg.gobox, Cfg.goboxLo, NUM_GHOST_CELLS] <;> omega

/-- Every box of user coordinates inside the mesh lands inside the user region of the grid. -/
theorem user_box_lands_inside (c : Cfg) (b : BBox) (hb : Within b c.mbox) :
    Within (offsetBoundingBox b c.gibox) c.gibox := by
  intro a
  have h := hb a
  cases a <;> simp only [Axis.lo, Axis.hi, Cfg.gibox, offsetBoundingBox, Cfg.mbox, Cfg.giboxHi,
    Cfg.numLines] at * <;> omega

/-- The mesh box itself lands exactly on the user region. -/
theorem mesh_box_is_user_region (c : Cfg) : offsetBoundingBox c.mbox c.gibox = c.gibox := by
  funext f; cases f <;> simp only [Cfg.gibox, offsetBoundingBox, Cfg.mbox, Cfg.giboxHi,
    Cfg.numLines] <;> omega

/-- The allocation covers the outer grid, one ghost cell below it and the node layer on its high side:
valid indices are `0 .. gobox hi`. -/
theorem allocation (c : Cfg) (a : Axis) :
    c.numCells a = c.gobox a.hi + 1 ∧ c.ggbox a.lo = 0 := by
  cases a <;> refine ⟨?_, rfl⟩ <;>
    simp only [Cfg.numCells, Axis.lo, Axis.hi, Cfg.gobox, Cfg.goboxLo, NUM_GHOST_CELLS] <;> omega

/-- A concrete run: 4x5x6 cells, 3 PML layers at XLO, Mur at XHI, PEC/PMC in y, periodic in z. -/
def sampleBt : Face → BType
  | .xlo => .pml | .xhi => .mur | .ylo => .pec | .yhi => .pmc | .zlo => .periodic | .zhi => .periodic
def sampleN : Axis → Int | .x => 4 | .y => 5 | .z => 6

def sampleCfg : Cfg :=
  (initExternalSurfaceParameters sampleN sampleBt (fun _ => 3)).getD ⟨sampleN, sampleBt, fun _ => 0⟩

theorem sampleCfg_valid : ValidCfg sampleCfg :=
  setup_valid sampleN sampleBt (fun _ => 3) sampleCfg
    (by intro a; cases a <;> decide) (by rfl)

example : sampleCfg.gibox .xlo = 4 ∧ sampleCfg.gobox .xhi = 8 ∧ sampleCfg.gobox .ylo = 1 := by decide
/-- Unpaired periodic faces and PML without layers are rejected. -/
example : (initExternalSurfaceParameters sampleN (fun f => if f = .xlo then .periodic else .pec)
    (fun _ => 0)).isNone = true := by decide
example : (initExternalSurfaceParameters sampleN (fun _ => .pml) (fun _ => 0)).isNone = true := by decide

end Vulture.C07
