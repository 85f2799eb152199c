import Verif.Props.C19_Media
/-
C40: materials continue into the absorbing layers.
-/
set_option linter.unusedSimpArgs false
namespace Vulture.C40
open Spec C19
variable {M : Type*}

/-- Index the copy comes from, per axis. -/
def srcIdx (c : Cfg) (fc : Fc) (a : Axis) (i : Int) : Int :=
  if i < c.gibox a.lo then pmlCopyPlane c a.lo fc
  else if c.gibox a.hi - pos2 fc a 0 < i then pmlCopyPlane c a.hi fc else i

theorem layer_axis {c : Cfg} (h : ValidCfg c) {fc : Fc} {i j k : Int} (hl : InLayers c fc i j k) (a : Axis) :
    (c.bt a.lo ≠ .pml → c.gibox a.lo = c.gobox a.lo) ∧ (c.bt a.hi ≠ .pml → c.gibox a.hi = c.gobox a.hi) ∧
    (c.bt a.lo = .pml → samplePos fc i j k a ≠ 2 * c.gobox a.lo) ∧
    (c.bt a.hi = .pml → samplePos fc i j k a ≠ 2 * c.gobox a.hi) := by
  have h1 := C07.inner_offset c a
  refine ⟨fun e => ?_, fun e => ?_, fun e => ?_, fun e => ?_⟩
  · have := h.other _ e; omega
  · have := h.other _ e; omega
  · have := hl.2 a.lo e; cases a <;> exact this
  · have := hl.2 a.hi e; cases a <;> exact this

theorem pull_x {c : Cfg} (h : ValidCfg c) (fc : Fc) (i j k : Int) (hl : InLayers c fc i j k) :
    pull c fc .x (i, j, k) = (srcIdx c fc .x i, j, k) := by
  have fx := cfg_facts h .x; have fy := cfg_facts h .y; have fz := cfg_facts h .z
  have lx := layer_axis h hl .x
  obtain ⟨⟨a1, a2⟩, ⟨a3, a4⟩, a5, a6⟩ := hl.1
  simp only [Axis.lo, Axis.hi, samplePos] at fx fy fz lx
  unfold pull srcIdx InLim
  by_cases e1 : c.bt .xlo = .pml <;> by_cases e2 : c.bt .xhi = .pml <;> simp only [e1, e2, ne_eq,
      not_true_eq_false, false_implies, true_implies, not_false_eq_true, true_and] at lx <;>
    cases fc <;> simp [copyLim, setFieldLimits, Face.isLo, fieldIsInBoundary, pmlCopyInclude, Face.axis,
      Cfg.pbox, mkBox, Axis.lo, Axis.hi, setAx, pmlCopyPlane, pos2] at * <;> split_ifs <;>
    first | rfl | (exfalso; omega)

theorem pull_y {c : Cfg} (h : ValidCfg c) (fc : Fc) (i i' j k : Int) (hl : InLayers c fc i j k)
    (hi : c.gibox .xlo ≤ i' ∧ i' ≤ c.gibox .xhi - pos2 fc .x 0) :
    pull c fc .y (i', j, k) = (i', srcIdx c fc .y j, k) := by
  have fx := cfg_facts h .x; have fy := cfg_facts h .y; have fz := cfg_facts h .z
  have lx := layer_axis h hl .y
  obtain ⟨⟨a1, a2⟩, ⟨a3, a4⟩, a5, a6⟩ := hl.1
  simp only [Axis.lo, Axis.hi, samplePos] at fx fy fz lx
  unfold pull srcIdx InLim
  by_cases e1 : c.bt .ylo = .pml <;> by_cases e2 : c.bt .yhi = .pml <;> simp only [e1, e2, ne_eq,
      not_true_eq_false, false_implies, true_implies, not_false_eq_true, true_and] at lx <;>
    cases fc <;> simp [copyLim, setFieldLimits, Face.isLo, fieldIsInBoundary, pmlCopyInclude, Face.axis,
      Cfg.pbox, mkBox, Axis.lo, Axis.hi, setAx, pmlCopyPlane, pos2] at * <;> split_ifs <;>
    first | rfl | (exfalso; omega)

theorem pull_z {c : Cfg} (h : ValidCfg c) (fc : Fc) (i i' j j' k : Int) (hl : InLayers c fc i j k)
    (hi : c.gibox .xlo ≤ i' ∧ i' ≤ c.gibox .xhi - pos2 fc .x 0)
    (hj : c.gibox .ylo ≤ j' ∧ j' ≤ c.gibox .yhi - pos2 fc .y 0) :
    pull c fc .z (i', j', k) = (i', j', srcIdx c fc .z k) := by
  have fx := cfg_facts h .x; have fy := cfg_facts h .y; have fz := cfg_facts h .z
  have lx := layer_axis h hl .z
  obtain ⟨⟨a1, a2⟩, ⟨a3, a4⟩, a5, a6⟩ := hl.1
  simp only [Axis.lo, Axis.hi, samplePos] at fx fy fz lx
  unfold pull srcIdx InLim
  by_cases e1 : c.bt .zlo = .pml <;> by_cases e2 : c.bt .zhi = .pml <;> simp only [e1, e2, ne_eq,
      not_true_eq_false, false_implies, true_implies, not_false_eq_true, true_and] at lx <;>
    cases fc <;> simp [copyLim, setFieldLimits, Face.isLo, fieldIsInBoundary, pmlCopyInclude, Face.axis,
      Cfg.pbox, mkBox, Axis.lo, Axis.hi, setAx, pmlCopyPlane, pos2] at * <;> split_ifs <;>
    first | rfl | (exfalso; omega)

/-- With at least two cells along the axes with low absorbing layers the copies come from the user region. -/
theorem srcIdx_range {c : Cfg} (h : ValidCfg c) (fc : Fc) (a : Axis) (hn : c.bt a.lo = .pml → 2 ≤ c.n a) (i : Int)
    (hi : 2 * c.gobox a.lo ≤ pos2 fc a i) :
    c.gibox a.lo ≤ srcIdx c fc a i ∧ srcIdx c fc a i ≤ c.gibox a.hi - pos2 fc a 0 := by
  have f := cfg_facts h a
  have f2 := (C07.inner_offset c a).2.2.1
  have f1 := (C07.inner_offset c a).1
  have hlo : i < c.gibox a.lo → 2 ≤ c.n a := by
    intro hlt
    refine hn ?_
    by_contra hne
    have e := h.other _ hne
    have : pos2 fc a i ≤ 2 * i + 1 := by cases a <;> cases fc <;> simp [pos2]
    omega
  unfold srcIdx
  cases a <;> cases fc <;> simp [pmlCopyPlane, fieldIsInBoundary, pos2, Face.isLo, Axis.lo, Axis.hi] at * <;>
    split_ifs <;> omega

theorem srcIdx_nearest {c : Cfg} (h : ValidCfg c) (fc : Fc) (a : Axis) (i : Int)
    (hi : c.gibox a.lo ≤ i ∨ pos2 fc a 0 = 0) : srcIdx c fc a i = nearest c.gibox fc a i := by
  have f := cfg_facts h a
  unfold srcIdx nearest
  cases a <;> cases fc <;> simp [pmlCopyPlane, fieldIsInBoundary, pos2, Face.isLo, Axis.lo, Axis.hi] at * <;>
    split_ifs <;> omega

/-- What every sample of the absorbing layers (not on the metal backing) gets. -/
theorem layer_media {c : Cfg} (h : ValidCfg c) (hn : ∀ a, c.bt a.lo = .pml → 2 ≤ c.n a) (A : MArr M) (fc : Fc)
    (i j k : Int) (hl : InLayers c fc i j k) :
    pmlCopy c A fc i j k = A fc (srcIdx c fc .x i) (srcIdx c fc .y j) (srcIdx c fc .z k) := by
  have := pmlCopy_apply h A fc (i, j, k)
  simp only at this
  rw [this, pull_x h fc i j k hl, pull_y h fc i _ j k hl (srcIdx_range h fc .x (hn .x) i hl.1.1.1),
    pull_z h fc i _ j _ k hl (srcIdx_range h fc .x (hn .x) i hl.1.1.1) (srcIdx_range h fc .y (hn .y) j hl.1.2.1.1)]

/-- **C40** (part that holds): a sample in the layers has the medium of the nearest sample of its
component in the user region, as long as it is not a half-cell sample of a *low* layer. Missing: those
samples, see below. -/
theorem continues_partial {c : Cfg} (h : ValidCfg c) (hn : ∀ a, c.bt a.lo = .pml → 2 ≤ c.n a) (A : MArr M) (fc : Fc)
    (i j k : Int) (hl : InLayers c fc i j k)
    (hx : c.gibox .xlo ≤ i ∨ pos2 fc .x 0 = 0) (hy : c.gibox .ylo ≤ j ∨ pos2 fc .y 0 = 0)
    (hz : c.gibox .zlo ≤ k ∨ pos2 fc .z 0 = 0) :
    pmlCopy c A fc i j k =
      A fc (nearest c.gibox fc .x i) (nearest c.gibox fc .y j) (nearest c.gibox fc .z k) := by
  rw [layer_media h hn A fc i j k hl, srcIdx_nearest h fc .x i hx, srcIdx_nearest h fc .y j hy,
    srcIdx_nearest h fc .z k hz]

/-- **C40 fails** on the low sides: a half-cell sample of the low-x layers takes the medium of the
*second* cell of the user region, not of the adjacent one. -/
theorem low_layer_takes_second_cell {c : Cfg} (h : ValidCfg c) (hn : ∀ a, c.bt a.lo = .pml → 2 ≤ c.n a) (A : MArr M)
    (fc : Fc) (i j k : Int) (hl : InLayers c fc i j k) (hi : i < c.gibox .xlo) (hf : pos2 fc .x 0 = 1)
    (hj : c.gibox .ylo ≤ j ∧ j ≤ c.gibox .yhi - pos2 fc .y 0)
    (hk : c.gibox .zlo ≤ k ∧ k ≤ c.gibox .zhi - pos2 fc .z 0) :
    pmlCopy c A fc i j k = A fc (c.gibox .xlo + 1) j k ∧ nearest c.gibox fc .x i = c.gibox .xlo := by
  have f := cfg_facts h .x
  simp only [Axis.lo, Axis.hi] at f
  have hb : fieldIsInBoundary fc .xlo = false := by cases fc <;> simp_all [pos2, fieldIsInBoundary]
  constructor
  · rw [layer_media h hn A fc i j k hl, srcIdx_nearest h fc .y j (Or.inl hj.1),
      srcIdx_nearest h fc .z k (Or.inl hk.1)]
    congr 1
    · unfold srcIdx; rw [if_pos (by simpa [Axis.lo] using hi)]
      simp [pmlCopyPlane, Axis.lo, hb, Face.isLo]
    · unfold nearest; simp only [Axis.lo, Axis.hi]; omega
    · unfold nearest; simp only [Axis.lo, Axis.hi]; omega
  · unfold nearest; simp only [Axis.lo, Axis.hi, hf]; omega

/-- A 2x2x2 mesh with two absorbing layers on the low-x face. -/
def cfg : Cfg := ⟨fun _ => 2, fun f => if f = .xlo then .pml else .pec, fun f => if f = .xlo then 2 else 0⟩

theorem cfg_valid : ValidCfg cfg := by
  refine ⟨fun a => by simp [cfg], fun f => ?_, fun f => ?_, fun f => ?_⟩ <;> cases f <;> simp [cfg]

/-- Witness: a slab one cell thick against the low-x layers (medium 7) is not continued into them,
although it fills the whole adjacent cell layer. -/
theorem slab_not_continued :
    let S : MedSetup Nat := ⟨0, 1, [(mkBox 0 1 0 2 0 2, fun _ => true, 7)], [], [], []⟩
    InLayers cfg .ex 2 2 2 ∧ nearest cfg.gibox .ex .x 2 = 3 ∧
    mediaArrays cfg S (fun _ _ _ _ => 99) .ex 3 2 2 = 7 ∧
    mediaArrays cfg S (fun _ _ _ _ => 99) .ex 2 2 2 = 0 := by
  refine ⟨⟨by decide, fun f hf => ?_⟩, by decide, by decide +kernel, by decide +kernel⟩
  cases f <;> simp [cfg, samplePos, pos2, Face.axis, Cfg.gobox, Cfg.goboxLo, NUM_GHOST_CELLS] at hf ⊢

/-- Non-vacuity of `continues_partial`: on the node planes the slab *is* continued. -/
example : InLayers cfg .ey 2 2 2 ∧
    mediaArrays cfg ⟨0, 1, [(mkBox 0 1 0 2 0 2, fun _ => true, 7)], [], [], []⟩ (fun _ _ _ _ => 99) .ey 2 2 2
      = 7 := by
  refine ⟨⟨by decide, fun f hf => ?_⟩, by decide +kernel⟩
  cases f <;> simp [cfg, samplePos, pos2, Face.axis, Cfg.gobox, Cfg.goboxLo, NUM_GHOST_CELLS] at hf ⊢

end Vulture.C40
