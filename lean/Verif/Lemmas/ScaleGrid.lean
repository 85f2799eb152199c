import Verif.Spec.Scale
import Verif.Props.C18_Edges
set_option linter.unusedSimpArgs false
set_option linter.unusedVariables false
/- Edges, time step and kind of mesh of the same experiment in another unit of length, whatever memory held before. -/
namespace Vulture.Scaling
open Spec Setup

/-- Two experiments on the same grid that differ in the unit of length only, as far as mesh lines go. -/
structure Rel (k : Consts) (c : Cfg) (r : ℝ) (X X' : Experiment) : Prop where
  valid : ValidCfg c
  pos : 0 < r
  cn : X'.cn = X.cn
  par : X'.par = X.par
  lines : ∀ a i, 0 ≤ i → i ≤ c.n a → X'.lines a i = r * X.lines a i
  big : r = 1 ∨ ∀ a, X.lines a 1 - X.lines a 0 ≤ k.big ∧ r * (X.lines a 1 - X.lines a 0) ≤ k.big

section
variable {k : Consts} {J J' : Junk} {X X' : Experiment} {c : Cfg} {r : ℝ}

theorem Rel.range (h : Rel k c r X X') (a : Axis) {i : Int} :
    (0 ≤ i ∧ i < c.numCells a) ↔ (c.gobox a.lo - 1 ≤ i ∧ i ≤ c.gobox a.hi) := by
  have := cfg_facts h.valid a
  omega

theorem Rel.cell (h : Rel k c r X X') (a : Axis) (m : Int) :
    C18.cellSize (X'.lines a) (C18.nearestCell (c.n a) m) = r * C18.cellSize (X.lines a) (C18.nearestCell (c.n a) m) := by
  have := h.valid.cells a
  unfold C18.cellSize C18.nearestCell
  rw [h.lines a _ (by omega) (by omega), h.lines a _ (by omega) (by omega)]
  ring

theorem Rel.de (h : Rel k c r X X') (J J' : Junk) {a : Axis} {i : Int} (hi : 0 ≤ i ∧ i < c.numCells a) :
    Setup.de k J' X' c a i = r * Setup.de k J X c a i := by
  obtain ⟨h1, h2⟩ := (h.range a).1 hi
  unfold Setup.de edges
  rw [C18.edge_lengths c h.valid a _ _ _ i h1 h2, C18.edge_lengths c h.valid a _ _ _ i h1 h2, h.cell]

theorem dh_low (hv : ValidCfg c) (X : Experiment) (J : Junk) (a : Axis) : Setup.dh k J X c a 0 = Setup.dh k J X c a 1 := by
  have f := cfg_facts hv a
  unfold Setup.dh edges
  simp only [initCellEdges, Arr.set]
  rw [f.1]
  rw [if_pos (by omega), if_neg (by omega)]

theorem dh_mean (hv : ValidCfg c) (X : Experiment) (J : Junk) (a : Axis) {i : Int} (h1 : 1 ≤ i) (h2 : i < c.numCells a) :
    Setup.dh k J X c a i = (Setup.de k J X c a (i - 1) + Setup.de k J X c a i) / 2 := by
  have f := cfg_facts hv a
  exact C18.dual_edges c hv a _ _ _ i (by omega) (by omega)

theorem Rel.dh (h : Rel k c r X X') (J J' : Junk) {a : Axis} {i : Int} (hi : 0 ≤ i ∧ i < c.numCells a) :
    Setup.dh k J' X' c a i = r * Setup.dh k J X c a i := by
  have f := cfg_facts h.valid a
  have pos : ∀ i, 1 ≤ i → i < c.numCells a → Setup.dh k J' X' c a i = r * Setup.dh k J X c a i := by
    intro i h1 h2
    rw [dh_mean h.valid X' J' a h1 h2, dh_mean h.valid X J a h1 h2, h.de J J' ⟨by omega, by omega⟩, h.de J J' ⟨by omega, h2⟩]
    ring
  by_cases e : i = 0
  · subst e
    rw [dh_low h.valid, dh_low h.valid]
    exact pos 1 le_rfl (by omega)
  · exact pos i (by omega) hi.2

theorem ide_eq (hv : ValidCfg c) (X : Experiment) (J : Junk) {a : Axis} {i : Int} (hi : 0 ≤ i ∧ i < c.numCells a) :
    (edges k J X c a).ide i = 1 / Setup.de k J X c a i ∧ (edges k J X c a).idh i = 1 / Setup.dh k J X c a i := by
  have f := cfg_facts hv a
  exact C18.reciprocals c hv a _ _ _ i (by omega) (by omega)

theorem inv_scale (hr : 0 < r) (x : ℝ) : 1 / (r * x) = r ^ (-1 : Int) * (1 / x) := by
  rw [zpow_neg_one]
  by_cases e : x = 0
  · subst e; simp
  · field_simp

theorem Rel.ide (h : Rel k c r X X') (J J' : Junk) {a : Axis} {i : Int} (hi : 0 ≤ i ∧ i < c.numCells a) :
    (edges k J' X' c a).ide i = r ^ (-1 : Int) * (edges k J X c a).ide i ∧
    (edges k J' X' c a).idh i = r ^ (-1 : Int) * (edges k J X c a).idh i := by
  rw [(ide_eq h.valid X' J' hi).1, (ide_eq h.valid X J hi).1, (ide_eq h.valid X' J' hi).2, (ide_eq h.valid X J hi).2,
    h.de J J' hi, h.dh J J' hi]
  exact ⟨inv_scale h.pos _, inv_scale h.pos _⟩

/-- The smallest of numbers, from a bound none of which they exceed all. -/
theorem foldl_min_scale (hr : 0 < r) (A A' : Arr ℝ) (l : List Int) (m m' : ℝ) (hm : m' = r * m)
    (hA : ∀ i ∈ l, A' i = r * A i) : l.foldl (minStep A') m' = r * l.foldl (minStep A) m := by
  subst hm
  induction l generalizing m with
  | nil => rfl
  | cons j l ih =>
    rw [List.foldl_cons, List.foldl_cons]
    have e : minStep A' (r * m) j = r * minStep A m j := by
      unfold minStep
      rw [hA j (by simp)]
      by_cases hc : A j < m
      · rw [if_pos hc, if_pos (mul_lt_mul_of_pos_left hc hr)]
      · rw [if_neg hc, if_neg fun q => hc (lt_of_mul_lt_mul_left q hr.le)]
    rw [e]
    exact ih _ fun i hi => hA i (by simp [hi])

theorem dmin_scale (h : Rel k c r X X') (J J' : Junk) (a : Axis) :
    (edges k J' X' c a).dmin = r * (edges k J X c a).dmin := by
  have f := cfg_facts h.valid a
  have hd : ∀ i ∈ intRange (c.gobox a.lo - 1) (c.gobox a.hi), Setup.de k J' X' c a i = r * Setup.de k J X c a i := by
    intro i hi
    exact h.de J J' ((h.range a).2 (mem_intRange.1 hi))
  have hh : ∀ i ∈ intRange (c.gobox a.lo) (c.gobox a.hi), Setup.dh k J' X' c a i = r * Setup.dh k J X c a i := by
    intro i hi
    have := mem_intRange.1 hi
    exact h.dh J J' ⟨by omega, by omega⟩
  have first : (intRange (c.gobox a.lo - 1) (c.gobox a.hi)).foldl (minStep (Setup.de k J' X' c a)) k.big =
      r * (intRange (c.gobox a.lo - 1) (c.gobox a.hi)).foldl (minStep (Setup.de k J X c a)) k.big := by
    rcases h.big with rfl | hb
    · exact foldl_min_scale one_pos _ _ _ _ _ (by ring) hd
    · have hne : c.gobox a.lo - 1 ∈ intRange (c.gobox a.lo - 1) (c.gobox a.hi) := mem_intRange.2 ⟨le_rfl, by omega⟩
      have e0 : Setup.de k J X c a (c.gobox a.lo - 1) = X.lines a 1 - X.lines a 0 := by
        have := h.valid.cells a
        unfold Setup.de edges
        rw [C18.edge_lengths c h.valid a _ _ _ _ le_rfl (by omega)]
        unfold C18.cellSize C18.nearestCell
        rw [show max 0 (min (c.n a - 1) (c.gobox a.lo - 1 - c.gibox a.lo)) = 0 by omega]
        rfl
      have e1 := hd _ hne
      have M := C18.foldl_min (Setup.de k J X c a) (intRange (c.gobox a.lo - 1) (c.gobox a.hi)) k.big
      have M' := C18.foldl_min (Setup.de k J' X' c a) (intRange (c.gobox a.lo - 1) (c.gobox a.hi)) k.big
      generalize (intRange (c.gobox a.lo - 1) (c.gobox a.hi)).foldl (minStep (Setup.de k J X c a)) k.big = m at M ⊢
      generalize (intRange (c.gobox a.lo - 1) (c.gobox a.hi)).foldl (minStep (Setup.de k J' X' c a)) k.big = m' at M' ⊢
      obtain ⟨⟨b1, b2⟩, b3⟩ := M
      obtain ⟨⟨d1, d2⟩, d3⟩ := M'
      obtain ⟨g1, g2⟩ := hb a
      have ex : ∃ i ∈ intRange (c.gobox a.lo - 1) (c.gobox a.hi), m = Setup.de k J X c a i := by
        rcases b3 with b3 | b3
        · exact ⟨_, hne, le_antisymm (b2 _ hne) (by rw [e0, b3]; exact g1)⟩
        · exact b3
      have ex' : ∃ i ∈ intRange (c.gobox a.lo - 1) (c.gobox a.hi), m' = Setup.de k J' X' c a i := by
        rcases d3 with d3 | d3
        · exact ⟨_, hne, le_antisymm (d2 _ hne) (by rw [e1, e0, d3]; exact g2)⟩
        · exact d3
      obtain ⟨i, hi, ei⟩ := ex
      obtain ⟨i', hi', ei'⟩ := ex'
      refine le_antisymm ?_ ?_
      · rw [ei, ← hd i hi]; exact d2 i hi
      · rw [ei', hd i' hi']; exact mul_le_mul_of_nonneg_left (b2 i' hi') h.pos.le
  exact foldl_min_scale h.pos _ _ _ _ _ first hh

theorem timeStep_scale (hr : 0 < r) (cn c0 : ℝ) (d : Axis → ℝ) : timeStep cn c0 (fun a => r * d a) = r * timeStep cn c0 d := by
  unfold timeStep
  have e : (1 / (r * d .x)) * (1 / (r * d .x)) + (1 / (r * d .y)) * (1 / (r * d .y)) + (1 / (r * d .z)) * (1 / (r * d .z)) =
      (1 / r) ^ 2 * ((1 / d .x) * (1 / d .x) + (1 / d .y) * (1 / d .y) + (1 / d .z) * (1 / d .z)) := by
    rw [inv_scale hr, inv_scale hr, inv_scale hr, zpow_neg_one]
    ring
  rw [e, Real.sqrt_mul (by positivity), Real.sqrt_sq (by positivity)]
  have : r ≠ 0 := hr.ne'
  by_cases hs : Real.sqrt ((1 / d .x) * (1 / d .x) + (1 / d .y) * (1 / d .y) + (1 / d .z) * (1 / d .z)) = 0
  · rw [hs]; simp
  · field_simp

theorem Rel.dt (h : Rel k c r X X') (J J' : Junk) : Setup.dt k J' X' c = r * Setup.dt k J X c := by
  unfold Setup.dt
  rw [h.cn, ← timeStep_scale h.pos]
  congr 1
  funext a
  exact dmin_scale h J J' a

/-- With the unit unchanged the mesh is of the same kind. -/
theorem Rel.gridType_one (h : Rel k c 1 X X') (J J' : Junk) : gridType k J' X' c = gridType k J X c := by
  have e : ∀ (a : Axis) i, c.gibox a.lo ≤ i → i ≤ c.gibox a.hi → Setup.de k J' X' c a i = Setup.de k J X c a i := by
    intro a i h1 h2
    have f := cfg_facts h.valid a
    rw [h.de J J' ⟨by omega, by omega⟩, one_mul]
  have u : ∀ a : Axis, axisIsUniform k.tol (c.gibox a.lo) (c.gibox a.hi) (Setup.de k J' X' c a) =
      axisIsUniform k.tol (c.gibox a.lo) (c.gibox a.hi) (Setup.de k J X c a) := by
    intro a
    unfold axisIsUniform
    rw [Bool.eq_iff_iff, List.all_eq_true, List.all_eq_true]
    constructor
    all_goals
      intro H i hi
      have := H i hi
      have m := mem_intRange.1 hi
      rw [e a i (by omega) (by omega), e a (i - 1) (by omega) (by omega)] at *
      exact this
  have w : ∀ a : Axis, Setup.de k J' X' c a (c.gibox a.lo) = Setup.de k J X c a (c.gibox a.lo) := fun a =>
    e a _ le_rfl (by have := cfg_facts h.valid a; omega)
  unfold gridType setGridType
  have ux := u .x; have uy := u .y; have uz := u .z
  have wx := w .x; have wy := w .y; have wz := w .z
  simp only [Axis.lo, Axis.hi] at ux uy uz wx wy wz
  rw [ux, uy, uz, wx, wy, wz]

end
end Vulture.Scaling
