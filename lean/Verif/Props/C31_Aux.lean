import Verif.Props.C31_Separation
import Verif.Props.C30_Polarisation
/-
C31, continued: the auxiliary grid that supplies the incident field on a cubic mesh.
-/
set_option linter.unusedSimpArgs false
set_option linter.unusedSectionVars false
namespace Vulture.C31
open Vulture Spec C10 PlaneWave Real

/-! ### Lookups stay inside the free part of the auxiliary grid -/

theorem kinc_unit (theta phi : ℝ) : kinc theta phi .x ^ 2 + kinc theta phi .y ^ 2 + kinc theta phi .z ^ 2 = 1 := by
  simp only [kinc]
  nlinarith [sin_sq_add_cos_sq (rad theta), sin_sq_add_cos_sq (rad phi)]

theorem kinc_le (theta phi : ℝ) (a : Axis) : |kinc theta phi a| ≤ 1 := by
  have := kinc_unit theta phi
  rw [abs_le_one_iff_mul_self_le_one]
  cases a <;> nlinarith [sq_nonneg (kinc theta phi .x), sq_nonneg (kinc theta phi .y), sq_nonneg (kinc theta phi .z)]

/-- Side of the box in cells. -/
def side (b : BBox) (a : Axis) : ℝ := (b a.hi - b a.lo : ℤ)

theorem diagonal_eq (b : BBox) : diagonal b = sqrt (side b .x ^ 2 + side b .y ^ 2 + side b .z ^ 2) := by
  unfold diagonal side; simp only [Axis.hi, Axis.lo]; congr 1; ring

theorem diagonal_nonneg (b : BBox) : 0 ≤ diagonal b := sqrt_nonneg _

theorem side_le_diagonal (b : BBox) (a : Axis) (_h : b a.lo ≤ b a.hi) : side b a ≤ diagonal b := by
  rw [diagonal_eq]
  refine le_sqrt_of_sq_le ?_
  cases a <;> nlinarith [sq_nonneg (side b .x), sq_nonneg (side b .y), sq_nonneg (side b .z)]

theorem cauchy (b : BBox) (theta phi : ℝ) :
    |kinc theta phi .x| * side b .x + |kinc theta phi .y| * side b .y + |kinc theta phi .z| * side b .z ≤ diagonal b := by
  rw [diagonal_eq]
  refine le_sqrt_of_sq_le ?_
  have h := kinc_unit theta phi
  rw [← sq_abs (kinc theta phi .x), ← sq_abs (kinc theta phi .y), ← sq_abs (kinc theta phi .z)] at h
  generalize |kinc theta phi .x| = p at *
  generalize |kinc theta phi .y| = q at *
  generalize |kinc theta phi .z| = r at *
  generalize side b .x = x
  generalize side b .y = y
  generalize side b .z = z
  have : x ^ 2 + y ^ 2 + z ^ 2 - (p * x + q * y + r * z) ^ 2 =
      (p * y - q * x) ^ 2 + (p * z - r * x) ^ 2 + (q * z - r * y) ^ 2 := by linear_combination (-(x^2+y^2+z^2)) * h
  nlinarith [sq_nonneg (p * y - q * x), sq_nonneg (p * z - r * x), sq_nonneg (q * z - r * y)]

/-- One coordinate of the distance, for a point at most `e` outside the box. -/
theorem dist_coord {theta phi eta : ℝ} (h : anglesOk theta phi eta) {b : BBox} {o : Axis → Face}
    (ho : originCorner theta phi = some o) (a : Axis) {r e : ℝ} (hl : b a.lo - e ≤ r) (hu : r ≤ b a.hi + e) :
    -(|kinc theta phi a| * e) ≤ kinc theta phi a * (r - b (o a)) ∧
      kinc theta phi a * (r - b (o a)) ≤ |kinc theta phi a| * side b a + |kinc theta phi a| * e := by
  rcases C30.corner_sign theta phi eta h o ho a with ⟨hf, hk⟩ | ⟨hf, hk⟩
  · rw [hf, abs_of_nonneg hk]
    simp only [side, Int.cast_sub]
    constructor <;> nlinarith
  · rw [hf, abs_of_nonpos hk]
    simp only [side, Int.cast_sub]
    constructor <;> nlinarith

/-- A sample in the closed box is looked up at a distance between zero and the diagonal. -/
theorem dist_inside {theta phi eta : ℝ} (h : anglesOk theta phi eta) {b : BBox} {q0 : Axis → ℤ}
    (ho : ijk0 theta phi b = some q0) {fc : Fc} {q : Axis → ℤ}
    (hq : ∀ a : Axis, (b a.lo : ℝ) ≤ indexLocation fc q a ∧ indexLocation fc q a ≤ b a.hi) :
    0 ≤ auxDist (kinc theta phi) q0 fc q ∧ auxDist (kinc theta phi) q0 fc q ≤ diagonal b := by
  unfold ijk0 at ho
  obtain ⟨o, ho', rfl⟩ := Option.map_eq_some_iff.1 ho
  have k := fun a => dist_coord h (b := b) ho' a (r := indexLocation fc q a) (e := 0) (by linarith [(hq a).1])
    (by linarith [(hq a).2])
  have c := cauchy b theta phi
  have kx := k .x; have ky := k .y; have kz := k .z
  unfold auxDist
  simp only [mul_zero, add_zero, neg_zero] at kx ky kz
  constructor <;> linarith [kx.1, kx.2, ky.1, ky.2, kz.1, kz.2]

/-- A sample half a cell outside one face: between minus one half and the diagonal plus one half. -/
theorem dist_outside {theta phi eta : ℝ} (h : anglesOk theta phi eta) {b : BBox} {q0 : Axis → ℤ}
    (ho : ijk0 theta phi b = some q0) {fc : Fc} {q : Axis → ℤ} (n : Axis)
    (hq : ∀ a : Axis, a ≠ n → (b a.lo : ℝ) ≤ indexLocation fc q a ∧ indexLocation fc q a ≤ b a.hi)
    (hn : (b n.lo : ℝ) - 1 / 2 ≤ indexLocation fc q n ∧ indexLocation fc q n ≤ b n.hi + 1 / 2) :
    -(1 / 2) ≤ auxDist (kinc theta phi) q0 fc q ∧ auxDist (kinc theta phi) q0 fc q ≤ diagonal b + 1 / 2 := by
  unfold ijk0 at ho
  obtain ⟨o, ho', rfl⟩ := Option.map_eq_some_iff.1 ho
  have k := fun a (ha : a ≠ n) => dist_coord h (b := b) ho' a (r := indexLocation fc q a) (e := 0)
    (by linarith [(hq a ha).1]) (by linarith [(hq a ha).2])
  have k' := dist_coord h (b := b) ho' n (r := indexLocation fc q n) (e := 1 / 2) hn.1 hn.2
  have c := cauchy b theta phi
  have l := kinc_le theta phi n
  unfold auxDist
  simp only [mul_zero, add_zero, neg_zero] at k
  cases n
  · have k1 := k .y (by decide); have k2 := k .z (by decide)
    constructor <;> linarith [k1.1, k1.2, k2.1, k2.2, k'.1, k'.2]
  · have k1 := k .x (by decide); have k2 := k .z (by decide)
    constructor <;> linarith [k1.1, k1.2, k2.1, k2.2, k'.1, k'.2]
  · have k1 := k .x (by decide); have k2 := k .y (by decide)
    constructor <;> linarith [k1.1, k1.2, k2.1, k2.2, k'.1, k'.2]

theorem auxNx_eq (b : BBox) : auxNx b = 16 + ⌊diagonal b⌋ := by
  unfold auxNx
  rw [show (6 : ℝ) + 10 + diagonal b = diagonal b + (16 : ℤ) by push_cast; ring, Int.floor_add_intCast]
  ring

theorem xb_eq (theta phi : ℝ) (b : BBox) (q0 : Axis → ℤ) : (auxGridOf theta phi b q0).xb = 6 + ⌊diagonal b⌋ := by
  show auxNx b - 10 = _
  rw [auxNx_eq]; ring

theorem idx_electric {b : BBox} {fc : Fc} (hf : fc.isE = true) {d : ℝ} (h : 0 ≤ d ∧ d ≤ diagonal b) :
    1 ≤ auxIdx fc d ∧ auxIdx fc d + 1 < 6 + ⌊diagonal b⌋ := by
  unfold auxIdx
  rw [if_pos hf]
  have := Int.floor_nonneg.2 h.1
  have := Int.floor_le_floor h.2
  omega

theorem idx_magnetic {b : BBox} {fc : Fc} (hf : fc.isE = false) {d : ℝ} (h : -(1 / 2) ≤ d ∧ d ≤ diagonal b + 1 / 2) :
    1 ≤ auxIdx fc d ∧ auxIdx fc d + 1 < 6 + ⌊diagonal b⌋ := by
  unfold auxIdx
  rw [if_neg (by rw [hf]; decide)]
  have : 0 ≤ ⌊d + 1 / 2⌋ := Int.floor_nonneg.2 (by linarith [h.1])
  have e : ⌊d + 1 / 2⌋ ≤ ⌊diagonal b + (1 : ℤ)⌋ := Int.floor_le_floor (by push_cast; linarith [h.2])
  rw [Int.floor_add_intCast] at e
  omega

/-- The coordinates of a triple. -/
def trip (i j k : Int) : Axis → ℤ
  | .x => i | .y => j | .z => k

theorem grid_idx (theta phi : ℝ) (b : BBox) (q0 : Axis → ℤ) (fc : Fc) (i j k : Int) :
    (auxGridOf theta phi b q0).idx fc i j k = auxIdx fc (auxDist (kinc theta phi) q0 fc (trip i j k)) := rfl

theorem loc_eq (fc : Fc) (q : Axis → ℤ) (a : Axis) : indexLocation fc q a = (pos2 fc a (q a) : ℝ) / 2 := by
  unfold indexLocation
  cases fc <;> cases a <;> simp only [halfOff, pos2] <;> push_cast <;> ring

/-- Where the incident magnetic samples of the electric corrections lie. -/
theorem placesE (c : Cfg) (w : PW) (hord : ∀ a : Axis, w.gbbox a.lo ≤ w.gbbox a.hi) {r : Face × Fc × Bool × Fc}
    (hr : r ∈ pwTableE) {i j k : Int} (hi : InLim (w.flim c r.1 r.2.1) i j k) :
    let t := if r.1.isLo then shift r.1.axis (-1) (i, j, k) else (i, j, k)
    ∀ a : Axis, (2 * w.gbbox a.lo - (if a = r.1.axis then 1 else 0) ≤ pos2 r.2.2.2 a (trip t.1 t.2.1 t.2.2 a) ∧
      pos2 r.2.2.2 a (trip t.1 t.2.1 t.2.2 a) ≤ 2 * w.gbbox a.hi + (if a = r.1.axis then 1 else 0)) ∧
      r.2.2.2.isE = false := by
  have ox := hord .x; have oy := hord .y; have oz := hord .z
  simp only [Axis.lo, Axis.hi] at ox oy oz
  simp only [pwTableE, List.mem_cons, List.not_mem_nil, or_false] at hr
  rcases hr with rfl | rfl | rfl | rfl | rfl | rfl | rfl | rfl | rfl | rfl | rfl | rfl <;>
    simp [InLim, PW.flim, setFieldLimits, fieldIsInBoundary, PW.faceBox, PW.faceIncl, Face.axis, Face.isLo] at hi <;>
    (split_ifs at hi <;> intro t a <;> cases a <;>
      simp [t, shift, trip, pos2, Face.axis, Face.isLo, Axis.lo, Axis.hi, Fc.isE] <;> omega)

/-- Where the incident electric samples of the magnetic corrections lie. -/
theorem placesH (c : Cfg) (w : PW) (hord : ∀ a : Axis, w.gbbox a.lo ≤ w.gbbox a.hi) {r : Face × Fc × Bool × Fc}
    (hr : r ∈ pwTableH) {i j k : Int} (hi : InLim (w.flim c r.1 r.2.1) i j k) :
    let t := if r.1.isLo then shift r.1.axis 1 (i, j, k) else (i, j, k)
    ∀ a : Axis, (2 * w.gbbox a.lo ≤ pos2 r.2.2.2 a (trip t.1 t.2.1 t.2.2 a) ∧
      pos2 r.2.2.2 a (trip t.1 t.2.1 t.2.2 a) ≤ 2 * w.gbbox a.hi) ∧ r.2.2.2.isE = true := by
  have ox := hord .x; have oy := hord .y; have oz := hord .z
  simp only [Axis.lo, Axis.hi] at ox oy oz
  simp only [pwTableH, List.mem_cons, List.not_mem_nil, or_false] at hr
  rcases hr with rfl | rfl | rfl | rfl | rfl | rfl | rfl | rfl | rfl | rfl | rfl | rfl <;>
    simp [InLim, PW.flim, setFieldLimits, fieldIsInBoundary, PW.faceBox, PW.faceIncl, Face.axis, Face.isLo] at hi <;>
    (split_ifs at hi <;> intro t a <;> cases a <;>
      simp [t, shift, trip, pos2, Face.axis, Face.isLo, Axis.lo, Axis.hi, Fc.isE] <;> omega)

/-- Every lookup of the electric corrections, for every mask of active faces and every accepted direction, reads
elements 1 to `xb-1` of the auxiliary arrays: inside the arrays and outside their absorbing layer. -/
theorem lookups_electric (c : Cfg) (w : PW) (hord : ∀ a : Axis, w.gbbox a.lo ≤ w.gbbox a.hi) {theta phi eta : ℝ}
    (h : anglesOk theta phi eta) {q0 : Axis → ℤ} (ho : ijk0 theta phi w.gbbox = some q0) {r : Face × Fc × Bool × Fc}
    (hr : r ∈ pwTableE) {i j k : Int} (hi : InLim (w.flim c r.1 r.2.1) i j k) :
    let g := auxGridOf theta phi w.gbbox q0
    let t := if r.1.isLo then shift r.1.axis (-1) (i, j, k) else (i, j, k)
    1 ≤ g.idx r.2.2.2 t.1 t.2.1 t.2.2 ∧ g.idx r.2.2.2 t.1 t.2.1 t.2.2 + 1 < g.xb ∧ g.xb < g.nx + 1 := by
  intro g t
  have P := placesE c w hord hr hi
  have := idx_magnetic (b := w.gbbox) (P .x).2 (dist_outside h ho (fc := r.2.2.2) (q := trip t.1 t.2.1 t.2.2) r.1.axis
    (fun a ha => by
      have q := (P a).1
      rw [if_neg ha, sub_zero, add_zero] at q
      rw [loc_eq]
      have q1 : ((2 * w.gbbox a.lo : ℤ) : ℝ) ≤ _ := Int.cast_le.2 q.1
      have q2 : _ ≤ ((2 * w.gbbox a.hi : ℤ) : ℝ) := Int.cast_le.2 q.2
      push_cast at q1 q2
      constructor <;> linarith)
    (by
      have q := (P r.1.axis).1
      rw [if_pos rfl] at q
      rw [loc_eq]
      have q1 : ((2 * w.gbbox r.1.axis.lo - 1 : ℤ) : ℝ) ≤ _ := Int.cast_le.2 q.1
      have q2 : _ ≤ ((2 * w.gbbox r.1.axis.hi + 1 : ℤ) : ℝ) := Int.cast_le.2 q.2
      push_cast at q1 q2
      constructor <;> linarith))
  rw [xb_eq, grid_idx]
  exact ⟨this.1, this.2, by rw [← xb_eq theta phi w.gbbox q0]; show auxNx w.gbbox - 10 < auxNx w.gbbox + 1; omega⟩

/-- The same for the magnetic corrections. -/
theorem lookups_magnetic (c : Cfg) (w : PW) (hord : ∀ a : Axis, w.gbbox a.lo ≤ w.gbbox a.hi) {theta phi eta : ℝ}
    (h : anglesOk theta phi eta) {q0 : Axis → ℤ} (ho : ijk0 theta phi w.gbbox = some q0) {r : Face × Fc × Bool × Fc}
    (hr : r ∈ pwTableH) {i j k : Int} (hi : InLim (w.flim c r.1 r.2.1) i j k) :
    let g := auxGridOf theta phi w.gbbox q0
    let t := if r.1.isLo then shift r.1.axis 1 (i, j, k) else (i, j, k)
    1 ≤ g.idx r.2.2.2 t.1 t.2.1 t.2.2 ∧ g.idx r.2.2.2 t.1 t.2.1 t.2.2 + 1 < g.xb ∧ g.xb < g.nx + 1 := by
  intro g t
  have P := placesH c w hord hr hi
  have := idx_electric (b := w.gbbox) (P .x).2 (dist_inside h ho (fc := r.2.2.2) (q := trip t.1 t.2.1 t.2.2)
    (fun a => by
      have q := (P a).1
      rw [loc_eq]
      have q1 : ((2 * w.gbbox a.lo : ℤ) : ℝ) ≤ _ := Int.cast_le.2 q.1
      have q2 : _ ≤ ((2 * w.gbbox a.hi : ℤ) : ℝ) := Int.cast_le.2 q.2
      push_cast at q1 q2
      constructor <;> linarith))
  rw [xb_eq, grid_idx]
  exact ⟨this.1, this.2, by rw [← xb_eq theta phi w.gbbox q0]; show auxNx w.gbbox - 10 < auxNx w.gbbox + 1; omega⟩

/-! ### Values of the auxiliary grid -/

section values
variable {K : Type*} [CommRing K] {C : CRef → K}

theorem run_map_sole {L : List Int} (hn : L.Nodup) {f : Int → Block} {m : Int} (hm : m ∈ L)
    {S : Set Loc} (hS : ∀ y ∈ L, y ≠ m → ∀ l ∈ S, l ∉ (f y).writes) (hr : ∀ l ∈ (f m).reads, l ∈ S) (s : Loc → K)
    {l : Loc} (hl : l ∈ S) (hw : l ∈ (f m).writes) : Prog.run C (L.map f) s l = (f m).exec C s l := by
  rw [List.map_eq_flatMap]
  obtain ⟨s', h1, h2⟩ := run_flatMap_sole C (f := fun y => [f y]) hm hn (S := S) (fun y hy hne l hl => by
    intro b hb
    rw [List.mem_singleton] at hb
    subst hb
    exact hS y hy hne l hl) s
  rw [h2 l hl, run_cons, run_nil]
  exact exec_congr C (fun l2 hl2 => h1 l2 (hr l2 hl2)) hw

/-- The free part of the auxiliary grid: electric update. -/
theorem auxE_value (n : Nat) (g : AuxGrid) (s : Loc → K) {m : Int} (h1 : 1 ≤ m) (h2 : m < g.xb) :
    (auxE n g).run C s (.aux n .ey m) =
      s (.aux n .ey m) + C (.auxBeta n) * (s (.aux n .hz (m-1)) - s (.aux n .hz m)) := by
  unfold auxE
  rw [run_append, run_append]
  rw [NoWrite.run C (l := .aux n .ey m) (by
    intro b hb; rw [List.mem_singleton] at hb; subst hb
    simp [Block.writes]; omega)]
  rw [NoWrite.run C (l := .aux n .ey m) (by
    intro b hb
    obtain ⟨i, hi, rfl⟩ := List.mem_map.1 hb
    rw [mem_intRange] at hi
    simp [Block.writes]; omega)]
  rw [run_map_sole (m := m) (nodup_intRange _ _) (mem_intRange.2 ⟨h1, by omega⟩)
    (S := fun l => l = .aux n .ey m ∨ ∃ i, l = .aux n .hz i)
    (by
      rintro y hy hne l (rfl | ⟨i, rfl⟩) <;> simp [Block.writes]
      exact fun e => hne e.symm)
    (by
      intro l hl
      simp [Block.reads, Expr.reads] at hl
      rcases hl with rfl | rfl | rfl
      · exact Or.inl rfl
      · exact Or.inr ⟨_, rfl⟩
      · exact Or.inr ⟨_, rfl⟩) s (Or.inl rfl) (by simp [Block.writes])]
  simp [Block.exec, Expr.eval]

theorem auxE_keeps_hz (n : Nat) (g : AuxGrid) (s : Loc → K) (m : Int) :
    (auxE n g).run C s (.aux n .hz m) = s (.aux n .hz m) := by
  refine NoWrite.run C ?_ s
  intro b hb
  simp only [auxE, List.mem_append, List.mem_map, List.mem_singleton] at hb
  rcases hb with (⟨i, -, rfl⟩ | ⟨i, -, rfl⟩) | rfl <;> simp [Block.writes]

/-- The free part of the auxiliary grid: magnetic update. -/
theorem auxH_value (n : Nat) (g : AuxGrid) (s : Loc → K) {m : Int} (h1 : 0 ≤ m) (h2 : m < g.xb) :
    (auxH n g).run C s (.aux n .hz m) =
      s (.aux n .hz m) + C (.auxGamma n) * (s (.aux n .ey m) - s (.aux n .ey (m+1))) := by
  unfold auxH
  rw [run_append]
  rw [NoWrite.run C (l := .aux n .hz m) (by
    intro b hb
    obtain ⟨i, hi, rfl⟩ := List.mem_map.1 hb
    rw [mem_intRange] at hi
    simp [Block.writes]; omega)]
  rw [run_map_sole (m := m) (nodup_intRange _ _) (mem_intRange.2 ⟨h1, by omega⟩)
    (S := fun l => l = .aux n .hz m ∨ ∃ i, l = .aux n .ey i)
    (by
      rintro y hy hne l (rfl | ⟨i, rfl⟩) <;> simp [Block.writes]
      exact fun e => hne e.symm)
    (by
      intro l hl
      simp [Block.reads, Expr.reads] at hl
      rcases hl with rfl | rfl | rfl
      · exact Or.inl rfl
      · exact Or.inr ⟨_, rfl⟩
      · exact Or.inr ⟨_, rfl⟩) s (Or.inl rfl) (by simp [Block.writes])]
  simp [Block.exec, Expr.eval]

theorem auxH_keeps_ey (n : Nat) (g : AuxGrid) (s : Loc → K) (m : Int) :
    (auxH n g).run C s (.aux n .ey m) = s (.aux n .ey m) := by
  refine NoWrite.run C ?_ s
  intro b hb
  simp only [auxH, List.mem_append, List.mem_map] at hb
  rcases hb with ⟨i, -, rfl⟩ | ⟨i, -, rfl⟩ <;> simp [Block.writes]

/-- The source end of the auxiliary grid follows the waveform. -/
theorem auxE_source (n : Nat) (g : AuxGrid) (s : Loc → K) :
    (auxE n g).run C s (.aux n .ey 0) = s (.wav n) := by
  unfold auxE
  rw [run_append, run_cons, run_nil]
  simp only [Block.exec, List.find?_cons, decide_true, Expr.eval]
  refine NoWrite.run C ?_ s
  intro b hb
  simp only [List.mem_append, List.mem_map] at hb
  rcases hb with ⟨i, -, rfl⟩ | ⟨i, -, rfl⟩ <;> simp [Block.writes]

end values

end Vulture.C31
