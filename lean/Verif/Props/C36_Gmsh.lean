import Verif.Model.Gmsh
import Verif.Spec.UnitCells
import Verif.Spec.Observe
import Verif.Props.C32_Window
/-
C36. Geometry export.
-/
set_option linter.unusedSimpArgs false
set_option linter.unusedSectionVars false
namespace Vulture.C36
open Vulture Gmsh Spec

/-! ### GNode numbers -/

/-- GNode numbers lie between one and the number of mesh nodes. -/
theorem number_range {nx ny nz : Int} {t : GNode} (h : MeshNode nx ny nz t) :
    1 ≤ encode nx ny t ∧ encode nx ny t ≤ nx * ny * nz := by
  obtain ⟨i, j, k⟩ := t
  obtain ⟨⟨h1, h2⟩, ⟨h3, h4⟩, h5, h6⟩ := h
  simp only at h1 h2 h3 h4 h5 h6
  unfold encode
  simp only
  have hx : 0 < nx := by omega
  have hxy : 0 < nx * ny := mul_pos hx (by omega)
  constructor
  · have a := mul_nonneg h3 hx.le
    have b := mul_nonneg h5 hxy.le
    rw [mul_assoc k]; omega
  · have a : j * nx ≤ (ny - 1) * nx := mul_le_mul_of_nonneg_right (by omega) hx.le
    have b : k * (nx * ny) ≤ (nz - 1) * (nx * ny) := mul_le_mul_of_nonneg_right (by omega) hxy.le
    rw [mul_assoc k]
    nlinarith

/-- Every intermediate value of the C expression is between zero and the number of nodes, so it does not overflow an
`int` when the mesh has at most `2^31 - 1` nodes. -/
theorem no_overflow {nx ny nz : Int} {t : GNode} (h : MeshNode nx ny nz t) (hmax : nx * ny * nz ≤ 2 ^ 31 - 1) :
    ∀ v ∈ [t.1 + 1, t.2.1 * nx, (t.1 + 1) + t.2.1 * nx, t.2.2 * nx, t.2.2 * nx * ny, encode nx ny t],
      0 ≤ v ∧ v ≤ 2 ^ 31 - 1 := by
  have hr := number_range h
  obtain ⟨i, j, k⟩ := t
  obtain ⟨⟨h1, h2⟩, ⟨h3, h4⟩, h5, h6⟩ := h
  simp only at h1 h2 h3 h4 h5 h6
  have hx : 0 < nx := by omega
  have hy : 0 < ny := by omega
  have a := mul_nonneg h3 hx.le
  have c := mul_nonneg h5 hx.le
  have b := mul_nonneg c hy.le
  have d : k * nx ≤ k * nx * ny := le_mul_of_one_le_right c (by omega)
  have he : encode nx ny (i, j, k) = (i + 1) + j * nx + k * nx * ny := rfl
  rw [he] at hr
  intro v hv
  simp only [List.mem_cons, List.not_mem_nil, or_false, he] at hv
  rcases hv with rfl | rfl | rfl | rfl | rfl | rfl <;> omega

/-- The number gives back the node. -/
theorem number_decodes {nx ny nz : Int} {t : GNode} (h : MeshNode nx ny nz t) :
    ((encode nx ny t - 1) % nx, (encode nx ny t - 1) / nx % ny, (encode nx ny t - 1) / nx / ny) = t := by
  obtain ⟨i, j, k⟩ := t
  obtain ⟨⟨h1, h2⟩, ⟨h3, h4⟩, h5, h6⟩ := h
  simp only at h1 h2 h3 h4 h5 h6
  have e : encode nx ny (i, j, k) - 1 = i + (j + k * ny) * nx := by unfold encode; ring
  have hx : nx ≠ 0 := by omega
  have hy : ny ≠ 0 := by omega
  rw [e, Int.add_mul_emod_self_right, Int.add_mul_ediv_right _ _ hx, Int.emod_eq_of_lt h1 h2, Int.ediv_eq_zero_of_lt h1 h2,
    zero_add, Int.add_mul_emod_self_right, Int.add_mul_ediv_right _ _ hy, Int.emod_eq_of_lt h3 h4,
    Int.ediv_eq_zero_of_lt h3 h4, zero_add]

/-- Different nodes have different numbers. -/
theorem number_injective {nx ny nz : Int} {t t' : GNode} (h : MeshNode nx ny nz t) (h' : MeshNode nx ny nz t')
    (he : encode nx ny t = encode nx ny t') : t = t' := by
  rw [← number_decodes h, ← number_decodes h', he]

/-! ### Elements of a box -/

/-- Low and high ends of a box. -/
def lo (b : BBox) : Axis → Int := fun a => b a.lo
def hi (b : BBox) : Axis → Int := fun a => b a.hi

theorem mem_below {l h i : Int} : i ∈ below l h ↔ l ≤ i ∧ i < h := by
  unfold below
  simp only [List.mem_map, List.mem_range]
  constructor
  · rintro ⟨m, hm, rfl⟩; omega
  · rintro ⟨h1, h2⟩; exact ⟨(i - l).toNat, by omega, by omega⟩

theorem nodup_below (l h : Int) : (below l h).Nodup := by
  unfold below
  exact List.nodup_range.map fun a b h => by simpa using h

/-- What an export of a box should contain: one element for every unit cell. -/
def Tiles (b : BBox) (cs : List (List GNode)) : Prop :=
  ∃ ts : List GNode, ts.Nodup ∧ (∀ t, t ∈ ts ↔ LowCorner (lo b) (hi b) t) ∧
    List.Forall₂ (fun t c => c.Nodup ∧ c.head? = some t ∧ ∀ p, p ∈ c ↔ CellNode (lo b) (hi b) t p) ts cs

theorem forall2_map {α β : Type*} {R : α → β → Prop} (l : List α) (f : α → β) (h : ∀ a ∈ l, R a (f a)) :
    List.Forall₂ R l (l.map f) := by
  induction l with
  | nil => exact .nil
  | cons a l ih => exact .cons (h a (by simp)) (ih fun x hx => h x (by simp [hx]))

theorem co_axes {P : Axis → Prop} : (∀ a, P a) ↔ P .x ∧ P .y ∧ P .z :=
  ⟨fun h => ⟨h _, h _, h _⟩, fun ⟨x, y, z⟩ a => by cases a <;> assumption⟩

theorem fm_single {α β : Type*} (f : α → β) (l : List α) : (l.flatMap fun a => [f a]) = l.map f := by
  induction l with
  | nil => rfl
  | cons a l ih => rw [List.flatMap_cons, ih]; rfl

/-- The pair of indices of a cell along an axis. -/
theorem prod3 (b : BBox) (f : GNode → List GNode) (X Y Z : List Int) (hX : X.Nodup) (hY : Y.Nodup) (hZ : Z.Nodup)
    (hm : ∀ i j k, i ∈ X → j ∈ Y → k ∈ Z → LowCorner (lo b) (hi b) (i, j, k))
    (hc : ∀ t, LowCorner (lo b) (hi b) t → t.1 ∈ X ∧ t.2.1 ∈ Y ∧ t.2.2 ∈ Z)
    (hf : ∀ t, LowCorner (lo b) (hi b) t → (f t).Nodup ∧ (f t).head? = some t ∧
      ∀ p, p ∈ f t ↔ CellNode (lo b) (hi b) t p) :
    Tiles b (X.flatMap fun i => Y.flatMap fun j => Z.map fun k => f (i, j, k)) := by
  refine ⟨X.flatMap fun i => Y.flatMap fun j => Z.map fun k => (i, j, k), ?_, ?_, ?_⟩
  · refine List.nodup_flatMap.2 ⟨fun i _ => List.nodup_flatMap.2 ⟨fun j _ => ?_, ?_⟩, ?_⟩
    · exact hZ.map fun a b h => by simpa using h
    · refine hY.imp fun {a b} hab => ?_
      rw [Function.onFun, List.disjoint_left]
      intro t h1 h2
      obtain ⟨i1, -, rfl⟩ := List.mem_map.1 h1
      obtain ⟨i2, -, h⟩ := List.mem_map.1 h2
      simp at h
      exact hab h.1.symm
    · refine hX.imp fun {a b} hab => ?_
      rw [Function.onFun, List.disjoint_left]
      intro t h1 h2
      simp only [List.mem_flatMap, List.mem_map] at h1 h2
      obtain ⟨j1, -, i1, -, rfl⟩ := h1
      obtain ⟨j2, -, i2, -, h⟩ := h2
      simp at h
      exact hab h.1.symm
  · intro t
    simp only [List.mem_flatMap, List.mem_map]
    constructor
    · rintro ⟨i, hi, j, hj, k, hk, rfl⟩; exact hm i j k hi hj hk
    · intro h
      obtain ⟨h1, h2, h3⟩ := hc t h
      exact ⟨t.1, h1, t.2.1, h2, t.2.2, h3, rfl⟩
  · have e : (X.flatMap fun i => Y.flatMap fun j => Z.map fun k => f (i, j, k)) =
        (X.flatMap fun i => Y.flatMap fun j => Z.map fun k => (i, j, k)).map f := by
      simp only [List.map_flatMap, List.map_map, Function.comp_def]
    rw [e]
    refine forall2_map _ f fun t ht => hf t ?_
    simp only [List.mem_flatMap, List.mem_map] at ht
    obtain ⟨i, hi, j, hj, k, hk, rfl⟩ := ht
    exact hm i j k hi hj hk

theorem degenerate_cases (b : BBox) : bboxType b = (if b .xlo = b .xhi then
      (if b .ylo = b .yhi then (if b .zlo = b .zhi then some .point else some .line)
        else (if b .zlo = b .zhi then some .line else some .surface))
      else (if b .ylo = b .yhi then (if b .zlo = b .zhi then some .line else some .surface)
        else (if b .zlo = b .zhi then some .surface else some .volume))) ∧
    bboxDirection b = (if b .xlo = b .xhi then
      (if b .ylo = b .yhi then (if b .zlo = b .zhi then some none else some (some .z))
        else (if b .zlo = b .zhi then some (some .y) else some (some .x)))
      else (if b .ylo = b .yhi then (if b .zlo = b .zhi then some (some .x) else some (some .y))
        else (if b .zlo = b .zhi then some (some .z) else some none))) := by
  unfold bboxType bboxDirection degenerateMask b2i bboxTypeTable bboxDirectionTable
  by_cases h1 : b .xlo = b .xhi <;> by_cases h2 : b .ylo = b .yhi <;> by_cases h3 : b .zlo = b .zhi <;>
    simp [h1, h2, h3]

theorem low_iff (b : BBox) (t : GNode) : LowCorner (lo b) (hi b) t ↔
    (if b .xlo = b .xhi then t.1 = b .xlo else b .xlo ≤ t.1 ∧ t.1 < b .xhi) ∧
    (if b .ylo = b .yhi then t.2.1 = b .ylo else b .ylo ≤ t.2.1 ∧ t.2.1 < b .yhi) ∧
    (if b .zlo = b .zhi then t.2.2 = b .zlo else b .zlo ≤ t.2.2 ∧ t.2.2 < b .zhi) := by
  unfold LowCorner
  rw [co_axes]; rfl

theorem cell_iff (b : BBox) (t p : GNode) : CellNode (lo b) (hi b) t p ↔
    (if b .xlo = b .xhi then p.1 = t.1 else p.1 = t.1 ∨ p.1 = t.1 + 1) ∧
    (if b .ylo = b .yhi then p.2.1 = t.2.1 else p.2.1 = t.2.1 ∨ p.2.1 = t.2.1 + 1) ∧
    (if b .zlo = b .zhi then p.2.2 = t.2.2 else p.2.2 = t.2.2 ∨ p.2.2 = t.2.2 + 1) := by
  unfold CellNode
  rw [co_axes]; rfl

/-- Asking for elements of the box's own dimension gives one element of that dimension for every unit cell of the box,
with exactly that cell's nodes. -/
theorem own_dimension (b : BBox) (step : Axis → Int) (T : BBType) (hT : bboxType b = some T) (ty : ET)
    (cs : List (List GNode)) (h : corners T b step = some (ty, cs)) :
    ty.dim = extents (lo b) (hi b) ∧ Tiles b cs := by
  obtain ⟨ht, hd⟩ := degenerate_cases b
  have hex : extents (lo b) (hi b) = (if b .xlo = b .xhi then 0 else 1) + (if b .ylo = b .yhi then 0 else 1) +
    (if b .zlo = b .zhi then 0 else 1) := rfl
  rw [hex]
  unfold corners at h
  by_cases h1 : b .xlo = b .xhi <;> by_cases h2 : b .ylo = b .yhi <;> by_cases h3 : b .zlo = b .zhi <;>
    simp only [h1, h2, h3, if_true, if_false] at ht hd <;> rw [ht] at h hT <;>
    obtain rfl := Option.some.inj hT <;> simp only [hd, Option.some.injEq, Prod.mk.injEq] at h <;>
    obtain ⟨rfl, rfl⟩ := h <;> refine ⟨by simp [ET.dim, h1, h2, h3], ?_⟩
  · -- point
    exact prod3 b (fun t => [t]) [b .xlo] [b .ylo] [b .zlo] (by simp) (by simp) (by simp)
      (by intro i j k hi hj hk; rw [low_iff]; simp_all)
      (by intro t ht; rw [low_iff] at ht; simp_all)
      (by
        intro t ht
        refine ⟨by simp, rfl, fun p => ?_⟩
        rw [cell_iff]; simp [h1, h2, h3, Prod.ext_iff])
  · have := prod3 b (fun t => [t, (t.1, t.2.1, t.2.2 + 1)]) [b .xlo] [b .ylo] (below (b .zlo) (b .zhi)) (by simp) (by simp)
      (nodup_below _ _)
      (by intro i j k hi hj hk; rw [low_iff]; simp_all [mem_below])
      (by intro t ht; rw [low_iff] at ht; simp_all [mem_below])
      (by
        intro t ht
        refine ⟨by simp [Prod.ext_iff], rfl, fun p => ?_⟩
        rw [cell_iff]; simp [h1, h2, h3, Prod.ext_iff]; tauto)
    simpa using this
  · have := prod3 b (fun t => [t, (t.1, t.2.1 + 1, t.2.2)]) [b .xlo] (below (b .ylo) (b .yhi)) [b .zlo] (by simp)
      (nodup_below _ _) (by simp)
      (by intro i j k hi hj hk; rw [low_iff]; simp_all [mem_below])
      (by intro t ht; rw [low_iff] at ht; simp_all [mem_below])
      (by
        intro t ht
        refine ⟨by simp [Prod.ext_iff], rfl, fun p => ?_⟩
        rw [cell_iff]; simp [h1, h2, h3, Prod.ext_iff]; tauto)
    simpa [fm_single] using this
  · have := prod3 b (fun t => [t, (t.1, t.2.1 + 1, t.2.2), (t.1, t.2.1 + 1, t.2.2 + 1), (t.1, t.2.1, t.2.2 + 1)])
      [b .xlo] (below (b .ylo) (b .yhi)) (below (b .zlo) (b .zhi)) (by simp) (nodup_below _ _) (nodup_below _ _)
      (by intro i j k hi hj hk; rw [low_iff]; simp_all [mem_below])
      (by intro t ht; rw [low_iff] at ht; simp_all [mem_below])
      (by
        intro t ht
        refine ⟨by simp [Prod.ext_iff], rfl, fun p => ?_⟩
        rw [cell_iff]; simp [h1, h2, h3, Prod.ext_iff]; tauto)
    simpa using this
  · have := prod3 b (fun t => [t, (t.1 + 1, t.2.1, t.2.2)]) (below (b .xlo) (b .xhi)) [b .ylo] [b .zlo]
      (nodup_below _ _) (by simp) (by simp)
      (by intro i j k hi hj hk; rw [low_iff]; simp_all [mem_below])
      (by intro t ht; rw [low_iff] at ht; simp_all [mem_below])
      (by
        intro t ht
        refine ⟨by simp [Prod.ext_iff], rfl, fun p => ?_⟩
        rw [cell_iff]; simp [h1, h2, h3, Prod.ext_iff]; tauto)
    simpa [fm_single] using this
  · have := prod3 b (fun t => [t, (t.1 + 1, t.2.1, t.2.2), (t.1 + 1, t.2.1, t.2.2 + 1), (t.1, t.2.1, t.2.2 + 1)])
      (below (b .xlo) (b .xhi)) [b .ylo] (below (b .zlo) (b .zhi)) (nodup_below _ _) (by simp) (nodup_below _ _)
      (by intro i j k hi hj hk; rw [low_iff]; simp_all [mem_below])
      (by intro t ht; rw [low_iff] at ht; simp_all [mem_below])
      (by
        intro t ht
        refine ⟨by simp [Prod.ext_iff], rfl, fun p => ?_⟩
        rw [cell_iff]; simp [h1, h2, h3, Prod.ext_iff]; tauto)
    simpa using this
  · have := prod3 b (fun t => [t, (t.1 + 1, t.2.1, t.2.2), (t.1 + 1, t.2.1 + 1, t.2.2), (t.1, t.2.1 + 1, t.2.2)])
      (below (b .xlo) (b .xhi)) (below (b .ylo) (b .yhi)) [b .zlo] (nodup_below _ _) (nodup_below _ _) (by simp)
      (by intro i j k hi hj hk; rw [low_iff]; simp_all [mem_below])
      (by intro t ht; rw [low_iff] at ht; simp_all [mem_below])
      (by
        intro t ht
        refine ⟨by simp [Prod.ext_iff], rfl, fun p => ?_⟩
        rw [cell_iff]; simp [h1, h2, h3, Prod.ext_iff]; tauto)
    simpa [fm_single] using this
  · exact prod3 b (fun t => [t, (t.1 + 1, t.2.1, t.2.2), (t.1 + 1, t.2.1 + 1, t.2.2), (t.1, t.2.1 + 1, t.2.2),
        (t.1, t.2.1, t.2.2 + 1), (t.1 + 1, t.2.1, t.2.2 + 1), (t.1 + 1, t.2.1 + 1, t.2.2 + 1), (t.1, t.2.1 + 1, t.2.2 + 1)])
      (below (b .xlo) (b .xhi)) (below (b .ylo) (b .yhi)) (below (b .zlo) (b .zhi)) (nodup_below _ _) (nodup_below _ _)
      (nodup_below _ _)
      (by intro i j k hi hj hk; rw [low_iff]; simp_all [mem_below])
      (by intro t ht; rw [low_iff] at ht; simp_all [mem_below])
      (by
        intro t ht
        refine ⟨by simp [Prod.ext_iff], rfl, fun p => ?_⟩
        rw [cell_iff]; simp [h1, h2, h3, Prod.ext_iff]; omega)

/-- It never fails. -/
theorem own_dimension_total (b : BBox) (step : Axis → Int) : ∃ T, bboxType b = some T ∧ (corners T b step).isSome := by
  obtain ⟨ht, hd⟩ := degenerate_cases b
  by_cases h1 : b .xlo = b .xhi <;> by_cases h2 : b .ylo = b .yhi <;> by_cases h3 : b .zlo = b .zhi <;>
    simp only [h1, h2, h3, if_true, if_false] at ht hd <;> refine ⟨_, ht, ?_⟩ <;> unfold corners <;>
    simp only [ht, hd, Option.isSome_some]

end Vulture.C36
