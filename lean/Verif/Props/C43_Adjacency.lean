import Verif.Spec.Sheets
import Verif.Model.Adjacency
import Verif.Lemmas.Limits
/-
C43: what the set-up records about sheets that meet at an edge.
-/
set_option linter.unusedSimpArgs false
set_option linter.unusedVariables false
namespace Vulture.C43
open Spec Adj

/-- The specification's standing square does share an edge with the square it stands on. -/
theorem standing_shares_edge (n : Axis) (p : Int × Int × Int) (above : Bool) (e : Edge) :
    ShareEdge n p (e.across n) (standing n p above e) := by
  obtain ⟨i, j, k⟩ := p
  refine ⟨if e.across n = n.next then n.next.next else n.next, if e.isHigh then shift (e.across n) 1 (i, j, k) else (i, j, k), ?_⟩
  cases n <;> cases e <;> cases above <;>
    refine ⟨⟨?_, fun a ha => ?_⟩, ⟨?_, fun a ha => ?_⟩, ⟨?_, fun a ha => ?_⟩, ⟨?_, fun a ha => ?_⟩⟩ <;>
    first
      | simp [Edge.across, Edge.isHigh, standing, Axis.next, shift, coord]; done
      | (cases a <;> simp [Edge.across, Edge.isHigh, standing, Axis.next, shift, coord] at ha ⊢)

/-- The recorded flag of a face: side and edge. -/
def flag (m : FaceMap) (n : Axis) (p : Int × Int × Int) (above : Bool) (e : Edge) : Option Bool :=
  let f := match e with | .lowFirst => 0 | .highFirst => 1 | .lowSecond => 2 | .highSecond => 3
  if above then isAdjB m n p.1 p.2.1 p.2.2 f else isAdjA m n p.1 p.2.1 p.2.2 f

theorem ext_at {s : SibcSurf} (hf : s.gbbox s.normal.lo = s.gbbox s.normal.hi) (d : Axis) (i j k : Int) :
    (d = s.normal ∧ ((extended s .xlo ≤ i ∧ i < extended s .xhi) ∧ (extended s .ylo ≤ j ∧ j < extended s .yhi) ∧
      (extended s .zlo ≤ k ∧ k < extended s .zhi))) ↔ Covers s d (i, j, k) := by
  obtain ⟨n, g, np⟩ := s
  unfold Covers extended
  constructor
  · rintro ⟨rfl, h⟩
    refine ⟨rfl, ?_, fun a ha => ?_⟩
    · cases d <;> simp [Axis.lo, Axis.hi, coord] at h hf ⊢ <;> omega
    · cases d <;> cases a <;> simp [Axis.lo, Axis.hi, coord] at h ha ⊢ <;> omega
  · rintro ⟨rfl, h, h'⟩
    refine ⟨rfl, ?_⟩
    have hx := h' .x; have hy := h' .y; have hz := h' .z
    cases n <;> simp [Axis.lo, Axis.hi, coord] at h hx hy hz hf ⊢ <;> omega

theorem foldl_flag (l : List SibcSurf) (hf : ∀ s ∈ l, s.gbbox s.normal.lo = s.gbbox s.normal.hi) (m : FaceMap)
    (i j k : Int) (d : Axis) :
    ((∃ s ∈ l, Covers s d (i, j, k)) →
      l.foldl (fun m s => setSibcFace m (extended s) s.normal true) m i j k d = some true) ∧
    ((¬ ∃ s ∈ l, Covers s d (i, j, k)) →
      l.foldl (fun m s => setSibcFace m (extended s) s.normal true) m i j k d = m i j k d) := by
  induction l generalizing m with
  | nil => simp
  | cons s l ih =>
    have ih' := ih (fun s hs => hf s (List.mem_cons_of_mem _ hs))
    have e := ext_at (hf s List.mem_cons_self) d i j k
    rw [List.foldl_cons]
    have keep : ¬ Covers s d (i, j, k) → setSibcFace m (extended s) s.normal true i j k d = m i j k d := by
      intro h
      unfold setSibcFace
      exact if_neg fun h' => h (e.1 h')
    have put : Covers s d (i, j, k) → setSibcFace m (extended s) s.normal true i j k d = some true := by
      intro h
      unfold setSibcFace
      exact if_pos (e.2 h)
    constructor
    · rintro ⟨s', hs', hc⟩
      by_cases h : ∃ s ∈ l, Covers s d (i, j, k)
      · exact (ih' _).1 h
      · rw [(ih' _).2 h]
        rcases List.mem_cons.1 hs' with rfl | hm
        · exact put hc
        · exact absurd ⟨s', hm, hc⟩ h
    · intro h
      have h1 : ¬ ∃ s ∈ l, Covers s d (i, j, k) := fun ⟨s', hm, hc⟩ => h ⟨s', List.mem_cons_of_mem _ hm, hc⟩
      rw [(ih' _).2 h1]
      exact keep fun hc => h ⟨s, List.mem_cons_self, hc⟩

/-- Inside the outer grid, high sides excluded. -/
def Inner (gobox : BBox) (p : Int × Int × Int) : Prop := ∀ a : Axis, gobox a.lo ≤ coord a p ∧ coord a p < gobox a.hi

/-- The face array: true on covered squares, false on the others inside the grid, unwritten elsewhere. -/
theorem faceMap_value (gobox : BBox) (l : List SibcSurf) (hf : ∀ s ∈ l, s.gbbox s.normal.lo = s.gbbox s.normal.hi)
    (p : Int × Int × Int) (d : Axis) :
    ((∃ s ∈ l, Covers s d p) → faceMap gobox l p.1 p.2.1 p.2.2 d = some true) ∧
    ((¬ ∃ s ∈ l, Covers s d p) → Inner gobox p → faceMap gobox l p.1 p.2.1 p.2.2 d = some false) ∧
    ((¬ ∃ s ∈ l, Covers s d p) → ¬ Inner gobox p → faceMap gobox l p.1 p.2.1 p.2.2 d = none) := by
  obtain ⟨i, j, k⟩ := p
  have f := foldl_flag l hf
    (setSibcFace (setSibcFace (setSibcFace fresh gobox .x false) gobox .y false) gobox .z false) i j k d
  refine ⟨f.1, fun h hi => ?_, fun h hi => ?_⟩
  · refine (f.2 h).trans ?_
    have hx := hi .x; have hy := hi .y; have hz := hi .z
    simp only [coord, Axis.lo, Axis.hi] at hx hy hz
    unfold setSibcFace
    cases d <;> simp [hx, hy, hz]
  · refine (f.2 h).trans ?_
    have q : ¬ ((gobox .xlo ≤ i ∧ i < gobox .xhi) ∧ (gobox .ylo ≤ j ∧ j < gobox .yhi) ∧ (gobox .zlo ≤ k ∧ k < gobox .zhi)) := by
      rintro ⟨hx, hy, hz⟩
      refine hi fun a => ?_
      cases a
      exacts [hx, hy, hz]
    unfold setSibcFace fresh
    cases d <;> simp only [q, and_false, if_false]

/-- Which square a flag looks at: the standing one, except for the high second edge above, which looks one cell further
along the first axis. -/
theorem flag_place (m : FaceMap) (n : Axis) (p : Int × Int × Int) (above : Bool) (e : Edge) :
    flag m n p above e =
      let q := if above = true ∧ e = .highSecond then shift n.next 1
        (standing n p above e) else standing n p above e
      m q.1 q.2.1 q.2.2 (e.across n) := by
  obtain ⟨i, j, k⟩ := p
  cases n <;> cases e <;> cases above <;> rfl

/-- A face with all its neighbours inside the grid. -/
structure Surrounded (gobox : BBox) (n : Axis) (p : Int × Int × Int) : Prop where
  low : ∀ a : Axis, gobox a.lo ≤ coord a p
  below : gobox n.lo < coord n p
  above : coord n p < gobox n.hi
  high : ∀ a : Axis, a ≠ n → coord a p + 1 < gobox a.hi

/-- Every flag of a surrounded face is written, and seven of the eight tell whether another sheet stands on the edge. -/
theorem flags_right_partial (gobox : BBox) (l : List SibcSurf) (hf : ∀ s ∈ l, s.gbbox s.normal.lo = s.gbbox s.normal.hi)
    (n : Axis) (p : Int × Int × Int) (hs : Surrounded gobox n p) (above : Bool) (e : Edge) :
    flag (faceMap gobox l) n p above e ≠ none ∧
    (¬ (above = true ∧ e = .highSecond) → (flag (faceMap gobox l) n p above e = some true ↔
      ∃ s ∈ l, Covers s (e.across n) (standing n p above e))) := by
  obtain ⟨h1, h2, h3, h4⟩ := hs
  have hx := h1 .x; have hy := h1 .y; have hz := h1 .z
  have gx := h4 .x; have gy := h4 .y; have gz := h4 .z
  have I : ∀ q, q = standing n p above e ∨ (above = true ∧ e = .highSecond ∧
      q = shift n.next 1 (standing n p above e)) → Inner gobox q := by
    obtain ⟨i, j, k⟩ := p
    rintro q hq a
    rcases hq with rfl | ⟨rfl, rfl, rfl⟩
    · cases n <;> cases e <;> cases above <;> cases a <;>
        simp [standing, Edge.across, Edge.isHigh, Axis.next, shift, coord, Axis.lo, Axis.hi] at hx hy hz gx gy gz h2 h3 ⊢ <;> omega
    · cases n <;> cases a <;>
        simp [standing, Edge.across, Edge.isHigh, Axis.next, shift, coord, Axis.lo, Axis.hi] at hx hy hz gx gy gz h2 h3 ⊢ <;> omega
  constructor
  · rw [flag_place]
    dsimp only
    split
    · rename_i hc
      have V := faceMap_value gobox l hf (shift n.next 1 (standing n p above e)) (e.across n)
      by_cases hcov : ∃ s ∈ l, Covers s (e.across n)
          (shift n.next 1 (standing n p above e))
      · rw [V.1 hcov]; simp
      · rw [V.2.1 hcov (I _ (.inr ⟨hc.1, hc.2, rfl⟩))]; simp
    · have V := faceMap_value gobox l hf (standing n p above e) (e.across n)
      by_cases hcov : ∃ s ∈ l, Covers s (e.across n) (standing n p above e)
      · rw [V.1 hcov]; simp
      · rw [V.2.1 hcov (I _ (.inl rfl))]; simp
  · intro hne
    rw [flag_place]
    dsimp only
    rw [if_neg hne]
    have V := faceMap_value gobox l hf (standing n p above e) (e.across n)
    by_cases hcov : ∃ s ∈ l, Covers s (e.across n) (standing n p above e)
    · exact ⟨fun _ => hcov, V.1⟩
    · rw [V.2.1 hcov (I _ (.inl rfl))]
      simp [hcov]

/-- The high second edge above: the flag is that of the square one cell further along the first tangential axis. -/
theorem fourth_flag (gobox : BBox) (l : List SibcSurf) (hf : ∀ s ∈ l, s.gbbox s.normal.lo = s.gbbox s.normal.hi)
    (n : Axis) (p : Int × Int × Int) (hs : Surrounded gobox n p) :
    flag (faceMap gobox l) n p true .highSecond = some true ↔
      ∃ s ∈ l, Covers s n.next.next (shift n.next 1 (standing n p true .highSecond)) := by
  rw [flag_place]
  dsimp only
  rw [if_pos ⟨rfl, rfl⟩]
  have e : Edge.across n .highSecond = n.next.next := rfl
  rw [e]
  have V := faceMap_value gobox l hf (shift n.next 1 (standing n p true .highSecond)) n.next.next
  obtain ⟨h1, h2, h3, h4⟩ := hs
  by_cases hcov : ∃ s ∈ l, Covers s n.next.next (shift n.next 1 (standing n p true .highSecond))
  · exact ⟨fun _ => hcov, V.1⟩
  · rw [V.2.1 hcov ?_]
    · simp [hcov]
    · have hx := h1 .x; have hy := h1 .y; have hz := h1 .z
      have gx := h4 .x; have gy := h4 .y; have gz := h4 .z
      obtain ⟨i, j, k⟩ := p
      intro a
      cases n <;> cases a <;>
        simp [standing, Edge.across, Edge.isHigh, Axis.next, shift, coord, Axis.lo, Axis.hi] at hx hy hz gx gy gz h2 h3 ⊢ <;> omega

/-- So it misses a sheet that stands on the edge: for every orientation there are two sheets that meet there, well inside
a grid, and the flag says they do not. -/
theorem fourth_flag_misses (n : Axis) : ∃ (gobox : BBox) (s s' : SibcSurf) (p : Int × Int × Int),
    s.gbbox s.normal.lo = s.gbbox s.normal.hi ∧ s'.gbbox s'.normal.lo = s'.gbbox s'.normal.hi ∧
    Covers s n p ∧ Surrounded gobox n p ∧ Covers s' n.next.next (standing n p true .highSecond) ∧
    flag (faceMap gobox [s, s']) n p true .highSecond = some false := by
  refine ⟨fun f => if f.isLo then 1 else 9, ⟨n, fun f => if f.isLo = true ∨ f.axis = n then 4 else 5, fun _ _ => 0⟩,
    ⟨n.next.next, fun f => if f.axis = n.next.next then 5 else if f.isLo then 4 else 5, fun _ _ => 0⟩, (4, 4, 4), ?_⟩
  cases n <;> refine ⟨by decide, by decide, ⟨by decide, by decide, by decide⟩,
    ⟨by decide, by decide, by decide, by decide⟩, ⟨by decide, by decide, by decide⟩, by decide⟩

/-- A sheet that reaches the high side of the outer grid has flags that were never written: the set-up leaves the last
layer of the array as the allocator returned it. -/
theorem outer_edge_unwritten (gobox : BBox) (s : SibcSurf) (hf : s.gbbox s.normal.lo = s.gbbox s.normal.hi)
    (p : Int × Int × Int) (above : Bool) (ho : coord s.normal.next p + 1 = gobox s.normal.next.hi) :
    flag (faceMap gobox [s]) s.normal p above .highFirst = none := by
  rw [flag_place]
  dsimp only
  rw [if_neg (by simp)]
  have V := faceMap_value gobox [s] (by simpa using hf) (standing s.normal p above .highFirst)
    (Edge.across s.normal .highFirst)
  refine V.2.2 ?_ ?_
  · rintro ⟨s', hs', hc⟩
    rw [List.mem_singleton] at hs'
    subst hs'
    have := hc.1
    revert this
    cases s'.normal <;> decide
  · intro hi
    have := (hi s.normal.next).2
    obtain ⟨i, j, k⟩ := p
    revert this ho
    cases s.normal <;> cases above <;> simp [standing, Edge.across, Edge.isHigh, Axis.next, shift, coord, Axis.hi] <;> omega

/-- So has a sheet on the low side of the outer grid. -/
theorem outer_face_unwritten (gobox : BBox) (s : SibcSurf) (hf : s.gbbox s.normal.lo = s.gbbox s.normal.hi)
    (p : Int × Int × Int) (ho : coord s.normal p = gobox s.normal.lo) (e : Edge) :
    flag (faceMap gobox [s]) s.normal p false e = none := by
  rw [flag_place]
  dsimp only
  rw [if_neg (by simp)]
  have V := faceMap_value gobox [s] (by simpa using hf) (standing s.normal p false e) (e.across s.normal)
  refine V.2.2 ?_ ?_
  · rintro ⟨s', hs', hc⟩
    rw [List.mem_singleton] at hs'
    subst hs'
    have := hc.1
    revert this
    cases s'.normal <;> cases e <;> decide
  · intro hi
    have := (hi s.normal).1
    obtain ⟨i, j, k⟩ := p
    revert this ho
    cases s.normal <;> cases e <;> simp [standing, Edge.across, Edge.isHigh, Axis.next, shift, coord, Axis.lo] <;> omega

/-! ### Use of the flags -/

/-- The flags an assignment takes account of. -/
def flagsUsed (a : Asg) : List Nat := a.rhs.coefs.filterMap fun r => match r with | .sibN _ f _ _ _ => some f | _ => none

/-- The correction of the normal magnetic field beyond an edge is switched by the flags of the opposite edge: beyond the
high one by those of the low one and the reverse, for every orientation and both tangential axes. Flags 0 to 3 are those
of the lower side in the order of `Edge`, 4 to 7 those of the upper side. -/
theorem flags_of_opposite_edge (n : Nat) (s : SibcSurf) (t : Int × Int × Int) :
    (sibcAdj n s t).map (fun a => (a.tgt, flagsUsed a)) =
      [(fldAt s.normal.h (shift s.normal.next 1 t), [0, 4]), (fldAt s.normal.h (shift s.normal.next (-1) t), [1, 5]),
       (fldAt s.normal.h (shift s.normal.next.next 1 t), [2, 6]),
       (fldAt s.normal.h (shift s.normal.next.next (-1) t), [3, 7])] := by
  obtain ⟨a, g, np⟩ := s
  cases a <;> rfl

/-- Two sheets in the form of an L, well inside a grid: the hypotheses above hold and the flags differ between edges. -/
example : Surrounded (fun f => if f.isLo then 1 else 9) .x (4, 4, 4) ∧
    flag (faceMap (fun f => if f.isLo then 1 else 9)
      [⟨.x, fun f => if f.isLo = true ∨ f.axis = .x then 4 else 6, fun _ _ => 0⟩,
       ⟨.y, fun f => if f.axis = .y then 4 else if f.isLo then 4 else 6, fun _ _ => 0⟩]) .x (4, 4, 4) true .lowFirst = some true ∧
    flag (faceMap (fun f => if f.isLo then 1 else 9)
      [⟨.x, fun f => if f.isLo = true ∨ f.axis = .x then 4 else 6, fun _ _ => 0⟩,
       ⟨.y, fun f => if f.axis = .y then 4 else if f.isLo then 4 else 6, fun _ _ => 0⟩]) .x (4, 4, 4) true .highFirst = some false :=
  ⟨⟨by decide, by decide, by decide, by decide⟩, by decide, by decide⟩

end Vulture.C43
