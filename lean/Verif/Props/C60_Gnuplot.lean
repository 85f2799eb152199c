import Verif.Model.Gnuplot
import Verif.Spec.Drawing
import Verif.Props.C47_Deck
import Verif.Props.C36_Gmsh
import Verif.Props.C30_Polarisation
import Verif.Props.C32_Window
import Verif.Props.C32_Record
import Mathlib.Tactic.LinearCombination
set_option linter.unusedSimpArgs false
/-
C60: the gnuplot export shows what the cards say.
-/
namespace Vulture.C60
open Spec Gnuplot

/-! ### Polylines -/

theorem joined_cons {α : Type} (x y : α) (l : List α) (p q : α) :
    Joined (x :: y :: l) p q ↔ (p = x ∧ q = y) ∨ Joined (y :: l) p q := by
  constructor
  · rintro ⟨l1, l2, h⟩
    cases l1 with
    | nil => simp at h; left; exact ⟨h.1.symm, h.2.1.symm⟩
    | cons z l1 => simp at h; right; exact ⟨l1, l2, h.2⟩
  · rintro (⟨rfl, rfl⟩ | ⟨l1, l2, h⟩)
    · exact ⟨[], l, rfl⟩
    · exact ⟨x :: l1, l2, by rw [h]; rfl⟩

theorem joined_one {α : Type} (x : α) (p q : α) : ¬ Joined [x] p q := by
  rintro ⟨l1, l2, h⟩
  have := congrArg List.length h
  simp at this
  omega

theorem drawn_append {α : Type} (f g : List (List α)) (p q : α) : Drawn (f ++ g) p q ↔ Drawn f p q ∨ Drawn g p q := by
  unfold Drawn
  simp only [List.mem_append, or_and_right, exists_or]

theorem drawn_flatMap {α β : Type} (l : List β) (g : β → List (List α)) (p q : α) :
    Drawn (l.flatMap g) p q ↔ ∃ b ∈ l, Drawn (g b) p q := by
  unfold Drawn
  simp only [List.mem_flatMap]
  constructor
  · rintro ⟨r, ⟨b, hb, hr⟩, h⟩; exact ⟨b, hb, r, hr, h⟩
  · rintro ⟨b, hb, r, hr, h⟩; exact ⟨r, ⟨b, hb, hr⟩, h⟩

theorem drawn_symm {α : Type} {f : List (List α)} {p q : α} (h : Drawn f p q) : Drawn f q p := by
  obtain ⟨r, hr, h⟩ := h; exact ⟨r, hr, h.symm⟩

/-! ### Boxes -/

/-- Drawing a box never meets the assertions. -/
theorem box_defined {K : Type} (u : Axis → Int → K) (b : BBox) : box? u b = some (box u b) := by
  obtain ⟨ht, hd⟩ := C36.degenerate_cases b
  unfold box
  unfold box?
  rw [ht, hd]
  split_ifs <;> rfl

theorem upTo_self (i : Int) : upTo i i = [i] := by
  unfold upTo Gmsh.below
  have : (i + 1 - i).toNat = 1 := by omega
  rw [this]
  simp

/-- A node from its coordinates. -/
def nd (i j k : Int) : Axis → Int | .x => i | .y => j | .z => k

/-- The printed line of a position. -/
def vec {K : Type} (v : Axis → K) : K × K × K := (v .x, v .y, v .z)

/-- A segment in one of its two directions. -/
def Seg {α : Type} (P Q p q : α) : Prop := (p = P ∧ q = Q) ∨ (p = Q ∧ q = P)

theorem pin_eq {K : Type} (u : Axis → Int → K) (n : Axis → Int) : pin u n = at3 u (n .x) (n .y) (n .z) := rfl

theorem outlines_iff {K : Type} (u : Axis → Int → K) (b : BBox) (p q : K × K × K) : Outlines u b p q ↔
    (b .xlo ≠ b .xhi ∧ ∃ j k, (j = b .ylo ∨ j = b .yhi) ∧ (k = b .zlo ∨ k = b .zhi) ∧
      Seg (at3 u (b .xlo) j k) (at3 u (b .xhi) j k) p q) ∨
    (b .ylo ≠ b .yhi ∧ ∃ i k, (i = b .xlo ∨ i = b .xhi) ∧ (k = b .zlo ∨ k = b .zhi) ∧
      Seg (at3 u i (b .ylo) k) (at3 u i (b .yhi) k) p q) ∨
    (b .zlo ≠ b .zhi ∧ ∃ i j, (i = b .xlo ∨ i = b .xhi) ∧ (j = b .ylo ∨ j = b .yhi) ∧
      Seg (at3 u i j (b .zlo)) (at3 u i j (b .zhi)) p q) := by
  constructor
  · rintro ⟨n, m, ⟨hn, hm, a, hne, hs⟩, rfl, rfl⟩
    have nx := hn .x; have ny := hn .y; have nz := hn .z
    have mx := hm .x; have my := hm .y; have mz := hm .z
    simp only [Axis.lo, Axis.hi] at nx ny nz mx my mz
    simp only [pin_eq, Seg]
    cases a with
    | x =>
      left
      have e1 := hs .y (by decide); have e2 := hs .z (by decide)
      refine ⟨by intro h; rcases nx with h1 | h1 <;> rcases mx with h2 | h2 <;> exact hne (by omega), m .y, m .z, my, mz, ?_⟩
      rw [e1, e2]
      rcases nx with h1 | h1 <;> rcases mx with h2 | h2
      · exact absurd (h1.trans h2.symm) hne
      · rw [h1, h2]; exact .inl ⟨rfl, rfl⟩
      · rw [h1, h2]; exact .inr ⟨rfl, rfl⟩
      · exact absurd (h1.trans h2.symm) hne
    | y =>
      right; left
      have e1 := hs .x (by decide); have e2 := hs .z (by decide)
      refine ⟨by intro h; rcases ny with h1 | h1 <;> rcases my with h2 | h2 <;> exact hne (by omega), m .x, m .z, mx, mz, ?_⟩
      rw [e1, e2]
      rcases ny with h1 | h1 <;> rcases my with h2 | h2
      · exact absurd (h1.trans h2.symm) hne
      · rw [h1, h2]; exact .inl ⟨rfl, rfl⟩
      · rw [h1, h2]; exact .inr ⟨rfl, rfl⟩
      · exact absurd (h1.trans h2.symm) hne
    | z =>
      right; right
      have e1 := hs .x (by decide); have e2 := hs .y (by decide)
      refine ⟨by intro h; rcases nz with h1 | h1 <;> rcases mz with h2 | h2 <;> exact hne (by omega), m .x, m .y, mx, my, ?_⟩
      rw [e1, e2]
      rcases nz with h1 | h1 <;> rcases mz with h2 | h2
      · exact absurd (h1.trans h2.symm) hne
      · rw [h1, h2]; exact .inl ⟨rfl, rfl⟩
      · rw [h1, h2]; exact .inr ⟨rfl, rfl⟩
      · exact absurd (h1.trans h2.symm) hne
  · have mk : ∀ n m : Axis → Int, Corner b n → Corner b m → (∃ a, n a ≠ m a ∧ ∀ c, c ≠ a → n c = m c) →
        ∀ p q, Seg (pin u n) (pin u m) p q → Outlines u b p q := by
      rintro n m hn hm ⟨a, ha, hs⟩ p q (⟨rfl, rfl⟩ | ⟨rfl, rfl⟩)
      · exact ⟨n, m, ⟨hn, hm, a, ha, hs⟩, rfl, rfl⟩
      · exact ⟨m, n, ⟨hm, hn, a, ha.symm, fun c hc => (hs c hc).symm⟩, rfl, rfl⟩
    rintro (⟨h, j, k, hj, hk, hp⟩ | ⟨h, j, k, hj, hk, hp⟩ | ⟨h, j, k, hj, hk, hp⟩)
    · refine mk (nd (b .xlo) j k) (nd (b .xhi) j k) ?_ ?_ ⟨.x, by simpa [nd] using h, ?_⟩ p q hp <;>
        intro a <;> cases a <;> simp [nd, Axis.lo, Axis.hi, hj, hk]
    · refine mk (nd j (b .ylo) k) (nd j (b .yhi) k) ?_ ?_ ⟨.y, by simpa [nd] using h, ?_⟩ p q hp <;>
        intro a <;> cases a <;> simp [nd, Axis.lo, Axis.hi, hj, hk]
    · refine mk (nd j k (b .zlo)) (nd j k (b .zhi)) ?_ ?_ ⟨.z, by simpa [nd] using h, ?_⟩ p q hp <;>
        intro a <;> cases a <;> simp [nd, Axis.lo, Axis.hi, hj, hk]

theorem pick {P : Int → Int → Prop} {a b c d : Int} :
    (∃ j k, (j = a ∨ j = b) ∧ (k = c ∨ k = d) ∧ P j k) ↔ P a c ∨ P a d ∨ P b c ∨ P b d := by
  constructor
  · rintro ⟨j, k, rfl | rfl, rfl | rfl, h⟩ <;> simp [h]
  · rintro (h | h | h | h)
    exacts [⟨a, c, .inl rfl, .inl rfl, h⟩, ⟨a, d, .inl rfl, .inr rfl, h⟩, ⟨b, c, .inr rfl, .inl rfl, h⟩,
      ⟨b, d, .inr rfl, .inr rfl, h⟩]

theorem drawn_nil {α : Type} (p q : α) : ¬ Drawn ([] : List (List α)) p q := by
  simp [Drawn]

theorem drawn_one {α : Type} (r : List α) (p q : α) : Drawn [r] p q ↔ Joined r p q ∨ Joined r q p := by
  simp [Drawn]

theorem drawn_cons {α : Type} (r : List α) (f : List (List α)) (p q : α) :
    Drawn (r :: f) p q ↔ (Joined r p q ∨ Joined r q p) ∨ Drawn f p q := by
  simp [Drawn]

/-- The picture of a box shows its edges and nothing else, whatever its class. -/
theorem box_outline {K : Type} (u : Axis → Int → K) (b : BBox) (p q : K × K × K) :
    Drawn (box u b) p q ↔ Outlines u b p q := by
  rw [outlines_iff]
  obtain ⟨ht, hd⟩ := C36.degenerate_cases b
  unfold box box?
  rw [ht, hd]
  simp only [pick]
  by_cases h1 : b .xlo = b .xhi <;> by_cases h2 : b .ylo = b .yhi <;> by_cases h3 : b .zlo = b .zhi <;>
    simp only [h1, h2, h3, if_true, if_false, Option.getD_some, point, line, surface, volume, upTo_self, List.map_cons,
      List.map_nil, drawn_cons, drawn_nil, joined_cons, joined_one, ne_eq, not_true_eq_false, not_false_eq_true,
      false_and, true_and, false_or, or_false, Seg]
  all_goals clear ht hd
  all_goals (constructor <;> intro h)
  all_goals first
    | done
    | grind
    | (simp only [or_assoc] at h
       rcases h with ⟨rfl, rfl⟩ | ⟨rfl, rfl⟩ | ⟨rfl, rfl⟩ | ⟨rfl, rfl⟩ | ⟨rfl, rfl⟩ | ⟨rfl, rfl⟩ |
         ⟨rfl, rfl⟩ | ⟨rfl, rfl⟩ | ⟨rfl, rfl⟩ | ⟨rfl, rfl⟩ | ⟨rfl, rfl⟩ | ⟨rfl, rfl⟩ |
         ⟨rfl, rfl⟩ | ⟨rfl, rfl⟩ | ⟨rfl, rfl⟩ | ⟨rfl, rfl⟩ | ⟨rfl, rfl⟩ | ⟨rfl, rfl⟩ |
         ⟨rfl, rfl⟩ | ⟨rfl, rfl⟩ | ⟨rfl, rfl⟩ | ⟨rfl, rfl⟩ | ⟨rfl, rfl⟩ | ⟨rfl, rfl⟩ <;> simp)

/-- A box without extent is shown as its node. -/
theorem point_box {K : Type} (u : Axis → Int → K) (b : BBox) (h : ∀ a : Axis, b a.lo = b a.hi) :
    box u b = [[pin u fun a => b a.lo]] := by
  have hx := h .x; have hy := h .y; have hz := h .z
  simp only [Axis.lo, Axis.hi] at hx hy hz
  obtain ⟨ht, hd⟩ := C36.degenerate_cases b
  unfold box box?
  rw [ht, hd]
  simp only [hx, hy, hz, if_true, Option.getD_some, point]
  simp [pin, at3, Axis.lo, hx, hy, hz]

/-- Every point of the picture of a box is one of its corners. -/
theorem box_points {K : Type} (u : Axis → Int → K) (b : BBox) :
    ∀ r ∈ box u b, ∀ p ∈ r, ∃ n, Corner b n ∧ p = pin u n := by
  have key : ∀ i j k, (i = b .xlo ∨ i = b .xhi) → (j = b .ylo ∨ j = b .yhi) → (k = b .zlo ∨ k = b .zhi) →
      ∃ n, Corner b n ∧ at3 u i j k = pin u n := by
    intro i j k hi hj hk
    exact ⟨nd i j k, fun a => by cases a <;> simpa [nd, Axis.lo, Axis.hi], rfl⟩
  obtain ⟨ht, hd⟩ := C36.degenerate_cases b
  unfold box box?
  rw [ht, hd]
  by_cases h1 : b .xlo = b .xhi <;> by_cases h2 : b .ylo = b .yhi <;> by_cases h3 : b .zlo = b .zhi <;>
    simp only [h1, h2, h3, if_true, if_false, Option.getD_some, point, line, surface, volume, upTo_self, List.map_cons,
      List.map_nil, List.mem_cons, List.not_mem_nil, or_false, forall_eq, forall_eq_or_imp] <;>
    (repeat' apply And.intro) <;> apply key <;> simp [h1, h2, h3]

/-! ### Files of boxes -/

theorem boxes_drawn {K : Type} [Field K] (u : Axis → Int → K) (m : BBox) (l : List BBox) (p q : K × K × K) :
    Drawn (boxesFile u m l) p q ↔ Drawn (problemSize u m) p q ∨ ∃ b ∈ l, Outlines u b p q := by
  unfold boxesFile
  rw [drawn_append, drawn_flatMap]
  simp only [box_outline]

/-- The marks that fix the ranges: at the corners of the mesh, five parts in a hundred thousand long. -/
theorem range_marks {K : Type} [Field K] (u : Axis → Int → K) (m : BBox) (p q : K × K × K)
    (h : Drawn (problemSize u m) p q) :
    (p = pin u (fun a => m a.lo) ∨ q = pin u (fun a => m a.lo)) ∨ (p = pin u (fun a => m a.hi) ∨ q = pin u (fun a => m a.hi)) := by
  unfold problemSize at h
  simp only [drawn_cons, drawn_nil, joined_cons, joined_one, or_false] at h
  simp only [pin_eq, Axis.lo, Axis.hi]
  tauto

/-- Boxes of the wire cards in the order of the file. -/
theorem read_lines : ∀ (l : List Deck.Card) (s s' : Deck.State), Deck.read s l = some s' →
    s'.lines.map Deck.Wire.mbbox = s.lines.map Deck.Wire.mbbox ++ l.filterMap fun | .tw c => some c.bbox | _ => none
  | [], s, s', h => by simp [Deck.read] at h; subst h; simp
  | c :: l, s, s', h => by
    rw [C47.read_cons] at h
    obtain ⟨t, ht, h⟩ := Option.bind_eq_some_iff.1 h
    rw [read_lines l t s' h]
    cases c <;> simp only [Deck.State.card] at ht <;> (repeat' split at ht) <;> simp at ht <;> subst ht <;> simp

theorem init_boxes (m : BBox) : (Deck.State.init m).blocks = [] ∧ (Deck.State.init m).surfs = [] ∧
    (Deck.State.init m).lines = [] ∧ (Deck.State.init m).srcs = [] ∧ (Deck.State.init m).pws = [] :=
  ⟨rfl, rfl, rfl, rfl, rfl⟩

/-- `gnuplot-block.dat` of an accepted mesh file shows the ranges and the edges of the boxes of its `MB` cards. -/
theorem blocks_shown {K : Type} [Field K] (u : Axis → Int → K) {f : Deck.File} {s : Deck.State} (h : f.stored = some s)
    (p q : K × K × K) :
    Drawn (boxesFile u s.mbox (s.blocks.map Deck.Blk.mbbox)) p q ↔
      Drawn (problemSize u s.mbox) p q ∨ ∃ c, Deck.Card.mb c ∈ f.cards ∧ Outlines u c.bbox p q := by
  obtain ⟨-, hr⟩ := C47.stored_parts h
  rw [boxes_drawn, (C47.read_boxes _ _ _ hr).1]
  constructor
  · rintro (h | ⟨b, hb, ho⟩)
    · exact .inl h
    · simp only [Deck.State.init, List.map_nil, List.nil_append, List.mem_filterMap] at hb
      obtain ⟨c, hc, hb⟩ := hb
      cases c <;> simp at hb
      subst hb; exact .inr ⟨_, hc, ho⟩
  · rintro (h | ⟨c, hc, ho⟩)
    · exact .inl h
    · refine .inr ⟨c.bbox, ?_, ho⟩
      simp only [Deck.State.init, List.map_nil, List.nil_append, List.mem_filterMap]
      exact ⟨_, hc, rfl⟩

/-- `gnuplot-surface.dat` and the `TB` cards. -/
theorem surfaces_shown {K : Type} [Field K] (u : Axis → Int → K) {f : Deck.File} {s : Deck.State} (h : f.stored = some s)
    (p q : K × K × K) :
    Drawn (boxesFile u s.mbox (s.surfs.map Deck.Surf.mbbox)) p q ↔
      Drawn (problemSize u s.mbox) p q ∨ ∃ c, Deck.Card.tb c ∈ f.cards ∧ Outlines u c.bbox p q := by
  obtain ⟨-, hr⟩ := C47.stored_parts h
  rw [boxes_drawn, (C47.read_boxes _ _ _ hr).2.1]
  constructor
  · rintro (h | ⟨b, hb, ho⟩)
    · exact .inl h
    · simp only [Deck.State.init, List.map_nil, List.nil_append, List.mem_filterMap] at hb
      obtain ⟨c, hc, hb⟩ := hb
      cases c <;> simp at hb
      subst hb; exact .inr ⟨_, hc, ho⟩
  · rintro (h | ⟨c, hc, ho⟩)
    · exact .inl h
    · refine .inr ⟨c.bbox, ?_, ho⟩
      simp only [Deck.State.init, List.map_nil, List.nil_append, List.mem_filterMap]
      exact ⟨_, hc, rfl⟩

/-- `gnuplot-wires.dat` and the `TW` cards. -/
theorem wires_shown {K : Type} [Field K] (u : Axis → Int → K) {f : Deck.File} {s : Deck.State} (h : f.stored = some s)
    (p q : K × K × K) :
    Drawn (boxesFile u s.mbox (s.lines.map Deck.Wire.mbbox)) p q ↔
      Drawn (problemSize u s.mbox) p q ∨ ∃ c, Deck.Card.tw c ∈ f.cards ∧ Outlines u c.bbox p q := by
  obtain ⟨-, hr⟩ := C47.stored_parts h
  rw [boxes_drawn, read_lines _ _ _ hr]
  constructor
  · rintro (h | ⟨b, hb, ho⟩)
    · exact .inl h
    · simp only [Deck.State.init, List.map_nil, List.nil_append, List.mem_filterMap] at hb
      obtain ⟨c, hc, hb⟩ := hb
      cases c <;> simp at hb
      subst hb; exact .inr ⟨_, hc, ho⟩
  · rintro (h | ⟨c, hc, ho⟩)
    · exact .inl h
    · refine .inr ⟨c.bbox, ?_, ho⟩
      simp only [Deck.State.init, List.map_nil, List.nil_append, List.mem_filterMap]
      exact ⟨_, hc, rfl⟩

/-! ### The mesh itself -/

section
attribute [local irreducible] Seg

/-- The six outer faces together show the twelve edges of the mesh. -/
theorem outer_faces_shown {K : Type} [Field K] (u : Axis → Int → K) (m : BBox) (h : ∀ a : Axis, m a.lo < m a.hi)
    (p q : K × K × K) :
    Drawn (boxesFile u m (outerFaces m)) p q ↔ Drawn (problemSize u m) p q ∨ Outlines u m p q := by
  have hx := h .x; have hy := h .y; have hz := h .z
  simp only [Axis.lo, Axis.hi] at hx hy hz
  have nx : m .xlo ≠ m .xhi := by omega
  have ny : m .ylo ≠ m .yhi := by omega
  have nz : m .zlo ≠ m .zhi := by omega
  rw [boxes_drawn]
  refine or_congr_right ?_
  simp only [outerFaces, List.map_cons, List.map_nil, List.mem_cons, List.not_mem_nil, or_false, exists_eq_or_imp,
    exists_eq_left, outlines_iff, pick, getFaceOfBoundingBox, mkBox, ne_eq, not_true_eq_false, not_false_eq_true, nx, ny, nz,
    false_and, true_and, false_or, or_false, or_self]
  constructor
  · intro h; simp only [or_assoc] at h ⊢
    repeat' (rcases h with h | h)
    all_goals simp only [h, true_or, or_true]
  · intro h; simp only [or_assoc] at h ⊢
    repeat' (rcases h with h | h)
    all_goals simp only [h, true_or, or_true]

end

theorem mem_upTo {l h i : Int} : i ∈ upTo l h ↔ l ≤ i ∧ i ≤ h := by
  unfold upTo; rw [C36.mem_below]; omega

theorem seg_iff {α : Type} {P Q p q : α} : Seg P Q p q ↔ (p = P ∧ q = Q) ∨ (p = Q ∧ q = P) := Iff.rfl

/-- `gnuplot-lines.dat` shows the mesh lines that lie in the three planes at the back, from one side of the mesh to the
other, and the ranges. -/
theorem mesh_lines_shown {K : Type} [Field K] (u : Axis → Int → K) (cells : Axis → Int) (h : ∀ a, 1 ≤ cells a)
    (p q : K × K × K) :
    Drawn (boxesFile u (mkBox 0 (cells .x) 0 (cells .y) 0 (cells .z))
        (gridBoxes (mkBox 0 (cells .x) 0 (cells .y) 0 (cells .z)) fun a => cells a + 1)) p q ↔
      Drawn (problemSize u (mkBox 0 (cells .x) 0 (cells .y) 0 (cells .z))) p q ∨
      ∃ a n m, MeshLine cells a n m ∧ (∃ c, c ≠ a ∧ n c = backPlane cells c) ∧ Seg (pin u n) (pin u m) p q := by
  have hx := h .x; have hy := h .y; have hz := h .z
  have nx : (0 : Int) ≠ cells .x := by omega
  have ny : (0 : Int) ≠ cells .y := by omega
  have nz : (0 : Int) ≠ cells .z := by omega
  rw [boxes_drawn]
  refine or_congr_right ?_
  simp only [gridBoxes, mkBox, List.mem_append, List.mem_map, mem_upTo, add_sub_cancel_right]
  constructor
  · rintro ⟨b, ((((⟨i, hi, rfl⟩ | ⟨i, hi, rfl⟩) | ⟨i, hi, rfl⟩) | ⟨i, hi, rfl⟩) | ⟨i, hi, rfl⟩) | ⟨i, hi, rfl⟩, ho⟩
    all_goals
      simp only [outlines_iff, pick, mkBox, ne_eq, not_true_eq_false, not_false_eq_true, nx, ny, nz, false_and, true_and,
        false_or, or_false, or_self, exists_and_left, exists_eq_left] at ho
    · refine ⟨.y, nd i 0 0, nd i (cells .y) 0, ⟨rfl, rfl, ?_⟩, ⟨.z, by decide, rfl⟩, ho⟩
      intro c hc; cases c <;> simp [nd] at hc ⊢ <;> omega
    · refine ⟨.z, nd i (cells .y) 0, nd i (cells .y) (cells .z), ⟨rfl, rfl, ?_⟩, ⟨.y, by decide, rfl⟩, ho⟩
      intro c hc; cases c <;> simp [nd] at hc ⊢ <;> omega
    · refine ⟨.x, nd 0 i 0, nd (cells .x) i 0, ⟨rfl, rfl, ?_⟩, ⟨.z, by decide, rfl⟩, ho⟩
      intro c hc; cases c <;> simp [nd] at hc ⊢ <;> omega
    · refine ⟨.z, nd 0 i 0, nd 0 i (cells .z), ⟨rfl, rfl, ?_⟩, ⟨.x, by decide, rfl⟩, ho⟩
      intro c hc; cases c <;> simp [nd] at hc ⊢ <;> omega
    · refine ⟨.x, nd 0 (cells .y) i, nd (cells .x) (cells .y) i, ⟨rfl, rfl, ?_⟩, ⟨.y, by decide, rfl⟩, ho⟩
      intro c hc; cases c <;> simp [nd] at hc ⊢ <;> omega
    · refine ⟨.y, nd 0 0 i, nd 0 (cells .y) i, ⟨rfl, rfl, ?_⟩, ⟨.x, by decide, rfl⟩, ho⟩
      intro c hc; cases c <;> simp [nd] at hc ⊢ <;> omega
  · rintro ⟨a, n, m, ⟨h0, h1, hs⟩, ⟨c, hc, hb⟩, ho⟩
    simp only [pin_eq] at ho
    cases a
    case x =>
      have sy := hs .y (by decide); have sz := hs .z (by decide)
      rw [h0, h1, ← sy.1, ← sz.1] at ho
      cases c
      · exact absurd rfl hc
      · simp only [backPlane] at hb
        rw [hb] at ho
        refine ⟨_, .inl (.inr ⟨n .z, sz.2, rfl⟩), ?_⟩
        simp [outlines_iff, pick, mkBox, nx, ny, nz, ho]
      · simp only [backPlane] at hb
        rw [hb] at ho
        refine ⟨_, .inl (.inl (.inl (.inr ⟨n .y, sy.2, rfl⟩))), ?_⟩
        simp [outlines_iff, pick, mkBox, nx, ny, nz, ho]
    case y =>
      have sx := hs .x (by decide); have sz := hs .z (by decide)
      rw [h0, h1, ← sx.1, ← sz.1] at ho
      cases c
      · simp only [backPlane] at hb
        rw [hb] at ho
        refine ⟨_, .inr ⟨n .z, sz.2, rfl⟩, ?_⟩
        simp [outlines_iff, pick, mkBox, nx, ny, nz, ho]
      · exact absurd rfl hc
      · simp only [backPlane] at hb
        rw [hb] at ho
        refine ⟨_, .inl (.inl (.inl (.inl (.inl ⟨n .x, sx.2, rfl⟩)))), ?_⟩
        simp [outlines_iff, pick, mkBox, nx, ny, nz, ho]
    case z =>
      have sx := hs .x (by decide); have sy := hs .y (by decide)
      rw [h0, h1, ← sx.1, ← sy.1] at ho
      cases c
      · simp only [backPlane] at hb
        rw [hb] at ho
        refine ⟨_, .inl (.inl (.inr ⟨n .y, sy.2, rfl⟩)), ?_⟩
        simp [outlines_iff, pick, mkBox, nx, ny, nz, ho]
      · simp only [backPlane] at hb
        rw [hb] at ho
        refine ⟨_, .inl (.inl (.inl (.inl (.inr ⟨n .x, sx.2, rfl⟩)))), ?_⟩
        simp [outlines_iff, pick, mkBox, nx, ny, nz, ho]
      · exact absurd rfl hc

/-! ### Sources -/

/-- `gnuplot-source.dat`: ranges, boxes and arrows. -/
theorem sources_shown {K : Type} [Field K] (u : Axis → Int → K) (m : BBox) (l : List (BBox × Fc)) (p q : K × K × K) :
    Drawn (sourceFile u m l) p q ↔ Drawn (problemSize u m) p q ∨
      ∃ s ∈ l, Outlines u s.1 p q ∨ Drawn (boxArrow u s.1 (axisOf s.2)) p q := by
  unfold sourceFile
  rw [drawn_append, drawn_flatMap]
  simp only [drawn_append, box_outline]

/-- Box and field of an excitation card. -/
def sourceOf : Deck.Card → Option (BBox × Fc)
  | .ex _ b _ tag _ _ _ _ => (Source.lookup tag).map fun i => (b, i.field)
  | _ => none

theorem read_sources : ∀ (l : List Deck.Card) (s s' : Deck.State), Deck.read s l = some s' →
    (s'.srcs.map fun x => (x.mbbox, x.info.field)) = (s.srcs.map fun x => (x.mbbox, x.info.field)) ++ l.filterMap sourceOf
  | [], s, s', h => by simp [Deck.read] at h; subst h; simp
  | c :: l, s, s', h => by
    rw [C47.read_cons] at h
    obtain ⟨t, ht, h⟩ := Option.bind_eq_some_iff.1 h
    rw [read_sources l t s' h]
    cases c <;> simp only [Deck.State.card] at ht <;> (repeat' split at ht) <;> simp at ht <;> subst ht <;>
      simp [List.filterMap_cons, sourceOf, *]

/-- `gnuplot-source.dat` of an accepted mesh file: the boxes and arrows of its `EX` cards. -/
theorem source_cards_shown {K : Type} [Field K] (u : Axis → Int → K) {f : Deck.File} {s : Deck.State}
    (h : f.stored = some s) (p q : K × K × K) :
    Drawn (sourceFile u s.mbox (s.srcs.map fun x => (x.mbbox, x.info.field))) p q ↔
      Drawn (problemSize u s.mbox) p q ∨ ∃ c ∈ f.cards, ∃ b fc, sourceOf c = some (b, fc) ∧
        (Outlines u b p q ∨ Drawn (boxArrow u b (axisOf fc)) p q) := by
  obtain ⟨-, hr⟩ := C47.stored_parts h
  rw [sources_shown, read_sources _ _ _ hr]
  refine or_congr_right ?_
  simp only [Deck.State.init, List.map_nil, List.nil_append, List.mem_filterMap]
  constructor
  · rintro ⟨⟨b, fc⟩, ⟨c, hc, e⟩, ho⟩; exact ⟨c, hc, b, fc, e, ho⟩
  · rintro ⟨c, hc, b, fc, e, ho⟩; exact ⟨(b, fc), ⟨c, hc, e⟩, ho⟩

theorem widened_same {b : BBox} {a : Axis} (h : b a.lo ≠ b a.hi) : widened b a = b := by
  funext f; unfold widened; rw [if_neg]; rintro ⟨-, h'⟩; exact h h'.symm

/-- The tip of the arrow in mesh lines. -/
def tipLine (b : BBox) (a : Axis) : Int := if b a.lo = b a.hi then b a.hi + 2 else b a.hi

/-- Mean distance of the mesh lines the arrow passes: the length of the head. -/
def headLength {K : Type} [Field K] (u : Axis → Int → K) (b : BBox) (a : Axis) : K :=
  (u a (tipLine b a) - u a (b a.lo)) / ((tipLine b a - b a.lo : Int) : K)

/-- A barb of the head: one head length behind the tip, half of it to the side in both other axes. -/
def barb {K : Type} [Field K] (u : Axis → Int → K) (b : BBox) (a : Axis) (s : K) (c : Axis) : K :=
  midOf u b a (tipLine b a) c + (if c = a then -headLength u b a else s * (headLength u b a / 2))

/-- The arrow of a source starts in the middle of the low face of its box and points along its field, to the middle of the
high face or, in a box that is flat along the field, two mesh lines further; the head is closed and ends at the tip. -/
theorem arrow_shown {K : Type} [Field K] (u : Axis → Int → K) (b : BBox) (a : Axis) : boxArrow u b a =
    [[vec (midOf u b a (b a.lo)), vec (midOf u b a (tipLine b a)), vec (barb u b a (-1)), vec (barb u b a 1),
      vec (midOf u b a (tipLine b a))]] := by
  have half : ∀ x y : K, (x + y) * (1 / 2) = (x + y) / 2 := fun x y => by ring
  have other : ∀ f : Face, f ≠ a.hi → widened b a f = b f := by
    intro f hf; unfold widened; rw [if_neg]; rintro ⟨h, -⟩; exact hf h
  have same : widened b a a.hi = tipLine b a := by
    unfold widened tipLine
    by_cases h : b a.lo = b a.hi
    · rw [if_pos ⟨rfl, h.symm⟩, if_pos h]
    · rw [if_neg (fun h' => h h'.2.symm), if_neg h]
  have fin : ∀ x h : K, x - 1 / 2 * h = x + -1 * (h / 2) := fun x h => by ring
  have fin' : ∀ x h : K, x + 1 / 2 * h = x + 1 * (h / 2) := fun x h => by ring
  cases a
  · have s : widened b .x .xhi = tipLine b .x := same
    simp only [boxArrow, mid, half, Axis.lo, Axis.hi, other .xlo (by decide), other .ylo (by decide), other .yhi (by decide),
      other .zlo (by decide), other .zhi (by decide), s, vec, midOf, barb, headLength, reduceCtorEq, if_true, if_false, fin,
      fin', sub_eq_add_neg]
  · have s : widened b .y .yhi = tipLine b .y := same
    simp only [boxArrow, mid, half, Axis.lo, Axis.hi, other .xlo (by decide), other .ylo (by decide), other .xhi (by decide),
      other .zlo (by decide), other .zhi (by decide), s, vec, midOf, barb, headLength, reduceCtorEq, if_true, if_false, fin,
      fin', sub_eq_add_neg]
  · have s : widened b .z .zhi = tipLine b .z := same
    simp only [boxArrow, mid, half, Axis.lo, Axis.hi, other .xlo (by decide), other .ylo (by decide), other .xhi (by decide),
      other .zlo (by decide), other .yhi (by decide), s, vec, midOf, barb, headLength, reduceCtorEq, if_true, if_false, fin,
      fin', sub_eq_add_neg]

/-- A source with an extent along its field reads mesh lines of the mesh only. -/
theorem arrow_reads_inside (m b : BBox) (a : Axis) (hw : bboxIsWithin b m = true) (ho : Ordered b) (h : b a.lo ≠ b a.hi) :
    ∀ r ∈ arrowReads b a, m r.1.lo ≤ r.2 ∧ r.2 ≤ m r.1.hi := by
  simp only [bboxIsWithin, Bool.and_eq_true, decide_eq_true_eq] at hw
  have ox := ho .x; have oy := ho .y; have oz := ho .z
  simp only [Axis.lo, Axis.hi] at ox oy oz
  have h' : ¬ b a.hi = b a.lo := fun e => h e.symm
  unfold arrowReads
  simp only [if_neg h', List.append_nil, List.mem_cons, List.not_mem_nil, or_false]
  rintro r (rfl | rfl | rfl | rfl | rfl | rfl) <;> simp only [Axis.lo, Axis.hi] <;> omega

/-- A flat one reads the mesh line two beyond it. -/
theorem flat_arrow_reads (b : BBox) (a : Axis) (h : b a.lo = b a.hi) : (a, b a.hi + 2) ∈ arrowReads b a := by
  unfold arrowReads
  simp only [if_pos h.symm]
  refine List.mem_append_right _ ?_
  cases a <;> simp [widened, Axis.lo, Axis.hi] at h ⊢ <;> simp [h]

/-- A mesh of 2 cells with a point source in its middle. -/
noncomputable def flatFile : Deck.File :=
  ⟨2, 2, 2, fun _ => .pec, fun _ => 0, [.wf "pulse", .ex 9 (mkBox 1 1 1 1 1 1) "dipole" ['E', 'Z'] "pulse" 1 0 0], true⟩

/-- An accepted file whose picture in physical units reads behind the end of the mesh lines. -/
theorem flat_source_reads_outside : ∃ s, flatFile.stored = some s ∧
    ∃ x ∈ s.srcs, ∃ r ∈ arrowReads x.mbbox (axisOf x.info.field), s.mbox r.1.hi < r.2 := by
  have e : flatFile.stored = Deck.read (Deck.State.init (mkBox 0 2 0 2 0 2)) flatFile.cards := rfl
  have hl : Source.lookup ['E', 'Z'] = some ⟨.efield, .z, none, .ez, true⟩ := by decide +kernel
  rw [e]
  simp only [flatFile]
  rw [C47.read_cons, C47.card_wf (by decide +kernel), Option.bind_some, C47.read_cons]
  simp only [Deck.State.card, hl]
  rw [if_pos (by decide +kernel), Option.bind_some]
  refine ⟨_, rfl, _, by simp [Deck.State.init]; rfl, (.z, 3), ?_, by decide⟩
  decide

/-! ### Observers -/

/-- `gnuplot-observer.dat`: the ranges and one point for every recorded node. -/
theorem observers_shown {K : Type} [Field K] (u : Axis → Int → K) (m : BBox) (l : List (BBox × (Axis → Int)))
    (hs : ∀ o ∈ l, ∀ a, 1 ≤ o.2 a) : ∃ g, observerFile u m l = some (problemSize u m ++ g) ∧
      ∀ r, r ∈ g ↔ ∃ o ∈ l, ∃ n : Axis → Int, (∀ a, Selected (o.1 a.lo) (o.1 a.hi) (o.2 a) (n a)) ∧ r = [pin u n] := by
  induction l with
  | nil => exact ⟨[], by simp [observerFile], by simp⟩
  | cons o l ih =>
    obtain ⟨g, hg, hm⟩ := ih fun o ho => hs o (by simp [ho])
    have ho := hs o (by simp)
    unfold observerFile at hg ⊢
    obtain ⟨r, hr, he⟩ := Option.map_eq_some_iff.1 hg
    have er : r.flatten = g := List.append_cancel_left he
    have hn : nodes u o.1 o.2 = some (((Run.strided (o.1 .zlo) (o.1 .zhi) (o.2 .z)).flatMap fun k =>
        (Run.strided (o.1 .ylo) (o.1 .yhi) (o.2 .y)).flatMap fun j =>
        (Run.strided (o.1 .xlo) (o.1 .xhi) (o.2 .x)).map fun i => (i, j, k)).map fun t => [at3 u t.1 t.2.1 t.2.2]) := by
      unfold nodes Run.boxNodes Run.forStep
      simp only [ge_iff_le, ho .x, ho .y, ho .z, if_true, Option.bind_some, Option.map_some]
    rw [List.mapM_cons, hn, hr]
    refine ⟨_, rfl, ?_⟩
    intro r'
    rw [List.flatten_cons, List.mem_append, er, hm]
    simp only [List.mem_map, List.mem_flatMap, C32.strided_mem (ho .x), C32.strided_mem (ho .y), C32.strided_mem (ho .z),
      List.mem_cons, exists_eq_or_imp]
    refine or_congr ?_ Iff.rfl
    constructor
    · rintro ⟨t, ⟨k, hk, j, hj, i, hi, rfl⟩, rfl⟩
      exact ⟨nd i j k, fun a => by cases a <;> assumption, rfl⟩
    · rintro ⟨n, hn, rfl⟩
      exact ⟨(n .x, n .y, n .z), ⟨n .z, hn .z, n .y, hn .y, n .x, hn .x, rfl⟩, rfl⟩

/-! ### Plane waves -/

/-- In index units the three arrows of a plane wave start at the corner of its box where it enters and show its direction,
its electric and its magnetic field, which are orthogonal and right handed, each 0.3 of the shortest side long. -/
theorem wave_shown (eta0 theta phi eta : ℝ) (h0 : 0 < eta0) (b : BBox) (q : Axis → ℤ)
    (hq : PlaneWave.ijk0 theta phi b = some q) :
    ∃ (k e h : Axis → ℝ) (A B C : List (Pt ℝ)),
      waveArrows id eta0 b theta phi eta = some [A, B, C] ∧
      k = direction theta phi ∧ UniformWave k e h 1 1 ∧
      (∀ a, e a = PlaneWave.finc eta0 1 theta phi eta a.e) ∧
      (∃ l, A = pt (fun a => q a) :: pt (fun a => q a + arrowScale b * k a) :: l) ∧
      (∃ l, B = pt (fun a => q a) :: pt (fun a => q a + arrowScale b * e a) :: l) ∧
      (∃ l, C = pt (fun a => q a) :: pt (fun a => q a + arrowScale b * h a) :: l) := by
  have hu := C30.uniform_wave eta0 1 theta phi eta h0 zero_le_one
  have eE : einc eta0 theta phi eta = C30.E0 eta0 1 theta phi eta := by funext a; cases a <;> rfl
  have eH : hinc eta0 theta phi eta = C30.H0 eta0 1 theta phi eta := by funext a; cases a <;> rfl
  have mE : magnitude (einc eta0 theta phi eta) = 1 := by rw [eE]; exact hu.amplitudeE
  have mH : magnitude (hinc eta0 theta phi eta) = 1 / eta0 := by rw [eH]; exact hu.amplitudeH
  have dE : (fun a => einc eta0 theta phi eta a / magnitude (einc eta0 theta phi eta)) = C30.E0 eta0 1 theta phi eta := by
    funext a; rw [mE, eE, div_one]
  have dH : (fun a => hinc eta0 theta phi eta a / magnitude (hinc eta0 theta phi eta)) =
      fun a => eta0 * C30.H0 eta0 1 theta phi eta a := by
    funext a; rw [mH, eH, div_div_eq_mul_div, div_one]; ring
  have starts : ∀ s t n k, ∃ l, arrow s t n k = pt s :: pt t :: l := fun s t n k => ⟨_, rfl⟩
  refine ⟨PlaneWave.kinc theta phi, C30.E0 eta0 1 theta phi eta, fun a => eta0 * C30.H0 eta0 1 theta phi eta a,
    arrow (fun a => q a) (fun a => q a + arrowScale b * PlaneWave.kinc theta phi a) (C30.E0 eta0 1 theta phi eta) 2,
    arrow (fun a => q a) (fun a => q a + arrowScale b * C30.E0 eta0 1 theta phi eta a) (PlaneWave.kinc theta phi) 1,
    arrow (fun a => q a) (fun a => q a + arrowScale b * (eta0 * C30.H0 eta0 1 theta phi eta a))
      (C30.E0 eta0 1 theta phi eta) 3,
    ?_, C30.direction_of_angles _ _, ?_, ?_, starts _ _ _ _, starts _ _ _ _, starts _ _ _ _⟩
  · unfold waveArrows
    rw [hq]
    simp only [Option.map_some, id]
    rw [dE]
    have dE' := fun a => congrFun dE a
    have dH' := fun a => congrFun dH a
    simp only [dE', dH']
  · have e0 : eta0 ≠ 0 := h0.ne'
    refine ⟨hu.unit, hu.kE, ?_, ?_, ?_, ?_, hu.amplitudeE, ?_⟩
    · have := hu.kH; unfold dot at this ⊢; linear_combination eta0 * this
    · have := hu.EH; unfold dot at this ⊢; linear_combination eta0 * this
    · intro a; rw [hu.right_handed a]; ring
    · intro a
      have := hu.power a
      have : eta0 * cross (C30.E0 eta0 1 theta phi eta) (C30.H0 eta0 1 theta phi eta) a = PlaneWave.kinc theta phi a := by
        rw [this]; field_simp
      rw [show (1 : ℝ) ^ 2 / 1 * PlaneWave.kinc theta phi a = PlaneWave.kinc theta phi a by ring, ← this]
      cases a <;> simp only [cross] <;> ring
    · have := hu.amplitudeH
      unfold norm3 dot at this ⊢
      rw [show ∀ x y z : ℝ, eta0 * x * (eta0 * x) + eta0 * y * (eta0 * y) + eta0 * z * (eta0 * z) =
        eta0 ^ 2 * (x * x + y * y + z * z) from fun x y z => by ring, Real.sqrt_mul (by positivity), Real.sqrt_sq h0.le, this]
      field_simp
  · intro a; cases a <;> rfl

/-! ### The script -/

/-- The files a picture should be made of. -/
def wanted (p : Present) : List String :=
  ([("gnuplot-lines.dat", true), ("gnuplot-external.dat", p.external), ("gnuplot-surface.dat", p.surfaces),
    ("gnuplot-block.dat", p.blocks), ("gnuplot-wires.dat", p.lines), ("gnuplot-source.dat", p.sources),
    ("gnuplot-planewave.dat", p.waves), ("gnuplot-observer.dat", p.observers)].filter Prod.snd).map Prod.fst

/-- With external surfaces and observers the plot command names the files of everything that is present, and ends there. -/
theorem script_complete_partial (p : Present) (he : p.external = true) (ho : p.observers = true) :
    (visible SLine.commented (firstCommand SLine.continued (plotLines p)).1).map SLine.file = (wanted p).map some ∧
    (firstCommand SLine.continued (plotLines p)).2 = [.text "set output", .text "set term pop", .text "replot"] := by
  rcases p with ⟨a, b, c, d, e, f, g⟩
  simp only at he ho
  subst he ho
  cases b <;> cases c <;> cases d <;> cases e <;> cases f <;> exact ⟨rfl, rfl⟩

/-- Without observers the command runs on into `set output`. -/
theorem no_observers_runs_on (p : Present) (ho : p.observers = false) :
    SLine.text "set output" ∈ (firstCommand SLine.continued (plotLines p)).1 ∧
    (firstCommand SLine.continued (plotLines p)).2 = [.text "set term pop", .text "replot"] := by
  rcases p with ⟨a, b, c, d, e, f, g⟩
  simp only at ho
  subst ho
  cases a <;> cases b <;> cases c <;> cases d <;> cases e <;> cases f <;> exact ⟨by decide, rfl⟩

/-- Without external surfaces only the mesh lines are plotted: the `#` hides the rest of the command. -/
theorem no_external_hides (p : Present) (he : p.external = false) :
    (visible SLine.commented (firstCommand SLine.continued (plotLines p)).1).map SLine.file = [some "gnuplot-lines.dat"] := by
  rcases p with ⟨a, b, c, d, e, f, g⟩
  simp only at he
  subst he
  cases b <;> cases c <;> cases d <;> cases e <;> cases f <;> cases g <;> rfl

/-- Equal scales are asked for when the longest side exceeds the shortest by at most a tenth of it (in whole cells). -/
theorem equal_scales (m : BBox) (h : ∀ a : Axis, m a.lo ≤ m a.hi) :
    equalBoundaries m = true ↔ ∀ a c : Axis, m a.hi - m a.lo - (m c.hi - m c.lo) ≤ (m c.hi - m c.lo) / 10 := by
  have hx := h .x; have hy := h .y; have hz := h .z
  have all : ∀ P : Axis → Prop, (∀ a, P a) ↔ P .x ∧ P .y ∧ P .z :=
    fun P => ⟨fun h => ⟨h _, h _, h _⟩, fun h a => by cases a <;> simp [h]⟩
  simp only [all]
  simp only [Axis.lo, Axis.hi] at hx hy hz
  unfold equalBoundaries
  simp only [decide_eq_true_eq]
  split_ifs <;> simp only [Axis.lo, Axis.hi] at * <;> rw [Int.tdiv_eq_ediv_of_nonneg (by omega)] <;> omega

/-! ### Cases -/

/-- The sample mesh of C47 has a block, a sheet, a source and a wave. -/
example : ∃ s, (C47.sampleFile true).stored = some s := by
  obtain ⟨s, h, -⟩ := C47.sample_stored true; exact ⟨s, h⟩

/-- An edge of a box is shown in index units and one of its diagonals is not. -/
example : Drawn (box (units (K := ℚ) false fun _ _ => 0) (mkBox 1 3 1 2 0 4)) (1, 1, 0) (3, 1, 0) ∧
    ¬ Drawn (box (units (K := ℚ) false fun _ _ => 0) (mkBox 1 3 1 2 0 4)) (1, 1, 0) (3, 2, 0) := by
  constructor
  · rw [box_outline]
    refine ⟨nd 1 1 0, nd 3 1 0, ⟨?_, ?_, .x, by decide, by decide⟩, ?_, ?_⟩
    · intro a; cases a <;> decide
    · intro a; cases a <;> decide
    · decide +kernel
    · decide +kernel
  · rw [box_outline, outlines_iff]
    simp [pick, mkBox, Seg, at3, units]

/-- The origin of a wave exists for angles in range, and 3 cells are not 4 to a tenth. -/
example : ∃ q, PlaneWave.ijk0 45 30 (mkBox 1 5 1 4 1 3) = some q := by
  obtain ⟨o, ho, -⟩ := C30.origin_exists 45 30 0 ⟨by norm_num, by norm_num, by norm_num⟩ (by norm_num)
  exact ⟨_, by unfold PlaneWave.ijk0; rw [ho]; rfl⟩
example : equalBoundaries (mkBox 0 20 0 21 0 22) = true ∧ equalBoundaries (mkBox 0 3 0 4 0 4) = false := by decide

/-- Observers with a step. -/
example : ∃ g, observerFile (units (K := ℚ) false fun _ _ => 0) (mkBox 0 4 0 4 0 4)
    [(mkBox 0 4 1 1 2 2, fun _ => 2)] = some g := by
  obtain ⟨g, h, -⟩ := observers_shown (units (K := ℚ) false fun _ _ => 0) (mkBox 0 4 0 4 0 4)
    [(mkBox 0 4 1 1 2 2, fun _ => 2)] (by simp)
  exact ⟨_, h⟩

end Vulture.C60
