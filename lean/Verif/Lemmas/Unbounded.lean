import Verif.Spec.Images
import Mathlib.Tactic.Ring
import Mathlib.Tactic.LinearCombination
/-
Runs in unbounded space keep the symmetries of media and currents.
-/
set_option linter.unusedSimpArgs false
namespace Vulture.Spec.Unbounded
open Vulture Vulture.Spec

variable {d : Axis} {m N : Int} {X : Space}

theorem back_mirror_node (d : Axis) (m : Int) (q : Axis → Int) : back (mirror false d m q) d = mirror true d m q := by
  funext b; simp only [back, mirror, mirrorIndex]; split <;> simp; omega
theorem back_mirror_ne {b : Axis} (h : b ≠ d) (half : Bool) (m : Int) (q : Axis → Int) :
    back (mirror half d m q) b = mirror half d m (back q b) := by
  funext x; simp only [back, mirror]
  by_cases h1 : x = b
  · subst h1; simp [h]
  · simp [h1]
theorem mirror_half_back (d : Axis) (m : Int) (q : Axis → Int) : mirror true d m (back q d) = mirror false d m q := by
  funext b; simp only [back, mirror, mirrorIndex]; split <;> simp_all
theorem ahead_mirror_half (d : Axis) (m : Int) (q : Axis → Int) : ahead (mirror true d m q) d = mirror false d m q := by
  funext b; simp only [ahead, mirror, mirrorIndex]; split <;> simp_all; omega
theorem ahead_mirror_ne {b : Axis} (h : b ≠ d) (half : Bool) (m : Int) (q : Axis → Int) :
    ahead (mirror half d m q) b = mirror half d m (ahead q b) := by
  funext x; simp only [ahead, mirror]
  by_cases h1 : x = b
  · subst h1; simp [h]
  · simp [h1]
theorem mirror_node_ahead (d : Axis) (m : Int) (q : Axis → Int) : mirror false d m (ahead q d) = mirror true d m q := by
  funext b; simp only [ahead, mirror, mirrorIndex]; split <;> simp_all; omega
theorem mirror_ne {b : Axis} (h : b ≠ d) (half : Bool) (m : Int) (q : Axis → Int) : mirror half d m q b = q b := by
  simp [mirror, h]
theorem mirror_self (half : Bool) (m : Int) (q : Axis → Int) : mirror half d m q d = mirrorIndex half m (q d) := by
  simp [mirror]

/-- Reading a symmetric magnetic quantity at an image. -/
theorem readH {w : Wall} {V : Comp} (h : SymmetricH w d m V) (a : Axis) (q : Axis → Int) :
    V a (mirror (decide (a ≠ d)) d m q) = w.signH d a * V a q := h a q
theorem readE {w : Wall} {V : Comp} (h : SymmetricE w d m V) (a : Axis) (q : Axis → Int) :
    V a (mirror (decide (a = d)) d m q) = w.signE d a * V a q := h a q

theorem curlH_image {w : Wall} (hx : X.Mirrors d m) {H : Comp} (h : SymmetricH w d m H) (a : Axis) (q : Axis → Int) :
    curlH X.dh H a (imageE d m a q) = w.signE d a * curlH X.dh H a q := by
  have n1 : ∀ a : Axis, a.next ≠ a := by decide
  have n2 : ∀ a : Axis, a.next.next ≠ a := by decide
  have n3 : ∀ a : Axis, a.next.next ≠ a.next := by decide
  have n4 : ∀ a b : Axis, b = a ∨ b = a.next ∨ b = a.next.next := by decide
  unfold curlH imageE
  simp only
  rcases n4 a d with rfl | rfl | rfl
  · have r1 := fun q => readH h d.next q
    have r2 := fun q => readH h d.next.next q
    simp only [n1, n2, ne_eq, not_false_eq_true, decide_true] at r1 r2
    simp only [decide_true, back_mirror_ne (n1 d), back_mirror_ne (n2 d), mirror_ne (n1 d), mirror_ne (n2 d), r1, r2]
    cases w <;> simp [Wall.signE, Wall.signH, n1, n2] <;> ring
  · have r1 := fun q => readH h a.next q
    have r2 := fun q => readH h a.next.next q
    simp only [n3, ne_eq, not_true_eq_false, not_false_eq_true, decide_true, decide_false] at r1 r2
    have hn : (a = a.next) = False := by simp [(n1 a).symm]
    have e1 : ∀ q, H a.next.next (mirror false a.next m q) = w.signH a.next a.next.next * H a.next.next (back q a.next) := by
      intro q; rw [← r2, mirror_half_back]
    simp only [hn, decide_false, back_mirror_node, back_mirror_ne (n3 a), mirror_ne (n3 a), mirror_self, r1, r2, e1, hx.dh]
    cases w <;> simp [Wall.signE, Wall.signH, (n1 a).symm, n3] <;> ring
  · have r1 := fun q => readH h a.next q
    have r2 := fun q => readH h a.next.next q
    simp only [(n3 a).symm, ne_eq, not_true_eq_false, not_false_eq_true, decide_true, decide_false] at r1 r2
    have hn : (a = a.next.next) = False := by simp [(n2 a).symm]
    have e1 : ∀ q, H a.next (mirror false a.next.next m q) = w.signH a.next.next a.next * H a.next (back q a.next.next) := by
      intro q; rw [← r1, mirror_half_back]
    simp only [hn, decide_false, back_mirror_node, back_mirror_ne (n3 a).symm, mirror_ne (n3 a).symm, mirror_self, r1, r2, e1, hx.dh]
    cases w <;> simp [Wall.signE, Wall.signH, (n2 a).symm, (n3 a).symm] <;> ring

theorem curlE_image {w : Wall} (hx : X.Mirrors d m) {E : Comp} (h : SymmetricE w d m E) (a : Axis) (q : Axis → Int) :
    curlE X.de E a (imageH d m a q) = w.signH d a * curlE X.de E a q := by
  have n1 : ∀ a : Axis, a.next ≠ a := by decide
  have n2 : ∀ a : Axis, a.next.next ≠ a := by decide
  have n3 : ∀ a : Axis, a.next.next ≠ a.next := by decide
  have n4 : ∀ a b : Axis, b = a ∨ b = a.next ∨ b = a.next.next := by decide
  unfold curlE imageH
  simp only
  rcases n4 a d with rfl | rfl | rfl
  · have r1 := fun q => readE h d.next q
    have r2 := fun q => readE h d.next.next q
    simp only [n1, n2, decide_false] at r1 r2
    simp only [ne_eq, not_true_eq_false, decide_false, ahead_mirror_ne (n1 d), ahead_mirror_ne (n2 d), mirror_ne (n1 d),
      mirror_ne (n2 d), r1, r2]
    cases w <;> simp [Wall.signE, Wall.signH, n1, n2] <;> ring
  · have r1 := fun q => readE h a.next q
    have r2 := fun q => readE h a.next.next q
    simp only [n3, decide_true, decide_false] at r1 r2
    have hn : (a ≠ a.next) = True := by simp [(n1 a).symm]
    have e1 : ∀ q, E a.next.next (mirror true a.next m q) = w.signE a.next a.next.next * E a.next.next (ahead q a.next) := by
      intro q; rw [← r2, mirror_node_ahead]
    simp only [hn, decide_true, ahead_mirror_half, ahead_mirror_ne (n3 a), mirror_ne (n3 a), mirror_self, r1, r2, e1, hx.de]
    cases w <;> simp [Wall.signE, Wall.signH, (n1 a).symm, n3] <;> ring
  · have r1 := fun q => readE h a.next q
    have r2 := fun q => readE h a.next.next q
    simp only [(n3 a).symm, decide_true, decide_false] at r1 r2
    have hn : (a ≠ a.next.next) = True := by simp [(n2 a).symm]
    have e1 : ∀ q, E a.next (mirror true a.next.next m q) = w.signE a.next.next a.next * E a.next (ahead q a.next.next) := by
      intro q; rw [← r1, mirror_node_ahead]
    simp only [hn, decide_true, ahead_mirror_half, ahead_mirror_ne (n3 a).symm, mirror_ne (n3 a).symm, mirror_self, r1, r2, e1, hx.de]
    cases w <;> simp [Wall.signE, Wall.signH, (n2 a).symm, (n3 a).symm] <;> ring

theorem step_symmetric {w : Wall} (hx : X.Mirrors d m) {J M : Comp} (hJ : SymmetricE w d m J) (hM : SymmetricH w d m M)
    {F : Field} (hE : SymmetricE w d m F.E) (hH : SymmetricH w d m F.H) :
    SymmetricE w d m (X.step J M F).E ∧ SymmetricH w d m (X.step J M F).H := by
  have h1 : SymmetricE w d m (X.electric J F) := by
    intro a q
    simp only [Space.electric]
    rw [hx.alpha, hx.beta, curlH_image hx hH, hE, hJ]
    ring
  refine ⟨h1, fun a q => ?_⟩
  simp only [Space.step]
  rw [hx.gamma, curlE_image hx h1, hH, hM]
  ring

/-- Media, mesh and currents that are their own image give fields that are their own image. -/
theorem run_symmetric {w : Wall} (hx : X.Mirrors d m) {J M : Nat → Comp} (hJ : ∀ n, SymmetricE w d m (J n))
    (hM : ∀ n, SymmetricH w d m (M n)) (n : Nat) :
    SymmetricE w d m (X.run J M n).E ∧ SymmetricH w d m (X.run J M n).H := by
  induction n with
  | zero => exact ⟨fun a q => by simp [Space.run], fun a q => by simp [Space.run]⟩
  | succ n ih => exact step_symmetric hx (hJ n) (hM n) ih.1 ih.2

theorem back_shifted (b d : Axis) (N : Int) (q : Axis → Int) : back (shifted d N q) b = shifted d N (back q b) := by
  funext x; simp only [back, shifted]; split_ifs <;> first | rfl | omega
theorem ahead_shifted (b d : Axis) (N : Int) (q : Axis → Int) : ahead (shifted d N q) b = shifted d N (ahead q b) := by
  funext x; simp only [ahead, shifted]; split_ifs <;> first | rfl | omega

theorem len_shifted {h : Axis → Int → ℝ} (hh : ∀ i, h d (i + N) = h d i) (b : Axis) (q : Axis → Int) :
    h b (shifted d N q b) = h b (q b) := by
  unfold shifted
  by_cases e : b = d
  · subst e; rw [if_pos rfl, hh]
  · rw [if_neg e]

/-- Media, mesh and currents that repeat give fields that repeat. -/
theorem run_repeats (hx : X.Repeats d N) {J M : Nat → Comp} (hJ : ∀ n, Repeats d N (J n)) (hM : ∀ n, Repeats d N (M n))
    (n : Nat) : Repeats d N (X.run J M n).E ∧ Repeats d N (X.run J M n).H := by
  induction n with
  | zero => exact ⟨fun a q => rfl, fun a q => rfl⟩
  | succ n ih =>
    have h1 : Repeats d N (X.electric (J n) (X.run J M n)) := by
      intro a q
      simp only [Space.electric, curlH]
      simp only [hx.alpha _ _, hx.beta _ _, hJ n _ _, ih.1 _ _, ih.2 _ _, back_shifted, len_shifted hx.dh]
    refine ⟨h1, fun a q => ?_⟩
    simp only [Space.run, Space.step, curlE]
    simp only [hx.gamma _ _, hM n _ _, h1 _ _, ih.2 _ _, ahead_shifted, len_shifted hx.de]

end Vulture.Spec.Unbounded
