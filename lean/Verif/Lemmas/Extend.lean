import Verif.Lemmas.Unbounded
/-
Continuation of quantities given in a box into all space, by images in the two walls of each axis or by repetition.
-/
set_option linter.unusedSimpArgs false
set_option linter.unusedVariables false
namespace Vulture.Spec.Unbounded
open Vulture Vulture.Spec

/-- How the two walls of an axis act: mirrors with signs per component, or repetition. -/
structure Fold where
  per : Bool
  half : Axis → Bool
  sl : Axis → ℝ
  sh : Axis → ℝ
  l : Int
  N : Int

/-- The index of the box an index of space is an image of. -/
def Fold.idx (w : Fold) (a : Axis) (i : Int) : Int :=
  if w.per then w.l + (i - w.l) % w.N
  else
    let r := (i - w.l) % (2 * w.N)
    if w.half a then (if r < w.N then w.l + r else w.l + 2 * w.N - 1 - r)
    else (if r ≤ w.N then w.l + r else w.l + 2 * w.N - r)

/-- The sign of the image. -/
noncomputable def Fold.sign (w : Fold) (a : Axis) (i : Int) : ℝ :=
  if w.per then 1
  else
    let r := (i - w.l) % (2 * w.N)
    (if ((i - w.l) / (2 * w.N)) % 2 = 0 then 1 else w.sl a * w.sh a) *
      (if (if w.half a then w.N ≤ r else w.N < r) then w.sh a else 1)

structure Fold.Ok (w : Fold) : Prop where
  pos : 1 ≤ w.N
  sl : ∀ a, w.sl a = 1 ∨ w.sl a = -1
  sh : ∀ a, w.sh a = 1 ∨ w.sh a = -1

theorem euclid {a b q r : Int} (hb : 0 < b) (h : a = b * q + r) (h0 : 0 ≤ r) (h1 : r < b) : a / b = q ∧ a % b = r :=
  (Int.ediv_emod_unique hb).2 ⟨by omega, h0, h1⟩

variable {w : Fold} {a : Axis} {i : Int}

/-- Range of the indices of a component in the box. -/
def Fold.Inside (w : Fold) (a : Axis) (i : Int) : Prop := w.l ≤ i ∧ i + (if w.half a then 1 else 0) ≤ w.l + w.N

theorem Fold.idx_inside (hw : w.Ok) (hp : w.per = false) (hi : w.Inside a i) : w.idx a i = i := by
  have := hw.pos
  obtain ⟨h1, h2⟩ := hi
  have e := euclid (a := i - w.l) (b := 2 * w.N) (q := 0) (r := i - w.l) (by omega) (by ring) (by omega)
    (by split at h2 <;> omega)
  unfold Fold.idx
  simp only [hp, e.2]
  cases hh : w.half a <;> simp [hh] at h2 ⊢ <;> omega

theorem Fold.sign_inside (hw : w.Ok) (hi : w.Inside a i) : w.sign a i = 1 := by
  have := hw.pos
  obtain ⟨h1, h2⟩ := hi
  have e := euclid (a := i - w.l) (b := 2 * w.N) (q := 0) (r := i - w.l) (by omega) (by ring) (by omega)
    (by split at h2 <;> omega)
  unfold Fold.sign
  simp only [e.1, e.2]
  split
  · rfl
  · cases hh : w.half a <;> simp [hh] at h2 ⊢ <;> intros <;> omega

/-- Either the low or the high mirror. -/
theorem Fold.idx_mirror (hw : w.Ok) (hp : w.per = false) (a : Axis) (i m : Int) (hm : m = w.l ∨ m = w.l + w.N) :
    w.idx a (mirrorIndex (w.half a) m i) = w.idx a i := by
  have hN := hw.pos
  have d0 : 0 < 2 * w.N := by omega
  have e0 := Int.emod_add_mul_ediv (i - w.l) (2 * w.N)
  have r0 := Int.emod_nonneg (i - w.l) (b := 2 * w.N) (by omega)
  have r1 := Int.emod_lt_of_pos (i - w.l) d0
  generalize hr : (i - w.l) % (2 * w.N) = r at *
  generalize hk : (i - w.l) / (2 * w.N) = k at *
  unfold Fold.idx
  simp only [hp, hr, Bool.false_eq_true, if_false]
  rcases hm with rfl | rfl
  · cases hh : w.half a
    · by_cases h0 : r = 0
      · have e := euclid (a := mirrorIndex false w.l i - w.l) (b := 2 * w.N) (q := -k) (r := 0) d0
          (by simp only [mirrorIndex]; simp; linarith) (by omega) (by omega)
        rw [e.2]; simp; omega
      · have e := euclid (a := mirrorIndex false w.l i - w.l) (b := 2 * w.N) (q := -k-1) (r := 2 * w.N - r) d0
          (by simp only [mirrorIndex]; simp; linarith) (by omega) (by omega)
        rw [e.2]; simp; split_ifs <;> omega
    · have e := euclid (a := mirrorIndex true w.l i - w.l) (b := 2 * w.N) (q := -k-1) (r := 2 * w.N - 1 - r) d0
          (by simp only [mirrorIndex]; simp; linarith) (by omega) (by omega)
      rw [e.2]; simp; split_ifs <;> omega
  · cases hh : w.half a
    · by_cases h0 : r = 0
      · have e := euclid (a := mirrorIndex false (w.l + w.N) i - w.l) (b := 2 * w.N) (q := -k+1) (r := 0) d0
          (by simp only [mirrorIndex]; simp; linarith) (by omega) (by omega)
        rw [e.2]; simp; omega
      · have e := euclid (a := mirrorIndex false (w.l + w.N) i - w.l) (b := 2 * w.N) (q := -k) (r := 2 * w.N - r) d0
          (by simp only [mirrorIndex]; simp; linarith) (by omega) (by omega)
        rw [e.2]; simp; split_ifs <;> omega
    · have e := euclid (a := mirrorIndex true (w.l + w.N) i - w.l) (b := 2 * w.N) (q := -k) (r := 2 * w.N - 1 - r) d0
          (by simp only [mirrorIndex]; simp; linarith) (by omega) (by omega)
      rw [e.2]; simp; split_ifs <;> omega

/-- The sign changes by that of the mirror, unless the sample lies in a mirror that would have to change its sign. -/
theorem Fold.sign_mirror (hw : w.Ok) (hp : w.per = false) (a : Axis) (i m : Int) (s : ℝ)
    (hm : m = w.l ∧ s = w.sl a ∨ m = w.l + w.N ∧ s = w.sh a)
    (hl : w.half a = false → w.idx a i = w.l → w.sl a = 1) (hh' : w.half a = false → w.idx a i = w.l + w.N → w.sh a = 1) :
    w.sign a (mirrorIndex (w.half a) m i) = s * w.sign a i := by
  have hN := hw.pos
  have d0 : 0 < 2 * w.N := by omega
  have e0 := Int.emod_add_mul_ediv (i - w.l) (2 * w.N)
  have r0 := Int.emod_nonneg (i - w.l) (b := 2 * w.N) (by omega)
  have r1 := Int.emod_lt_of_pos (i - w.l) d0
  unfold Fold.idx at hl hh'
  unfold Fold.sign
  generalize hr : (i - w.l) % (2 * w.N) = r at *
  generalize hk : (i - w.l) / (2 * w.N) = k at *
  simp only [hp, hr, Bool.false_eq_true, if_false] at hl hh' ⊢
  have sl := hw.sl a
  have sh := hw.sh a
  generalize w.sl a = x at *
  generalize w.sh a = y at *
  have k2 : k % 2 = 0 ∨ k % 2 = 1 := by omega
  have q1 : (-k - 1) % 2 = 1 - k % 2 := by omega
  have q2 : (-k) % 2 = k % 2 := by omega
  have q3 : (-k + 1) % 2 = 1 - k % 2 := by omega
  rcases hm with ⟨rfl, rfl⟩ | ⟨rfl, rfl⟩
  · cases hh : w.half a
    · simp only [hh, Bool.false_eq_true, if_false, true_implies] at hl hh' ⊢
      by_cases h0 : r = 0
      · have e := euclid (a := mirrorIndex false w.l i - w.l) (b := 2 * w.N) (q := -k) (r := 0) d0
          (by simp only [mirrorIndex]; simp; linarith) (by omega) (by omega)
        have := hl (by rw [if_pos (by omega)]; omega)
        subst this
        rw [e.1, e.2, h0, q2]
        simp
      · have e := euclid (a := mirrorIndex false w.l i - w.l) (b := 2 * w.N) (q := -k-1) (r := 2 * w.N - r) d0
          (by simp only [mirrorIndex]; simp; linarith) (by omega) (by omega)
        rw [e.1, e.2, q1]
        rcases lt_trichotomy r w.N with h1 | h1 | h1
        · rw [if_pos (show w.N < 2 * w.N - r by omega), if_neg (show ¬ w.N < r by omega)]
          rcases k2 with k2 | k2 <;> rw [k2] <;> rcases sl with rfl | rfl <;> rcases sh with rfl | rfl <;> norm_num
        · rw [if_neg (show ¬ w.N < 2 * w.N - r by omega), if_neg (show ¬ w.N < r by omega)]
          have := hh' (by rw [if_pos (by omega)]; omega)
          subst this
          rcases k2 with k2 | k2 <;> rw [k2] <;> rcases sl with rfl | rfl <;> norm_num
        · rw [if_neg (show ¬ w.N < 2 * w.N - r by omega), if_pos (show w.N < r by omega)]
          rcases k2 with k2 | k2 <;> rw [k2] <;> rcases sl with rfl | rfl <;> rcases sh with rfl | rfl <;> norm_num
    · simp only [hh, if_true] at hl hh' ⊢
      have e := euclid (a := mirrorIndex true w.l i - w.l) (b := 2 * w.N) (q := -k-1) (r := 2 * w.N - 1 - r) d0
          (by simp only [mirrorIndex]; simp; linarith) (by omega) (by omega)
      rw [e.1, e.2, q1]
      rcases lt_or_ge r w.N with h1 | h1
      · rw [if_pos (show w.N ≤ 2 * w.N - 1 - r by omega), if_neg (show ¬ w.N ≤ r by omega)]
        rcases k2 with k2 | k2 <;> rw [k2] <;> rcases sl with rfl | rfl <;> rcases sh with rfl | rfl <;> norm_num
      · rw [if_neg (show ¬ w.N ≤ 2 * w.N - 1 - r by omega), if_pos (show w.N ≤ r by omega)]
        rcases k2 with k2 | k2 <;> rw [k2] <;> rcases sl with rfl | rfl <;> rcases sh with rfl | rfl <;> norm_num
  · cases hh : w.half a
    · simp only [hh, Bool.false_eq_true, if_false, true_implies] at hl hh' ⊢
      by_cases h0 : r = 0
      · have e := euclid (a := mirrorIndex false (w.l + w.N) i - w.l) (b := 2 * w.N) (q := -k+1) (r := 0) d0
          (by simp only [mirrorIndex]; simp; linarith) (by omega) (by omega)
        have := hl (by rw [if_pos (by omega)]; omega)
        subst this
        rw [e.1, e.2, h0, q3, if_neg (show ¬ w.N < 0 by omega)]
        rcases k2 with k2 | k2 <;> rw [k2] <;> rcases sh with rfl | rfl <;> norm_num
      · have e := euclid (a := mirrorIndex false (w.l + w.N) i - w.l) (b := 2 * w.N) (q := -k) (r := 2 * w.N - r) d0
          (by simp only [mirrorIndex]; simp; linarith) (by omega) (by omega)
        rw [e.1, e.2, q2]
        rcases lt_trichotomy r w.N with h1 | h1 | h1
        · rw [if_pos (show w.N < 2 * w.N - r by omega), if_neg (show ¬ w.N < r by omega)]
          rcases k2 with k2 | k2 <;> rw [k2] <;> rcases sl with rfl | rfl <;> rcases sh with rfl | rfl <;> norm_num
        · rw [if_neg (show ¬ w.N < 2 * w.N - r by omega), if_neg (show ¬ w.N < r by omega)]
          have := hh' (by rw [if_pos (by omega)]; omega)
          subst this
          rcases k2 with k2 | k2 <;> rw [k2] <;> rcases sl with rfl | rfl <;> norm_num
        · rw [if_neg (show ¬ w.N < 2 * w.N - r by omega), if_pos (show w.N < r by omega)]
          rcases k2 with k2 | k2 <;> rw [k2] <;> rcases sl with rfl | rfl <;> rcases sh with rfl | rfl <;> norm_num
    · simp only [hh, if_true] at hl hh' ⊢
      have e := euclid (a := mirrorIndex true (w.l + w.N) i - w.l) (b := 2 * w.N) (q := -k) (r := 2 * w.N - 1 - r) d0
          (by simp only [mirrorIndex]; simp; linarith) (by omega) (by omega)
      rw [e.1, e.2, q2]
      rcases lt_or_ge r w.N with h1 | h1
      · rw [if_pos (show w.N ≤ 2 * w.N - 1 - r by omega), if_neg (show ¬ w.N ≤ r by omega)]
        rcases k2 with k2 | k2 <;> rw [k2] <;> rcases sl with rfl | rfl <;> rcases sh with rfl | rfl <;> norm_num
      · rw [if_neg (show ¬ w.N ≤ 2 * w.N - 1 - r by omega), if_pos (show w.N ≤ r by omega)]
        rcases k2 with k2 | k2 <;> rw [k2] <;> rcases sl with rfl | rfl <;> rcases sh with rfl | rfl <;> norm_num

theorem Fold.idx_range (hw : w.Ok) (a : Axis) (i : Int) : w.Inside a (w.idx a i) := by
  have hN := hw.pos
  have d0 : 0 < 2 * w.N := by omega
  have r0 := Int.emod_nonneg (i - w.l) (b := 2 * w.N) (by omega)
  have r1 := Int.emod_lt_of_pos (i - w.l) d0
  have s0 := Int.emod_nonneg (i - w.l) (b := w.N) (by omega)
  have s1 := Int.emod_lt_of_pos (i - w.l) (show 0 < w.N by omega)
  unfold Fold.idx Fold.Inside
  simp only
  cases w.per <;> cases w.half a <;> simp <;> (try split_ifs) <;> omega

theorem Fold.idx_period (hp : w.per = true) (a : Axis) (i : Int) : w.idx a (i + w.N) = w.idx a i := by
  unfold Fold.idx
  simp only [hp, if_true]
  congr 1
  rw [show i + w.N - w.l = (i - w.l) + w.N by ring, Int.add_emod_right]

/-- Inside, an index is its own image, but for the last node plane of a period, which is the image of the first. -/
theorem Fold.idx_per_inside (hw : w.Ok) (hp : w.per = true) (hi : w.Inside a i) :
    w.idx a i = i ∨ (w.idx a i = w.l ∧ i = w.l + w.N ∧ w.half a = false) := by
  have hN := hw.pos
  obtain ⟨h1, h2⟩ := hi
  unfold Fold.idx
  simp only [hp, if_true]
  by_cases h : i = w.l + w.N
  · right
    subst h
    refine ⟨by simp, rfl, ?_⟩
    cases hh : w.half a
    · rfl
    · rw [hh] at h2; simp at h2
  · left
    rw [Int.emod_eq_of_lt (by omega) (by split at h2 <;> omega)]; omega

/-! ### One axis -/

/-- The point with one index replaced. -/
def put (b : Axis) (v : Int) (q : Axis → Int) : Axis → Int := fun x => if x = b then v else q x

/-- Continuation along one axis. -/
noncomputable def ext (b : Axis) (w : Fold) (V : Comp) : Comp := fun a q => w.sign a (q b) * V a (put b (w.idx a (q b)) q)

theorem put_mirror_self (b : Axis) (v : Int) (h : Bool) (m : Int) (q : Axis → Int) : put b v (mirror h b m q) = put b v q := by
  funext x; simp only [put, mirror]; split <;> simp_all
theorem put_mirror {b d : Axis} (hd : d ≠ b) (v : Int) (h : Bool) (m : Int) (q : Axis → Int) :
    put b v (mirror h d m q) = mirror h d m (put b v q) := by
  funext x; simp only [put, mirror]
  by_cases h1 : x = b
  · subst h1; simp [hd.symm]
  · simp [h1]
theorem put_shifted_self (b : Axis) (v N : Int) (q : Axis → Int) : put b v (shifted b N q) = put b v q := by
  funext x; simp only [put, shifted]; split <;> simp_all
theorem put_shifted {b d : Axis} (hd : d ≠ b) (v N : Int) (q : Axis → Int) :
    put b v (shifted d N q) = shifted d N (put b v q) := by
  funext x; simp only [put, shifted]
  by_cases h1 : x = b
  · subst h1; simp [hd.symm]
  · simp [h1]
theorem put_self (b : Axis) (q : Axis → Int) : put b (q b) q = q := by
  funext x; simp only [put]; split
  · rename_i h; rw [h]
  · rfl

/-- The quantity vanishes where a mirror would have to change its sign. -/
def Vanishes (b : Axis) (w : Fold) (V : Comp) : Prop := ∀ a q, w.half a = false →
  (q b = w.l → w.sl a = -1 → V a q = 0) ∧ (q b = w.l + w.N → w.sh a = -1 → V a q = 0)

theorem ext_mirror {b : Axis} (hw : w.Ok) (hp : w.per = false) {V : Comp} (hv : Vanishes b w V) {m : Int} {s : Axis → ℝ}
    (hm : m = w.l ∧ s = w.sl ∨ m = w.l + w.N ∧ s = w.sh) (a : Axis) (q : Axis → Int) :
    ext b w V a (mirror (w.half a) b m q) = s a * ext b w V a q := by
  unfold ext
  rw [put_mirror_self, mirror_self, w.idx_mirror hw hp a (q b) m (by rcases hm with h | h; exacts [Or.inl h.1, Or.inr h.1])]
  have hpb : put b (w.idx a (q b)) q b = w.idx a (q b) := by simp [put]
  by_cases h1 : w.half a = false ∧ (w.idx a (q b) = w.l ∧ w.sl a = -1 ∨ w.idx a (q b) = w.l + w.N ∧ w.sh a = -1)
  · have h0 : V a (put b (w.idx a (q b)) q) = 0 := by
      obtain ⟨h2, h3 | h3⟩ := h1
      · exact (hv a _ h2).1 (hpb.trans h3.1) h3.2
      · exact (hv a _ h2).2 (hpb.trans h3.1) h3.2
    rw [h0]; ring
  · rw [w.sign_mirror hw hp a (q b) m (s a) (by rcases hm with h | h; exacts [Or.inl ⟨h.1, by rw [h.2]⟩, Or.inr ⟨h.1, by rw [h.2]⟩])
      (fun h2 h3 => (hw.sl a).resolve_right fun h4 => h1 ⟨h2, Or.inl ⟨h3, h4⟩⟩)
      (fun h2 h3 => (hw.sh a).resolve_right fun h4 => h1 ⟨h2, Or.inr ⟨h3, h4⟩⟩)]
    ring

theorem ext_mirror_other {b d : Axis} (hd : d ≠ b) {V : Comp} {half : Axis → Bool} {m : Int} {s : Axis → ℝ}
    (h : ∀ a q, V a (mirror (half a) d m q) = s a * V a q) (a : Axis) (q : Axis → Int) :
    ext b w V a (mirror (half a) d m q) = s a * ext b w V a q := by
  unfold ext
  rw [mirror_ne hd.symm, put_mirror hd, h]
  ring

theorem ext_repeats {b : Axis} (hp : w.per = true) (V : Comp) : Repeats b w.N (ext b w V) := by
  intro a q
  unfold ext
  have e : shifted b w.N q b = q b + w.N := by simp [shifted]
  rw [e, put_shifted_self, w.idx_period hp]
  simp [Fold.sign, hp]

theorem ext_repeats_other {b d : Axis} (hd : d ≠ b) {V : Comp} {N : Int} (h : Repeats d N V) : Repeats d N (ext b w V) := by
  intro a q
  unfold ext
  have e : shifted d N q b = q b := by simp [shifted, hd.symm]
  rw [e, put_shifted hd, h]

theorem ext_vanishes {b d : Axis} (hd : d ≠ b) {w' : Fold} {V : Comp} (h : Vanishes d w' V) : Vanishes d w' (ext b w V) := by
  intro a q ha
  have e : ∀ v, put b v q d = q d := fun v => by simp [put, hd]
  unfold ext
  exact ⟨fun h1 h2 => by rw [(h a _ ha).1 ((e _).trans h1) h2, mul_zero],
    fun h1 h2 => by rw [(h a _ ha).2 ((e _).trans h1) h2, mul_zero]⟩

/-- Within the box the continuation is the quantity itself, or its value on the first plane of a period. -/
theorem ext_inside {b : Axis} (hw : w.Ok) {V : Comp} {a : Axis} {q : Axis → Int} (hi : w.Inside a (q b)) :
    ext b w V a q = V a q ∨
      (w.per = true ∧ w.half a = false ∧ q b = w.l + w.N ∧ ext b w V a q = V a (put b w.l q)) := by
  unfold ext
  rw [w.sign_inside hw hi, one_mul]
  cases hp : w.per
  · left; rw [w.idx_inside hw hp hi, put_self]
  · rcases w.idx_per_inside hw hp hi with h | ⟨h1, h2, h3⟩
    · left; rw [h, put_self]
    · right; exact ⟨rfl, h3, h2, by rw [h1]⟩

/-! ### Three axes -/

/-- Continuation into all space. -/
noncomputable def extend (W : Axis → Fold) (V : Comp) : Comp := ext .x (W .x) (ext .y (W .y) (ext .z (W .z) V))

theorem extend_mirror {W : Axis → Fold} (hW : ∀ b, (W b).Ok) {d : Axis} (hp : (W d).per = false) {V : Comp}
    (hv : Vanishes d (W d) V) {m : Int} {s : Axis → ℝ}
    (hm : m = (W d).l ∧ s = (W d).sl ∨ m = (W d).l + (W d).N ∧ s = (W d).sh) (a : Axis) (q : Axis → Int) :
    extend W V a (mirror ((W d).half a) d m q) = s a * extend W V a q := by
  unfold extend
  cases d
  · exact ext_mirror (hW _) hp (ext_vanishes (by decide) (ext_vanishes (by decide) hv)) hm a q
  · exact ext_mirror_other (by decide) (ext_mirror (hW _) hp (ext_vanishes (by decide) hv) hm) a q
  · exact ext_mirror_other (by decide) (ext_mirror_other (by decide) (ext_mirror (hW _) hp hv hm)) a q

theorem extend_repeats {W : Axis → Fold} {d : Axis} (hp : (W d).per = true) (V : Comp) :
    Repeats d (W d).N (extend W V) := by
  unfold extend
  cases d
  · exact ext_repeats hp _
  · exact ext_repeats_other (by decide) (ext_repeats hp _)
  · exact ext_repeats_other (by decide) (ext_repeats_other (by decide) (ext_repeats hp _))

/-- On the two end planes of a period the quantity is the same. -/
def Matches (W : Axis → Fold) (V : Comp) : Prop := ∀ d a q, (W d).per = true → (W d).half a = false →
  (∀ b, (W b).Inside a (q b)) → q d = (W d).l + (W d).N → V a (put d (W d).l q) = V a q

theorem put_inside {W : Axis → Fold} (hW : ∀ b, (W b).Ok) {d a : Axis} (hh : (W d).half a = false) {q : Axis → Int}
    (hi : ∀ b, (W b).Inside a (q b)) (b : Axis) : (W b).Inside a (put d (W d).l q b) := by
  unfold put
  split
  · rename_i e; subst e
    have := (hW b).pos
    exact ⟨le_refl _, by rw [hh]; simp; omega⟩
  · exact hi b

theorem extend_inside {W : Axis → Fold} (hW : ∀ b, (W b).Ok) {V : Comp} (hv : Matches W V) {a : Axis} {q : Axis → Int}
    (hi : ∀ b, (W b).Inside a (q b)) : extend W V a q = V a q := by
  have hz : ∀ q : Axis → Int, (∀ b, (W b).Inside a (q b)) → ext .z (W .z) V a q = V a q := by
    intro q hi
    rcases ext_inside (hW .z) (V := V) (hi .z) with h | ⟨h1, h2, h3, h4⟩
    · exact h
    · rw [h4]; exact hv .z a q h1 h2 hi h3
  have hy : ∀ q : Axis → Int, (∀ b, (W b).Inside a (q b)) → ext .y (W .y) (ext .z (W .z) V) a q = V a q := by
    intro q hi
    rcases ext_inside (hW .y) (V := ext .z (W .z) V) (hi .y) with h | ⟨h1, h2, h3, h4⟩
    · rw [h]; exact hz q hi
    · rw [h4, hz _ (put_inside hW h2 hi)]; exact hv .y a q h1 h2 hi h3
  unfold extend
  rcases ext_inside (hW .x) (V := ext .y (W .y) (ext .z (W .z) V)) (hi .x) with h | ⟨h1, h2, h3, h4⟩
  · rw [h]; exact hy q hi
  · rw [h4, hy _ (put_inside hW h2 hi)]; exact hv .x a q h1 h2 hi h3

end Vulture.Spec.Unbounded

namespace Vulture.Spec.Unbounded
open Vulture Vulture.Spec

/-! ### The middle plane of two equal walls -/

theorem extend_eq (W : Axis → Fold) (V : Comp) (a : Axis) (q : Axis → Int) :
    extend W V a q = (W .x).sign a (q .x) * (W .y).sign a (q .y) * (W .z).sign a (q .z) * V a (fun b => (W b).idx a (q b)) := by
  have e : put .z ((W .z).idx a (q .z)) (put .y ((W .y).idx a (q .y)) (put .x ((W .x).idx a (q .x)) q)) =
      fun b => (W b).idx a (q b) := by
    funext b; cases b <;> simp [put]
  unfold extend ext
  have e1 : put .x ((W .x).idx a (q .x)) q .y = q .y := by simp [put]
  have e2 : put .y ((W .y).idx a (q .y)) (put .x ((W .x).idx a (q .x)) q) .z = q .z := by simp [put]
  simp only [e1, e2, e]
  ring

variable {w : Fold}

/-- Images in the middle plane of two equal walls go with images. -/
theorem Fold.middle (hw : w.Ok) (hp : w.per = false) (a : Axis) (hs : w.sl a = w.sh a) {h : Int} (hN : w.N = 2 * h) (i : Int) :
    w.idx a (mirrorIndex (w.half a) (w.l + h) i) = mirrorIndex (w.half a) (w.l + h) (w.idx a i) ∧
    w.sign a (mirrorIndex (w.half a) (w.l + h) i) = w.sign a i := by
  have hpos := hw.pos
  have d0 : 0 < 2 * w.N := by omega
  have e0 := Int.emod_add_mul_ediv (i - w.l) (2 * w.N)
  have r0 := Int.emod_nonneg (i - w.l) (b := 2 * w.N) (by omega)
  have r1 := Int.emod_lt_of_pos (i - w.l) d0
  have ss : w.sl a * w.sh a = 1 := by rw [hs]; rcases hw.sh a with h | h <;> rw [h] <;> norm_num
  generalize hr : (i - w.l) % (2 * w.N) = r at *
  generalize hk : (i - w.l) / (2 * w.N) = k at *
  unfold Fold.idx Fold.sign
  simp only [hp, hr, ss, Bool.false_eq_true, if_false, ite_self, one_mul]
  cases hh : w.half a
  · simp only [mirrorIndex, Bool.false_eq_true, if_false]
    by_cases c : r ≤ w.N
    · have e := euclid (a := 2 * (w.l + h) - i - w.l) (b := 2 * w.N) (q := -k) (r := w.N - r) d0
        (by linear_combination e0 - hN) (by omega) (by omega)
      rw [e.2, if_pos (by omega), if_pos c, if_neg (by omega), if_neg (by omega)]
      exact ⟨by omega, rfl⟩
    · have e := euclid (a := 2 * (w.l + h) - i - w.l) (b := 2 * w.N) (q := -k - 1) (r := 3 * w.N - r) d0
        (by linear_combination e0 - hN) (by omega) (by omega)
      rw [e.2, if_neg (by omega), if_neg c, if_pos (by omega), if_pos (by omega)]
      exact ⟨by omega, rfl⟩
  · simp only [mirrorIndex, if_true]
    by_cases c : r < w.N
    · have e := euclid (a := 2 * (w.l + h) - 1 - i - w.l) (b := 2 * w.N) (q := -k) (r := w.N - 1 - r) d0
        (by linear_combination e0 - hN) (by omega) (by omega)
      rw [e.2, if_pos (by omega), if_pos c, if_neg (by omega), if_neg (by omega)]
      exact ⟨by omega, rfl⟩
    · have e := euclid (a := 2 * (w.l + h) - 1 - i - w.l) (b := 2 * w.N) (q := -k - 1) (r := 3 * w.N - 1 - r) d0
        (by linear_combination e0 - hN) (by omega) (by omega)
      rw [e.2, if_neg (by omega), if_neg c, if_pos (by omega), if_pos (by omega)]
      exact ⟨by omega, rfl⟩

/-- A quantity that is its own image in the middle plane of two equal walls remains so when continued. -/
theorem extend_middle {W : Axis → Fold} (hW : ∀ b, (W b).Ok) {d : Axis} (hp : (W d).per = false) (hs : (W d).sl = (W d).sh)
    {h : Int} (hN : (W d).N = 2 * h) {V : Comp} {s : Axis → ℝ}
    (hV : ∀ a q, (∀ b, (W b).Inside a (q b)) → V a (mirror ((W d).half a) d ((W d).l + h) q) = s a * V a q)
    (a : Axis) (q : Axis → Int) :
    extend W V a (mirror ((W d).half a) d ((W d).l + h) q) = s a * extend W V a q := by
  have hm := (W d).middle (hW d) hp a (by rw [hs]) hN (q d)
  have sg : ∀ b, (W b).sign a (mirror ((W d).half a) d ((W d).l + h) q b) = (W b).sign a (q b) := by
    intro b
    by_cases e : b = d
    · subst e; rw [mirror_self]; exact hm.2
    · rw [mirror_ne e]
  have ix : (fun b => (W b).idx a (mirror ((W d).half a) d ((W d).l + h) q b)) =
      mirror ((W d).half a) d ((W d).l + h) (fun b => (W b).idx a (q b)) := by
    funext b
    by_cases e : b = d
    · subst e; rw [mirror_self, mirror_self]; exact hm.1
    · rw [mirror_ne e, mirror_ne e]
  rw [extend_eq, extend_eq, sg, sg, sg, ix, hV a _ (fun b => (W b).idx_range (hW b) a (q b))]
  ring

end Vulture.Spec.Unbounded
