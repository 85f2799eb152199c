import Verif.Lemmas.ScalePml
import Verif.Props.C19_Media
import Verif.Props.C27_Amplitude
set_option linter.unusedSimpArgs false
set_option linter.unusedVariables false
/- Media arrays in another unit of length, whatever memory held before. -/
namespace Vulture.Scaling
open Spec Setup

section
variable {M N : Type} {f : M → N} {c : Cfg}

/-- The arrays agree, through `f`, where memory is allocated. -/
def Agree (c : Cfg) (f : M → N) (A : MArr M) (B : MArr N) : Prop :=
  ∀ fc i j k, InGrid c i j k → B fc i j k = f (A fc i j k)

/-- A fill seen through `f`. -/
def fillMap (f : M → N) (x : Fill M) : Fill N := ⟨x.box, x.mask, f x.med⟩

theorem agree_fills (l : List (Fill M)) {A : MArr M} {B : MArr N} (h : Agree c f A B) :
    Agree c f (applyFills l A) (applyFills (l.map (fillMap f)) B) := by
  induction l generalizing A B with
  | nil => exact h
  | cons x l ih =>
    refine ih (A := x.apply A) (B := (fillMap f x).apply B) ?_
    intro fc i j k hi
    unfold Fill.apply
    rw [C19.set_medium, C19.set_medium]
    show (if Contains x.box x.mask fc i j k then f x.med else B fc i j k) = _
    rw [h fc i j k hi]
    split <;> rfl

theorem agree_first (hv : ValidCfg c) (S : MedSetup M) (S' : MedSetup N) (hf : S'.free = f S.free) (A : MArr M) (B : MArr N) :
    Agree c f ((initMediaFill c S).apply A) ((initMediaFill c S').apply B) := by
  intro fc i j k hi
  unfold Fill.apply
  rw [C19.set_medium, C19.set_medium, if_pos (C19.background_covers hv S fc i j k hi),
    if_pos (C19.background_covers hv S' fc i j k hi)]
  exact hf

theorem pull_inGrid (hv : ValidCfg c) (fc : Fc) (a : Axis) (t : Int × Int × Int) (h : InGrid c t.1 t.2.1 t.2.2) :
    InGrid c (C19.pull c fc a t).1 (C19.pull c fc a t).2.1 (C19.pull c fc a t).2.2 := by
  obtain ⟨i, j, k⟩ := t
  obtain ⟨h1, h2, h3⟩ := h
  have fx := cfg_facts hv .x; have fy := cfg_facts hv .y; have fz := cfg_facts hv .z
  simp only [Axis.lo, Axis.hi] at fx fy fz
  simp only at h1 h2 h3
  unfold C19.pull
  split
  · unfold pmlCopyPlane
    cases a <;> simp only [Axis.lo, Axis.hi, setAx, Face.isLo, InGrid] <;> (repeat' split) <;> omega
  split
  · unfold pmlCopyPlane
    cases a <;> simp only [Axis.lo, Axis.hi, setAx, Face.isLo, InGrid, Bool.false_eq_true, if_false] <;> (repeat' split) <;> omega
  · exact ⟨h1, h2, h3⟩

theorem agree_copy (hv : ValidCfg c) {A : MArr M} {B : MArr N} (h : Agree c f A B) : Agree c f (pmlCopy c A) (pmlCopy c B) := by
  intro fc i j k hi
  have eA := C19.pmlCopy_apply hv A fc (i, j, k)
  have eB := C19.pmlCopy_apply hv B fc (i, j, k)
  simp only at eA eB
  rw [eA, eB]
  exact h fc _ _ _ (pull_inGrid hv fc .z _ (pull_inGrid hv fc .y _ (pull_inGrid hv fc .x (i, j, k) hi)))

/-- A set-up seen through `f`. -/
def medMap (f : M → N) (S : MedSetup M) : MedSetup N where
  free := f S.free
  pec := f S.pec
  blocks := S.blocks.map fun b => (b.1, b.2.1, f b.2.2)
  lines := S.lines.map fun b => (b.1, f b.2)
  surfaces := S.surfaces.map fun b => (b.1, f b.2)
  resist := S.resist.map fun b => (b.1, f b.2)

theorem agree_media (hv : ValidCfg c) (S : MedSetup M) (A : MArr M) (B : MArr N) :
    Agree c f (mediaArrays c S A) (mediaArrays c (medMap f S) B) := by
  have e1 : resistFills c (medMap f S) = (resistFills c S).map (fillMap f) := by
    simp [resistFills, medMap, fillMap, List.map_map, Function.comp_def]
  have e2 : blockFills c (medMap f S) ++ lineFills c (medMap f S) ++ surfaceFills c (medMap f S) ++ externalFills c (medMap f S) =
      (blockFills c S ++ lineFills c S ++ surfaceFills c S ++ externalFills c S).map (fillMap f) := by
    simp [blockFills, lineFills, surfaceFills, externalFills, medMap, fillMap, List.map_map, Function.comp_def]
  unfold mediaArrays
  rw [e1, e2]
  refine agree_fills _ (agree_copy hv ?_)
  exact agree_fills (c := c) (f := f) (blockFills c S ++ lineFills c S ++ surfaceFills c S ++ externalFills c S)
    (agree_first hv S (medMap f S) rfl A B)

end

/-! ### Sources -/

section
open Source
variable {r : ℝ}

theorem sum_scale {A A' : Int → ℝ} {s : Finset Int} (h : ∀ i ∈ s, A' i = r * A i) : ∑ i ∈ s, A' i = r * ∑ i ∈ s, A i := by
  rw [Finset.mul_sum]; exact Finset.sum_congr rfl h

/-- Sizes of a box in the other unit. -/
theorem sizes_scale {de de' dh dh' : Axis → Int → ℝ} {b : BBox}
    (hde : ∀ (a : Axis) i, b a.lo ≤ i → i ≤ b a.hi → de' a i = r * de a i)
    (hdh : ∀ (a : Axis) i, b a.lo ≤ i → i ≤ b a.hi → dh' a i = r * dh a i) (d : Axis) :
    electricSize de' dh' b d = ⟨r * (electricSize de dh b d).length, r ^ 2 * (electricSize de dh b d).area,
      fun a => r * (electricSize de dh b d).side a⟩ ∧
    magneticSize de' dh' b d = ⟨r * (magneticSize de dh b d).length, r ^ 2 * (magneticSize de dh b d).area,
      fun a => r * (magneticSize de dh b d).side a⟩ := by
  have e1 : ∀ a : Axis, ∑ i ∈ Finset.Icc (b a.lo) (b a.hi), dh' a i = r * ∑ i ∈ Finset.Icc (b a.lo) (b a.hi), dh a i :=
    fun a => sum_scale fun i hi => by rw [Finset.mem_Icc] at hi; exact hdh a i hi.1 hi.2
  have e2 : ∀ a : Axis, ∑ i ∈ Finset.Icc (b a.lo) (b a.hi - 1), de' a i = r * ∑ i ∈ Finset.Icc (b a.lo) (b a.hi - 1), de a i :=
    fun a => sum_scale fun i hi => by rw [Finset.mem_Icc] at hi; exact hde a i hi.1 (by omega)
  unfold electricSize magneticSize
  simp only [e1, e2]
  refine ⟨?_, ?_⟩
  all_goals
    congr 1
    · split_ifs <;> ring
    · funext a
      split_ifs <;> ring

/-- What a source does to the medium, in the other unit. -/
noncomputable def scaleAct (r : ℝ) : MedAct → MedAct
  | .resistor s => .resistor (s / r)
  | m => m

theorem initSource_scaled (hr : 0 < r) {de de' dh dh' : Axis → Int → ℝ} {b : BBox}
    (hde : ∀ (a : Axis) i, b a.lo ≤ i → i ≤ b a.hi → de' a i = r * de a i)
    (hdh : ∀ (a : Axis) i, b a.lo ≤ i → i ≤ b a.hi → dh' a i = r * dh a i) (t : SType) (pol norm : Axis) (size R : ℝ) :
    (initSource de' dh' b t pol norm (sizeFactor r t * size) R).kind = (initSource de dh b t pol norm size R).kind ∧
    (initSource de' dh' b t pol norm (sizeFactor r t * size) R).size =
      r ^ (match (initSource de dh b t pol norm size R).kind with | .ecurr | .hcurr => (-1 : Int) | _ => 0) *
        (initSource de dh b t pol norm size R).size ∧
    (initSource de' dh' b t pol norm (sizeFactor r t * size) R).med = scaleAct r (initSource de dh b t pol norm size R).med := by
  obtain ⟨s1, s2⟩ := sizes_scale hde hdh pol
  have h0 : r ≠ 0 := hr.ne'
  have q : ∀ x, r * size / (r ^ 2 * x) = r⁻¹ * (size / x) := by
    intro x
    by_cases hx : x = 0
    · subst hx; simp
    · field_simp
  have q' : ∀ x, size / (r * x) = r⁻¹ * (size / x) := by
    intro x
    by_cases hx : x = 0
    · subst hx; simp
    · field_simp
  have q3 : ∀ x y, r ^ 2 * size / (r ^ 2 * x) / (r * y) = r⁻¹ * (size / x / y) := by
    intro x y
    rw [mul_div_mul_left _ _ (pow_ne_zero 2 h0)]
    by_cases hy : y = 0
    · subst hy; simp
    · field_simp
  have q4 : ∀ x z : ℝ, z * (r * size) / (r * x) = z * size / x := by
    intro x z
    rw [show z * (r * size) = r * (z * size) by ring, mul_div_mul_left _ _ h0]
  have q5 : ∀ l x : ℝ, r * l / (r ^ 2 * x * R) = l / (x * R) / r := by
    intro l x
    by_cases hx : x * R = 0
    · rw [show r ^ 2 * x * R = r ^ 2 * (x * R) by ring, hx]; simp
    · have := left_ne_zero_of_mul hx
      have := right_ne_zero_of_mul hx
      field_simp
  cases t <;> simp only [initSource, initThevenin, s1, s2, sizeFactor, zpow_neg_one, zpow_zero, one_mul, scaleAct]
  case efield => exact ⟨trivial, trivial, trivial⟩
  case hfield => exact ⟨trivial, trivial, trivial⟩
  case ecurrDens => exact ⟨trivial, by simp, trivial⟩
  case mcurrDens => exact ⟨trivial, by simp, trivial⟩
  case esurfDens => exact ⟨trivial, q' _, trivial⟩
  case msurfDens => exact ⟨trivial, q' _, trivial⟩
  case ecurrent => exact ⟨trivial, q _, trivial⟩
  case mcurrent => exact ⟨trivial, q _, trivial⟩
  case emoment => exact ⟨trivial, q3 _ _, trivial⟩
  case mmoment => exact ⟨trivial, q3 _ _, trivial⟩
  case voltage => exact ⟨trivial, by have := q4 (electricSize de dh b pol).length (-1); simpa using this, trivial⟩
  case thevenin =>
    by_cases hR : R > minResistance
    · simp only [hR, if_true, q5, q, zpow_neg_one, scaleAct]
      exact ⟨trivial, by ring, trivial⟩
    · simp only [hR, if_false, q4, zpow_zero, one_mul, scaleAct, and_self]
  case norton =>
    by_cases hR : R > minResistance
    · simp only [hR, if_true, q5, zpow_neg_one, scaleAct]
      refine ⟨trivial, ?_, trivial⟩
      rw [show R * (r * size) = R * r * size by ring]
      rw [mul_div_assoc, mul_assoc R r, mul_div_assoc' r size, q]
      ring
    · simp only [hR, if_false, zpow_zero, one_mul, scaleAct, and_true, true_and]
      rw [show -(1 / 2) * (R * (r * size)) = (-(1 / 2) * R) * (r * size) by ring, q4]
      ring

end
end Vulture.Scaling
