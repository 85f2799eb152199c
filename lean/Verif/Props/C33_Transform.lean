import Verif.Props.C32_Record
/-
C33. Frequency-domain observers.
-/
set_option linter.unusedSimpArgs false
set_option linter.unusedSectionVars false
namespace Vulture.C33
open Vulture Run Spec C35 C32

/-- A pair of accumulators as a complex number. -/
def cplx (p : ℝ × ℝ) : ℂ := ⟨p.1, p.2⟩

theorem transform_nil (v : Nat → ℝ) (w dt : ℝ) : transform [] v w dt = 0 := rfl

theorem transform_append (l l' : List Nat) (v : Nat → ℝ) (w dt : ℝ) :
    transform (l ++ l') v w dt = transform l v w dt + transform l' v w dt := by
  unfold transform
  rw [List.map_append, List.sum_append]

theorem transform_single (n : Nat) (v : Nat → ℝ) (w dt : ℝ) :
    transform [n] v w dt = ⟨v n * Real.cos (w * (n * dt)), - (v n * Real.sin (w * (n * dt)))⟩ := by
  unfold transform
  simp only [List.map_cons, List.map_nil, List.sum_cons, List.sum_nil, add_zero]
  have : Complex.exp (-Complex.I * ((w * (n * dt) : ℝ) : ℂ)) =
      ⟨Real.cos (w * (n * dt)), - Real.sin (w * (n * dt))⟩ := by
    generalize w * (n * dt) = y
    rw [show -Complex.I * (y : ℂ) = ((-y : ℝ) : ℂ) * Complex.I by push_cast; ring,
      Complex.exp_mul_I, ← Complex.ofReal_cos, ← Complex.ofReal_sin, Real.cos_neg, Real.sin_neg]
    apply Complex.ext
    · rw [Complex.add_re, Complex.re_ofReal_mul, Complex.ofReal_re, Complex.I_re]; simp
    · rw [Complex.add_im, Complex.im_ofReal_mul, Complex.ofReal_im, Complex.I_im]; simp
  rw [this]
  apply Complex.ext <;> simp

/-- One addition to an accumulator is one term of the transform. -/
theorem dftAdd_term (e : Env) (v : List ℝ) (n : Nat) (dt : ℝ) (d : Nat → Nat → ℝ × ℝ) {comp f : Nat} (hc : comp < v.length)
    (hf : f < e.numFreq) (w : Nat → ℝ) (hw : w n = v.getD comp 0) :
    cplx (dftAdd e v (n * dt) d comp f) = cplx (d comp f) + transform [n] w (e.omega f) dt := by
  rw [transform_single, hw]
  unfold dftAdd cplx
  rw [if_pos ⟨hc, hf⟩]
  apply Complex.ext
  · simp
  · simp only [Complex.add_im]; ring

theorem fields_length (m : Loc → ℝ) (t : Int × Int × Int) : (fieldsAt m t).length = 6 := rfl

theorem fields_getD (m : Loc → ℝ) (t : Int × Int × Int) {comp : Nat} {fc : Fc} (h : fieldList[comp]? = some fc) :
    (fieldsAt m t).getD comp 0 = m (.fld fc t.1 t.2.1 t.2.2) := by
  unfold fieldsAt
  rw [List.getD_eq_getElem?_getD, List.getElem?_map, h]; rfl

section
variable (S : Sim) (C : CRef → ℝ) (u : Nat → Loc → ℝ) (e : Env) (dt : ℝ) (s0 : Loc → ℝ)

/-- The accumulator of a field observer is the transform of that component's values over the steps of the window. -/
theorem field_transform {n : Nat} (hn : n ≤ 2 ^ 64) {out : Out} (h : outputs S C u e dt s0 n = some out) {o : Nat}
    {x : Item} (hx : e.items[o]? = some x) (hk : x.kind = .asciiFreq) {comp f : Nat} {fc : Fc}
    (hc : fieldList[comp]? = some fc) (hf : f < e.numFreq) :
    cplx (out.dft o comp f) = transform (stepsIn e.win.1.toNat e.win.2.toNat n)
      (fun q => S.state C u s0 q (.fld fc (x.gbbox .xlo) (x.gbbox .ylo) (x.gbbox .zlo))) (e.omega f) dt := by
  have hl : comp < 6 := by
    have := (List.getElem?_eq_some_iff.1 hc).1
    simpa [fieldList] using this
  induction n generalizing out with
  | zero =>
    have : Out.empty = out := by simpa [outputs] using h
    subst this
    rfl
  | succ n ih =>
    obtain ⟨o', r, ho, -, -, -, -, hd, -⟩ := outputs_succ S C u e dt s0 h
    rw [hd o x hx, stepsIn_succ, transform_append, ← ih (by omega) ho]
    unfold newDft
    rw [hk]
    by_cases hw : e.win.1.toNat ≤ n ∧ n ≤ e.win.2.toNat
    · rw [if_pos hw]
      simp only [(inWin_iff e (by omega)).2 hw, if_true]
      have hv : x.values e (S.state C u s0 n) (n * dt) = fieldsAt (S.state C u s0 n) x.node := by
        unfold Item.values; rw [hk]
      rw [hv]
      refine dftAdd_term e _ n dt _ (by rw [fields_length]; exact hl) hf _ ?_
      rw [fields_getD _ _ hc]; rfl
    · have : inWin e.win (BitVec.ofNat 64 n) = false := by
        rw [← Bool.not_eq_true, inWin_iff e (by omega)]; exact hw
      rw [if_neg hw]
      simp [this, transform_nil]

/-- The accumulator of a waveform is the transform of the waveform over the whole run, whatever the window. -/
theorem waveform_transform {n : Nat} {out : Out} (h : outputs S C u e dt s0 n = some out) {o : Nat}
    {x : Item} (hx : e.items[o]? = some x) (hk : x.kind = .wfFreq) {f : Nat} (hf : f < e.numFreq) :
    cplx (out.dft o 0 f) = transform (List.range n) (fun q => e.wave x.waveform (q * dt)) (e.omega f) dt := by
  induction n generalizing out with
  | zero =>
    have : Out.empty = out := by simpa [outputs] using h
    subst this
    rfl
  | succ n ih =>
    obtain ⟨o', r, ho, -, -, -, -, hd, -⟩ := outputs_succ S C u e dt s0 h
    rw [hd o x hx, List.range_succ, transform_append, ← ih ho]
    unfold newDft
    rw [hk]
    have hv : x.values e (S.state C u s0 n) (n * dt) = [e.wave x.waveform (n * dt)] := by
      unfold Item.values; rw [hk]
    simp only [hv]
    exact dftAdd_term e _ n dt _ (by simp) hf _ rfl

end

/-! ### The quotient -/

/-- The two numbers written are the real and imaginary part of field transform over waveform transform. -/
theorem quotient_div (c w : ℝ × ℝ) (hw : cplx w ≠ 0) : cplx (quotient c w) = cplx c / cplx w := by
  obtain ⟨a, b⟩ := c
  obtain ⟨p, q⟩ := w
  have hd : p * p + q * q ≠ 0 := by
    intro h
    apply hw
    have hp : p = 0 := by nlinarith [mul_self_nonneg p, mul_self_nonneg q]
    have hq : q = 0 := by nlinarith [mul_self_nonneg p, mul_self_nonneg q]
    subst hp hq; rfl
  rw [eq_div_iff hw]
  unfold quotient cplx
  apply Complex.ext
  · simp only [Complex.mul_re]
    generalize hD : p * p + q * q = D at hd
    field_simp
    linear_combination a * hD
  · simp only [Complex.mul_im]
    generalize hD : p * p + q * q = D at hd
    field_simp
    linear_combination b * hD

/-- The denominator is zero exactly when the waveform has no content at the frequency; the C quotient is then not a
number. -/
theorem quotient_undefined (w : ℝ × ℝ) : w.1 * w.1 + w.2 * w.2 = 0 ↔ cplx w = 0 := by
  constructor
  · intro h
    have hp : w.1 = 0 := by nlinarith [mul_self_nonneg w.1, mul_self_nonneg w.2]
    have hq : w.2 = 0 := by nlinarith [mul_self_nonneg w.1, mul_self_nonneg w.2]
    exact Complex.ext hp hq
  · intro h
    have hp : w.1 = 0 := congrArg Complex.re h
    have hq : w.2 = 0 := congrArg Complex.im h
    rw [hp, hq]; ring

/-- A field that is at each step a fixed multiple of the waveform gives that multiple, when the whole run is observed. -/
theorem transfer_constant (n : Nat) (wave v : Nat → ℝ) (a w dt : ℝ) (hv : ∀ q, v q = a * wave q)
    (hw : transform (List.range n) wave w dt ≠ 0) :
    transform (List.range n) v w dt / transform (List.range n) wave w dt = a := by
  rw [div_eq_iff hw]
  unfold transform
  rw [← List.sum_map_mul_left]
  congr 1
  refine List.map_congr_left fun q _ => ?_
  rw [hv]; push_cast; ring

/-- With a window shorter than the run it need not: the waveform is transformed over the whole run all the same. -/
theorem window_mismatch : ∃ (n a b : Nat) (wave : Nat → ℝ) (w dt : ℝ), a ≤ b ∧ b < n ∧
    transform (List.range n) wave w dt ≠ 0 ∧
    transform (stepsIn a b n) wave w dt / transform (List.range n) wave w dt ≠ 1 := by
  refine ⟨2, 0, 0, fun _ => 1, 0, 1, le_rfl, by norm_num, ?_, ?_⟩
  · simp [transform, List.range_succ]
  · have : stepsIn 0 0 2 = [0] := by decide
    rw [this]
    simp [transform, List.range_succ]

/-! ### Frequencies -/

/-- The frequencies of an `OF` card run from the first to the last in equal steps. -/
theorem frequencies (f0 f1 : ℝ) (n N : Nat) (dt : ℝ) (hn : 2 ≤ n) :
    omegaOf f0 (stepFreqOf (some (f0, f1, n)) N dt) 0 = 2 * Real.pi * f0 ∧
    omegaOf f0 (stepFreqOf (some (f0, f1, n)) N dt) (n - 1) = 2 * Real.pi * f1 ∧
    ∀ k, omegaOf f0 (stepFreqOf (some (f0, f1, n)) N dt) (k + 1) - omegaOf f0 (stepFreqOf (some (f0, f1, n)) N dt) k =
      2 * Real.pi * ((f1 - f0) / (n - 1)) := by
  have h1 : ((n : ℝ) - 1) ≠ 0 := by
    have : (2 : ℝ) ≤ n := by exact_mod_cast hn
    linarith
  unfold omegaOf stepFreqOf
  simp only
  refine ⟨by simp, ?_, ?_⟩
  · have h2 : ((n - 1 : Nat) : ℝ) = (n : ℝ) - 1 := by rw [Nat.cast_sub (by omega)]; simp
    rw [h2]
    field_simp
    ring
  · intro k
    push_cast
    ring

/-- Without the card: multiples of `1 / (N dt)`, a tenth of the steps but at least one. -/
theorem frequencies_default (N : Nat) (dt : ℝ) (f : Nat) :
    omegaOf 0 (stepFreqOf none N dt) f = 2 * Real.pi * (f / (N * dt)) ∧ 1 ≤ numFreqOf none N ∧
    (10 ≤ N → numFreqOf none N = N / 10) := by
  unfold omegaOf stepFreqOf numFreqOf
  simp only
  refine ⟨by ring, by omega, by omega⟩

example : fieldList[3]? = some .hx := rfl
example : cplx (quotient (1, 1) (1, -1)) = Complex.I := by
  unfold cplx quotient; apply Complex.ext <;> norm_num

end Vulture.C33
