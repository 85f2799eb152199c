import Verif.Spec.Passive
import Verif.Spec.Dispersion
import Verif.Props.C87_Sealed
import Verif.Props.C72_Maxwell
/- C90: dispersive media whose poles are passive never give back more energy than they have taken. -/
set_option linter.unusedSimpArgs false
set_option linter.unusedVariables false
set_option linter.unusedSectionVars false
set_option autoImplicit false
namespace Vulture.C90
open Spec Setup Deck CavityLemmas Scaling Finset

/-! ### One pole -/

theorem absorbed_eq (c d a b w : ℝ) (hs : a < 0) (w0 : 0 < w) : absorbed ⟨⟨c, d⟩, ⟨a, b⟩⟩ w =
    (c * w ^ 2 + (c * (a ^ 2 - b ^ 2) + 2 * d * a * b)) * (2 * w ^ 2 / ((a ^ 2 + (w - b) ^ 2) * (a ^ 2 + (w + b) ^ 2))) := by
  unfold absorbed
  have n1 : (0 : ℝ) < a ^ 2 + (w - b) ^ 2 := by have := sq_pos_of_neg hs; positivity
  have n2 : (0 : ℝ) < a ^ 2 + (w + b) ^ 2 := by have := sq_pos_of_neg hs; positivity
  simp only [Complex.mul_re, Complex.mul_im, Complex.add_re, Complex.add_im, Complex.div_re, Complex.div_im, Complex.sub_re, Complex.sub_im, Complex.I_re, Complex.I_im,
    Complex.ofReal_re, Complex.ofReal_im, Complex.normSq_apply, Complex.star_def, Complex.conj_re, Complex.conj_im]
  have m1 : (0 * w - 1 * 0 - a) * (0 * w - 1 * 0 - a) + (0 * 0 + 1 * w - b) * (0 * 0 + 1 * w - b) = a ^ 2 + (w - b) ^ 2 := by ring
  have m2 : (0 * w - 1 * 0 - a) * (0 * w - 1 * 0 - a) + (0 * 0 + 1 * w - -b) * (0 * 0 + 1 * w - -b) = a ^ 2 + (w + b) ^ 2 := by ring
  rw [m1, m2]
  field_simp
  ring

/-- A Debye or a Lorentz pole in numbers. -/
theorem passive_of (c d a b : ℝ) (hs : a < 0) (h1 : 0 ≤ c) (h2 : 0 ≤ c * (a ^ 2 - b ^ 2) + 2 * d * a * b) : PassivePole ⟨⟨c, d⟩, ⟨a, b⟩⟩ := by
  refine ⟨Or.inl hs, fun w w0 => ?_⟩
  rw [absorbed_eq c d a b w hs w0]
  positivity

/-- What the spectrum says about residue and pole. -/
theorem passive_signs {p : DPole} (hp : PassivePole p) : 0 ≤ p.res.re ∧ 0 ≤ p.res.re * (p.pole.re ^ 2 - p.pole.im ^ 2) + 2 * p.res.im * p.pole.re * p.pole.im := by
  obtain ⟨hs, hw⟩ := hp
  obtain ⟨⟨c, d⟩, ⟨a, b⟩⟩ := p
  dsimp only at hs ⊢
  rcases hs with hs | hs
  · have key : ∀ w : ℝ, 0 < w → 0 ≤ c * w ^ 2 + (c * (a ^ 2 - b ^ 2) + 2 * d * a * b) := by
      intro w w0
      have h1 := hw w w0
      have n1 : (0 : ℝ) < a ^ 2 + (w - b) ^ 2 := by have := sq_pos_of_neg hs; positivity
      have n2 : (0 : ℝ) < a ^ 2 + (w + b) ^ 2 := by have := sq_pos_of_neg hs; positivity
      have e := absorbed_eq c d a b w hs w0
      rw [e] at h1
      have : (0 : ℝ) < 2 * w ^ 2 / ((a ^ 2 + (w - b) ^ 2) * (a ^ 2 + (w + b) ^ 2)) := by positivity
      exact nonneg_of_mul_nonneg_left h1 this
    constructor
    · by_contra hc
      have hc := not_le.1 hc
      set K := c * (a ^ 2 - b ^ 2) + 2 * d * a * b
      have := key (√((|K| + 1) / (-c))) (Real.sqrt_pos.2 (by have := abs_nonneg K; have : 0 < -c := by linarith
                                                             positivity))
      rw [Real.sq_sqrt (by have := abs_nonneg K; have : 0 < -c := by linarith
                           positivity)] at this
      have e : c * ((|K| + 1) / (-c)) = -(|K| + 1) := by have := hc.ne; field_simp
      rw [e] at this
      have := le_abs_self K
      linarith
    · set K := c * (a ^ 2 - b ^ 2) + 2 * d * a * b
      by_contra hc
      have hc := not_le.1 hc
      by_cases c0 : c ≤ 0
      · have := key 1 one_pos
        nlinarith
      · have c0 := not_le.1 c0
        have h2 := key (√(-K / (2 * c))) (Real.sqrt_pos.2 (by have : 0 < -K := by linarith
                                                              positivity))
        rw [Real.sq_sqrt (by have : 0 < -K := by linarith
                             positivity)] at h2
        have e : c * (-K / (2 * c)) = -K / 2 := by field_simp
        rw [e] at h2
        linarith
  · have ha : a = 0 := congrArg Complex.re hs
    have hb : b = 0 := congrArg Complex.im hs
    subst ha; subst hb
    have h1 := hw 1 one_pos
    unfold absorbed at h1
    simp [Complex.mul_re, Complex.div_re, Complex.div_im, Complex.add_re, Complex.add_im, Complex.normSq_apply] at h1
    exact ⟨by linarith, by norm_num⟩

/-- The state of a pole. -/
noncomputable def psi (T eps0 : ℝ) (p : ℂ) (E : ℕ → ℝ) : ℕ → ℂ
  | 0 => 0
  | n + 1 => ((1 + T * p / 2) * psi T eps0 p E n + T * (eps0 * ((E n + E (n + 1)) / 2 : ℝ))) / (1 - T * p / 2)

theorem den_ne {T : ℝ} {p : ℂ} (hT : 0 < T) (hp : p.re ≤ 0) : (1 - T * p / 2 : ℂ) ≠ 0 := by
  intro e
  have := congrArg Complex.re e
  simp at this
  nlinarith

theorem psi_step {T eps0 : ℝ} {p : ℂ} {E : ℕ → ℝ} (hT : 0 < T) (hp : p.re ≤ 0) (n : ℕ) :
    psi T eps0 p E (n + 1) - psi T eps0 p E n = T * (p * ((psi T eps0 p E n + psi T eps0 p E (n + 1)) / 2) + eps0 * ((E n + E (n + 1)) / 2 : ℝ)) := by
  have d := den_ne hT hp
  have e : psi T eps0 p E (n + 1) * (1 - T * p / 2) = (1 + T * p / 2) * psi T eps0 p E n + T * (eps0 * ((E n + E (n + 1)) / 2 : ℝ)) := by
    rw [psi]; exact div_mul_cancel₀ _ d
  linear_combination e

/-- The polarisation current is that of the state. -/
theorem current_is {T eps0 : ℝ} {q : Pole} {E : ℕ → ℝ} {P : ℕ → ℂ} (hT : 0 < T) (hp : q.pole.re ≤ 0) (h0 : P 0 = 0) (e0 : E 0 = 0)
    (hP : ∀ n, PoleEquation T eps0 q (P n) (P (n + 1)) (E n) (E (n + 1))) (n : ℕ) :
    P n = q.res * (q.pole * psi T eps0 q.pole E n + eps0 * E n) := by
  have d := den_ne hT hp
  have hT' : (T : ℂ) ≠ 0 := by exact_mod_cast hT.ne'
  induction n with
  | zero => rw [h0, e0]; simp [psi]
  | succ n ih =>
    have h1 := hP n
    unfold PoleEquation at h1
    field_simp at h1
    have h2 := psi_step (eps0 := eps0) (E := E) hT hp n
    refine mul_left_cancel₀ d ?_
    rw [ih] at h1
    push_cast at h1 h2 ⊢
    linear_combination h1 / 2 - q.res * q.pole * h2

/-- Energy in the state of a pole, and what its relaxation takes in a step. -/
noncomputable def well (eps0 : ℝ) (p : DPole) (z : ℂ) : ℝ :=
  if p.pole.im = 0 then p.res.re * (-p.pole.re) * z.re ^ 2 / eps0
  else
    let v := p.pole.im * z.re + p.pole.re * z.im
    let w2 := p.pole.re ^ 2 + p.pole.im ^ 2
    ((p.res.re * (p.pole.re ^ 2 - p.pole.im ^ 2) + 2 * p.res.im * p.pole.re * p.pole.im) * (v ^ 2 + w2 * z.im ^ 2) +
      p.res.re * (w2 * v ^ 2 + (2 * (-p.pole.re) * v + w2 * z.im) ^ 2)) / (2 * (-p.pole.re) * p.pole.im ^ 2 * eps0)
noncomputable def sink (T eps0 : ℝ) (p : DPole) (z z' : ℂ) : ℝ :=
  if p.pole.im = 0 then 2 * p.res.re * (z'.re - z.re) ^ 2 / (eps0 * T)
  else
    let v := p.pole.im * z.re + p.pole.re * z.im
    let v' := p.pole.im * z'.re + p.pole.re * z'.im
    ((p.res.re * (p.pole.re ^ 2 - p.pole.im ^ 2) + 2 * p.res.im * p.pole.re * p.pole.im) * (4 * (-p.pole.re) * T * ((v + v') / 2) ^ 2) +
      p.res.re * (4 * (-p.pole.re) * (v' - v) ^ 2 / T)) / (2 * (-p.pole.re) * p.pole.im ^ 2 * eps0)

theorem well_nonneg {eps0 : ℝ} {p : DPole} (he : 0 < eps0) (hp : PassivePole p) (z : ℂ) : 0 ≤ well eps0 p z := by
  obtain ⟨s1, s2⟩ := passive_signs hp
  have a0 : 0 ≤ -p.pole.re := by rcases hp.1 with h | h; · linarith
                                 · rw [h]; simp
  unfold well
  split
  · positivity
  · exact div_nonneg (add_nonneg (mul_nonneg s2 (by positivity)) (mul_nonneg s1 (by positivity))) (by positivity)
theorem sink_nonneg {T eps0 : ℝ} {p : DPole} (hT : 0 < T) (he : 0 < eps0) (hp : PassivePole p) (z z' : ℂ) : 0 ≤ sink T eps0 p z z' := by
  obtain ⟨s1, s2⟩ := passive_signs hp
  have a0 : 0 ≤ -p.pole.re := by rcases hp.1 with h | h; · linarith
                                 · rw [h]; simp
  unfold sink
  split
  · positivity
  · exact div_nonneg (add_nonneg (mul_nonneg s2 (by positivity)) (mul_nonneg s1 (by positivity))) (by positivity)

/-- What the field gives to a pole in a step. -/
theorem pole_work {T eps0 : ℝ} {p : DPole} (hT : 0 < T) (he : 0 < eps0) (hp : PassivePole p) (z z' : ℂ) (E E' : ℝ)
    (hz : z' - z = T * (p.pole * ((z + z') / 2) + eps0 * ((E + E') / 2 : ℝ))) (hy : p.pole.im = 0 → z.im = 0 ∧ z'.im = 0) :
    (E + E') / 2 * (2 * (p.res * (z' - z)).re) = well eps0 p z' - well eps0 p z + sink T eps0 p z z' := by
  obtain ⟨⟨c, d⟩, ⟨a, b⟩⟩ := p
  obtain ⟨x, y⟩ := z
  obtain ⟨x', y'⟩ := z'
  have h1 := congrArg Complex.re hz
  have h2 := congrArg Complex.im hz
  simp only [Complex.mul_re, Complex.mul_im, Complex.add_re, Complex.add_im, Complex.sub_re, Complex.sub_im, Complex.ofReal_re, Complex.ofReal_im, Complex.div_ofNat_re, Complex.div_ofNat_im] at h1 h2 ⊢
  have h1 : x' - x = T * (a * ((x + x') / 2) - b * ((y + y') / 2) + eps0 * ((E + E') / 2)) := by linear_combination h1
  have h2 : y' - y = T * (a * ((y + y') / 2) + b * ((x + x') / 2)) := by linear_combination h2
  have he' := he.ne'
  have hT' := hT.ne'
  generalize (E + E') / 2 = F at h1 ⊢
  unfold well sink
  dsimp only at hy ⊢
  by_cases b0 : b = 0
  · subst b0
    rw [if_pos rfl, if_pos rfl, if_pos rfl]
    obtain ⟨y0, y0'⟩ := hy rfl
    subst y0; subst y0'
    have Fe : F = ((x' - x) / T - a * ((x + x') / 2)) / eps0 := by
      field_simp
      linear_combination -2 * h1
    rw [Fe]
    field_simp
    ring
  · rw [if_neg b0, if_neg b0, if_neg b0]
    have a0 : a ≠ 0 := by
      rcases hp.1 with h | h
      · exact h.ne
      · exact absurd (congrArg Complex.im h) b0
    have g : b * x' + a * y' = b * x + a * y + T * (b * F * eps0 + 2 * a * ((b * x + a * y + (b * x' + a * y')) / 2) - (a ^ 2 + b ^ 2) * ((y + y') / 2)) := by linear_combination b * h1 + a * h2
    have y'e : y' = y + T * ((b * x + a * y + (b * x' + a * y')) / 2) := by linear_combination h2
    have xe : x = ((b * x + a * y) - a * y) / b := by field_simp; ring
    have x'e : x' = ((b * x' + a * y') - a * y') / b := by field_simp; ring
    generalize hv : b * x + a * y = v at *
    generalize hv' : b * x' + a * y' = v' at *
    rw [x'e, xe]
    have Fe : F = ((v' - v) / T - 2 * a * ((v + v') / 2) + (a ^ 2 + b ^ 2) * ((y + y') / 2)) / (b * eps0) := by
      field_simp
      linear_combination -2 * g
    rw [Fe, y'e]
    field_simp
    ring

theorem psi_real {T eps0 : ℝ} {p : ℂ} {E : ℕ → ℝ} (hT : 0 < T) (hp : p.re ≤ 0) (hb : p.im = 0) (n : ℕ) : (psi T eps0 p E n).im = 0 := by
  induction n with
  | zero => rfl
  | succ n ih =>
    have h := congrArg Complex.im (psi_step (eps0 := eps0) (E := E) hT hp n)
    simp only [Complex.mul_re, Complex.mul_im, Complex.add_re, Complex.add_im, Complex.sub_re, Complex.sub_im, Complex.ofReal_re, Complex.ofReal_im, Complex.div_ofNat_re, Complex.div_ofNat_im] at h
    rw [ih, hb] at h
    have : (psi T eps0 p E (n + 1)).im * (1 - T * p.re / 2) = 0 := by linear_combination h
    rcases mul_eq_zero.1 this with h | h
    · exact h
    · nlinarith

theorem pole_re {p : DPole} (hp : PassivePole p) : p.pole.re ≤ 0 := by
  rcases hp.1 with h | h
  · exact h.le
  · rw [h]; simp

theorem instant_term {T eps0 : ℝ} {p : DPole} (hT : 0 < T) (he : 0 < eps0) (hp : PassivePole p) : 0 ≤ (eps0 * p.res / (1 - T / 2 * p.pole) : ℂ).re := by
  obtain ⟨s1, s2⟩ := passive_signs hp
  have k : p.res.re * p.pole.re + p.res.im * p.pole.im ≤ 0 := by
    rcases hp.1 with h | h
    · by_contra hc
      have hc := not_le.1 hc
      nlinarith [mul_nonneg s1 (add_nonneg (sq_nonneg p.pole.re) (sq_nonneg p.pole.im))]
    · rw [h]; simp
  rw [Complex.div_re, ← add_div]
  refine div_nonneg ?_ (Complex.normSq_nonneg _)
  have e : ((eps0 : ℂ) * p.res).re * (1 - T / 2 * p.pole : ℂ).re + ((eps0 : ℂ) * p.res).im * (1 - T / 2 * p.pole : ℂ).im =
      eps0 * (p.res.re - T / 2 * (p.res.re * p.pole.re + p.res.im * p.pole.im)) := by
    simp
    ring
  rw [e]
  have : 0 ≤ -(T / 2 * (p.res.re * p.pole.re + p.res.im * p.pole.im)) := by nlinarith
  exact mul_nonneg he.le (by linarith)

/-! ### An edge -/

/-- The energy in all poles of a medium, and what their relaxation takes in a step. -/
noncomputable def wells (T eps0 : ℝ) (poles : List DPole) (E : ℕ → ℝ) (n : ℕ) : ℝ := (poles.map fun p => well eps0 p (psi T eps0 p.pole E n)).sum
noncomputable def sinks (T eps0 : ℝ) (poles : List DPole) (E : ℕ → ℝ) (n : ℕ) : ℝ :=
  (poles.map fun p => sink T eps0 p (psi T eps0 p.pole E n) (psi T eps0 p.pole E (n + 1))).sum

theorem medium_work {T eps0 : ℝ} (hT : 0 < T) (he : 0 < eps0) (E : ℕ → ℝ) (n : ℕ) : ∀ poles : List DPole, (∀ p ∈ poles, PassivePole p) →
    T * ((E n + E (n + 1)) / 2) * ((((poles.map fun p => p.res * (p.pole * psi T eps0 p.pole E (n + 1) + eps0 * E (n + 1))).map fun z => (z + star z).re).sum +
      ((poles.map fun p => p.res * (p.pole * psi T eps0 p.pole E n + eps0 * E n)).map fun z => (z + star z).re).sum) / 2) =
    wells T eps0 poles E (n + 1) - wells T eps0 poles E n + sinks T eps0 poles E n
  | [], _ => by simp [wells, sinks]
  | p :: l, hl => by
    have ih := medium_work hT he E n l fun p hp => hl p (List.mem_cons_of_mem _ hp)
    have hp := hl p List.mem_cons_self
    have st := psi_step (eps0 := eps0) (E := E) hT (pole_re hp) n
    have pw := pole_work hT he hp _ _ (E n) (E (n + 1)) st fun hb => ⟨psi_real hT (pole_re hp) hb n, psi_real hT (pole_re hp) hb (n + 1)⟩
    unfold wells sinks at ih ⊢
    simp only [List.map_cons, List.sum_cons] at ih ⊢
    have e1 : ∀ z : ℂ, (z + star z).re = 2 * z.re := by intro z; simp; ring
    rw [e1, e1]
    have e2 : (p.res * (psi T eps0 p.pole E (n + 1) - psi T eps0 p.pole E n)).re =
        T * (((p.res * (p.pole * psi T eps0 p.pole E (n + 1) + eps0 * E (n + 1))).re + (p.res * (p.pole * psi T eps0 p.pole E n + eps0 * E n)).re) / 2) := by
      rw [st, ← Complex.add_re]
      have : (p.res * (T * (p.pole * ((psi T eps0 p.pole E n + psi T eps0 p.pole E (n + 1)) / 2) + eps0 * ((E n + E (n + 1)) / 2 : ℝ))) : ℂ) =
          ((T / 2 : ℝ) : ℂ) * (p.res * (p.pole * psi T eps0 p.pole E (n + 1) + eps0 * E (n + 1)) + p.res * (p.pole * psi T eps0 p.pole E n + eps0 * E n)) := by
        push_cast; ring
      rw [this, Complex.re_ofReal_mul]
      ring
    rw [e2] at pw
    linear_combination ih + pw


variable {k : Consts} {J : Junk} {X : Experiment} {R : Setup.Run} {M : Axis → (Axis → Int) → Stuff} {mu : Axis → (Axis → Int) → ℝ}

theorem eps0_pos (hk : Physical k) : 0 < k.eps0 := by rw [hk.eps0]; have := hk.c0; have := hk.mu0; positivity

/-- Energy balance of an edge of a dispersive medium. -/
theorem relaxing_edge (hk : Physical k) (h : setup k J X = some R) (ho : OrdinaryBlocks X.file.cards) (hT : 0 < R.dt) {a : Axis} {q : Axis → Int}
    {e s u : ℝ} {poles : List DPole} (hm : RelaxingEdge X a q (.dispersive e s u poles)) (n : ℕ) :
    R.dt * (meanOver R n a.e q * (rotH X (value R n) a q - e * k.eps0 * ((value R (n + 1) a.e q - value R n a.e q) / R.dt) - s * meanOver R n a.e q)) =
      wells R.dt k.eps0 poles (fun n => value R n a.e q) (n + 1) - wells R.dt k.eps0 poles (fun n => value R n a.e q) n +
        sinks R.dt k.eps0 poles (fun n => value R n a.e q) n := by
  have he := eps0_pos hk
  obtain ⟨hi, hm, hone, hs, hw, hns, hst, e1, s0, u1, hp⟩ := hm
  have hr : InRange k R.dt (.dispersive e s u poles) := by
    refine ⟨e1, s0, u1, mul_nonneg hT.le (List.sum_nonneg ?_)⟩
    intro x hx
    obtain ⟨p, hpm, rfl⟩ := List.mem_map.1 hx
    exact instant_term hT he (hp p hpm)
  obtain ⟨P, P0, hP⟩ := C72.dispersive_ampere hk h ho hT hi hm hone hs hw hns hst hr fun p hpm => pole_re (hp p hpm)
  have hPs : ∀ m, (List.range poles.length).map (P m) =
      poles.map fun p => p.res * (p.pole * psi R.dt k.eps0 p.pole (fun n => value R n a.e q) m + k.eps0 * value R m a.e q) := by
    intro m
    refine List.ext_getElem (by simp) fun i h1 h2 => ?_
    have hi : i < poles.length := by simpa using h1
    rw [List.getElem_map, List.getElem_map, List.getElem_range]
    exact current_is (q := ⟨poles[i].res, poles[i].pole⟩) (E := fun n => value R n a.e q) (P := fun n => P n i) hT (pole_re (hp _ (List.getElem_mem hi))) (P0 i) rfl
      (fun n => (hP n).1 i hi) m
  have mw := medium_work hT he (fun n => value R n a.e q) n poles hp
  have am := (hP n).2
  unfold DispersiveAmpere at am
  rw [hPs, hPs] at am
  rw [← mw, ← am]
  unfold meanOver
  ring

/-- **C90.** A passive dispersive medium never gives back more energy than it has taken: up to any step, the work that the field has
done on the polarisation currents of an edge - the current that the curl of the magnetic field shows less displacement and conduction
current - is not negative. -/
theorem medium_passive (hk : Physical k) (h : setup k J X = some R) (ho : OrdinaryBlocks X.file.cards) (hT : 0 < R.dt) {a : Axis} {q : Axis → Int}
    {e s u : ℝ} {poles : List DPole} (hm : RelaxingEdge X a q (.dispersive e s u poles)) (n : ℕ) :
    0 ≤ ∑ m ∈ range n, meanOver R m a.e q *
      (rotH X (value R m) a q - e * k.eps0 * ((value R (m + 1) a.e q - value R m a.e q) / R.dt) - s * meanOver R m a.e q) := by
  have hp := hm.2.2.2.2.2.2.2.2.2.2
  have he := eps0_pos hk
  have key : ∀ n, wells R.dt k.eps0 poles (fun n => value R n a.e q) n ≤ R.dt * ∑ m ∈ range n, meanOver R m a.e q *
      (rotH X (value R m) a q - e * k.eps0 * ((value R (m + 1) a.e q - value R m a.e q) / R.dt) - s * meanOver R m a.e q) := by
    intro n
    induction n with
    | zero =>
      rw [Finset.sum_range_zero, mul_zero]
      refine le_of_eq (List.sum_eq_zero ?_)
      intro x hx
      obtain ⟨p, -, rfl⟩ := List.mem_map.1 hx
      simp [well, psi]
    | succ n ih =>
      rw [Finset.sum_range_succ, mul_add, relaxing_edge hk h ho hT hm n]
      have : 0 ≤ sinks R.dt k.eps0 poles (fun n => value R n a.e q) n := List.sum_nonneg fun x hx => by
        obtain ⟨p, hpm, rfl⟩ := List.mem_map.1 hx
        exact sink_nonneg hT he (hp p hpm) _ _
      linarith
  have w0 : 0 ≤ wells R.dt k.eps0 poles (fun n => value R n a.e q) n := List.sum_nonneg fun x hx => by
    obtain ⟨p, hpm, rfl⟩ := List.mem_map.1 hx
    exact well_nonneg he (hp p hpm) _
  exact nonneg_of_mul_nonneg_right (w0.trans (key n)) hT

/-! ### Closed models -/

theorem relaxing_stuff {a : Axis} {q : Axis → Int} {stuff : Stuff} (hm : RelaxingEdge X a q stuff) : ∃ e s u poles, stuff = .dispersive e s u poles := by
  obtain ⟨-, -, -, -, -, -, -, hm⟩ := hm
  cases stuff
  · exact hm.elim
  · exact hm.elim
  · exact hm.elim
  · exact ⟨_, _, _, _, rfl⟩

/-- Energy balance of any edge. -/
theorem edge_balance (hk : Physical k) (h : setup k J X = some R) (ho : OrdinaryBlocks X.file.cards) (hT : 0 < R.dt) {a : Axis} {q : Axis → Int} {stuff : Stuff}
    (hm : PlainEdge X a q stuff ∨ MetalEdge X a q stuff ∨ RelaxingEdge X a q stuff) :
    ∃ W D : ℕ → ℝ, W 0 = 0 ∧ (∀ n, 0 ≤ W n) ∧ (∀ n, 0 ≤ D n) ∧ ∀ V n,
      1 / 2 * (V * instantPermittivity k stuff * value R (n + 1) a.e q ^ 2) =
      1 / 2 * (V * instantPermittivity k stuff * value R n a.e q ^ 2) +
        R.dt * (V * (meanOver R n a.e q * rotH X (value R n) a q)) +
        (-R.dt) * (V * staticConductivity stuff * meanOver R n a.e q ^ 2 + V * (meanOver R n a.e q * totalCurrent X R.dt (n * R.dt) a.e q)) +
        ((-1) * (V * (W (n + 1) - W n)) + (-1) * (V * D n)) := by
  rcases hm with hm | ⟨hi, hn, hm, hx, rfl⟩ | hm
  · refine ⟨0, 0, rfl, fun _ => le_rfl, fun _ => le_rfl, fun V n => ?_⟩
    have nd : instantPermittivity k stuff = permittivity k stuff ∧ staticConductivity stuff = conductivity stuff := by
      cases stuff
      · exact ⟨rfl, rfl⟩
      · exact ⟨rfl, rfl⟩
      · exact ⟨rfl, rfl⟩
      · rcases hm with ⟨-, -, hm⟩ | ⟨-, -, hm⟩
        · exact hm.elim
        · cases hm
    have := C80.edge_work hk h ho hT hm V n
    rw [nd.1, nd.2]
    simp only [Pi.zero_apply]
    linarith
  · refine ⟨0, 0, rfl, fun _ => le_rfl, fun _ => le_rfl, fun V n => ?_⟩
    have z : ∀ n, value R n a.e q = 0 := fun n => C64.metal_dark h ho hi (by cases a <;> simp [Axis.e]) hm (fun f hf ho => hn ⟨f, hf, ho⟩) hx n
    unfold meanOver
    rw [z, z]
    simp
  · obtain ⟨e, s, u, poles, rfl⟩ := relaxing_stuff hm
    have hp := hm.2.2.2.2.2.2.2.2.2.2
    have he := eps0_pos hk
    refine ⟨wells R.dt k.eps0 poles (fun n => value R n a.e q), sinks R.dt k.eps0 poles (fun n => value R n a.e q), ?_, fun n => ?_, fun n => ?_, fun V n => ?_⟩
    · refine List.sum_eq_zero ?_
      intro x hx
      obtain ⟨p, -, rfl⟩ := List.mem_map.1 hx
      simp [well, psi]
    · refine List.sum_nonneg fun x hx => ?_
      obtain ⟨p, hpm, rfl⟩ := List.mem_map.1 hx
      exact well_nonneg he (hp p hpm) _
    · refine List.sum_nonneg fun x hx => ?_
      obtain ⟨p, hpm, rfl⟩ := List.mem_map.1 hx
      exact sink_nonneg hT he (hp p hpm) _ _
    · have rl := relaxing_edge hk h ho hT hm n
      have nc := C75.no_current (X := X) hm.2.2.2.2.2.1 R.dt (n * R.dt)
      rw [nc]
      have hT' := hT.ne'
      unfold meanOver at rl ⊢
      simp only [instantPermittivity, staticConductivity]
      have e1 : R.dt * ((value R n a.e q + value R (n + 1) a.e q) / 2 * (e * k.eps0 * ((value R (n + 1) a.e q - value R n a.e q) / R.dt))) =
          1 / 2 * (e * k.eps0 * value R (n + 1) a.e q ^ 2) - 1 / 2 * (e * k.eps0 * value R n a.e q ^ 2) := by field_simp; ring
      linear_combination (-V) * rl - V * e1

theorem instant_ge (hk : Physical k) {a : Axis} {q : Axis → Int} {stuff : Stuff}
    (hm : PlainEdge X a q stuff ∨ MetalEdge X a q stuff ∨ RelaxingEdge X a q stuff) : k.eps0 ≤ instantPermittivity k stuff ∧ 0 ≤ staticConductivity stuff := by
  have he := eps0_pos hk
  rcases hm with hm | ⟨-, -, -, -, rfl⟩ | hm
  · have a1 := C87.eps_ge hk hm
    have a2 := C87.sigma_ge hm
    cases stuff
    · exact ⟨a1, a2⟩
    · exact ⟨a1, a2⟩
    · exact ⟨a1, a2⟩
    · rcases hm with ⟨-, -, hm⟩ | ⟨-, -, hm⟩
      · exact hm.elim
      · cases hm
  · exact ⟨le_rfl, le_rfl⟩
  · obtain ⟨e, s, u, poles, rfl⟩ := relaxing_stuff hm
    obtain ⟨-, -, -, -, -, -, -, e1, s0, -⟩ := hm
    exact ⟨by simp only [instantPermittivity]; nlinarith, s0⟩

theorem _root_.Vulture.Spec.RelaxingModel.shell (hm : RelaxingModel k X R.dt M mu) (h : setup k J X = some R) (ho : OrdinaryBlocks X.file.cards) : C87.Shell k X R mu where
  sides := hm.sides
  ends := hm.ends
  walls a q hq hp n := by
    have e := hm.edges a q hq
    rw [hm.walls a q hq hp] at e
    rcases e with (⟨-, -, e⟩ | ⟨o, mm, -⟩) | ⟨hi, hn, hm, hx, -⟩ | ⟨-, -, -, -, -, -, -, e⟩
    · exact e.elim
    · exact C73.metal_zero h ho o mm n
    · exact C64.metal_dark h ho hi (by cases a <;> simp [Axis.e]) hm (fun f hf ho => hn ⟨f, hf, ho⟩) hx n
    · exact e.elim
  squares := hm.squares

section
variable (h : setup k J X = some R) (hl : Increasing X) (hm : RelaxingModel k X R.dt M mu) (ho : OrdinaryBlocks X.file.cards)
variable (hk : Physical k) (hT : 0 < R.dt)

include hk hm in
theorem eps_all (a : Axis) (q : Axis → Int) (hq : ∀ d, q d ∈ meshRange X a.e d) : k.eps0 ≤ instantPermittivity k (M a q) :=
  (instant_ge hk (hm.edges a q hq)).1

include hk hm h ho hT hl in
/-- The energy in the poles of the whole mesh, and what their relaxation takes. -/
theorem pools : ∃ W D : ℕ → ℝ, W 0 = 0 ∧ (∀ n, 0 ≤ W n) ∧ (∀ n, 0 ≤ D n) ∧ ∀ n,
    1 / 2 * allE X (fun a q => edgeShare X a q * instantPermittivity k (M a q) * value R (n + 1) a.e q ^ 2) =
    1 / 2 * allE X (fun a q => edgeShare X a q * instantPermittivity k (M a q) * value R n a.e q ^ 2) +
      R.dt * allE X (fun a q => edgeShare X a q * (meanOver R n a.e q * rotH X (value R n) a q)) -
      totalHeat X R (fun a q => staticConductivity (M a q)) n -
      R.dt * allE X (fun a q => edgeShare X a q * (meanOver R n a.e q * totalCurrent X R.dt (n * R.dt) a.e q)) - (W (n + 1) - W n + D n) := by
  have ex : ∀ (a : Axis) (q : Axis → Int), ∃ W D : ℕ → ℝ, (∀ d, q d ∈ meshRange X a.e d) → W 0 = 0 ∧ (∀ n, 0 ≤ W n) ∧ (∀ n, 0 ≤ D n) ∧ ∀ V n,
      1 / 2 * (V * instantPermittivity k (M a q) * value R (n + 1) a.e q ^ 2) =
      1 / 2 * (V * instantPermittivity k (M a q) * value R n a.e q ^ 2) +
        R.dt * (V * (meanOver R n a.e q * rotH X (value R n) a q)) +
        (-R.dt) * (V * staticConductivity (M a q) * meanOver R n a.e q ^ 2 + V * (meanOver R n a.e q * totalCurrent X R.dt (n * R.dt) a.e q)) +
        ((-1) * (V * (W (n + 1) - W n)) + (-1) * (V * D n)) := by
    intro a q
    by_cases hq : ∀ d, q d ∈ meshRange X a.e d
    · obtain ⟨W, D, hh⟩ := edge_balance hk h ho hT (hm.edges a q hq)
      exact ⟨W, D, fun _ => hh⟩
    · exact ⟨0, 0, fun c => absurd c hq⟩
  choose W D hWD using ex
  refine ⟨fun n => allE X fun a q => edgeShare X a q * W a q n, fun n => allE X fun a q => edgeShare X a q * D a q n, ?_, fun n => ?_, fun n => ?_, fun n => ?_⟩
  · rw [← C87.allE_zero (X := X)]
    exact C87.allE_congr fun a q hq => by rw [(hWD a q hq).1, mul_zero]
  · exact C87.allE_nonneg fun a q hq => mul_nonneg (C87.share_e_pos h hl (hm.shell h ho) hq).le ((hWD a q hq).2.1 n)
  · exact C87.allE_nonneg fun a q hq => mul_nonneg (C87.share_e_pos h hl (hm.shell h ho) hq).le ((hWD a q hq).2.2.1 n)
  · have eE := C87.allE_congr (X := X) fun a q hq => (hWD a q hq).2.2.2 (edgeShare X a q) n
    have sp : allE X (fun a q => edgeShare X a q * (W a q (n + 1) - W a q n)) =
        allE X (fun a q => edgeShare X a q * W a q (n + 1)) - allE X (fun a q => edgeShare X a q * W a q n) := by
      have := C87.allE_add (X := X) (fun a q => edgeShare X a q * (W a q (n + 1) - W a q n)) (fun a q => edgeShare X a q * W a q n)
      rw [C87.allE_congr (g := fun a q => edgeShare X a q * W a q (n + 1)) fun a q _ => by ring] at this
      linarith
    simp only [C87.allE_smul, C87.allE_add] at eE
    rw [sp] at eE
    unfold totalHeat
    linear_combination eE

include hk ho hT hl h hm in
/-- **C90.** The energy in the fields of a closed model never exceeds the work that its currents have done, less the heat. -/
theorem energy_passive (n : ℕ) :
    totalEnergy X R (fun a q => instantPermittivity k (M a q)) mu n ≤
      ∑ m ∈ range (n + 1), (totalWork X R m - totalHeat X R (fun a q => staticConductivity (M a q)) m) := by
  obtain ⟨W, D, W0, hW, hD, hB⟩ := pools h hl hm ho hk hT
  have key : ∀ n, totalEnergy X R (fun a q => instantPermittivity k (M a q)) mu n + W (n + 1) ≤
      ∑ m ∈ range (n + 1), (totalWork X R m - totalHeat X R (fun a q => staticConductivity (M a q)) m) := by
    intro n
    induction n with
    | zero =>
      rw [Finset.sum_range_one]
      have eE := hB 0
      have z : ∀ fc q, value R 0 fc q = 0 := fun _ _ => rfl
      have r0 : ∀ a q, rotH X (value R 0) a q = 0 := by intro a q; unfold rotH; simp only [z]; ring
      have e1 : allE X (fun a q => edgeShare X a q * instantPermittivity k (M a q) * value R 0 a.e q ^ 2) = 0 := by
        rw [← C87.allE_zero (X := X)]; exact C87.allE_congr fun a q _ => by rw [z]; ring
      have e2 : allE X (fun a q => edgeShare X a q * (meanOver R 0 a.e q * rotH X (value R 0) a q)) = 0 := by
        rw [← C87.allE_zero (X := X)]; exact C87.allE_congr fun a q _ => by rw [r0]; ring
      have e3 : allH X (fun a q => squareShare X a q * mu a q * (value R 0 a.h q * value R (0 + 1) a.h q)) = 0 := by
        rw [← C87.allH_zero (X := X)]; exact C87.allH_congr fun a q _ => by rw [z]; ring
      have e4 : allH X (fun a q => squareShare X a q * (value R 0 a.h q *
          ((totalCurrent X R.dt (((0 : ℕ) - 1 / 2) * R.dt) a.h q + totalCurrent X R.dt (((0 : ℕ) + 1 / 2) * R.dt) a.h q) / 2))) = 0 := by
        rw [← C87.allH_zero (X := X)]; exact C87.allH_congr fun a q _ => by rw [z]; ring
      rw [e1, e2, W0] at eE
      have d0 := hD 0
      unfold totalEnergy totalWork
      rw [e3, e4]
      linarith
    | succ n ih =>
      rw [Finset.sum_range_succ]
      have hc := C87.mean_curls h hl (hm.shell h ho) ho (n + 1)
      have eE := hB (n + 1)
      have eH := C87.allH_congr (X := X) fun a q hq => C80.square_work hk h ho hT hl (hm.squares a q hq) (squareShare X a q) n
      simp only [C87.allH_smul, C87.allH_add] at eH
      have d0 := hD (n + 1)
      have hc' := congrArg (R.dt * ·) hc
      unfold totalEnergy totalWork at ih ⊢
      linarith
  have := key n
  have := hW (n + 1)
  linarith

include hk ho hT hl h hm in
/-- The quantity that only the currents can increase. -/
theorem driven : ∃ G : ℕ → ℝ, (∀ n, C87.form X R (fun a q => instantPermittivity k (M a q)) mu n ≤ G n) ∧ C87.Driven X R G := by
  obtain ⟨W, D, W0, hW, hD, hB⟩ := pools h hl hm ho hk hT
  refine ⟨fun n => C87.form X R (fun a q => instantPermittivity k (M a q)) mu n + W (n + 1), fun n => by have := hW (n + 1); linarith, fun n => ?_⟩
  have hc := C87.mean_curls h hl (hm.shell h ho) ho (n + 1)
  have eE := hB (n + 1)
  have eH := C87.allH_congr (X := X) fun a q hq => C87.square_form h ho hk hT (hm.squares a q hq) (squareShare X a q) n
  simp only [C87.allH_smul, C87.allH_add] at eH
  have d0 := hD (n + 1)
  have hc' := congrArg (R.dt * ·) hc
  have h0 : 0 ≤ totalHeat X R (fun a q => staticConductivity (M a q)) (n + 1) := by
    refine mul_nonneg hT.le (C87.allE_nonneg fun a q hq => ?_)
    have p := C87.share_e_pos h hl (hm.shell h ho) hq
    have := (instant_ge hk (hm.edges a q hq)).2
    positivity
  unfold C87.form storedEnergy
  linarith

include hk ho hT hl h hm in
/-- **C90.** Below the Courant limit the fields of a closed model stay bounded for ever if the impressed currents fade away. -/
theorem never_blows_up (hcn : 0 < X.cn) (hlt : X.cn < 1) (hb : Representable k X)
    (hJ : ∀ (a : Axis) (q : Axis → Int), (∀ d, q d ∈ meshRange X a.e d) → Summable fun n : ℕ => |totalCurrent X R.dt (n * R.dt) a.e q|)
    (hM : ∀ (a : Axis) (q : Axis → Int), (∀ d, q d ∈ meshRange X a.h d) → Summable fun n : ℕ => |totalCurrent X R.dt ((n + 1 / 2) * R.dt) a.h q|) :
    ∃ B, ∀ (n : ℕ) (fc : Fc) (q : Axis → Int), SampleInMesh X fc q → |value R n fc q| ≤ B := by
  obtain ⟨G, hG, hst⟩ := driven h hl hm ho hk hT
  exact C87.stays_bounded h hl (hm.shell h ho) ho hk hT (eps_all hm hk) hG hst hcn hlt hb hJ hM

include hk ho hT hl h hm in
/-- **C90.** Pulses in a closed model with dispersive media: below the Courant limit no sample ever leaves a fixed range. -/
theorem pulses_stay_bounded (hcn : 0 < X.cn) (hlt : X.cn < 1) (hb : Representable k X) (hw : ∀ n, C56.Pulse (X.waves n)) :
    ∃ B, ∀ (n : ℕ) (fc : Fc) (q : Axis → Int), SampleInMesh X fc q → |value R n fc q| ≤ B := by
  refine never_blows_up h hl hm ho hk hT hcn hlt hb (fun a q _ => ?_) (fun a q _ => ?_)
  · exact (C87.pulses_fade hT hw 0 a.e q).congr fun n => by rw [add_zero]
  · exact (C87.pulses_fade hT hw (1 / 2 * R.dt) a.h q).congr fun n => by rw [← add_mul]

end
end Vulture.C90
