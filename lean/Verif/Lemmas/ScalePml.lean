import Verif.Lemmas.ScaleGrid
set_option linter.unusedSimpArgs false
set_option linter.unusedVariables false
/- Coefficients of absorbing layers, Mur boundaries and of media in another unit of length. -/
namespace Vulture.Scaling
open Spec Setup

section
variable {r : ℝ}

theorem pmlAt_scale (hr : 0 < r) (dt eps0 eta0 total mesh : ℝ) (p : PmlParams) (d : ℝ) :
    pmlAt (r * dt) eps0 eta0 (r * total) (r * mesh) p (r * d) = pmlAt dt eps0 eta0 total mesh p d := by
  have h0 : r ≠ 0 := hr.ne'
  have e1 : r * d / (r * total) = d / total := mul_div_mul_left _ _ h0
  unfold pmlAt
  rw [e1]
  congr 1
  unfold pmlSigmaProfile
  split
  · rw [show 2 * eta0 * p.nEff * (r * total) = r * (2 * eta0 * p.nEff * total) by ring]
    generalize 2 * eta0 * p.nEff * total = D
    by_cases hD : D = 0
    · subst hD; simp
    · rw [show (0.5 : ℝ) * (r * dt) / eps0 = r * (0.5 * dt / eps0) by ring]
      generalize (0.5 : ℝ) * dt / eps0 = U
      rw [show -(p.order + 1 : ℝ) / (r * D) = -(p.order + 1 : ℝ) / D / r by field_simp]
      field_simp
  · rw [show 5 * eta0 * p.nEff * (r * mesh) = r * (5 * eta0 * p.nEff * mesh) by ring]
    generalize 5 * eta0 * p.nEff * mesh = D
    by_cases hD : D = 0
    · subst hD; simp
    · rw [show (0.5 : ℝ) * (r * dt) / eps0 = r * (0.5 * dt / eps0) by ring]
      generalize (0.5 : ℝ) * dt / eps0 = U
      field_simp

theorem profileLoop_scale {F F' : ℝ → PmlCoef} (hF : ∀ d, F' (r * d) = F d) {delta delta' : Int → ℝ} {low high : Int}
    (hd : ∀ i, low ≤ i → i ≤ high → delta' i = r * delta i) (P : Int → Prop) {st st' : ℝ × Arr PmlCoef} (h1 : st'.1 = r * st.1)
    (h2 : ∀ i, P i → st'.2 i = st.2 i) :
    (profileLoop F' delta' low high st').1 = r * (profileLoop F delta low high st).1 ∧
    ∀ i, P i → (profileLoop F' delta' low high st').2 i = (profileLoop F delta low high st).2 i := by
  unfold profileLoop
  have key : ∀ (l : List Int), (∀ i ∈ l, delta' i = r * delta i) → ∀ (st st' : ℝ × Arr PmlCoef), st'.1 = r * st.1 →
      (∀ i, P i → st'.2 i = st.2 i) →
      (l.foldl (fun st i => (st.1 + delta' i, Arr.set st.2 i (F' st.1))) st').1 =
        r * (l.foldl (fun st i => (st.1 + delta i, Arr.set st.2 i (F st.1))) st).1 ∧
      ∀ i, P i → (l.foldl (fun st i => (st.1 + delta' i, Arr.set st.2 i (F' st.1))) st').2 i =
        (l.foldl (fun st i => (st.1 + delta i, Arr.set st.2 i (F st.1))) st).2 i := by
    intro l
    induction l with
    | nil => intro _ st st' h1 h2; exact ⟨h1, h2⟩
    | cons j l ih =>
      intro hl st st' h1 h2
      rw [List.foldl_cons, List.foldl_cons]
      refine ih (fun i hi => hl i (by simp [hi])) _ _ ?_ ?_
      · show st'.1 + delta' j = r * (st.1 + delta j)
        rw [hl j (by simp), h1]; ring
      · intro i hi
        show Arr.set st'.2 j (F' st'.1) i = Arr.set st.2 j (F st.1) i
        unfold Arr.set
        rw [h1, hF, h2 i hi]
  exact key _ (fun i hi => hd i (mem_intRange.1 hi).1 (mem_intRange.1 hi).2) st st' h1 h2

theorem foldl_sum_scale (A A' : Arr ℝ) (l : List Int) (hA : ∀ i ∈ l, A' i = r * A i) (s : ℝ) :
    l.foldl (fun t i => t + A' i) (r * s) = r * l.foldl (fun t i => t + A i) s := by
  induction l generalizing s with
  | nil => rfl
  | cons j l ih =>
    rw [List.foldl_cons, List.foldl_cons, hA j (by simp), ← mul_add]
    exact ih (fun i hi => hA i (by simp [hi])) _

theorem setProfile_scale (hr : 0 < r) {dt eps0 eta0 : ℝ} {de de' dh dh' : Arr ℝ} {low high : Int} (up : Bool) (p : PmlParams)
    {A A' : PmlArrays} (P : Int → Prop) (hde : ∀ i, low ≤ i → i ≤ high → de' i = r * de i) (hlow : de' low = r * de low)
    (hdh : ∀ i, low ≤ i → i ≤ high → dh' i = r * dh i) (hn : ∀ i, P i → A'.node i = A.node i)
    (hh : ∀ i, P i → A'.half i = A.half i) :
    (∀ i, P i → (setProfile (r * dt) eps0 eta0 de' dh' low high up p A').node i =
      (setProfile dt eps0 eta0 de dh low high up p A).node i) ∧
    ∀ i, P i → (setProfile (r * dt) eps0 eta0 de' dh' low high up p A').half i =
      (setProfile dt eps0 eta0 de dh low high up p A).half i := by
  have et : (intRange low high).foldl (fun t i => t + de' i) 0 = r * (intRange low high).foldl (fun t i => t + de i) 0 := by
    have := foldl_sum_scale (r := r) de de' (intRange low high)
      (fun i hi => hde i (mem_intRange.1 hi).1 (mem_intRange.1 hi).2) 0
    rwa [mul_zero] at this
  have hF : ∀ total d, pmlAt (r * dt) eps0 eta0 (r * total) (de' low) p (r * d) = pmlAt dt eps0 eta0 total (de low) p d := by
    intro total d; rw [hlow]; exact pmlAt_scale hr ..
  unfold setProfile
  simp only [et]
  generalize (intRange low high).foldl (fun t i => t + de i) 0 = total
  have dirs : ∀ u : Bool, ∀ i, low ≤ i → i ≤ high → (if u then (1 : ℝ) else -1) * de' i = r * ((if u then (1 : ℝ) else -1) * de i) ∧
      (if u then (1 : ℝ) else -1) * dh' i = r * ((if u then (1 : ℝ) else -1) * dh i) := by
    intro u i h1 h2; rw [hde i h1 h2, hdh i h1 h2]; constructor <;> ring
  have N := profileLoop_scale (st := (if up then 0 else total, A.node)) (st' := (if up then 0 else r * total, A'.node))
    (hF total) (fun i h1 h2 => (dirs up i h1 h2).1) P (by cases up <;> simp) hn
  have H := profileLoop_scale (st := (if up then 0.5 * de low else total - 0.5 * de low, A.half))
    (st' := (if up then 0.5 * de' low else r * total - 0.5 * de' low, A'.half))
    (hF total) (fun i h1 h2 => (dirs up i h1 h2).2) P (by cases up <;> simp [hlow] <;> ring) hh
  refine ⟨fun i hi => ?_, fun i hi => H.2 i hi⟩
  cases up
  · exact N.2 i hi
  · simp only [if_true] at N ⊢
    unfold Arr.set
    rw [N.1, hF, N.2 i hi]

variable {k : Consts} {J J' : Junk} {X X' : Experiment} {c : Cfg}

theorem Rel.pml (h : Rel k c r X X') (J J' : Junk) {a : Axis} {i : Int} (hi : 0 ≤ i ∧ i < c.numCells a) :
    (Setup.pml k J' X' c a).node i = (Setup.pml k J X c a).node i ∧
    (Setup.pml k J' X' c a).half i = (Setup.pml k J X c a).half i := by
  have f := cfg_facts h.valid a
  have hde : ∀ i, 1 ≤ i → i ≤ c.gobox a.hi → Setup.de k J' X' c a i = r * Setup.de k J X c a i := fun i h1 h2 =>
    h.de J J' ⟨by omega, by omega⟩
  have hdh : ∀ i, 1 ≤ i → i ≤ c.gobox a.hi → Setup.dh k J' X' c a i = r * Setup.dh k J X c a i := fun i h1 h2 =>
    h.dh J J' ⟨by omega, by omega⟩
  unfold Setup.pml setPmlParameters
  rw [h.dt J J', h.par]
  simp only
  generalize hA : (⟨(J.pml a).node.fill (c.gobox a.lo - 1) (c.gobox a.hi) fun _ _ => ⟨0, 1, 1, 1, 1⟩,
    (J.pml a).half.fill (c.gobox a.lo - 1) (c.gobox a.hi) fun _ _ => ⟨0, 1, 1, 1, 1⟩⟩ : PmlArrays) = A
  generalize hA' : (⟨(J'.pml a).node.fill (c.gobox a.lo - 1) (c.gobox a.hi) fun _ _ => ⟨0, 1, 1, 1, 1⟩,
    (J'.pml a).half.fill (c.gobox a.lo - 1) (c.gobox a.hi) fun _ _ => ⟨0, 1, 1, 1, 1⟩⟩ : PmlArrays) = A'
  let P : Int → Prop := fun i => 0 ≤ i ∧ i < c.numCells a
  have s0 : (∀ i, P i → A'.node i = A.node i) ∧ ∀ i, P i → A'.half i = A.half i := by
    subst hA; subst hA'
    constructor
    all_goals
      intro i hi
      have hi : 0 ≤ i ∧ i < c.numCells a := hi
      simp only [C18.fill_apply]
      rw [if_pos ⟨by omega, by omega⟩, if_pos ⟨by omega, by omega⟩]
  have s1 : ∀ (B B' : PmlArrays), ((∀ i, P i → B'.node i = B.node i) ∧ ∀ i, P i → B'.half i = B.half i) →
      ∀ (low high : Int) (up : Bool) (p : PmlParams), 1 ≤ low → low ≤ c.gobox a.hi → high ≤ c.gobox a.hi →
      (∀ i, P i → (setProfile (r * Setup.dt k J X c) k.eps0 k.eta0 (Setup.de k J' X' c a) (Setup.dh k J' X' c a) low high up p B').node i =
        (setProfile (Setup.dt k J X c) k.eps0 k.eta0 (Setup.de k J X c a) (Setup.dh k J X c a) low high up p B).node i) ∧
      ∀ i, P i → (setProfile (r * Setup.dt k J X c) k.eps0 k.eta0 (Setup.de k J' X' c a) (Setup.dh k J' X' c a) low high up p B').half i =
        (setProfile (Setup.dt k J X c) k.eps0 k.eta0 (Setup.de k J X c a) (Setup.dh k J X c a) low high up p B).half i := by
    intro B B' hB low high up p h1 h2 h3
    exact setProfile_scale h.pos up p P (fun i a b => hde i (by omega) (by omega)) (hde low h1 h2)
      (fun i a b => hdh i (by omega) (by omega)) hB.1 hB.2
  by_cases hl : c.bt a.lo = .pml
  · have t := s1 A A' s0 (c.gobox a.lo) (c.gibox a.lo - 1) false (X.par a.lo) (by omega) (by omega) (by omega)
    by_cases hh : c.bt a.hi = .pml
    · have t := s1 _ _ t (c.gibox a.hi) (c.gobox a.hi - 1) true (X.par a.hi) (by omega) (by omega) (by omega)
      simp only [hl, hh, if_true]
      exact ⟨t.1 i hi, t.2 i hi⟩
    · simp only [hl, hh, if_true, if_false]
      exact ⟨t.1 i hi, t.2 i hi⟩
  · by_cases hh : c.bt a.hi = .pml
    · have t := s1 _ _ s0 (c.gibox a.hi) (c.gobox a.hi - 1) true (X.par a.hi) (by omega) (by omega) (by omega)
      simp only [hl, hh, if_true, if_false]
      exact ⟨t.1 i hi, t.2 i hi⟩
    · simp only [hl, hh, if_false]
      exact ⟨s0.1 i hi, s0.2 i hi⟩

theorem Rel.zeta (h : Rel k c r X X') (J J' : Junk) (f : Face) :
    murZeta k.c0 (Setup.dt k J' X' c) c (Setup.de k J' X' c) f = murZeta k.c0 (Setup.dt k J X c) c (Setup.de k J X c) f := by
  unfold murZeta
  simp only
  have hd : ∀ i, (0 ≤ i ∧ i < c.numCells f.axis) → (k.c0 * Setup.dt k J' X' c - Setup.de k J' X' c f.axis i) /
      (k.c0 * Setup.dt k J' X' c + Setup.de k J' X' c f.axis i) = (k.c0 * Setup.dt k J X c - Setup.de k J X c f.axis i) /
      (k.c0 * Setup.dt k J X c + Setup.de k J X c f.axis i) := by
    intro i hi
    rw [h.dt J J', h.de J J' hi, show k.c0 * (r * Setup.dt k J X c) - r * Setup.de k J X c f.axis i =
      r * (k.c0 * Setup.dt k J X c - Setup.de k J X c f.axis i) by ring,
      show k.c0 * (r * Setup.dt k J X c) + r * Setup.de k J X c f.axis i =
      r * (k.c0 * Setup.dt k J X c + Setup.de k J X c f.axis i) by ring, mul_div_mul_left _ _ h.pos.ne']
  have fx := cfg_facts h.valid .x; have fy := cfg_facts h.valid .y; have fz := cfg_facts h.valid .z
  simp only [Axis.lo, Axis.hi] at fx fy fz
  refine hd _ ?_
  split
  · cases f <;> simp only [Face.axis, Axis.lo, getFaceOfBoundingBox, mkBox] <;> constructor <;> omega
  · cases f <;> simp only [Face.axis] <;> omega

/-! ### Media -/

/-- Coefficients in the other unit. -/
def scaleCoef (r : ℝ) (q : Coef ℝ) : Coef ℝ := ⟨q.alpha, r * q.beta, r * q.gamma⟩

theorem calcCoeff_scale (hr : 0 < r) (T eps0 mu0 : ℝ) (t : MType) (e s m q : ℝ) :
    calcCoeff (r * T) eps0 mu0 ⟨t, e, s / r, m, q / r⟩ = scaleCoef r (calcCoeff T eps0 mu0 ⟨t, e, s, m, q⟩) := by
  have h0 : r ≠ 0 := hr.ne'
  unfold calcCoeff scaleCoef
  simp only
  have e1 : 2 * (q / r) * (r * T) = 2 * q * T := by field_simp
  have e2 : r * T * (s / r) = T * s := by field_simp
  rw [e1, e2]
  congr 1
  · ring
  · ring

theorem debyeSum_scale (hr : 0 < r) (T eps0 : ℝ) (q : List DPole) :
    debyeSum (r * T) eps0 (q.map fun p => ⟨p.res / r, p.pole / r⟩) = debyeSum T eps0 q / r := by
  have h0 : (r : ℂ) ≠ 0 := by exact_mod_cast hr.ne'
  have one : ∀ p : DPole, (dbeta (r * T) eps0 ⟨p.res / r, p.pole / r⟩).re = (dbeta T eps0 p).re / r := by
    intro p
    have : dbeta (r * T) eps0 ⟨p.res / r, p.pole / r⟩ = dbeta T eps0 p / r := by
      unfold dbeta
      simp only
      push_cast
      rw [show (1 : ℂ) / 2 * (r * T) * (p.pole / r) = 1 / 2 * T * p.pole by field_simp]
      rw [div_div, mul_comm _ (r : ℂ), ← mul_div_assoc, div_div]
    rw [this, Complex.div_ofReal_re]
  unfold debyeSum
  have key : ∀ (l : List DPole) (z : ℝ), (l.map fun p => (⟨p.res / r, p.pole / r⟩ : DPole)).foldl
      (fun acc q => acc + (dbeta (r * T) eps0 q).re) (z / r) = (l.foldl (fun acc q => acc + (dbeta T eps0 q).re) z) / r := by
    intro l
    induction l with
    | nil => intro z; rfl
    | cons p l ih =>
      intro z
      rw [List.map_cons, List.foldl_cons, List.foldl_cons, one, ← add_div]
      exact ih _
  have := key q 0
  rwa [zero_div] at this

theorem medCoef_scale (hr : 0 < r) (k : Consts) (T : ℝ) (m : Deck.Med) :
    medCoef k (r * T) (scaleMed r m) = scaleCoef r (medCoef k T m) := by
  cases m with
  | free => unfold medCoef scaleMed scaleCoef; simp only; congr 1 <;> ring
  | pec => unfold medCoef scaleMed scaleCoef; simp only; congr 1 <;> ring
  | simple e s m =>
    have := calcCoeff_scale hr T k.eps0 k.mu0 .simple e s m 0
    rw [zero_div] at this
    exact this
  | debye e s m q =>
    simp only [medCoef, scaleMed, debyeMedium, debyeSum_scale hr]
    exact calcCoeff_scale hr ..

theorem resistCoef_scale (hr : 0 < r) (T eps0 mu0 s : ℝ) :
    resistCoef (r * T) eps0 mu0 (s / r) = scaleCoef r (resistCoef T eps0 mu0 s) := by
  have := calcCoeff_scale hr T eps0 mu0 .simple 1 s 1 0
  rw [zero_div] at this
  exact this

end
end Vulture.Scaling
