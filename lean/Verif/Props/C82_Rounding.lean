import Verif.Spec.Rounding
import Verif.Props.C57_Sample
set_option linter.unusedSimpArgs false
set_option linter.unusedVariables false
/-
C82 Rounding errors in a cavity add up, they are not amplified: the accumulated error, measured by its energy, is at most a
fixed factor times the sum of the errors made in the single steps.
-/
namespace Vulture.C82
open Spec Setup Deck Scaling CavityLemmas Finset Energy C17

/-! ### Quadratic forms along a plane of states -/

/-- A quadratic form in two numbers. -/
def Quad (f : ℝ → ℝ → ℝ) : Prop := ∃ a b c : ℝ, ∀ x y, f x y = a * x ^ 2 + b * x * y + c * y ^ 2

theorem Quad.add {f h : ℝ → ℝ → ℝ} (hf : Quad f) (hh : Quad h) : Quad fun x y => f x y + h x y := by
  obtain ⟨a, b, c, hf⟩ := hf
  obtain ⟨a', b', c', hh⟩ := hh
  exact ⟨a + a', b + b', c + c', fun x y => by dsimp only; rw [hf, hh]; ring⟩

theorem Quad.smul {f : ℝ → ℝ → ℝ} (t : ℝ) (hf : Quad f) : Quad fun x y => t * f x y := by
  obtain ⟨a, b, c, hf⟩ := hf
  exact ⟨t * a, t * b, t * c, fun x y => by dsimp only; rw [hf]; ring⟩

theorem Quad.sum {ι : Type} (s : Finset ι) {f : ι → ℝ → ℝ → ℝ} (hf : ∀ i, Quad (f i)) : Quad fun x y => ∑ i ∈ s, f i x y := by
  choose a b c h using hf
  refine ⟨∑ i ∈ s, a i, ∑ i ∈ s, b i, ∑ i ∈ s, c i, fun x y => ?_⟩
  simp only [h, sum_add_distrib, ← sum_mul]

theorem Quad.sum3 (p q r : ℕ) {f : ℕ → ℕ → ℕ → ℝ → ℝ → ℝ} (hf : ∀ i j k, Quad (f i j k)) :
    Quad fun x y => Energy.sum3 p q r fun i j k => f i j k x y :=
  Quad.sum _ fun i => Quad.sum _ fun j => Quad.sum _ fun k => hf i j k

/-- A linear form in two numbers. -/
def Lin (f : ℝ → ℝ → ℝ) : Prop := ∃ a b : ℝ, ∀ x y, f x y = a * x + b * y

theorem Lin.mul {f h : ℝ → ℝ → ℝ} (hf : Lin f) (hh : Lin h) : Quad fun x y => f x y * h x y := by
  obtain ⟨a, b, hf⟩ := hf
  obtain ⟨a', b', hh⟩ := hh
  exact ⟨a * a', a * b' + b * a', b * b', fun x y => by dsimp only; rw [hf, hh]; ring⟩

theorem Lin.smul {f : ℝ → ℝ → ℝ} (t : ℝ) (hf : Lin f) : Lin fun x y => t * f x y := by
  obtain ⟨a, b, hf⟩ := hf
  exact ⟨t * a, t * b, fun x y => by dsimp only; rw [hf]; ring⟩

theorem Lin.div {f : ℝ → ℝ → ℝ} (t : ℝ) (hf : Lin f) : Lin fun x y => f x y / t := by
  obtain ⟨a, b, hf⟩ := hf
  exact ⟨a / t, b / t, fun x y => by dsimp only; rw [hf]; ring⟩

theorem Lin.sub {f h : ℝ → ℝ → ℝ} (hf : Lin f) (hh : Lin h) : Lin fun x y => f x y - h x y := by
  obtain ⟨a, b, hf⟩ := hf
  obtain ⟨a', b', hh⟩ := hh
  exact ⟨a - a', b - b', fun x y => by dsimp only; rw [hf, hh]; ring⟩

/-- A combination of two states. -/
def mix (s t : Loc → ℝ) (x y : ℝ) : Loc → ℝ := fun l => x * s l + y * t l

theorem lin_mix (s t : Loc → ℝ) (l : Loc) : Lin fun x y => mix s t x y l :=
  ⟨s l, t l, fun x y => by unfold mix; ring⟩

section
variable {S : Sim} {C : CRef → ℝ} {g : Filling} (hc : Closed S C g) (m : Axis → ℝ) (hm : ∀ a, 0 < m a)
  (hge : ∀ a i, S.cfg.gibox a.lo ≤ i → i < S.cfg.gibox a.hi → m a ≤ g.de a i)

theorem F_quad (s t : Loc → ℝ) : Quad fun x y => F hc m hm hge (mix s t x y) := by
  unfold F form dotE dotH
  refine (((Quad.sum3 _ _ _ ?_).add (Quad.sum3 _ _ _ ?_)).add (Quad.sum3 _ _ _ ?_)).add
    (((Quad.sum3 _ _ _ ?_).add (Quad.sum3 _ _ _ ?_)).add (Quad.sum3 _ _ _ ?_)) |>.add
    ((((Quad.sum3 _ _ _ ?_).add (Quad.sum3 _ _ _ ?_)).add (Quad.sum3 _ _ _ ?_)).smul _)
  all_goals
    intro i j k
    refine Quad.smul _ (Lin.mul ?_ (lin_mix s t _))
  · exact (lin_mix s t _).smul _
  · exact (lin_mix s t _).smul _
  · exact (lin_mix s t _).smul _
  · exact (lin_mix s t _).smul _
  · exact (lin_mix s t _).smul _
  · exact (lin_mix s t _).smul _
  · exact (((lin_mix s t _).sub (lin_mix s t _)).div _).sub (((lin_mix s t _).sub (lin_mix s t _)).div _)
  · exact (((lin_mix s t _).sub (lin_mix s t _)).div _).sub (((lin_mix s t _).sub (lin_mix s t _)).div _)
  · exact (((lin_mix s t _).sub (lin_mix s t _)).div _).sub (((lin_mix s t _).sub (lin_mix s t _)).div _)

theorem free_mix {s t : Loc → ℝ} (hs : FieldFree C S.cfg.gibox s) (ht : FieldFree C S.cfg.gibox t) (x y : ℝ) :
    FieldFree C S.cfg.gibox (mix s t x y) := by
  intro fc i j k hf hi hb
  unfold mix
  rw [hs fc i j k hf hi hb, ht fc i j k hf hi hb]; ring

/-- Triangle inequality for a nonnegative quadratic form. -/
theorem triangle {f : ℝ → ℝ → ℝ} (hq : Quad f) (h0 : ∀ x y, 0 ≤ f x y) : √(f 1 1) ≤ √(f 1 0) + √(f 0 1) := by
  obtain ⟨a, b, c, hf⟩ := hq
  have ha : f 1 0 = a := by rw [hf]; ring
  have hc : f 0 1 = c := by rw [hf]; ring
  have e : f 1 1 = a + b + c := by rw [hf]; ring
  have ha0 : 0 ≤ a := ha ▸ h0 1 0
  have hc0 : 0 ≤ c := hc ▸ h0 0 1
  have hd : discrim a b c ≤ 0 := by
    refine discrim_le_zero fun x => ?_
    have := h0 x 1
    rw [hf] at this
    nlinarith
  have hb : b ≤ 2 * (√a * √c) := by
    rw [← Real.sqrt_mul ha0]
    unfold discrim at hd
    have h1 : (b / 2) ^ 2 ≤ a * c := by nlinarith
    have := Real.le_sqrt_of_sq_le h1
    linarith
  rw [ha, hc, e]
  refine Real.sqrt_le_iff.2 ⟨by positivity, ?_⟩
  have s1 := Real.sq_sqrt ha0
  have s2 := Real.sq_sqrt hc0
  nlinarith

end

section
variable {k : Consts} {J : Junk} {X : Experiment} {R : Run}

theorem sqrt_factor {a b q r : ℝ} (hq : 0 < q) (h : q * a ≤ r * b) (hr : 0 ≤ r) : √a ≤ √(r / q) * √b := by
  rw [← Real.sqrt_mul (by positivity)]
  refine Real.sqrt_le_sqrt ?_
  rw [div_mul_eq_mul_div, le_div_iff₀ hq]
  linarith

/-- C82: in a cavity run by a machine that rounds, the energy of the accumulated error never exceeds the fixed multiple
`(1+cn)/(1-cn)` of the energy that the errors of the single steps would have if they simply added up; `stored` is the
textbook energy in the media `g` of the cavity. -/
theorem errors_add (hk : Physical k) (h : setup k J X = some R) (hX : Cavity k X) (hlt : X.cn < 1) :
    ∃ g : Filling, Closed (undriven R.sim) R.coefs g ∧ Courant (undriven R.sim) g X.cn ∧ g.dt = R.dt ∧
      ∀ c, Machine R c → ∀ n,
        √(stored g R.sim.cfg.gibox (drift R c n)) ≤
          √((1 + X.cn) / (1 - X.cn)) * ∑ i ∈ range n, √(stored g R.sim.cfg.gibox (slip R c i)) := by
  obtain ⟨g, hc, hC, h3, -⟩ := C56.cavity_closed hk h hX
  obtain ⟨s1, s2⟩ := sources h hX
  refine ⟨g, hc, hC, h3, fun c hM n => ?_⟩
  obtain ⟨e0, m0, m, he, hm0, hm, hge, heps, hmu, hdt⟩ := hC.limit
  have hpos := hC.pos
  set q : (Loc → ℝ) → ℝ := fun s => F hc m hm hge s with hq
  have near := fun {s : Loc → ℝ} (h : FieldFree R.coefs R.sim.cfg.gibox s) =>
    abs_le.1 (form_near hc m hm hge X.cn e0 m0 hC.pos he hm0 hdt heps hmu h)
  have st0 : ∀ s : Loc → ℝ, FieldFree R.coefs R.sim.cfg.gibox s → 0 ≤ stored g R.sim.cfg.gibox s := by
    intro s hs
    have := near hs
    by_contra hneg
    rw [not_le] at hneg
    have e : (undriven R.sim).cfg.gibox = R.sim.cfg.gibox := rfl
    rw [e] at this
    nlinarith [this.1, this.2]
  have q0 : ∀ s : Loc → ℝ, FieldFree R.coefs R.sim.cfg.gibox s → 0 ≤ q s := by
    intro s hs
    have h1 := (near hs).1
    have e : (undriven R.sim).cfg.gibox = R.sim.cfg.gibox := rfl
    rw [e] at h1
    have := st0 s hs
    nlinarith
  -- conductors
  have freeD : ∀ n, FieldFree R.coefs R.sim.cfg.gibox (drift R c n) := by
    intro n fc i j l hf hi hb
    unfold drift
    rw [hM.metal n fc i j l hf hi hb, C56.conductors_free h hX hc n fc i j l hf hi hb]; ring
  have freeS : ∀ n, FieldFree R.coefs R.sim.cfg.gibox (slip R c n) := by
    intro n fc i j l hf hi hb
    have := C45.free_driven hc s1 s2 (s := setInputs (R.drive n) (c n)) (hM.metal n) fc i j l hf hi hb
    have e : driven (undriven R.sim) R.sim.srcs = R.sim := rfl
    rw [e] at this
    unfold slip
    rw [hM.metal (n+1) fc i j l hf hi hb, this]; ring
  -- one step of the error
  have step : ∀ n, drift R c (n + 1) = mix ((undriven R.sim).step.run R.coefs (setInputs (fun _ => 0) (drift R c n))) (slip R c n) 1 1 := by
    intro n
    have lin := run_linear R.coefs (1 : ℝ) (-1) R.sim.step (setInputs (R.drive n) (c n)) (setInputs (R.drive n) (R.fields n))
    have e1 : (fun l => (1 : ℝ) * setInputs (R.drive n) (c n) l + (-1) * setInputs (R.drive n) (R.fields n) l) =
        setInputs (fun _ => 0) (drift R c n) := by
      funext l
      unfold setInputs drift
      split <;> ring
    rw [e1, silent_step (S := R.sim) (C := R.coefs) hc.debye hc.sibc hc.pws s2 (fun p q => by
      simp [setInputs, Loc.isInput])] at lin
    have e2 : R.fields (n + 1) = R.sim.step.run R.coefs (setInputs (R.drive n) (R.fields n)) := rfl
    funext l
    unfold mix
    rw [congrFun lin l]
    unfold drift slip
    rw [e2]; ring
  have grow : ∀ n, √(q (drift R c n)) ≤ ∑ i ∈ range n, √(q (slip R c i)) := by
    intro n
    induction n with
    | zero =>
      have hz : q (drift R c 0) ≤ 0 := by
        have h2 := (near (freeD 0)).2
        have e : (undriven R.sim).cfg.gibox = R.sim.cfg.gibox := rfl
        rw [e] at h2
        have z : ∀ fc i j l, SampleIn R.sim.cfg.gibox fc i j l → drift R c 0 (.fld fc i j l) = 0 := by
          intro fc i j l hi
          unfold drift
          rw [hM.cleared fc i j l hi]
          show (0 : ℝ) - 0 = 0
          ring
        have sz : stored g R.sim.cfg.gibox (drift R c 0) = 0 := by
          have b0 : ∀ fc (w : Int → Int → Int → ℝ), boxSum R.sim.cfg.gibox fc (fun i j l => w i j l * drift R c 0 (.fld fc i j l) ^ 2) = 0 := by
            intro fc w
            unfold boxSum
            refine sum_eq_zero fun i hi => sum_eq_zero fun j hj => sum_eq_zero fun l hl => ?_
            dsimp only
            rw [z fc i j l (by
              rw [mem_Icc] at hi hj hl
              cases fc <;> simp only [pos2] at hi hj hl <;> refine ⟨?_, ?_, ?_⟩ <;> simp only [pos2] <;> omega)]
            ring
          unfold stored sumE sumH
          rw [b0, b0, b0, b0, b0, b0]; ring
        rw [sz] at h2
        linarith
      rw [Real.sqrt_eq_zero_of_nonpos hz]
      simp
    | succ n ih =>
      rw [sum_range_succ, step n]
      set s := (undriven R.sim).step.run R.coefs (setInputs (fun _ => 0) (drift R c n)) with hs
      have fs : FieldFree R.coefs R.sim.cfg.gibox s := fieldFree_step hc (s := setInputs (fun _ => 0) (drift R c n)) (freeD n)
      have tri := triangle (F_quad hc m hm hge s (slip R c n)) fun x y => q0 _ (free_mix (S := R.sim) fs (freeS n) x y)
      have m1 : mix s (slip R c n) 1 0 = s := by funext l; unfold mix; ring
      have m2 : mix s (slip R c n) 0 1 = slip R c n := by funext l; unfold mix; ring
      rw [m1, m2] at tri
      refine tri.trans (add_le_add ?_ (le_refl _))
      refine le_trans (Real.sqrt_le_sqrt ?_) ih
      have fstep := form_step hc m hm hge (s := setInputs (fun _ => 0) (drift R c n)) (freeD n)
      have hh := heat_nonneg hc hC.dt hC.sigma (setInputs (fun _ => 0) (drift R c n)) s
      have e : q (setInputs (fun _ => 0) (drift R c n)) = q (drift R c n) := rfl
      rw [← hs] at fstep
      show q s ≤ q (drift R c n)
      rw [← e]
      show F hc m hm hge s ≤ _
      rw [fstep]
      simp only [hq]
      linarith
  -- from the form to the energy
  have low : √(stored g R.sim.cfg.gibox (drift R c n)) ≤ √(1 / (2 * (1 - X.cn))) * √(q (drift R c n)) := by
    refine sqrt_factor (by linarith) ?_ (by norm_num)
    have h1 := (near (freeD n)).1
    have e : (undriven R.sim).cfg.gibox = R.sim.cfg.gibox := rfl
    rw [e] at h1
    simp only [hq]
    linarith
  have high : ∀ i, √(q (slip R c i)) ≤ √(2 * (1 + X.cn) / 1) * √(stored g R.sim.cfg.gibox (slip R c i)) := by
    intro i
    refine sqrt_factor (by norm_num) ?_ (by linarith)
    have h1 := (near (freeS i)).2
    have e : (undriven R.sim).cfg.gibox = R.sim.cfg.gibox := rfl
    rw [e] at h1
    simp only [hq]
    linarith
  have e : √((1 + X.cn) / (1 - X.cn)) = √(1 / (2 * (1 - X.cn))) * √(2 * (1 + X.cn) / 1) := by
    have : 0 < 1 - X.cn := by linarith
    rw [← Real.sqrt_mul (by positivity)]
    congr 1
    field_simp
  rw [e, mul_assoc, mul_sum]
  refine low.trans (mul_le_mul_of_nonneg_left ((grow n).trans (sum_le_sum fun i _ => high i)) (Real.sqrt_nonneg _))

theorem boxSum_le {b : BBox} {fc : Fc} {f f' : Int → Int → Int → ℝ} (hh : ∀ i j l, SampleIn b fc i j l → f i j l ≤ f' i j l) :
    boxSum b fc f ≤ boxSum b fc f' := by
  unfold boxSum
  refine sum_le_sum fun i hi => sum_le_sum fun j hj => sum_le_sum fun l hl => hh i j l ?_
  rw [mem_Icc] at hi hj hl
  cases fc <;> simp only [pos2] at hi hj hl <;> refine ⟨?_, ?_, ?_⟩ <;> simp only [pos2] <;> omega

theorem boxSum_smul {b : BBox} {fc : Fc} (t : ℝ) (f : Int → Int → Int → ℝ) :
    boxSum b fc (fun i j l => t * f i j l) = t * boxSum b fc f := by
  unfold boxSum
  simp only [mul_sum]

/-- Energy of small samples. -/
theorem stored_small {S : Sim} {C : CRef → ℝ} {g : Filling} {cn : ℝ} (hc : Closed S C g) (hC : Courant S g cn) {s : Loc → ℝ} {η : ℝ}
    (hs : ∀ fc i j l, SampleIn S.cfg.gibox fc i j l → |s (.fld fc i j l)| ≤ η) :
    stored g S.cfg.gibox s ≤ η ^ 2 * stored g S.cfg.gibox (fun _ => 1) := by
  obtain ⟨e0, m0, m, he, hm0, hm, hge, heps, hmu, hdt⟩ := hC.limit
  have sq : ∀ fc i j l, SampleIn S.cfg.gibox fc i j l → s (.fld fc i j l) ^ 2 ≤ η ^ 2 := fun fc i j l hi =>
    sq_le_sq' (by linarith [abs_le.1 (hs fc i j l hi)]) (abs_le.1 (hs fc i j l hi)).2
  have bE : ∀ fc, fc.isE = true → boxSum S.cfg.gibox fc (fun i j l => g.eps fc i j l * g.vol fc i j l * s (.fld fc i j l) ^ 2) ≤
      η ^ 2 * boxSum S.cfg.gibox fc (fun i j l => g.eps fc i j l * g.vol fc i j l * (1 : ℝ) ^ 2) := by
    intro fc hf
    rw [← boxSum_smul]
    refine boxSum_le fun i j l hi => ?_
    have h1 : 0 ≤ g.eps fc i j l * g.vol fc i j l := mul_nonneg (he.le.trans (heps fc i j l hf hi)) (vol_pos hc hi).le
    nlinarith [sq fc i j l hi]
  have bH : ∀ fc, fc.isE = false → boxSum S.cfg.gibox fc (fun i j l => g.mu fc i j l * g.vol fc i j l * s (.fld fc i j l) ^ 2) ≤
      η ^ 2 * boxSum S.cfg.gibox fc (fun i j l => g.mu fc i j l * g.vol fc i j l * (1 : ℝ) ^ 2) := by
    intro fc hf
    rw [← boxSum_smul]
    refine boxSum_le fun i j l hi => ?_
    have h1 : 0 ≤ g.mu fc i j l * g.vol fc i j l := mul_nonneg (hm0.le.trans (hmu fc i j l hf hi)) (vol_pos hc hi).le
    nlinarith [sq fc i j l hi]
  have a1 := bE .ex rfl; have a2 := bE .ey rfl; have a3 := bE .ez rfl
  have a4 := bH .hx rfl; have a5 := bH .hy rfl; have a6 := bH .hz rfl
  unfold stored sumE sumH
  refine le_trans (add_le_add (mul_le_mul_of_nonneg_left (add_le_add (add_le_add a1 a2) a3) (by norm_num))
    (mul_le_mul_of_nonneg_left (add_le_add (add_le_add a4 a5) a6) (by norm_num))) (le_of_eq ?_)
  simp only [mul_add, mul_left_comm]

/-- One sample from the energy. -/
theorem sample_small {S : Sim} {C : CRef → ℝ} {g : Filling} {cn : ℝ} (hc : Closed S C g) (hC : Courant S g cn) {fc : Fc} {i j l : Int}
    (hi : SampleIn S.cfg.gibox fc i j l) : ∃ A : ℝ, 0 ≤ A ∧ ∀ s : Loc → ℝ, |s (.fld fc i j l)| ≤ A * √(stored g S.cfg.gibox s) := by
  obtain ⟨e0, m0, m, he, hm0, hm, hge, heps, hmu, hdt⟩ := hC.limit
  set W := (if fc.isE then g.eps fc i j l else g.mu fc i j l) * g.vol fc i j l with hW
  have hW0 : 0 < W := by
    refine mul_pos ?_ (vol_pos hc hi)
    by_cases hf : fc.isE = true
    · rw [if_pos hf]; exact lt_of_lt_of_le he (heps fc i j l hf hi)
    · rw [if_neg hf]; exact lt_of_lt_of_le hm0 (hmu fc i j l (by simpa using hf) hi)
  refine ⟨√(2 / W), Real.sqrt_nonneg _, fun s => ?_⟩
  have nnE : ∀ fc i j k, fc.isE = true → SampleIn S.cfg.gibox fc i j k →
      0 ≤ g.eps fc i j k * g.vol fc i j k * s (.fld fc i j k) ^ 2 :=
    fun fc i j k hf h => mul_nonneg (mul_nonneg (he.le.trans (heps fc i j k hf h)) (vol_pos hc h).le) (sq_nonneg _)
  have nnH : ∀ fc i j k, fc.isE = false → SampleIn S.cfg.gibox fc i j k →
      0 ≤ g.mu fc i j k * g.vol fc i j k * s (.fld fc i j k) ^ 2 :=
    fun fc i j k hf h => mul_nonneg (mul_nonneg (hm0.le.trans (hmu fc i j k hf h)) (vol_pos hc h).le) (sq_nonneg _)
  have p1 := boxSum_nonneg S.cfg.gibox .ex _ fun i j k h => nnE .ex i j k rfl h
  have p2 := boxSum_nonneg S.cfg.gibox .ey _ fun i j k h => nnE .ey i j k rfl h
  have p3 := boxSum_nonneg S.cfg.gibox .ez _ fun i j k h => nnE .ez i j k rfl h
  have p4 := boxSum_nonneg S.cfg.gibox .hx _ fun i j k h => nnH .hx i j k rfl h
  have p5 := boxSum_nonneg S.cfg.gibox .hy _ fun i j k h => nnH .hy i j k rfl h
  have p6 := boxSum_nonneg S.cfg.gibox .hz _ fun i j k h => nnH .hz i j k rfl h
  have key : W * s (.fld fc i j l) ^ 2 ≤ 2 * stored g S.cfg.gibox s := by
    rw [hW]
    unfold stored sumE sumH
    cases fc
    · have := boxSum_ge S.cfg.gibox .ex _ (fun i j k h => nnE .ex i j k rfl h) hi
      simp only [Fc.isE, if_true]; linarith
    · have := boxSum_ge S.cfg.gibox .ey _ (fun i j k h => nnE .ey i j k rfl h) hi
      simp only [Fc.isE, if_true]; linarith
    · have := boxSum_ge S.cfg.gibox .ez _ (fun i j k h => nnE .ez i j k rfl h) hi
      simp only [Fc.isE, if_true]; linarith
    · have := boxSum_ge S.cfg.gibox .hx _ (fun i j k h => nnH .hx i j k rfl h) hi
      simp only [Fc.isE, Bool.false_eq_true, if_false]; linarith
    · have := boxSum_ge S.cfg.gibox .hy _ (fun i j k h => nnH .hy i j k rfl h) hi
      simp only [Fc.isE, Bool.false_eq_true, if_false]; linarith
    · have := boxSum_ge S.cfg.gibox .hz _ (fun i j k h => nnH .hz i j k rfl h) hi
      simp only [Fc.isE, Bool.false_eq_true, if_false]; linarith
  rw [← Real.sqrt_mul (by positivity), div_mul_eq_mul_div]
  refine Real.abs_le_sqrt ?_
  rw [le_div_iff₀ hW0]
  linarith

/-- C82: for every cavity there is a number `K` such that, whatever the machine does, if no sample of any step is off by more
than `η`, no sample is off by more than `K n η` after `n` steps. -/
theorem rounding_linear (hk : Physical k) (h : setup k J X = some R) (hX : Cavity k X) (hlt : X.cn < 1) :
    ∃ K : ℝ, ∀ c, Machine R c → ∀ η : ℝ,
      (∀ n fc i j l, SampleIn R.sim.cfg.gibox fc i j l → |slip R c n (.fld fc i j l)| ≤ η) →
      ∀ n fc i j l, SampleIn R.sim.cfg.gibox fc i j l → |c n (.fld fc i j l) - R.fields n (.fld fc i j l)| ≤ K * n * η := by
  obtain ⟨g, hc, hC, -, hadd⟩ := errors_add hk h hX hlt
  have each : ∀ x ∈ {x : Loc | ∃ fc i j l, x = .fld fc i j l ∧ SampleIn R.sim.cfg.gibox fc i j l},
      ∃ A : ℝ, 0 ≤ A ∧ ∀ s : Loc → ℝ, |s x| ≤ A * √(stored g R.sim.cfg.gibox s) := by
    rintro _ ⟨fc, i, j, l, rfl, hi⟩
    exact sample_small hc hC hi
  choose! A hA0 hA using each
  obtain ⟨A', hA'⟩ := ((C56.finite_samples R.sim.cfg.gibox).image A).bddAbove
  set T := √(stored g R.sim.cfg.gibox (fun _ => 1)) with hT
  refine ⟨A' * (√((1 + X.cn) / (1 - X.cn)) * T), fun c hM η hη n fc i j l hi => ?_⟩
  have hη0 : 0 ≤ η := (abs_nonneg _).trans (hη 0 fc i j l hi)
  have small : ∀ i, √(stored g R.sim.cfg.gibox (slip R c i)) ≤ T * η := by
    intro i
    have := stored_small hc hC (s := slip R c i) (hη i)
    refine (Real.sqrt_le_sqrt this).trans (le_of_eq ?_)
    rw [Real.sqrt_mul (sq_nonneg η), Real.sqrt_sq hη0, mul_comm]
    rfl
  have hm : Loc.fld fc i j l ∈ {x : Loc | ∃ fc i j m, x = .fld fc i j m ∧ SampleIn R.sim.cfg.gibox fc i j m} := ⟨fc, i, j, l, rfl, hi⟩
  have h1 := hA _ hm (drift R c n)
  have h2 := hadd c hM n
  have h3 : ∑ i ∈ range n, √(stored g R.sim.cfg.gibox (slip R c i)) ≤ n * (T * η) := by
    refine (sum_le_sum fun i _ => small i).trans (le_of_eq ?_)
    rw [sum_const, card_range, nsmul_eq_mul]
  have hAA : A (.fld fc i j l) ≤ A' := hA' ⟨_, hm, rfl⟩
  have h4 : √(stored g R.sim.cfg.gibox (drift R c n)) ≤ √((1 + X.cn) / (1 - X.cn)) * (n * (T * η)) :=
    h2.trans (mul_le_mul_of_nonneg_left h3 (Real.sqrt_nonneg _))
  calc |c n (.fld fc i j l) - R.fields n (.fld fc i j l)| ≤ A (.fld fc i j l) * √(stored g R.sim.cfg.gibox (drift R c n)) := h1
    _ ≤ A' * √(stored g R.sim.cfg.gibox (drift R c n)) := mul_le_mul_of_nonneg_right hAA (Real.sqrt_nonneg _)
    _ ≤ A' * (√((1 + X.cn) / (1 - X.cn)) * (n * (T * η))) := mul_le_mul_of_nonneg_left h4 ((hA0 _ hm).trans hAA)
    _ = _ := by ring

/-- C82: with pulses as waveforms, what the machine holds grows at most linearly with the number of steps, with a slope
proportional to the rounding errors: no exponential growth. -/
theorem machine_bounded (hk : Physical k) (h : setup k J X = some R) (hX : Cavity k X) (hlt : X.cn < 1)
    (hw : ∀ n, C56.Pulse (X.waves n)) :
    ∃ M K : ℝ, ∀ c, Machine R c → ∀ η : ℝ,
      (∀ n fc i j l, SampleIn R.sim.cfg.gibox fc i j l → |slip R c n (.fld fc i j l)| ≤ η) →
      ∀ n fc i j l, SampleIn R.sim.cfg.gibox fc i j l → |c n (.fld fc i j l)| ≤ M + K * n * η := by
  obtain ⟨M, hM⟩ := C56.pulses_stay_bounded hk h hX hlt hw
  obtain ⟨K, hK⟩ := rounding_linear hk h hX hlt
  refine ⟨M, K, fun c hc η hη n fc i j l hi => ?_⟩
  have h1 := hM n fc i j l hi
  have h2 := hK c hc η hη n fc i j l hi
  have := abs_sub_abs_le_abs_sub (c n (.fld fc i j l)) (R.fields n (.fld fc i j l))
  linarith

end

/-! ### A machine that rounds -/

/-- A machine that chops every result of a step to a multiple of `q` (towards zero). -/
noncomputable def chop (q x : ℝ) : ℝ := if 0 ≤ x then q * ⌊x / q⌋ else -(q * ⌊-x / q⌋)

theorem chop_near {q : ℝ} (hq : 0 < q) (x : ℝ) : |chop q x - x| ≤ q := by
  have key : ∀ y : ℝ, y - q ≤ q * ⌊y / q⌋ ∧ q * ⌊y / q⌋ ≤ y := by
    intro y
    have h1 := Int.floor_le (y / q)
    have h2 := Int.lt_floor_add_one (y / q)
    have e : q * (y / q) = y := by field_simp
    constructor <;> nlinarith
  unfold chop
  split
  · have := key x; exact abs_le.2 ⟨by linarith, by linarith⟩
  · have := key (-x); exact abs_le.2 ⟨by linarith, by linarith⟩

/-- Contents of that machine. -/
noncomputable def chopped (R : Run) (q : ℝ) : ℕ → Loc → ℝ
  | 0 => fun _ => 0
  | n + 1 => fun l => chop q (R.sim.step.run R.coefs (setInputs (R.drive n) (chopped R q n)) l)

theorem chopped_machine {k : Consts} {J : Junk} {X : Experiment} {R : Run} (hk : Physical k) (h : setup k J X = some R)
    (hX : Cavity k X) {q : ℝ} (hq : 0 < q) :
    Machine R (chopped R q) ∧ ∀ n l, |slip R (chopped R q) n l| ≤ q := by
  obtain ⟨g, hc, -⟩ := C56.cavity_closed hk h hX
  obtain ⟨s1, s2⟩ := sources h hX
  refine ⟨⟨fun _ _ _ _ _ => rfl, fun n => ?_⟩, fun n l => chop_near hq _⟩
  induction n with
  | zero => intro _ _ _ _ _ _ _; rfl
  | succ n ih =>
    intro fc i j l hf hi hb
    have := C45.free_driven hc s1 s2 (s := setInputs (R.drive n) (chopped R q n)) ih fc i j l hf hi hb
    show chop q _ = 0
    have e : driven (undriven R.sim) R.sim.srcs = R.sim := rfl
    rw [e] at this
    rw [this]
    simp [chop]

/-- The sample cavity with a lossy block, a plate, a current source and a resistive source, computed with a machine that chops
to multiples of `q`: the error after `n` steps is at most proportional to `n` and `q`. -/
example (k : Consts) (hk : Physical k) (hb : 1 < k.big) (J : Junk) :
    ∃ R, setup k J (C57.box 0.02 ['I', 'Z'] (mkBox 5 5 1 1 1 2) [C57.load] 0.9) = some R ∧
      ∃ K : ℝ, ∀ q : ℝ, 0 < q → ∀ n fc i j l, SampleIn R.sim.cfg.gibox fc i j l →
        |chopped R q n (.fld fc i j l) - R.fields n (.fld fc i j l)| ≤ K * n * q := by
  obtain ⟨R, h⟩ := C57.box_setup k J 0.02 0.9 (tag := ['I', 'Z']) (b := mkBox 5 5 1 1 1 2) (C57.edge_tag .z) (by decide +kernel) true
  have hX := C57.box_cavity hb (s := 0.02) (cn := 0.9) (by norm_num) (by norm_num) (mkBox 5 5 1 1 1 2) C57.feed_tag.1 true
  obtain ⟨K, hK⟩ := rounding_linear hk h hX (by simp [C57.box]; norm_num)
  refine ⟨R, h, K, fun q hq n fc i j l hi => ?_⟩
  obtain ⟨hM, hs⟩ := chopped_machine hk h hX hq
  exact hK _ hM q (fun n fc i j l _ => hs n _) n fc i j l hi

end Vulture.C82
