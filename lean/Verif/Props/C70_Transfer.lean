import Verif.Props.C69_Response
import Verif.Props.C67_Observe
/-
C70: the fields are linear in the waveforms, and what a frequency-domain observer writes does not depend on the amplitude of
the waveforms.
-/
set_option linter.unusedSimpArgs false
set_option linter.unusedSectionVars false
set_option linter.unusedVariables false
namespace Vulture.C70
open Vulture.Spec Vulture.Setup Vulture.Deck
open _root_.Vulture.Run hiding body

/-- The input with other waveforms. -/
def withWaves (X : Experiment) (W : String → Wave) : Experiment := { X with waves := W }

section
variable {k : Consts} {J : Junk} {X : Experiment} {R : Setup.Run} {W W1 W2 : String → Wave} {Q : Request}
  {fs fs' : List (String × Contents)}

/-- The run of an input with other waveforms differs in the driving values only. -/
theorem run_waves (hR : setup k J X = some R) (W : String → Wave) :
    setup k J (withWaves X W) = some { R with
      drive := Deck.drive (env k J (withWaves X W) R.cfg) (gridType k J X R.cfg == .cubic) R.cfg R.state } := by
  obtain ⟨s, hs, hc, hS, e⟩ := Scaling.setup_parts hR
  have := Scaling.setup_of (k := k) (J := J) (X := withWaves X W) (c := R.cfg) hc hs hS
  rw [this]
  have e1 : R.state = s := by rw [e]
  have e2 : R.coefs = coefs k J X R.cfg s := by rw [e]
  have e3 : R.dt = Setup.dt k J X R.cfg := by rw [e]
  rw [e1, e2, e3]
  rfl

theorem drive_linear (e e1 e2 : Deck.Env) (a b : ℝ) (h1 : e1 = { e with wave := e1.wave }) (h2 : e2 = { e with wave := e2.wave })
    (hw : ∀ n t, e.wave n t = a * e1.wave n t + b * e2.wave n t) (cubic : Bool) (c : Cfg) (s : Deck.State) (n : ℕ) (l : Loc) :
    Deck.drive e cubic c s n l = a * Deck.drive e1 cubic c s n l + b * Deck.drive e2 cubic c s n l := by
  rw [h1, h2]
  cases l with
  | src h m =>
    simp only [Deck.drive]
    cases s.srcs[m]? with
    | none => simp
    | some x => simp only [hw]; ring
  | wav m =>
    simp only [Deck.drive]
    cases cubic <;> cases s.pws[m]? <;> simp [hw]
  | inc h m fc i j l' =>
    simp only [Deck.drive]
    cases s.pws[m]? with
    | none => cases cubic <;> simp
    | some x =>
      cases cubic
      · simp only
        cases PlaneWave.ijk0 x.theta x.phi (place c x.mbbox) with
        | none => simp
        | some q0 => simp only [PlaneWave.analytic, hw, location]; ring
      · simp
  | _ => simp [Deck.drive]

/-- **C70.** If one set of waveforms is the combination `a`, `b` of two others at every time, so are the fields: at every
sample, before every step, on every mesh. -/
theorem linear_in_waveforms (hR : setup k J X = some R) (a b : ℝ)
    (hw : ∀ n t, waveValue R.dt (X.waves n) t = a * waveValue R.dt (W1 n) t + b * waveValue R.dt (W2 n) t) :
    ∃ R1 R2, setup k J (withWaves X W1) = some R1 ∧ setup k J (withWaves X W2) = some R2 ∧ R1.dt = R.dt ∧ R2.dt = R.dt ∧
      R1.cfg = R.cfg ∧ R2.cfg = R.cfg ∧ ∀ n l, R.fields n l = a * R1.fields n l + b * R2.fields n l := by
  obtain ⟨s, hs, hc, hS, e⟩ := Scaling.setup_parts hR
  have e3 : R.dt = Setup.dt k J X R.cfg := by rw [e]
  refine ⟨_, _, run_waves hR W1, run_waves hR W2, rfl, rfl, rfl, rfl, fun n l => ?_⟩
  have hd : R.drive = fun n l => a * Deck.drive (env k J (withWaves X W1) R.cfg) (gridType k J X R.cfg == .cubic) R.cfg R.state n l +
      b * Deck.drive (env k J (withWaves X W2) R.cfg) (gridType k J X R.cfg == .cubic) R.cfg R.state n l := by
    funext n l
    have e1 : R.state = s := by rw [e]
    have e4 : R.drive = Deck.drive (env k J X R.cfg) (gridType k J X R.cfg == .cubic) R.cfg s := by rw [e]
    rw [e4, e1]
    refine drive_linear _ _ _ a b rfl rfl ?_ _ _ _ n l
    intro m t
    have := hw m t
    rw [e3] at this
    exact this
  have := congrFun (C11.superposition R.sim R.coefs a b
    (Deck.drive (env k J (withWaves X W1) R.cfg) (gridType k J X R.cfg == .cubic) R.cfg R.state)
    (Deck.drive (env k J (withWaves X W2) R.cfg) (gridType k J X R.cfg == .cubic) R.cfg R.state) (fun _ => 0) (fun _ => 0) n) l
  show R.sim.state R.coefs R.drive (fun _ => 0) n l = _
  rw [hd]
  simp only [mul_zero, add_zero] at this
  exact this

/-- `W` is `a` times the waveforms of the input. -/
def Scaled (X : Experiment) (W : String → Wave) (dt a : ℝ) : Prop := ∀ n t, waveValue dt (W n) t = a * waveValue dt (X.waves n) t

theorem fields_scaled (hR : setup k J X = some R) (a : ℝ) (hw : Scaled X W R.dt a) :
    ∃ R', setup k J (withWaves X W) = some R' ∧ R'.dt = R.dt ∧ R'.cfg = R.cfg ∧ ∀ n l, R'.fields n l = a * R.fields n l := by
  have h1 := run_waves hR W
  obtain ⟨R1, R2, g1, g2, d1, d2, c1, c2, hf⟩ := linear_in_waveforms h1 a 0 (W1 := X.waves) (W2 := X.waves) (by
    intro n t
    rw [zero_mul, add_zero]
    exact hw n t)
  have hx : withWaves (withWaves X W) X.waves = X := rfl
  rw [hx, hR] at g1
  obtain rfl := Option.some.inj g1
  refine ⟨_, h1, rfl, rfl, fun n l => ?_⟩
  rw [hf n l, zero_mul, add_zero]

theorem transform_scaled (a : ℝ) (l : List ℕ) (v : ℕ → ℝ) (w dt : ℝ) :
    transform l (fun q => a * v q) w dt = a * transform l v w dt := by
  unfold transform
  rw [← List.sum_map_mul_left]
  congr 1
  refine List.map_congr_left fun q _ => ?_
  push_cast; ring

theorem quotient_scaled (a : ℝ) (ha : a ≠ 0) (z w : ℂ) :
    quotient (C67.pair (a * z)) (C67.pair (a * w)) = quotient (C67.pair z) (C67.pair w) := by
  unfold quotient C67.pair
  simp only [Complex.mul_re, Complex.mul_im, Complex.ofReal_re, Complex.ofReal_im, zero_mul, sub_zero, add_zero]
  have h2 : a * w.re * (a * w.re) + a * w.im * (a * w.im) = (a * a) * (w.re * w.re + w.im * w.im) := by ring
  have haa : a * a ≠ 0 := mul_ne_zero ha ha
  rw [h2]
  congr 1
  · rw [show a * z.re * (a * w.re) + a * z.im * (a * w.im) = (a * a) * (z.re * w.re + z.im * w.im) by ring, mul_div_mul_left _ _ haa]
  · rw [show a * z.im * (a * w.re) - a * z.re * (a * w.im) = (a * a) * (z.im * w.re - z.re * w.im) by ring, mul_div_mul_left _ _ haa]

/-- **C70.** Multiplying all waveforms by a nonzero number leaves the file of every frequency-domain observer as it is. -/
theorem transfer_unchanged (h : Leaves k J X Q fs) (h' : Leaves k J (withWaves X W) Q fs') (hR : setup k J X = some R) {a : ℝ}
    (ha : a ≠ 0) (hw : Scaled X W R.dt a) {c : OPCard} (hc : Deck.Card.op c ∈ X.file.cards) (has : c.ascii = true) (hf : c.freq = true) :
    ∃ K, (probeFile c, K) ∈ fs ∧ (probeFile c, K) ∈ fs' := by
  obtain ⟨R', hR', hdt, hcfg, hfl⟩ := fields_scaled hR a hw
  obtain ⟨n, hn, hm⟩ := C67.transfer_exact h hR hc has hf
  obtain ⟨n', hn', hm'⟩ := C67.transfer_exact h' hR' (c := c) hc has hf
  have : n' = n := by
    have e : dividedBy (withWaves X W).file c = dividedBy X.file c := rfl
    rw [e, hn] at hn'
    exact (Option.some.inj hn').symm
  subst this
  unfold probeFile
  rw [if_pos hf]
  refine ⟨_, hm, ?_⟩
  have hat : ∀ q fc t, atNode R' q fc t = a * atNode R q fc t := by
    intro q fc t; unfold atNode; rw [hfl, hcfg]
  have e : ∀ fc m, quotient (C67.fieldSpectrum Q R' c fc m) (C67.waveSpectrum (withWaves X W) Q R' n' m) =
      quotient (C67.fieldSpectrum Q R c fc m) (C67.waveSpectrum X Q R n' m) := by
    intro fc m
    have e1 : C67.fieldSpectrum Q R' c fc m = C67.pair (a * transform (observed Q) (fun q => atNode R q fc (corner c))
        (2 * Real.pi * frequency Q R.dt m) R.dt) := by
      unfold C67.fieldSpectrum
      simp only [hat, hdt]
      rw [transform_scaled]
    have e2 : C67.waveSpectrum (withWaves X W) Q R' n' m = C67.pair (a * transform (List.range Q.steps.toNat)
        (fun q => waveValue R.dt (X.waves n') (q * R.dt)) (2 * Real.pi * frequency Q R.dt m) R.dt) := by
      unfold C67.waveSpectrum
      rw [hdt]
      have : (fun q : ℕ => waveValue R.dt ((withWaves X W).waves n') (q * R.dt)) = fun q : ℕ => a * waveValue R.dt (X.waves n') (q * R.dt) := by
        funext q; exact hw n' _
      rw [this, transform_scaled]
    rw [e1, e2, quotient_scaled a ha]
    rfl
  simp only [e, hdt] at hm'
  exact hm'


/-- A positive factor on the amplitudes of the `WF` cards is such a factor. -/
theorem louder_scaled (X : Experiment) (dt : ℝ) {a : ℝ} (ha : 0 < a) : Scaled X (fun n => louder a (X.waves n)) dt a := by
  intro n t
  show waveValue dt (louder a (X.waves n)) t = a * waveValue dt (X.waves n) t
  cases X.waves n with
  | builtin w =>
    have h0 : 0 ≤ Waveform.dflt w.size 1 := by unfold Waveform.dflt; split <;> linarith
    have h1 : Waveform.dflt (a * Waveform.dflt w.size 1) 1 = a * Waveform.dflt w.size 1 := by
      conv_lhs => unfold Waveform.dflt
      rw [if_neg]
      · rfl
      · exact not_lt.2 (mul_nonneg ha.le h0)
    have h2 : amplitude (.builtin w) = Waveform.dflt w.size 1 := rfl
    simp only [louder, waveValue, Waveform.value, h2]
    obtain ⟨ty, sz, de, wi, fr⟩ := w
    cases ty <;> simp only [Waveform.initWaveform, h1] <;> ring
  | table size delay x y m =>
    have h0 : 0 ≤ Waveform.dflt size 1 := by unfold Waveform.dflt; split <;> linarith
    have h1 : Waveform.dflt (a * Waveform.dflt size 1) 1 = a * Waveform.dflt size 1 := by
      conv_lhs => unfold Waveform.dflt
      rw [if_neg]
      · rfl
      · exact not_lt.2 (mul_nonneg ha.le h0)
    have h2 : amplitude (.table size delay x y m) = Waveform.dflt size 1 := rfl
    simp only [louder, waveValue, h2, h1]
    ring

end

/-! ### A case -/

/-- The dipole of C61 with a waveform of three times the amplitude writes the same transfer function. -/
example (k : Consts) (J : Junk) (d : ℝ) (fs fs' : List (String × Contents)) (h : Leaves k J (C61.dipole d) ⟨100, some (10, 90), none⟩ fs)
    (h' : Leaves k J (withWaves (C61.dipole d) fun n => louder 3 ((C61.dipole d).waves n)) ⟨100, some (10, 90), none⟩ fs') :
    ∃ K, ("eh_far_fd.asc", K) ∈ fs ∧ ("eh_far_fd.asc", K) ∈ fs' := by
  obtain ⟨R, hR⟩ := C61.dipole_setup k J d
  exact transfer_unchanged h h' hR (a := 3) (by norm_num) (louder_scaled _ _ (by norm_num))
    (c := ⟨8, mkBox 4 4 2 2 1 1, "far", true, true, 1, 1, 1, "pulse", true⟩)
    (List.mem_cons_of_mem _ (List.mem_cons_of_mem _ List.mem_cons_self)) rfl rfl

/-- Its fields are a convolution of the samples of its waveform. -/
example (k : Consts) (J : Junk) (d : ℝ) : ∃ R, setup k J (C61.dipole d) = some R ∧
    ∃ hE hH : ℕ → Loc → ℝ, ∀ (w : Wave) (delay : ℝ), ∃ R',
      setup k J (withDrive (C61.dipole d) (fun _ => w) (fun _ => delay) fun _ => 0) = some R' ∧
      ∀ n l, R'.fields n l = ∑ q ∈ Finset.range n, (waveValue R.dt w (q * R.dt - delay) * hE (n - q) l +
        waveValue R.dt w ((q + 1 / 2) * R.dt - delay) * hH (n - q) l) := by
  obtain ⟨R, hR⟩ := C61.dipole_setup k J d
  have hp : pwNames (C61.dipole d).file = [] := by simp [pwNames, C61.dipole, C61.dipoleCards, List.filterMap_cons]
  have he : exNames (C61.dipole d).file = [("feed", "pulse")] := by simp [exNames, C61.dipole, C61.dipoleCards, List.filterMap_cons]
  obtain ⟨hE, hH, hP, hc⟩ := C69.convolution hR (Or.inl hp)
  refine ⟨R, hR, hE 0, hH 0, fun w delay => ?_⟩
  obtain ⟨R', h1, -, h2⟩ := hc (fun _ => w) (fun _ => delay) (fun _ => 0)
  refine ⟨R', h1, fun n l => ?_⟩
  rw [h2 n l, hp, he]
  refine Finset.sum_congr rfl fun q _ => ?_
  simp [supplied]

end Vulture.C70
