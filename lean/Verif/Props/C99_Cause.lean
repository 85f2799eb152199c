import Verif.Spec.Cause
import Verif.Props.C98_Later
/-
C99: effects do not come before their causes.
-/
set_option linter.unusedSimpArgs false
set_option linter.unusedSectionVars false
set_option linter.unusedVariables false
namespace Vulture.C99
open Vulture.Spec Vulture.Setup Vulture.Deck

section
variable {k : Consts} {J : Junk} {X : Experiment} {R : Setup.Run} {Q : Request} {W : String → Wave}
  {fs fs' : List (String × Contents)}

/-- What happened before step `n` depends on the driving values of the steps before it. -/
theorem state_before (S : Sim) (C : CRef → ℝ) (u u' : ℕ → Loc → ℝ) (s : Loc → ℝ) : ∀ n, (∀ m < n, u m = u' m) →
    S.state C u s n = S.state C u' s n
  | 0, _ => rfl
  | n + 1, h => by
    simp only [Sim.state]
    rw [state_before S C u u' s n (fun m hm => h m (by omega)), h n (by omega)]

theorem drive_before (e e' : Deck.Env) (he : e' = { e with wave := e'.wave }) (hdt : 0 < e.dt) {n : ℕ}
    (hw : ∀ w t, t ≤ ((n : ℝ) - 1 / 2) * e.dt → e'.wave w t = e.wave w t) {cubic : Bool} {c : Cfg} {s : Deck.State}
    (hs : ∀ x ∈ s.srcs, 0 ≤ x.delay) (hp : ∀ x ∈ s.pws, 0 ≤ x.delay) (ha : cubic = true ∨ s.pws = []) {q : ℕ} (hq : q < n) :
    Deck.drive e' cubic c s q = Deck.drive e cubic c s q := by
  have h1 : (q : ℝ) + 1 ≤ n := by exact_mod_cast hq
  have ht : ∀ h, Deck.time e.dt h q ≤ ((n : ℝ) - 1 / 2) * e.dt := by
    intro h
    unfold Deck.time
    split
    · exact mul_le_mul_of_nonneg_right (by linarith) hdt.le
    · exact mul_le_mul_of_nonneg_right (by linarith) hdt.le
  have d1 : e'.dt = e.dt := by rw [he]
  have d2 : e'.de = e.de := by rw [he]
  have d3 : e'.dh = e.dh := by rw [he]
  funext l
  cases l with
  | src h m =>
    simp only [Deck.drive, d1, d2, d3]
    cases e1 : s.srcs[m]? with
    | none => rfl
    | some x =>
      have hx := hs x (List.mem_of_getElem? e1)
      simp only
      rw [hw _ _ (by have := ht h; linarith)]
  | wav m =>
    simp only [Deck.drive, d1]
    cases e1 : s.pws[m]? with
    | none => cases cubic <;> rfl
    | some x =>
      have hx := hp x (List.mem_of_getElem? e1)
      cases cubic
      · rfl
      · exact hw _ _ (by have := ht false; linarith)
  | inc h m fc i j l' =>
    simp only [Deck.drive]
    rcases ha with rfl | ha
    · rfl
    · rw [ha]; cases cubic <;> rfl
  | _ => rfl

/-- **C99.** Change the waveforms after time `(n - 1/2) dt` in whatever way: the input stays accepted, with the same grid and
time step, and every quantity is the same before every step up to `n`. -/
theorem fields_before (hR : setup k J X = some R) (hdt : 0 < R.dt) (hb : NotBefore X.file)
    (hp : pwNames X.file = [] ∨ gridType k J X R.cfg = .cubic) {n : ℕ}
    (hw : AgreeUntil R.dt (((n : ℝ) - 1 / 2) * R.dt) X.waves W) :
    ∃ R', setup k J (C70.withWaves X W) = some R' ∧ R'.cfg = R.cfg ∧ R'.dt = R.dt ∧ ∀ m ≤ n, ∀ l, R'.fields m l = R.fields m l := by
  obtain ⟨s, hs, hc, hS, e⟩ := Scaling.setup_parts hR
  have e1 : R.state = s := by rw [e]
  have e3 : R.dt = (env k J X R.cfg).dt := by rw [e]; rfl
  have e4 : R.drive = Deck.drive (env k J X R.cfg) (gridType k J X R.cfg == .cubic) R.cfg R.state := by
    rw [e1]
    conv_lhs => rw [e]
  obtain ⟨d1, d2⟩ := C98.not_before hR hb
  have hps := (C69.stored_driven hR).2
  have ha : (gridType k J X R.cfg == .cubic) = true ∨ R.state.pws = [] := by
    rcases hp with hp | hp
    · right
      rw [hp] at hps
      exact List.map_eq_nil_iff.1 hps
    · left; rw [hp]; rfl
  refine ⟨_, C70.run_waves hR W, rfl, rfl, fun m hm l => ?_⟩
  refine congrFun (state_before R.sim R.coefs _ R.drive _ m fun q hq => ?_) l
  rw [e4]
  refine drive_before (n := n) (env k J X R.cfg) (env k J (C70.withWaves X W) R.cfg) rfl (e3 ▸ hdt) ?_ d1 d2 ha (by omega)
  intro w t ht
  rw [e3] at hw
  exact (hw w t ht).symm

/-- **C99.** The file of a time-domain observer is the same for every recorded step up to `n`. -/
theorem probes_before (h : Leaves k J X Q fs) (hR : setup k J X = some R) (hdt : 0 < R.dt) (hb : NotBefore X.file)
    (hp : pwNames X.file = [] ∨ gridType k J X R.cfg = .cubic) {n : ℕ}
    (hw : AgreeUntil R.dt (((n : ℝ) - 1 / 2) * R.dt) X.waves W) (h' : Leaves k J (C70.withWaves X W) Q fs')
    {c : OPCard} (hc : Deck.Card.op c ∈ X.file.cards) (ha : c.ascii = true) (hf : c.freq = false) :
    ∃ at' a b, ("eh_" ++ c.name ++ "_td.asc", Contents.time at' a) ∈ fs ∧ ("eh_" ++ c.name ++ "_td.asc", Contents.time at' b) ∈ fs' ∧
      SameUntil n (observed Q) a b := by
  obtain ⟨R', hR', hcfg, hdt', hl⟩ := fields_before hR hdt hb hp hw
  refine ⟨_, _, _, C61.probe_file h hR hc ha hf, C61.probe_file h' hR' hc ha hf, by simp, by simp, ?_⟩
  intro r q hr hq
  rw [List.getElem?_map, List.getElem?_map, hr]
  simp only [Option.map_some, sixAt, atNode, hl q hq, hcfg, hdt']

/-! ### Tables -/

/-- Three entries at times 0, 1 and 2: nothing, nothing, and `c`. -/
def step3 (c : ℝ) : ℕ → ℝ := fun i => if i = 2 then c else 0

theorem step3_half (dt c : ℝ) : waveValue dt (.table 1 0 (fun i => i) (step3 c) 3) (1 / 2) = -(3 / 32) * c := by
  have s0 : Waveform.sweep (fun i : ℕ => (i : ℝ)) (step3 c) 0 = (-(1 / 2), 0) := by
    simp [Waveform.sweep, step3]
  have s1 : Waveform.sweep (fun i : ℕ => (i : ℝ)) (step3 c) 1 = (-(2 / 7), 12 / 7 * c) := by
    rw [Waveform.sweep, s0]
    simp only [Waveform.sig, step3]
    norm_num
    ring
  have m2 : Waveform.lastM (fun i : ℕ => (i : ℝ)) (step3 c) 3 = -(9 / 2) * c := by
    unfold Waveform.lastM
    simp only [show 3 - 2 = 1 from rfl, show 3 - 1 = 2 from rfl, s1, step3]
    norm_num
    ring
  have m1 : Waveform.second (fun i : ℕ => (i : ℝ)) (step3 c) 3 1 = 3 * c := by
    show Waveform.backM _ _ 3 1 = _
    rw [Waveform.backM, show 3 - 2 - 0 = 1 from rfl, s1, Waveform.backM, m2]; ring
  have m0 : Waveform.second (fun i : ℕ => (i : ℝ)) (step3 c) 3 0 = -(3 / 2) * c := by
    show Waveform.backM _ _ 3 2 = _
    rw [Waveform.backM, show 3 - 2 - 1 = 0 from rfl, s0]
    have : Waveform.backM (fun i : ℕ => (i : ℝ)) (step3 c) 3 1 = 3 * c := m1
    rw [this]; ring
  have hd : Waveform.dflt 0 0 = 0 := by unfold Waveform.dflt; simp
  have h1 : Waveform.dflt 1 1 = 1 := by unfold Waveform.dflt; norm_num
  simp only [waveValue, hd, h1, Waveform.externalWaveform, Waveform.evalSpline]
  norm_num [m0, m1, step3]
  ring

/-- Finding: a table is joined up by one spline with continuous curvature through all its entries, so what a tabulated source
does between its first two entries depends on the later ones: the entries at times 0 and 1 are the same, the value at time 1/2
is not. -/
theorem table_looks_ahead (dt : ℝ) : ∃ x y y' : ℕ → ℝ, (∀ i < 2, y i = y' i) ∧ x 0 < 1 / 2 ∧ 1 / 2 < x 1 ∧
    waveValue dt (.table 1 0 x y 3) (1 / 2) ≠ waveValue dt (.table 1 0 x y' 3) (1 / 2) := by
  refine ⟨fun i => i, step3 0, step3 1, ?_, by norm_num, by norm_num, ?_⟩
  · intro i hi
    simp only [step3]
    rw [if_neg (by omega), if_neg (by omega)]
  · rw [step3_half, step3_half]; norm_num

end

/-! ### A case -/

/-- The dipole of C61 fed with nothing, and with a compact pulse that begins after 100 steps: these meet the hypotheses for the
first 100 steps. -/
example (k : Consts) (J : Junk) (hk : Physical k) (hbig : 1 < k.big) :
    ∃ R, setup k J (C70.withWaves (C61.dipole 1) fun _ => .builtin ⟨.compact, 0, 0, 1, -1⟩) = some R ∧ 0 < R.dt ∧
      AgreeUntil R.dt (((100 : ℕ) - 1 / 2 : ℝ) * R.dt) (fun _ => .builtin ⟨.compact, 0, 0, 1, -1⟩)
        (fun _ => .builtin ⟨.compact, 1, 100 * R.dt, 1, -1⟩) ∧
      NotBefore (C61.dipole 1).file ∧ pwNames (C61.dipole 1).file = [] := by
  obtain ⟨R, hR⟩ := C61.dipole_setup k J 1
  have h := C70.run_waves hR fun _ => .builtin ⟨.compact, 0, 0, 1, -1⟩
  have hdt : 0 < R.dt := C64.step_positive hk hR (by show (0 : ℝ) < 0.5; norm_num)
    (by intro a m _ _; show (1 : ℝ) * m < 1 * (m + 1 : ℤ); push_cast; linarith)
    (by intro a m _ _; show (1 : ℝ) * (m + 1 : ℤ) - 1 * m < k.big; push_cast; linarith)
  refine ⟨_, h, hdt, ?_, ?_, ?_⟩
  · intro n t ht
    have h0 : Waveform.dflt 0 1 = 0 := by unfold Waveform.dflt; simp
    have h1 : Waveform.dflt (100 * R.dt) 0 = 100 * R.dt := by
      unfold Waveform.dflt; rw [if_neg (by linarith)]
    have hle : t - 0 - 100 * R.dt ≤ 0 := by push_cast at ht; linarith
    simp only [waveValue, Waveform.value, Waveform.initWaveform, Waveform.shape, h0, h1, Waveform.compactPulse]
    rw [if_pos hle]; simp
  · constructor
    · intro q b n tag w z delay resist hm
      simp [C61.dipole, C61.dipoleCards] at hm
      exact le_of_eq hm.2.2.2.2.2.2.1.symm
    · intro c delay hm
      simp [C61.dipole, C61.dipoleCards] at hm
  · simp [pwNames, C61.dipole, C61.dipoleCards, List.filterMap_cons]

end Vulture.C99
