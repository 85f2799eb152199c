import Verif.Spec.Later
import Verif.Props.C70_Transfer
import Verif.Props.C64_Material
/-
C98: sources that start later give the same results, later.
-/
set_option linter.unusedSimpArgs false
set_option linter.unusedSectionVars false
set_option linter.unusedVariables false
namespace Vulture.C98
open Vulture.Spec Vulture.Setup Vulture.Deck
open _root_.Vulture.Run hiding body

section
variable {k : Consts} {J : Junk} {X : Experiment} {R : Setup.Run} {Q Q' : Request}
  {fs fs' : List (String × Contents)}

theorem mapM_later (f : PwItem → Option PW) (T : ℝ) (hf : ∀ x : PwItem, f { x with delay := x.delay + T } = f x) (l : List PwItem) :
    (l.map fun x => { x with delay := x.delay + T }).mapM f = l.mapM f := by
  rw [List.mapM_map]
  congr 1
  funext x; exact hf x

theorem sim_later (T : ℝ) (c : Cfg) {s : Deck.State} (h : X.file.stored = some s) :
    (fileOf k J (delayed X T) c).sim (Setup.de k J (delayed X T) c) (Setup.dh k J (delayed X T) c) =
      (fileOf k J X c).sim (Setup.de k J X c) (Setup.dh k J X c) :=
  C48.sim_later T (fileOf k J X c) (Setup.de k J X c) (Setup.dh k J X c)

theorem coefs_later (T : ℝ) (c : Cfg) (s : Deck.State) :
    coefs k J (delayed X T) c (C48.later T s) = coefs k J X c s := by
  have hm : medSetup k J (delayed X T) c (C48.later T s) = medSetup k J X c s := by
    have : (C48.later T s).srcs.filterMap (srcFill k J (delayed X T) c (Setup.dt k J (delayed X T) c)) =
        s.srcs.filterMap (srcFill k J X c (Setup.dt k J X c)) := by
      show (s.srcs.map _).filterMap _ = _
      rw [List.filterMap_map]; rfl
    unfold medSetup
    dsimp only
    rw [this]; rfl
  unfold coefs
  rw [hm]
  funext q
  cases q with
  | soft m =>
    simp only [coefRef, otherCoef, C48.later, List.getElem?_map]
    cases s.srcs[m]? <;> rfl
  | auxW m hi fc i j l' =>
    simp only [coefRef, otherCoef, waveWeight, ofWave, C48.later, List.getElem?_map]
    cases s.pws[m]? <;> rfl
  | auxBeta m =>
    simp only [coefRef, otherCoef, ofWave, C48.later, List.getElem?_map]
    cases s.pws[m]? <;> rfl
  | auxGamma m =>
    simp only [coefRef, otherCoef, ofWave, C48.later, List.getElem?_map]
    cases s.pws[m]? <;> rfl
  | _ => rfl

/-- The input with longer delays is accepted; its run differs in the driving values. -/
theorem run_later (hR : setup k J X = some R) (T : ℝ) :
    setup k J (delayed X T) = some ⟨R.cfg, C48.later T R.state, R.sim, R.dt, R.coefs,
      Deck.drive (env k J X R.cfg) (gridType k J X R.cfg == .cubic) R.cfg (C48.later T R.state)⟩ := by
  obtain ⟨s, hs, hc, hS, e⟩ := Scaling.setup_parts hR
  have hS' := sim_later (k := k) (J := J) T R.cfg hs
  rw [hS] at hS'
  have hs' : (delayed X T).file.stored = some (C48.later T s) := by
    show (delayFile T X.file).stored = _
    rw [C48.stored_later, hs]; rfl
  have := Scaling.setup_of (X := delayed X T) (c := R.cfg) hc hs' hS'
  rw [this, coefs_later]
  have e1 : R.state = s := by rw [e]
  have e2 : R.coefs = coefs k J X R.cfg s := by rw [e]
  have e3 : R.dt = Setup.dt k J X R.cfg := by rw [e]
  rw [e1, e2, e3]
  rfl

/-! ### Delays of the stored items -/

theorem card_delays {s s' : Deck.State} {c : Deck.Card} (h : s.card c = some s') :
    (∀ x ∈ s'.srcs, x ∈ s.srcs ∨ ∃ q b n tag w z resist, c = .ex q b n tag w z x.delay resist) ∧
    (∀ x ∈ s'.pws, x ∈ s.pws ∨ ∃ p, c = .pw p x.delay) := by
  cases c <;> simp only [State.card] at h <;> (repeat' split at h) <;> simp at h <;> subst h <;>
    refine ⟨fun x hx => ?_, fun x hx => ?_⟩ <;>
    first
      | exact Or.inl hx
      | (simp only [List.mem_append, List.mem_singleton] at hx
         rcases hx with hx | rfl
         · exact Or.inl hx
         · simp)

theorem read_delays : ∀ (l : List Deck.Card) (s s' : Deck.State), Deck.read s l = some s' →
    (∀ x ∈ s'.srcs, x ∈ s.srcs ∨ ∃ q b n tag w z resist, Deck.Card.ex q b n tag w z x.delay resist ∈ l) ∧
    (∀ x ∈ s'.pws, x ∈ s.pws ∨ ∃ p, Deck.Card.pw p x.delay ∈ l)
  | [], s, s', h => by simp [Deck.read] at h; subst h; exact ⟨fun x hx => Or.inl hx, fun x hx => Or.inl hx⟩
  | c :: l, s, s', h => by
    rw [C47.read_cons] at h
    obtain ⟨t, ht, h⟩ := Option.bind_eq_some_iff.1 h
    obtain ⟨a1, a2⟩ := read_delays l t s' h
    obtain ⟨b1, b2⟩ := card_delays ht
    refine ⟨fun x hx => ?_, fun x hx => ?_⟩
    · rcases a1 x hx with hx | ⟨q, b, n, tag, w, z, r, hm⟩
      · rcases b1 x hx with hx | ⟨q, b, n, tag, w, z, r, rfl⟩
        · exact Or.inl hx
        · exact Or.inr ⟨q, b, n, tag, w, z, r, List.mem_cons_self⟩
      · exact Or.inr ⟨q, b, n, tag, w, z, r, List.mem_cons_of_mem _ hm⟩
    · rcases a2 x hx with hx | ⟨p, hm⟩
      · rcases b2 x hx with hx | ⟨p, rfl⟩
        · exact Or.inl hx
        · exact Or.inr ⟨p, List.mem_cons_self⟩
      · exact Or.inr ⟨p, List.mem_cons_of_mem _ hm⟩

theorem not_before (hR : setup k J X = some R) (h : NotBefore X.file) :
    (∀ x ∈ R.state.srcs, 0 ≤ x.delay) ∧ ∀ x ∈ R.state.pws, 0 ≤ x.delay := by
  obtain ⟨s, hs, -, -, e⟩ := Scaling.setup_parts hR
  have es : R.state = s := by rw [e]
  rw [es]
  obtain ⟨-, hr⟩ := C47.stored_parts hs
  obtain ⟨a, b⟩ := read_delays _ _ _ hr
  refine ⟨fun x hx => ?_, fun x hx => ?_⟩
  · rcases a x hx with hx | ⟨q, b, n, tag, w, z, r, hm⟩
    · simp [State.init] at hx
    · exact h.1 _ _ _ _ _ _ _ _ hm
  · rcases b x hx with hx | ⟨p, hm⟩
    · simp [State.init] at hx
    · exact h.2 _ _ hm

/-! ### The fields -/

/-- **C98.** With `M` time steps added to every delay the input stays accepted, with the same grid and time step; nothing
happens in the first `M` steps, and from then on every quantity has the values it had before, `M` steps later. -/
theorem fields_later (hR : setup k J X = some R) (hdt : 0 < R.dt) (hw : Causal X R.dt) (hb : NotBefore X.file)
    (hp : pwNames X.file = [] ∨ gridType k J X R.cfg = .cubic) (M : ℕ) :
    ∃ R', setup k J (delayed X (M * R.dt)) = some R' ∧ R'.cfg = R.cfg ∧ R'.dt = R.dt ∧
      (∀ n ≤ M, ∀ l, R'.fields n l = 0) ∧ ∀ n l, R'.fields (n + M) l = R.fields n l := by
  obtain ⟨s, hs, hc, hS, e⟩ := Scaling.setup_parts hR
  have e1 : R.state = s := by rw [e]
  have e3 : R.dt = (env k J X R.cfg).dt := by rw [e]; rfl
  have e4 : R.drive = Deck.drive (env k J X R.cfg) (gridType k J X R.cfg == .cubic) R.cfg R.state := by
    rw [e1]
    conv_lhs => rw [e]
  obtain ⟨d1, d2⟩ := not_before hR hb
  have hps := (C69.stored_driven hR).2
  have hq : ∀ n < M, ∀ l, Deck.drive (env k J X R.cfg) (gridType k J X R.cfg == .cubic) R.cfg
      (C48.later (M * R.dt) R.state) n l = 0 := by
    rw [e3]
    refine C48.causal_silent (e3 ▸ hdt) ?_ d1 d2 ?_
    · intro n t ht
      have := hw n t ht
      rw [e3] at this
      exact this
    · rcases hp with hp | hp
      · right
        rw [hp] at hps
        exact List.map_eq_nil_iff.1 hps
      · left; rw [hp]; rfl
  refine ⟨_, run_later hR (M * R.dt), rfl, rfl, fun n hn l => ?_, fun n => ?_⟩
  · exact C12.quiet R.sim R.coefs _ n (fun m hm => hq m (lt_of_lt_of_le hm hn)) l
  · induction n with
    | zero =>
      intro l
      rw [Nat.zero_add]
      exact C12.quiet R.sim R.coefs _ M hq l
    | succ n ih =>
      intro l
      have hd : Deck.drive (env k J X R.cfg) (gridType k J X R.cfg == .cubic) R.cfg (C48.later (M * R.dt) R.state) (n + M) =
          R.drive n := by
        rw [e4, e3]
        exact C48.drive_later (env k J X R.cfg) (fun x T => rfl) _ _ _ M n
      rw [show n + 1 + M = (n + M) + 1 by omega]
      show R.sim.state R.coefs _ (fun _ => 0) ((n + M) + 1) l = R.sim.state R.coefs R.drive (fun _ => 0) (n + 1) l
      simp only [Sim.state]
      have ih' : R.sim.state R.coefs (Deck.drive (env k J X R.cfg) (gridType k J X R.cfg == .cubic) R.cfg
          (C48.later (M * R.dt) R.state)) (fun _ => 0) (n + M) = R.sim.state R.coefs R.drive (fun _ => 0) n := funext ih
      rw [ih', hd]

/-! ### The files -/

/-- **C98.** Two runs, the second with all delays longer by `M` steps and run `M` steps longer: the file of every time-domain
observer of the second has zeros for `M` steps, and then what the file of the first has from its beginning. -/
theorem probes_later (h : Leaves k J X Q fs) (hR : setup k J X = some R) (hdt : 0 < R.dt) (hw : Causal X R.dt)
    (hb : NotBefore X.file) (hp : pwNames X.file = [] ∨ gridType k J X R.cfg = .cubic) {M : ℕ}
    (h' : Leaves k J (delayed X (M * R.dt)) Q' fs') (hQ : Q.times = none) (hQ' : Q'.times = none)
    (hN : Q'.steps.toNat = Q.steps.toNat + M) {c : OPCard} (hc : Deck.Card.op c ∈ X.file.cards)
    (ha : c.ascii = true) (hf : c.freq = false) :
    ∃ at' v, ("eh_" ++ c.name ++ "_td.asc", Contents.time at' (stepLines Q.steps.toNat R.dt v)) ∈ fs ∧
      ("eh_" ++ c.name ++ "_td.asc", Contents.time at' (stepLines (Q.steps.toNat + M) R.dt (postponed M v))) ∈ fs' := by
  obtain ⟨R', hR', hcfg, hdt', hz, hl⟩ := fields_later hR hdt hw hb hp M
  have hc' : Deck.Card.op c ∈ (delayed X (M * R.dt)).file.cards := by
    show _ ∈ X.file.cards.map _
    exact List.mem_map.2 ⟨_, hc, rfl⟩
  have p := C61.probe_file h hR hc ha hf
  have p' := C61.probe_file h' hR' hc' ha hf
  refine ⟨some ⟨fun a => c.bbox a.lo, fun a => X.lines a (c.bbox a.lo)⟩, fun q => sixAt R q (corner c), ?_, ?_⟩
  · have : observed Q = List.range Q.steps.toNat := by unfold observed; rw [hQ]
    rw [this] at p
    exact p
  · have : observed Q' = List.range (Q.steps.toNat + M) := by unfold observed; rw [hQ', hN]
    rw [this, hdt'] at p'
    have e : stepLines (Q.steps.toNat + M) R.dt (postponed M fun q => sixAt R q (corner c)) =
        (List.range (Q.steps.toNat + M)).map fun q => ⟨BitVec.ofNat 64 q, q * R.dt, sixAt R' q (corner c)⟩ := by
      unfold stepLines
      refine List.map_congr_left fun q _ => ?_
      congr 1
      unfold postponed
      split
      · rename_i hq
        simp only [sixAt, atNode, hz q (le_of_lt hq)]
      · rename_i hq
        obtain ⟨n, rfl⟩ : ∃ n, q = n + M := ⟨q - M, by omega⟩
        simp only [sixAt, atNode, hl, hcfg, Nat.add_sub_cancel]
    rw [e]
    exact p'

theorem transform_later (N M : ℕ) (v : ℕ → ℝ) (w dt : ℝ) :
    transform (List.range (N + M)) (fun q => if q < M then 0 else v (q - M)) w dt =
      Complex.exp (-Complex.I * (w * (M * dt) : ℝ)) * transform (List.range N) v w dt := by
  unfold transform
  rw [Nat.add_comm N M, List.range_add, List.map_append, List.sum_append, List.map_map]
  have h0 : (List.map (fun q : ℕ => (((if q < M then 0 else v (q - M) : ℝ)) : ℂ) * Complex.exp (-Complex.I * (w * (q * dt) : ℝ))) (List.range M)).sum = 0 := by
    refine List.sum_eq_zero fun x hx => ?_
    obtain ⟨q, hq, rfl⟩ := List.mem_map.1 hx
    rw [if_pos (List.mem_range.1 hq)]; simp
  rw [h0, zero_add, ← List.sum_map_mul_left]
  congr 1
  refine List.map_congr_left fun q _ => ?_
  simp only [Function.comp_apply]
  rw [if_neg (by omega), Nat.add_sub_cancel_left]
  have : -Complex.I * ((w * ((M + q : ℕ) * dt) : ℝ) : ℂ) = -Complex.I * ((w * (M * dt) : ℝ) : ℂ) + -Complex.I * ((w * (q * dt) : ℝ) : ℂ) := by
    push_cast; ring
  rw [this, Complex.exp_add]
  ring

theorem transform_over (N M : ℕ) (v : ℕ → ℝ) (w dt : ℝ) (h : ∀ q, N ≤ q → v q = 0) :
    transform (List.range (N + M)) v w dt = transform (List.range N) v w dt := by
  unfold transform
  rw [List.range_add, List.map_append, List.sum_append, List.map_map]
  have h0 : (List.map ((fun q : ℕ => (v q : ℂ) * Complex.exp (-Complex.I * (w * (q * dt) : ℝ))) ∘ fun x => N + x) (List.range M)).sum = 0 := by
    refine List.sum_eq_zero fun x hx => ?_
    obtain ⟨q, -, rfl⟩ := List.mem_map.1 hx
    simp only [Function.comp_apply]
    rw [h _ (by omega)]; simp
  rw [h0, add_zero]

theorem quotient_turned (phi : ℝ) (z : ℂ) (p : ℝ × ℝ) :
    quotient (C67.pair (Complex.exp (-Complex.I * (phi : ℝ)) * z)) p = turnedBack phi (quotient (C67.pair z) p) := by
  have he : Complex.exp (-Complex.I * (phi : ℝ)) = ⟨Real.cos phi, -Real.sin phi⟩ := by
    have : -Complex.I * ((phi : ℝ) : ℂ) = ((-phi : ℝ) : ℂ) * Complex.I := by push_cast; ring
    rw [this]
    apply Complex.ext
    · rw [Complex.exp_ofReal_mul_I_re, Real.cos_neg]
    · rw [Complex.exp_ofReal_mul_I_im, Real.sin_neg]
  rw [he]
  unfold quotient C67.pair turnedBack
  simp only [Complex.mul_re, Complex.mul_im]
  refine Prod.ext ?_ ?_ <;> simp only <;> ring

/-- **C98.** Of two such runs with the same list of frequencies, the first long enough for the waveform a frequency-domain
observer is divided by to be over: the file of the second has the numbers of the first, each turned back by the angle that
belongs to a delay of `M` steps at its frequency. -/
theorem transfer_later (h : Leaves k J X Q fs) (hR : setup k J X = some R) (hdt : 0 < R.dt) (hw : Causal X R.dt)
    (hb : NotBefore X.file) (hp : pwNames X.file = [] ∨ gridType k J X R.cfg = .cubic) {M : ℕ}
    (h' : Leaves k J (delayed X (M * R.dt)) Q' fs') (hQ : Q.times = none) (hQ' : Q'.times = none)
    (hN : Q'.steps.toNat = Q.steps.toNat + M) {F : ℝ × ℝ × ℕ} (hF : Q.freqs = some F) (hF' : Q'.freqs = some F)
    {c : OPCard} (hc : Deck.Card.op c ∈ X.file.cards) (ha : c.ascii = true) (hf : c.freq = true)
    (hover : ∀ n, dividedBy X.file c = some n → ∀ t, Q.steps.toNat * R.dt ≤ t → waveValue R.dt (X.waves n) t = 0) :
    ∃ at' rows, ("eh_" ++ c.name ++ "_fd.asc", Contents.freq at' rows) ∈ fs ∧
      ("eh_" ++ c.name ++ "_fd.asc", Contents.freq at' (delayedSpectrum (M * R.dt) rows)) ∈ fs' := by
  obtain ⟨R', hR', hcfg, hdt', hz, hl⟩ := fields_later hR hdt hw hb hp M
  have hc' : Deck.Card.op c ∈ (delayed X (M * R.dt)).file.cards := by
    show _ ∈ X.file.cards.map _
    exact List.mem_map.2 ⟨_, hc, rfl⟩
  obtain ⟨n, hn, p⟩ := C67.transfer_exact h hR hc ha hf
  obtain ⟨n', hn', p'⟩ := C67.transfer_exact h' hR' hc' ha hf
  have hnn : n' = n := by
    have e : dividedBy (delayed X (M * R.dt)).file c = dividedBy X.file c := by
      unfold dividedBy
      congr 2
      show (X.file.cards.map (delayCard (M * R.dt))).filterMap waveOf = X.file.cards.filterMap waveOf
      rw [List.filterMap_map]
      congr 1
      funext x; cases x <;> rfl
    rw [e, hn] at hn'
    exact (Option.some.inj hn').symm
  subst hnn
  refine ⟨_, _, p, ?_⟩
  have eo : observed Q = List.range Q.steps.toNat := by unfold observed; rw [hQ]
  have eo' : observed Q' = List.range (Q.steps.toNat + M) := by unfold observed; rw [hQ', hN]
  have ef : ∀ m, frequency Q' R.dt m = frequency Q R.dt m := by intro m; unfold frequency; rw [hF, hF']
  have ec : frequencyCount Q' = frequencyCount Q := by unfold frequencyCount; rw [hF, hF']
  have ew : ∀ m, C67.waveSpectrum (delayed X (M * R.dt)) Q' R' n' m = C67.waveSpectrum X Q R n' m := by
    intro m
    unfold C67.waveSpectrum
    rw [hdt', hN, ef]
    congr 1
    refine transform_over _ _ _ _ _ fun q hq => ?_
    refine hover n' hn _ ?_
    have : (Q.steps.toNat : ℝ) ≤ q := by exact_mod_cast hq
    exact mul_le_mul_of_nonneg_right this hdt.le
  have es : ∀ fc m, C67.fieldSpectrum Q' R' c fc m = C67.pair (Complex.exp (-Complex.I *
      ((2 * Real.pi * frequency Q R.dt m * (M * R.dt) : ℝ) : ℂ)) *
      transform (List.range Q.steps.toNat) (fun q => atNode R q fc (corner c)) (2 * Real.pi * frequency Q R.dt m) R.dt) := by
    intro fc m
    unfold C67.fieldSpectrum
    rw [eo', hdt', ef]
    have : (fun q => atNode R' q fc (corner c)) = fun q => if q < M then 0 else atNode R (q - M) fc (corner c) := by
      funext q
      split
      · rename_i hq
        unfold atNode; rw [hz q (le_of_lt hq)]
      · rename_i hq
        obtain ⟨i, rfl⟩ : ∃ i, q = i + M := ⟨q - M, by omega⟩
        unfold atNode; rw [hl, hcfg, Nat.add_sub_cancel]
    rw [this]
    exact congrArg C67.pair (transform_later Q.steps.toNat M (fun q => atNode R q fc (corner c)) _ _)
  have e : (List.range (frequencyCount Q')).map (fun m => (frequency Q' R'.dt m, [Fc.ex, .ey, .ez, .hx, .hy, .hz].map fun fc =>
        quotient (C67.fieldSpectrum Q' R' c fc m) (C67.waveSpectrum (delayed X (M * R.dt)) Q' R' n' m))) =
      delayedSpectrum (M * R.dt) ((List.range (frequencyCount Q)).map fun m =>
          (frequency Q R.dt m, [Fc.ex, .ey, .ez, .hx, .hy, .hz].map fun fc =>
            quotient (C67.fieldSpectrum Q R c fc m) (C67.waveSpectrum X Q R n' m))) := by
    unfold delayedSpectrum
    rw [List.map_map, ec]
    refine List.map_congr_left fun m _ => ?_
    simp only [Function.comp_apply, List.map_map]
    rw [hdt', ef]
    congr 1
    refine List.map_congr_left fun fc _ => ?_
    simp only [Function.comp_apply]
    rw [es, ew, quotient_turned]
    unfold C67.fieldSpectrum
    rw [eo]
  rw [← e]
  exact p'

/-! ### Waveforms that are zero before time zero -/

/-- The compact pulses, plain, differentiated and modulated, and the ramped sinusoid are zero before time zero. -/
theorem builtin_causal {w : Waveform.Wf} (ht : w.type = .compact ∨ w.type = .diffCompact ∨ w.type = .modCompact ∨ w.type = .ramped)
    {dt t : ℝ} (h0 : t < 0) : waveValue dt (.builtin w) t = 0 := by
  obtain ⟨ty, sz, de, wi, fr⟩ := w
  have hd : 0 ≤ Waveform.dflt de 0 := by unfold Waveform.dflt; split <;> linarith
  have hle : t - 0 - Waveform.dflt de 0 ≤ 0 := by linarith
  rcases ht with rfl | rfl | rfl | rfl <;>
    simp [waveValue, Waveform.value, Waveform.initWaveform, Waveform.shape, Waveform.compactPulse, Waveform.differentiatedCompactPulse,
      Waveform.modulatedCompactPulse, Waveform.rampedSinusoid, if_pos hle] <;> intro h <;> (try linarith)

/-- So are those given by a table whose first time is not negative. -/
theorem table_causal {size delay : ℝ} {x y : ℕ → ℝ} {n : ℕ} (hx : 0 ≤ x 0) {dt t : ℝ} (h0 : t < 0) :
    waveValue dt (.table size delay x y n) t = 0 := by
  have hd : 0 ≤ Waveform.dflt delay 0 := by unfold Waveform.dflt; split <;> linarith
  simp only [waveValue, Waveform.externalWaveform]
  rw [if_pos (Or.inl (by linarith))]
  simp

end

/-! ### A case -/

/-- The dipole of C61 with a compact pulse of half width 1. -/
noncomputable def compactDipole : Experiment := C70.withWaves (C61.dipole 1) fun _ => .builtin ⟨.compact, 1, 0, 1, -1⟩

/-- Its far observer, run for 100 steps and, with the feed 30 steps later, for 130. -/
example (k : Consts) (J : Junk) (hk : Physical k) (hbig : 1 < k.big) :
    ∃ R, setup k J compactDipole = some R ∧ 0 < R.dt ∧ ∀ fs fs', Leaves k J compactDipole ⟨100, none, none⟩ fs →
      Leaves k J (delayed compactDipole ((30 : ℕ) * R.dt)) ⟨130, none, none⟩ fs' →
      ∃ at' v, ("eh_near_td.asc", Contents.time at' (stepLines 100 R.dt v)) ∈ fs ∧
        ("eh_near_td.asc", Contents.time at' (stepLines (100 + 30) R.dt (postponed 30 v))) ∈ fs' := by
  obtain ⟨R, hR⟩ := C61.dipole_setup k J 1
  have h := C70.run_waves hR fun _ => .builtin ⟨.compact, 1, 0, 1, -1⟩
  have hdt : 0 < R.dt := C64.step_positive hk hR (by show (0 : ℝ) < 0.5; norm_num)
    (by intro a m _ _; show (1 : ℝ) * m < 1 * (m + 1 : ℤ); push_cast; linarith)
    (by intro a m _ _; show (1 : ℝ) * (m + 1 : ℤ) - 1 * m < k.big; push_cast; linarith)
  refine ⟨_, h, hdt, fun fs fs' h1 h2 => ?_⟩
  refine probes_later (c := ⟨8, mkBox 3 3 2 2 1 1, "near", true, true, 1, 1, 1, "", false⟩) h1 h hdt ?_ ?_ ?_ h2 rfl rfl rfl ?_ rfl rfl
  · intro n t ht
    exact builtin_causal (Or.inl rfl) ht
  · constructor
    · intro q b n tag w z delay resist hm
      simp [compactDipole, C70.withWaves, C61.dipole, C61.dipoleCards] at hm
      exact le_of_eq hm.2.2.2.2.2.2.1.symm
    · intro c delay hm
      simp [compactDipole, C70.withWaves, C61.dipole, C61.dipoleCards] at hm
  · left
    simp [pwNames, compactDipole, C70.withWaves, C61.dipole, C61.dipoleCards, List.filterMap_cons]
  · exact List.mem_cons_of_mem _ List.mem_cons_self

end Vulture.C98
