import Verif.Lemmas.CavitySetup
import Verif.Lemmas.Impulse
import Verif.Props.C28_Waveforms
set_option linter.unusedSimpArgs false
set_option linter.unusedVariables false
/-
C56 Closed cavities, from the mesh file to the fields: whatever cells, media, wires, plates, current sources and resistances
a file puts into a box with perfectly conducting sides, the run does not blow up, energy is only supplied by the sources and
only lost in conductivities, and source and observer can be exchanged.
-/
namespace Vulture.C56
open Spec Setup Deck Scaling CavityLemmas Finset

section
variable {k : Consts} {J : Junk} {X : Experiment} {R : Run}

/-- C56: the arrays computed from the file of a cavity describe a closed box filled with media `g`, with the time step of the
run and the distances of the user's mesh lines; the permittivities and permeabilities are at least those of free space and
the conductivities not negative, so the time step stays below the limit by the Courant number of the file. -/
theorem cavity_closed (hk : Physical k) (h : setup k J X = some R) (hX : Cavity k X) :
    ∃ g : Filling, C17.Closed (C17.undriven R.sim) R.coefs g ∧ C17.Courant (C17.undriven R.sim) g X.cn ∧ g.dt = R.dt ∧ 0 < R.dt ∧
      (∀ a i, 0 ≤ i → i < cellsOf X.file a → g.de a (R.cfg.gibox a.lo + i) = X.lines a (i + 1) - X.lines a i) := by
  have hs := setUp hk h hX
  obtain ⟨g, h1, h2, h3, h4, h5⟩ := C17.setup_closed hs
  obtain ⟨hv, hn, hb, hdt, hC, hdr, hst, pws, hpw, eS⟩ := run_parts h
  have ecfg : (C17.undriven R.sim).cfg = R.cfg := by rw [eS]; rfl
  refine ⟨g, h1, h2, h3, ?_, ?_⟩
  · have hedge := fun a => (C18.all_edges_ge R.cfg hv a (X.lines a) k.big (J.edges a)
      (fun m h0 h1 => hX.increasing a m h0 (by rw [← hn]; exact h1))
      (fun m h0 h1 => hX.representable a m h0 (by rw [← hn]; exact h1)) 0).2.2
    rw [hdt]
    exact (C18.time_step_courant X.cn k.c0 hk.c0 hX.courant _ hedge).1
  · intro a i h0 h1
    rw [h4 a, ecfg]
    have hg := no_layers hv (fun f => by rw [hb]; exact hX.walls f)
    have sp := gibox_span R.cfg a
    rw [C18.edge_lengths R.cfg hv a (X.lines a) k.big (J.edges a) _ (by rw [hg]; omega) (by rw [hg, sp, hn]; omega)]
    have : C18.nearestCell (R.cfg.n a) (R.cfg.gibox a.lo + i - R.cfg.gibox a.lo) = i := by
      rw [hn]
      unfold C18.nearestCell; omega
    rw [this]
    rfl

/-- No electric field in conductors, at any time. -/
theorem conductors_free {g : Filling} (h : setup k J X = some R) (hX : Cavity k X)
    (hc : C17.Closed (C17.undriven R.sim) R.coefs g) (n : ℕ) : FieldFree R.coefs R.sim.cfg.gibox (R.fields n) := by
  obtain ⟨s1, s2⟩ := sources h hX
  exact C45.free_run hc s1 s2 R.drive n

/-- C56: the energy gained in a step is the work the sources do less the heat in the conductivities, whatever the
waveforms. -/
theorem energy_balance (hk : Physical k) (h : setup k J X = some R) (hX : Cavity k X) :
    ∃ g : Filling, C17.Closed (C17.undriven R.sim) R.coefs g ∧ g.dt = R.dt ∧ ∀ n,
      let B := R.sim.cfg.gibox
      let J := fun n => currentE R.sim.srcs fun q => R.drive n (.src false q)
      let M := fun n => currentH R.sim.srcs fun q => R.drive n (.src true q)
      let F := R.fields
      leapEnergy g B (F (n+1)) (F (n+2)) = leapEnergy g B (F n) (F (n+1)) - heat g B (F (n+1)) (F (n+2)) -
        g.dt * ((reactionE g B (F (n+1)) (J (n+1)) + reactionE g B (F (n+2)) (J (n+1))) / 2 +
          (reactionH g B (F (n+1)) (M n) + reactionH g B (F (n+1)) (M (n+1))) / 2) := by
  obtain ⟨g, h1, h2, h3, -⟩ := cavity_closed hk h hX
  obtain ⟨s1, s2⟩ := sources h hX
  exact ⟨g, h1, h3, fun n => C45.energy_supplied h1 R.sim.srcs s1 s2 R.drive n⟩

/-- C56: after the sources have stopped the energy in the box stays below a fixed multiple of what it was. -/
theorem silence_bounded (hk : Physical k) (h : setup k J X = some R) (hX : Cavity k X) (hlt : X.cn < 1) :
    ∃ g : Filling, C17.Closed (C17.undriven R.sim) R.coefs g ∧ g.dt = R.dt ∧
      ∀ N, (∀ n p q, R.drive (N + n) (.src p q) = 0) → ∀ n,
        stored g R.sim.cfg.gibox (R.fields (N + n)) ≤ (1 + X.cn) / (1 - X.cn) * stored g R.sim.cfg.gibox (R.fields N) := by
  obtain ⟨g, h1, h2, h3, -⟩ := cavity_closed hk h hX
  obtain ⟨s1, s2⟩ := sources h hX
  refine ⟨g, h1, h3, fun N hz n => ?_⟩
  have := C17.bounded_after_sources h1 h2 s2 R.drive (fun _ => 0) N hz (conductors_free h hX h1 N) n
  rw [div_mul_eq_mul_div, le_div_iff₀ (by linarith)]
  unfold Run.fields
  linarith

/-- All drive values: those of the sources. -/
theorem drive_support (h : setup k J X = some R) (hX : Cavity k X) (n : ℕ) (l : Loc) (hl : l.isInput = true)
    (hn : ∀ p q, q < R.sim.srcs.length → l ≠ .src p q) : R.drive n l = 0 := by
  obtain ⟨hv, hcn, hb, hdt, hC, hdr, hst, pws, hpw, eS⟩ := run_parts h
  have inv := state_inv h hX
  have hlen : R.sim.srcs.length = R.state.srcs.length := by rw [eS]; simp
  rw [hdr]
  cases l with
  | src p q =>
    have : ¬ q < R.state.srcs.length := fun hq => hn p q (by rw [hlen]; exact hq) rfl
    simp only [Deck.drive, List.getElem?_eq_none (not_lt.1 this)]
  | wav m => simp only [Deck.drive, inv.pws]; cases (gridType k J X R.cfg == GridType.cubic) <;> simp
  | inc p m fc i j l => simp only [Deck.drive, inv.pws]; cases (gridType k J X R.cfg == GridType.cubic) <;> simp
  | _ => simp [Loc.isInput] at hl

/-- One sample after one unit pulse of one source: bounded for ever. -/
theorem pulse_bounded (hk : Physical k) (h : setup k J X = some R) (hX : Cavity k X) (hlt : X.cn < 1) (x : Loc)
    {fc : Fc} {i j l : Int} (hi : SampleIn R.sim.cfg.gibox fc i j l) :
    ∃ M, ∀ n, |Impulse.resp R.sim R.coefs (Impulse.unit x) n (.fld fc i j l)| ≤ M := by
  obtain ⟨g, hc, hC, -⟩ := cavity_closed hk h hX
  obtain ⟨s1, s2⟩ := sources h hX
  set u := Impulse.first (Impulse.unit (K := ℝ) x) with hu
  set s0 := R.sim.state R.coefs u (fun _ => 0) 1 with hs0
  have hff : FieldFree R.coefs R.sim.cfg.gibox s0 := C45.free_run hc s1 s2 u 1
  have hst : ∀ n, R.sim.state R.coefs u (fun _ => 0) (1 + n) =
      (C17.undriven R.sim).state R.coefs (fun m => u (1 + m)) s0 n := by
    intro n
    induction n with
    | zero => rfl
    | succ n ih =>
      have e : R.sim.state R.coefs u (fun _ => 0) (1 + (n + 1)) =
        R.sim.step.run R.coefs (setInputs (u (1 + n)) (R.sim.state R.coefs u (fun _ => 0) (1 + n))) := rfl
      rw [e, C17.silent_step (S := R.sim) (C := R.coefs) hc.debye hc.sibc hc.pws s2 (fun p q => by
        simp [setInputs, Loc.isInput, hu, Impulse.first]), ih]
      rfl
  have hb := fun n => C17.samples_bounded hc (fun m => u (1 + m)) s0 hff hC hlt n fc i j l hi
  obtain ⟨e0, m0, m, he, hm0, hm, hge, heps, hmu, hdt⟩ := hC.limit
  set W := (if fc.isE then g.eps fc i j l else g.mu fc i j l) * g.vol fc i j l with hW
  have hW0 : 0 < W := by
    refine mul_pos ?_ (C17.vol_pos hc hi)
    by_cases hf : fc.isE = true
    · rw [if_pos hf]; exact lt_of_lt_of_le he (heps fc i j l hf hi)
    · rw [if_neg hf]; exact lt_of_lt_of_le hm0 (hmu fc i j l (by simpa using hf) hi)
  set E := 2 * ((1 + X.cn) / (1 - X.cn)) * stored g R.sim.cfg.gibox s0 with hE
  refine ⟨√(E / W), fun n => ?_⟩
  cases n with
  | zero => show |(0 : ℝ)| ≤ _; rw [abs_zero]; exact Real.sqrt_nonneg _
  | succ n =>
    have h1 := hb n
    rw [← hst n, Nat.add_comm 1 n] at h1
    show |R.sim.state R.coefs u (fun _ => 0) (n + 1) (.fld fc i j l)| ≤ _
    refine Real.abs_le_sqrt ?_
    rw [le_div_iff₀ hW0, mul_comm]
    exact h1

/-- Finitely many samples. -/
theorem finite_samples (b : BBox) : {l : Loc | ∃ fc i j m, l = .fld fc i j m ∧ SampleIn b fc i j m}.Finite := by
  have : {l : Loc | ∃ fc i j m, l = .fld fc i j m ∧ SampleIn b fc i j m} ⊆
      ((fun q : Fc × Int × Int × Int => Loc.fld q.1 q.2.1 q.2.2.1 q.2.2.2) ''
        ({.ex, .ey, .ez, .hx, .hy, .hz} ×ˢ (Set.Icc (b .xlo) (b .xhi) ×ˢ (Set.Icc (b .ylo) (b .yhi) ×ˢ Set.Icc (b .zlo) (b .zhi))))) := by
    rintro _ ⟨fc, i, j, m, rfl, h1, h2, h3⟩
    refine ⟨(fc, i, j, m), ⟨by cases fc <;> simp, ?_⟩, rfl⟩
    cases fc <;> simp only [pos2] at h1 h2 h3 <;>
      exact ⟨⟨by dsimp only; omega, by dsimp only; omega⟩, ⟨by dsimp only; omega, by dsimp only; omega⟩, ⟨by dsimp only; omega, by dsimp only; omega⟩⟩
  refine Set.Finite.subset (Set.Finite.image _ ?_) this
  exact (Set.toFinite _).prod ((Set.finite_Icc _ _).prod ((Set.finite_Icc _ _).prod (Set.finite_Icc _ _)))

/-- C56: whatever the file puts into the cavity, if the drive values of every source are absolutely summable (pulses, see
`pulses_summable`), all fields stay below a fixed bound for ever. -/
theorem never_blows_up (hk : Physical k) (h : setup k J X = some R) (hX : Cavity k X) (hlt : X.cn < 1)
    (hs : ∀ p q, Summable fun n => |R.drive n (.src p q)|) :
    ∃ M, ∀ n fc i j l, SampleIn R.sim.cfg.gibox fc i j l → |R.fields n (.fld fc i j l)| ≤ M := by
  classical
  let T : Finset Loc := (Finset.univ ×ˢ range R.sim.srcs.length).image fun x : Bool × ℕ => Loc.src x.1 x.2
  have each : ∀ x ∈ {x : Loc | ∃ fc i j m, x = .fld fc i j m ∧ SampleIn R.sim.cfg.gibox fc i j m},
      ∃ M, ∀ n, |R.fields n x| ≤ M := by
    rintro _ ⟨fc, i, j, l, rfl, hi⟩
    refine Impulse.bounded R.sim R.coefs T R.drive ?_ ?_ _ ?_
    · intro n x hx hT
      refine drive_support h hX n x hx fun p q hq e => hT ?_
      rw [e]
      exact Finset.mem_image.2 ⟨(p, q), by simp [hq], rfl⟩
    · intro x hx
      obtain ⟨y, -, rfl⟩ := Finset.mem_image.1 hx
      exact hs y.1 y.2
    · intro x _
      exact pulse_bounded hk h hX hlt x hi
  choose! M hM using each
  obtain ⟨B, hB⟩ := ((finite_samples R.sim.cfg.gibox).image M).bddAbove
  refine ⟨B, fun n fc i j l hi => ?_⟩
  have hm : Loc.fld fc i j l ∈ {x : Loc | ∃ fc i j m, x = .fld fc i j m ∧ SampleIn R.sim.cfg.gibox fc i j m} := ⟨fc, i, j, l, rfl, hi⟩
  exact (hM _ hm n).trans (hB ⟨_, hm, rfl⟩)

/-! ### Pulses -/

/-- Waveforms that end or die away: everything but the ramped sinusoid. (A width of zero is not accepted by the `WF` card.) -/
def Pulse : Wave → Prop
  | .builtin w => w.type ≠ .ramped ∧ w.width ≠ 0
  | .table .. => True

/-- A function that decreases exponentially. -/
def Fades (f : ℝ → ℝ) : Prop := ∃ A, ∀ t, |f t| ≤ A * Real.exp (-t)

theorem bell_fades {y w : ℝ} (hw : 0 ≤ w) : 3 * Real.exp (2 * |y|) * Real.exp (-(1 / 2) * y ^ 2) ≤
    3 * Real.exp ((2 + w) ^ 2 / 2) * Real.exp (-(w * |y|)) := by
  rw [mul_assoc, mul_assoc, ← Real.exp_add, ← Real.exp_add]
  refine mul_le_mul_of_nonneg_left (Real.exp_le_exp.2 ?_) (by norm_num)
  have h := sq_abs y
  nlinarith [sq_nonneg (|y| - (2 + w))]

theorem poly_le (y : ℝ) : |y| ≤ 3 * Real.exp (2 * |y|) ∧ |1 - y ^ 2| ≤ 3 * Real.exp (2 * |y|) ∧ (1 : ℝ) ≤ 3 * Real.exp (2 * |y|) := by
  have h0 := abs_nonneg y
  have h1 : |y| + 1 ≤ Real.exp |y| := Real.add_one_le_exp _
  have h2 : Real.exp (2 * |y|) = Real.exp |y| * Real.exp |y| := by rw [← Real.exp_add]; ring_nf
  have h3 : (|y| + 1) * (|y| + 1) ≤ Real.exp (2 * |y|) := by
    rw [h2]; exact mul_le_mul h1 h1 (by linarith) (by linarith)
  have h := sq_abs y
  refine ⟨by nlinarith, abs_le.2 ⟨by nlinarith, by nlinarith⟩, by nlinarith⟩

/-- A polynomial factor times a normal curve fades. -/
theorem curve_fades {w : ℝ} (hw : w ≠ 0) {p : ℝ → ℝ} (hp : ∀ t, |p t| ≤ 3 * Real.exp (2 * |t / w|)) :
    Fades fun t => p t * Real.exp (-(1 / 2) * (t / w) ^ 2) := by
  refine ⟨3 * Real.exp ((2 + |w|) ^ 2 / 2), fun t => ?_⟩
  rw [abs_mul, abs_of_pos (Real.exp_pos _)]
  refine (mul_le_mul_of_nonneg_right (hp t) (Real.exp_pos _).le).trans ((bell_fades (abs_nonneg w)).trans ?_)
  refine mul_le_mul_of_nonneg_left (Real.exp_le_exp.2 ?_) (by positivity)
  rw [abs_div, mul_div_cancel₀ _ (by simpa using hw)]
  linarith [le_abs_self t]

/-- Something bounded that is zero outside an interval fades. -/
theorem window_fades {f : ℝ → ℝ} {B T : ℝ} (hB : ∀ t, |f t| ≤ B) (hz : ∀ t, T ≤ t → f t = 0) : Fades f := by
  have hB0 : 0 ≤ B := (abs_nonneg _).trans (hB 0)
  refine ⟨B * Real.exp T, fun t => ?_⟩
  by_cases h : T ≤ t
  · rw [hz t h, abs_zero]; positivity
  · rw [mul_assoc, ← Real.exp_add]
    refine (hB t).trans (le_mul_of_one_le_right hB0 (Real.one_le_exp (by linarith)))

theorem compact_bound (t w : ℝ) : |if t ≤ 0 then 0 else if t < 2 * w then Waveform.compactPoly t w else 0| ≤ 1 := by
  have h := C28.compact_range t w
  unfold Waveform.compactPulse at h
  exact abs_le.2 ⟨by linarith [h.1], h.2⟩

/-- Every built-in shape except the ramped sinusoid fades. -/
theorem shape_fades {t : Waveform.WType} (ht : t ≠ .ramped) {w : ℝ} (hw : w ≠ 0) (f : ℝ) : Fades (Waveform.shape t w f) := by
  cases t with
  | ramped => exact absurd rfl ht
  | external => exact ⟨0, fun t => by simp [Waveform.shape]⟩
  | gaussian =>
    obtain ⟨A, hA⟩ := curve_fades hw (p := fun _ => 1) fun t => by rw [abs_one]; exact (poly_le _).2.2
    exact ⟨A, fun t => by simpa [Waveform.shape, Waveform.gaussianPulse] using hA t⟩
  | narrowGaussian =>
    obtain ⟨A, hA⟩ := curve_fades hw (p := fun _ => 1) fun t => by rw [abs_one]; exact (poly_le _).2.2
    exact ⟨A, fun t => by simpa [Waveform.shape, Waveform.gaussianPulse] using hA t⟩
  | diffGaussian =>
    obtain ⟨A, hA⟩ := curve_fades hw (p := fun t => -t / w) fun t => by
      rw [neg_div, abs_neg]; exact (poly_le _).1
    exact ⟨A, fun t => hA t⟩
  | ricker =>
    obtain ⟨A, hA⟩ := curve_fades hw (p := fun t => 1 - (t / w) ^ 2) fun t => (poly_le _).2.1
    exact ⟨A, fun t => hA t⟩
  | modGaussian =>
    obtain ⟨A, hA⟩ := curve_fades hw (p := fun t => Real.sin (2 * Real.pi * f * t)) fun t =>
      (Real.abs_sin_le_one _).trans (poly_le _).2.2
    refine ⟨A, fun t => ?_⟩
    have h1 := hA t
    show |Real.exp (-(1 / 2) * (t / w) ^ 2) * Real.sin (2 * Real.pi * f * t)| ≤ _
    rw [mul_comm (Real.exp _)]
    exact h1
  | compact =>
    refine window_fades (B := 1) (T := 2 * w) (fun t => compact_bound t w) fun t h => ?_
    simp only [Waveform.shape, Waveform.compactPulse]
    split
    · rfl
    · rw [if_neg (by linarith)]
  | modCompact =>
    refine window_fades (B := 1) (T := 2 * w) (fun t => ?_) fun t h => ?_
    · show |_ * Real.sin _| ≤ 1
      rw [abs_mul]
      exact mul_le_one₀ (compact_bound t w) (abs_nonneg _) (Real.abs_sin_le_one _)
    · simp only [Waveform.shape, Waveform.modulatedCompactPulse]
      split
      · simp
      · rw [if_neg (by linarith)]; simp
  | diffCompact =>
    refine window_fades (B := 1) (T := 2 * w) (fun t => ?_) fun t h => ?_
    · simp only [Waveform.shape, Waveform.differentiatedCompactPulse]
      split
      · simp
      · split
        · have h1 := abs_le.1 (Real.abs_sin_le_one (Real.pi / w * t))
          have h2 := abs_le.1 (Real.abs_sin_le_one (2 * Real.pi / w * t))
          have h3 := abs_le.1 (Real.abs_sin_le_one (3 * Real.pi / w * t))
          exact abs_le.2 ⟨by linarith [h1.1, h2.2, h3.1], by linarith [h1.2, h2.1, h3.2]⟩
        · simp
    · simp only [Waveform.shape, Waveform.differentiatedCompactPulse]
      split
      · rfl
      · rw [if_neg (by linarith)]

/-- What fades is summable over the time steps, whatever the delay. -/
theorem fades_summable {f : ℝ → ℝ} (hf : Fades f) {dt : ℝ} (hdt : 0 < dt) (c : ℝ) :
    Summable fun n : ℕ => |f (n * dt + c)| := by
  obtain ⟨A, hA⟩ := hf
  have hg : Summable fun n : ℕ => (A * Real.exp (-c)) * Real.exp (-dt) ^ n :=
    (summable_geometric_of_lt_one (Real.exp_pos _).le (by rw [← Real.exp_zero]; exact Real.exp_lt_exp.2 (by linarith))).mul_left _
  refine Summable.of_nonneg_of_le (fun _ => abs_nonneg _) (fun n => (hA _).trans (le_of_eq ?_)) hg
  rw [← Real.exp_nat_mul, mul_assoc, ← Real.exp_add]
  congr 2
  ring

/-- The parameters `initWaveforms` completes: same type, width still not zero. -/
theorem init_width {dt : ℝ} (hdt : 0 < dt) {w : Waveform.Wf} (hw : w.width ≠ 0) :
    (Waveform.initWaveform dt w).type = w.type ∧ (Waveform.initWaveform dt w).width ≠ 0 := by
  have h2 : (0 : ℝ) < √2 := Real.sqrt_pos.2 (by norm_num)
  have hd : ∀ d : ℝ, 0 < d → Waveform.dflt w.width d ≠ 0 := by
    intro d hd
    unfold Waveform.dflt
    split
    · exact hd.ne'
    · exact hw
  unfold Waveform.initWaveform
  cases w.type <;> refine ⟨rfl, ?_⟩ <;> first | exact hw | exact hd _ (by positivity)

/-- Values of a pulse over the time steps. -/
theorem wave_summable {dt : ℝ} (hdt : 0 < dt) {w : Wave} (hw : Pulse w) (c : ℝ) :
    Summable fun n : ℕ => |waveValue dt w (n * dt + c)| := by
  cases w with
  | builtin w =>
    obtain ⟨h1, h2⟩ := hw
    obtain ⟨e, hz⟩ := init_width hdt h2
    have := (fades_summable (shape_fades (t := (Waveform.initWaveform dt w).type) (by rw [e]; exact h1) hz
      (Waveform.initWaveform dt w).frequency) hdt (c - (Waveform.initWaveform dt w).delay)).mul_left |(Waveform.initWaveform dt w).size|
    refine this.congr fun n => ?_
    simp only [waveValue, Waveform.value]
    rw [abs_mul]
    congr 3
    ring
  | table size delay x y m =>
    obtain ⟨N, hN⟩ := exists_nat_gt ((x (m - 1) + Waveform.dflt delay 0 - c) / dt)
    refine summable_of_ne_finset_zero (s := range N) fun n hn => ?_
    rw [mem_range, not_lt] at hn
    have h1 : x (m - 1) + Waveform.dflt delay 0 - c < n * dt := by
      rw [div_lt_iff₀ hdt] at hN
      have : (N : ℝ) ≤ n := by exact_mod_cast hn
      nlinarith
    simp only [waveValue, Waveform.externalWaveform]
    rw [if_pos (Or.inr (by linarith))]
    simp

/-- C56: with pulses as waveforms (everything except ramped sinusoids) the drive values are summable: `never_blows_up`
applies. -/
theorem pulses_summable (hk : Physical k) (h : setup k J X = some R) (hX : Cavity k X) (hw : ∀ n, Pulse (X.waves n)) (p : Bool)
    (q : ℕ) : Summable fun n => |R.drive n (.src p q)| := by
  obtain ⟨-, -, -, -, hdt, -⟩ := cavity_closed hk h hX
  obtain ⟨hv, hcn, hb, edt, hC, hdr, hst, pws, hpw, eS⟩ := run_parts h
  rw [hdr]
  simp only [Deck.drive]
  cases hx : R.state.srcs[q]? with
  | none => simp only [abs_zero]; exact summable_zero
  | some x =>
    simp only [abs_mul]
    refine Summable.mul_left _ ?_
    have e : (env k J X R.cfg).dt = R.dt := edt.symm
    have ew : ∀ t, (env k J X R.cfg).wave x.wave t = waveValue R.dt (X.waves x.wave) t := by
      intro t; rw [edt]; rfl
    refine (wave_summable hdt (hw x.wave) ((if p then 1 / 2 * R.dt else 0) - x.delay)).congr fun n => ?_
    rw [ew, e]
    congr 2
    unfold time
    cases p <;> simp <;> ring

/-- C56: pulses in a cavity. -/
theorem pulses_stay_bounded (hk : Physical k) (h : setup k J X = some R) (hX : Cavity k X) (hlt : X.cn < 1)
    (hw : ∀ n, Pulse (X.waves n)) :
    ∃ M, ∀ n fc i j l, SampleIn R.sim.cfg.gibox fc i j l → |R.fields n (.fld fc i j l)| ≤ M :=
  never_blows_up hk h hX hlt (pulses_summable hk h hX hw)

/-! ### Without losses -/

/-- No conductivity anywhere: neither in media nor in sources. -/
structure Lossless (X : Experiment) : Prop where
  media : ∀ n m, Deck.Card.mt n m ∈ X.file.cards → ∃ e u : ℝ, m = .simple e 0 u
  sources : ∀ q b n (tag : List Char) w size delay resist, Deck.Card.ex q b n tag w size delay resist ∈ X.file.cards →
    ∃ t ∈ currentTags, tag = t.toList

/-- A property of all media of a run holds for the medium of every sample. -/
theorem media_all {M : Type} {c : Cfg} (hv : ValidCfg c) (MS : MedSetup M) (junk : MArr M) (P : M → Prop) (h1 : P MS.free) (h2 : P MS.pec)
    (h3 : ∀ b ∈ MS.blocks, P b.2.2) (h4 : ∀ b ∈ MS.lines, P b.2) (h5 : ∀ b ∈ MS.surfaces, P b.2) (h6 : ∀ b ∈ MS.resist, P b.2)
    {fc : Fc} {i j l : Int} (hi : SampleIn c.gibox fc i j l) : P (mediaArrays c MS junk fc i j l) := by
  have hin : InGrid c i j l := by
    have fx := cfg_facts hv .x; have fy := cfg_facts hv .y; have fz := cfg_facts hv .z
    simp only [Axis.lo, Axis.hi] at fx fy fz
    obtain ⟨h1, h2, h3⟩ := hi
    cases fc <;> simp only [pos2] at h1 h2 h3 <;> refine ⟨?_, ?_, ?_⟩ <;> omega
  have hl := C19.setup_media_partial hv MS junk fc i j l hi
  have hcov := C19.background_covers hv MS fc i j l hin
  rcases hl with ⟨pre, f, post, e, hcon, hmed, hpost⟩ | ⟨hnone, _⟩
  · have hf : f ∈ initMediaFill c MS :: (blockFills c MS ++ lineFills c MS ++
        surfaceFills c MS ++ externalFills c MS) ++ resistFills c MS := by rw [e]; simp
    rw [← hmed]
    simp only [List.mem_cons, List.mem_append] at hf
    rcases hf with (rfl | ((hf | hf) | hf) | hf) | hf
    · exact h1
    · obtain ⟨b, hb, rfl⟩ := List.mem_map.1 hf; exact h3 b hb
    · obtain ⟨b, hb, rfl⟩ := List.mem_map.1 hf; exact h4 b hb
    · obtain ⟨b, hb, rfl⟩ := List.mem_map.1 hf; exact h5 b hb
    · obtain ⟨b, hb, rfl⟩ := List.mem_map.1 hf; exact h2
    · obtain ⟨b, hb, rfl⟩ := List.mem_map.1 hf; exact h6 b hb
  · exact absurd hcov (hnone _ (by simp))

/-- A medium without conductivity. -/
def NoLoss : Deck.Med → Prop
  | .simple e s _ => 1 ≤ e ∧ s = 0
  | .debye .. => False
  | _ => True

/-- The lists of a file without losses. -/
structure LInv (s : Deck.State) : Prop where
  media : ∀ x ∈ s.media, NoLoss x.2
  blocks : ∀ b ∈ s.blocks, NoLoss b.med
  srcs : ∀ x ∈ s.srcs, x.info.type ≠ .thevenin ∧ x.info.type ≠ .norton

theorem card_linv {s s' : Deck.State} {c : Deck.Card} (h : s.card c = some s') (hm : ∀ n m, c = .mt n m → NoLoss m)
    (hx : ∀ q b n tag w size delay resist, c = .ex q b n tag w size delay resist → ∃ t ∈ currentTags, tag = t.toList)
    (i : LInv s) : LInv s' := by
  obtain ⟨i1, i2, i3⟩ := i
  cases c with
  | mt nm m =>
    simp only [State.card] at h; split at h <;> simp at h; subst h
    refine ⟨?_, i2, i3⟩
    intro x hx
    rcases List.mem_append.1 hx with hx | hx
    · exact i1 x hx
    · rw [List.mem_singleton] at hx; subst hx; exact hm nm m rfl
  | bt nm m => simp only [State.card] at h; split at h <;> simp at h; subst h; exact ⟨i1, i2, i3⟩
  | wt nm => simp only [State.card] at h; split at h <;> simp at h; subst h; exact ⟨i1, i2, i3⟩
  | wf nm => simp only [State.card] at h; split at h <;> simp at h; subst h; exact ⟨i1, i2, i3⟩
  | tw c => simp only [State.card] at h; split at h <;> simp at h; subst h; exact ⟨i1, i2, i3⟩
  | op c => simp only [State.card] at h; split at h <;> simp at h; subst h; exact ⟨i1, i2, i3⟩
  | pw c d => simp only [State.card] at h; split at h <;> simp at h; subst h; exact ⟨i1, i2, i3⟩
  | mb c =>
    simp only [State.card] at h
    split at h
    · simp at h
    · rename_i m hm
      split at h
      · simp at h; subst h
        refine ⟨i1, ?_, i3⟩
        intro b hb
        rcases List.mem_append.1 hb with hb | hb
        · exact i2 b hb
        · rw [List.mem_singleton] at hb
          subst hb
          obtain ⟨x, hx, e⟩ := find_mem hm
          show NoLoss m
          rw [← e]; exact i1 x hx
      · simp at h
  | tb c =>
    simp only [State.card] at h
    split at h
    · simp at h
    · split at h
      · simp at h; subst h; exact ⟨i1, i2, i3⟩
      · simp at h
  | ex q b nm tag w size delay resist =>
    simp only [State.card] at h
    split at h
    · simp at h
    · rename_i i hi
      split at h
      · simp at h; subst h
        refine ⟨?_, i2, ?_⟩
        · intro x hx
          simp only at hx
          split at hx
          · rcases List.mem_append.1 hx with hx | hx
            · exact i1 x hx
            · rw [List.mem_singleton] at hx; subst hx; simp [NoLoss]
          · exact i1 x hx
        · intro x hx'
          rcases List.mem_append.1 hx' with hx' | hx'
          · exact i3 x hx'
          · rw [List.mem_singleton] at hx'
            subst hx'
            obtain ⟨i', hi', -, h2⟩ := current_tag (hx q b nm tag w size delay resist rfl)
            rw [hi] at hi'; cases hi'
            simp only [List.mem_cons, List.mem_nil_iff, or_false] at h2
            rcases h2 with ⟨h2, -⟩ | ⟨h2, -⟩ <;> rcases h2 with h2 | h2 | h2 | h2 <;> simp [h2]
      · simp at h

theorem read_linv : ∀ (l : List Deck.Card) {s s' : Deck.State}, Deck.read s l = some s' →
    (∀ n m, Deck.Card.mt n m ∈ l → NoLoss m) →
    (∀ q b n tag w size delay resist, Deck.Card.ex q b n tag w size delay resist ∈ l → ∃ t ∈ currentTags, tag = t.toList) →
    LInv s → LInv s'
  | [], s, s', h, _, _, i => by
    simp [Deck.read] at h; subst h; exact i
  | c :: l, s, s', h, h1, h2, i => by
    rw [C47.read_cons] at h
    obtain ⟨t, ht, h⟩ := Option.bind_eq_some_iff.1 h
    refine read_linv l h (fun n m hc => h1 n m (by simp [hc])) (fun q b n tag w size delay resist hc => h2 q b n tag w size delay resist (by simp [hc])) ?_
    refine card_linv ht (fun n m e => h1 n m (by simp [e])) (fun q b n tag w size delay resist e => h2 q b n tag w size delay resist (by simp [e])) i

theorem coef_noLoss (hk : Physical k) {T : ℝ} {m : Deck.Med} (h : NoLoss m) : (medCoef k T m).alpha = 1 ∨ (medCoef k T m).beta = 0 := by
  have he : 0 < k.eps0 := by rw [hk.eps0]; have := hk.c0; have := hk.mu0; positivity
  cases m with
  | free => left; rfl
  | pec => right; rfl
  | simple e s u =>
    obtain ⟨h1, rfl⟩ := h
    left
    have : (2 * e * k.eps0) ≠ 0 := by positivity
    simp [medCoef, calcCoeff, this]
    try field_simp
  | debye => exact absurd h (by simp [NoLoss])

/-- C56: without conductivities the energy is conserved exactly once the sources have stopped. -/
theorem lossless_conserved (hk : Physical k) (h : setup k J X = some R) (hX : Cavity k X) (hL : Lossless X) :
    ∃ g : Filling, C17.Closed (C17.undriven R.sim) R.coefs g ∧ g.dt = R.dt ∧
      ∀ N, (∀ n p q, R.drive (N + n) (.src p q) = 0) → ∀ n,
        leapEnergy g R.sim.cfg.gibox (R.fields (N + n)) (R.fields (N + n + 1)) =
          leapEnergy g R.sim.cfg.gibox (R.fields N) (R.fields (N + 1)) := by
  obtain ⟨g, hc, hC, hd, hdt, -⟩ := cavity_closed hk h hX
  obtain ⟨s1, s2⟩ := sources h hX
  obtain ⟨hv, hcn, hb, edt, eC, hdr, hst, pws, hpw, eS⟩ := run_parts h
  have ecfg : R.sim.cfg = R.cfg := by rw [eS]
  have linv : LInv R.state := by
    refine read_linv _ (C47.stored_parts hst).2 ?_ (fun q b n tag w size delay resist hc => hL.sources q b n tag w size delay resist hc) ?_
    · intro n m hm
      obtain ⟨e, u, rfl⟩ := hL.media n m hm
      obtain ⟨e', s', u', he, h1, -⟩ := hX.media n _ hm
      cases he
      exact ⟨h1, rfl⟩
    · refine ⟨?_, ?_, ?_⟩ <;> simp [State.init, NoLoss]
  have inv := state_inv h hX
  refine ⟨g, hc, hd, fun N hz => ?_⟩
  have coefs : ∀ fc i j l, SampleIn R.sim.cfg.gibox fc i j l → R.coefs (.alpha fc i j l) = 1 ∨ R.coefs (.beta fc i j l) = 0 := by
    intro fc i j l hi
    rw [ecfg] at hi
    rw [eC]
    refine media_all hv (medSetup k J X R.cfg R.state) J.med (fun q => q.alpha = 1 ∨ q.beta = 0) (Or.inl rfl) (Or.inr rfl) ?_ ?_ ?_ ?_ hi
    · intro b hb'
      obtain ⟨x, hx, rfl⟩ := List.mem_map.1 hb'
      exact coef_noLoss hk (linv.blocks x hx)
    · intro b hb'
      obtain ⟨x, hx, rfl⟩ := List.mem_map.1 hb'
      refine coef_noLoss hk ?_
      by_cases hf : x.free = true
      · simp [hf, NoLoss]
      · simp [hf, NoLoss]
    · intro b hb'
      obtain ⟨x, hx, e⟩ := List.mem_filterMap.1 hb'
      have hs := inv.surfs x hx
      unfold surfFill at e
      cases hbn : x.bnd with
      | pec => rw [hbn] at e; simp at e; subst e; exact coef_noLoss hk (m := .pec) trivial
      | free => rw [hbn] at e; simp at e; subst e; exact coef_noLoss hk (m := .free) trivial
      | plain => rw [hbn] at e; simp at e
      | sibc pr => exact absurd hbn (hs pr)
    · intro b hb'
      obtain ⟨x, hx, e⟩ := List.mem_filterMap.1 hb'
      exfalso
      obtain ⟨-, hg⟩ := inv.srcs x hx
      obtain ⟨n1, n2⟩ := linv.srcs x hx
      unfold srcFill at e
      rcases hg with ⟨ht, -⟩ | ⟨ht, -⟩ | ⟨ht, -⟩
      · simp only [List.mem_cons, List.mem_nil_iff, or_false] at ht
        rcases ht with ht | ht | ht | ht <;> simp [ht, Source.initSource] at e
      · simp only [List.mem_cons, List.mem_nil_iff, or_false] at ht
        rcases ht with ht | ht | ht | ht <;> simp [ht, Source.initSource] at e
      · rcases ht with ht | ht
        · exact n1 ht
        · exact n2 ht
  have noHeat : ∀ n, heat g R.sim.cfg.gibox (R.fields n) (R.fields (n + 1)) = 0 := by
    intro n
    have key : ∀ fc i j l, fc.isE = true → SampleIn R.sim.cfg.gibox fc i j l →
        g.sigma fc i j l * g.vol fc i j l * ((R.fields n (.fld fc i j l) + R.fields (n+1) (.fld fc i j l)) / 2) ^ 2 = 0 := by
      intro fc i j l hf hi
      have hE : fc = .ex ∨ fc = .ey ∨ fc = .ez := by cases fc <;> simp [Fc.isE] at hf ⊢
      have free : R.coefs (.beta fc i j l) = 0 →
          g.sigma fc i j l * g.vol fc i j l * ((R.fields n (.fld fc i j l) + R.fields (n+1) (.fld fc i j l)) / 2) ^ 2 = 0 := by
        intro hbeta
        rw [conductors_free h hX hc n fc i j l hE hi hbeta, conductors_free h hX hc (n+1) fc i j l hE hi hbeta]
        simp
      rcases hc.electric fc i j l hf hi with hbeta | ⟨ha, -⟩
      · exact free hbeta
      · rcases coefs fc i j l hi with h1 | h1
        · rw [h1] at ha
          have : g.sigma fc i j l = 0 := by
            have : g.dt * g.sigma fc i j l = 0 := by linarith
            rcases mul_eq_zero.1 this with h0 | h0
            · rw [hd] at h0; exact absurd h0 hdt.ne'
            · exact h0
          rw [this]; ring
        · exact free h1
    have sum0 : ∀ fc, fc.isE = true → boxSum R.sim.cfg.gibox fc (fun i j l => g.sigma fc i j l * g.vol fc i j l *
        ((R.fields n (.fld fc i j l) + R.fields (n+1) (.fld fc i j l)) / 2) ^ 2) = 0 := by
      intro fc hf
      unfold boxSum
      refine sum_eq_zero fun i hi => sum_eq_zero fun j hj => sum_eq_zero fun l hl => key fc i j l hf ?_
      rw [mem_Icc] at hi hj hl
      cases fc <;> simp only [Fc.isE] at hf <;> simp only [pos2] at hi hj hl <;> refine ⟨?_, ?_, ?_⟩ <;> simp only [pos2] <;> omega
    unfold heat sumE
    rw [sum0 .ex rfl, sum0 .ey rfl, sum0 .ez rfl]
    simp
  have zE : ∀ n p q, N ≤ n → R.drive n (.src p q) = 0 := by
    intro n p q hn
    obtain ⟨m, rfl⟩ := Nat.exists_eq_add_of_le hn
    exact hz m p q
  have cE : ∀ n, N ≤ n → (currentE R.sim.srcs fun q => R.drive n (.src false q)) = fun _ _ _ _ => 0 := by
    intro n hn
    funext fc i j l
    simp only [zE n _ _ hn, currentE, ite_self]
    simp
  have cH : ∀ n, N ≤ n → (currentH R.sim.srcs fun q => R.drive n (.src true q)) = fun _ _ _ _ => 0 := by
    intro n hn
    funext fc i j l
    simp only [zE n _ _ hn, currentH, ite_self]
    simp
  have rE : ∀ s : Loc → ℝ, reactionE g R.sim.cfg.gibox s (fun _ _ _ _ => 0) = 0 := by
    intro s; simp [reactionE, sumE, boxSum]
  have rH : ∀ s : Loc → ℝ, reactionH g R.sim.cfg.gibox s (fun _ _ _ _ => 0) = 0 := by
    intro s; simp [reactionH, sumH, boxSum]
  have step : ∀ n, N ≤ n → leapEnergy g R.sim.cfg.gibox (R.fields (n+1)) (R.fields (n+2)) =
      leapEnergy g R.sim.cfg.gibox (R.fields n) (R.fields (n+1)) := by
    intro n hn
    have := C45.energy_supplied hc R.sim.srcs s1 s2 R.drive n
    simp only [sim_driven] at this
    rw [cE (n+1) (by omega), cH n hn, cH (n+1) (by omega)] at this
    have h0 := noHeat (n+1)
    have e : (C17.undriven R.sim).cfg.gibox = R.sim.cfg.gibox := rfl
    rw [e, rE, rE, rH] at this
    unfold Run.fields at h0 ⊢
    rw [this, h0]
    ring
  intro n
  induction n with
  | zero => rfl
  | succ n ih =>
    rw [← ih]
    exact step (N + n) (by omega)

end
end Vulture.C56
