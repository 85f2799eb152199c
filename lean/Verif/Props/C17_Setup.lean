import Verif.Props.C17_Energy
import Verif.Props.C19_Media
import Verif.Lemmas.Inputs
/-
C17, link to the set-up code: the arrays computed by initCellEdges, initMedia and the media assignments
make every run in a PEC box a closed box in the sense of C17_Energy, below the Courant limit.
-/
set_option linter.unusedSimpArgs false
namespace Vulture.C17
open Spec

/-- Coefficients of medium number `n` declared by an accepted card that is not of type DEBYE (numbers 0
and 1 are the predefined free space and PEC). -/
def Accepted (dt eps0 mu0 : ℝ) (k : Coef ℝ) : Prop :=
  ∃ (n : Nat) (t : MType) (vals : List ℝ) (m : Medium ℝ), t ≠ .debye ∧ parseMT t vals = some m ∧
    k = mediumCoef dt eps0 mu0 n m

theorem parse_ranges {t : MType} {vals : List ℝ} {m : Medium ℝ} (h : parseMT t vals = some m) :
    1 ≤ m.eps_r ∧ 0 ≤ m.sigma ∧ 1 ≤ m.mu_r ∧ m.sum = 0 := by
  unfold parseMT at h
  split at h
  · cases h; norm_num
  · cases h; norm_num
  · simp only at h
    split at h
    · cases h
    · rename_i hn
      cases h
      push Not at hn
      exact ⟨hn.1, hn.2.1, hn.2.2, rfl⟩

/-- Material constants of an accepted medium. -/
theorem accepted_constants {dt eps0 mu0 : ℝ} (hdt : 0 ≤ dt) (he : 0 < eps0) (hm : 0 < mu0) {k : Coef ℝ}
    (h : Accepted dt eps0 mu0 k) : ∃ e sg mu : ℝ, eps0 ≤ e ∧ 0 ≤ sg ∧ mu0 ≤ mu ∧
      (k.beta = 0 ∨ (k.alpha * (2 * e + dt * sg) = 2 * e - dt * sg ∧ k.beta * (2 * e + dt * sg) = 2 * dt)) ∧
      k.gamma * mu = dt := by
  obtain ⟨n, t, vals, m, _, hp, rfl⟩ := h
  obtain ⟨h1, h2, h3, h4⟩ := parse_ranges hp
  unfold mediumCoef
  split
  · refine ⟨eps0, 0, mu0, le_refl _, le_refl _, le_refl _, Or.inr ⟨by simp, ?_⟩, ?_⟩
    · simp only; field_simp; ring
    · simp only; field_simp
  · split
    · refine ⟨eps0, 0, mu0, le_refl _, le_refl _, le_refl _, Or.inl rfl, ?_⟩
      simp only; field_simp
    · have hmu : 0 < m.mu_r * mu0 := by positivity
      have hd : 0 < 2 * m.eps_r * eps0 + dt * m.sigma := by positivity
      refine ⟨m.eps_r * eps0, m.sigma, m.mu_r * mu0, by nlinarith, h2, by nlinarith, Or.inr ⟨?_, ?_⟩, ?_⟩
      · simp only [calcCoeff, h4]
        rw [div_mul_eq_mul_div, div_eq_iff (by simpa using hd.ne')]; ring
      · simp only [calcCoeff, h4]
        rw [div_mul_eq_mul_div, div_eq_iff (by simpa using hd.ne')]; ring
      · simp only [calcCoeff]; field_simp

/-- A run in a PEC box with non-dispersive media and no excitation, set up by the code from mesh lines
`lines`, Courant number `cn` and media `MS`. -/
structure SetUp (S : Sim) (C : CRef → ℝ) (cn c0 mu0 big : ℝ) (lines : Axis → Int → ℝ)
    (junkE : Axis → EdgeArrays ℝ) (MS : MedSetup (Coef ℝ)) (junkM : MArr (Coef ℝ)) (rest : CRef → ℝ)
    (dt : ℝ) : Prop where
  cfg : ValidCfg S.cfg
  pec : ∀ f, S.cfg.bt f = .pec
  debye : S.debye = []
  sibc : S.sibc = []
  srcs : S.srcs = []
  pws : S.pws = []
  c0_pos : 0 < c0
  mu0_pos : 0 < mu0
  cn_pos : 0 < cn
  increasing : ∀ a, C18.Increasing (S.cfg.n a) (lines a)
  big_ge : ∀ a m, 0 ≤ m → m < S.cfg.n a → C18.cellSize (lines a) m < big
  dt_eq : dt = timeStep cn c0 fun a => (initCellEdges S.cfg a (lines a) big (junkE a)).dmin
  rest_ide : ∀ a i, rest (.ide a i) = (initCellEdges S.cfg a (lines a) big (junkE a)).ide i
  rest_idh : ∀ a i, rest (.idh a i) = (initCellEdges S.cfg a (lines a) big (junkE a)).idh i
  coef : C = coefRef (mediaArrays S.cfg MS junkM) rest
  free : ∃ m, MS.free = mediumCoef dt (1 / (mu0 * c0 * c0)) mu0 0 m
  pecm : ∃ m, MS.pec = mediumCoef dt (1 / (mu0 * c0 * c0)) mu0 1 m
  blocks : ∀ b ∈ MS.blocks, Accepted dt (1 / (mu0 * c0 * c0)) mu0 b.2.2
  lines_ : ∀ b ∈ MS.lines, Accepted dt (1 / (mu0 * c0 * c0)) mu0 b.2
  surfaces : ∀ b ∈ MS.surfaces, Accepted dt (1 / (mu0 * c0 * c0)) mu0 b.2
  resist : ∀ b ∈ MS.resist, Accepted dt (1 / (mu0 * c0 * c0)) mu0 b.2
  resist_inside : ∀ b ∈ MS.resist, ∀ fc i j k f, OnPlane S.cfg.gibox f fc i j k →
    ¬ Contains (offsetBoundingBox b.1 S.cfg.gibox) maskAll fc i j k

section
variable {S : Sim} {C : CRef → ℝ} {cn c0 mu0 big : ℝ} {lines : Axis → Int → ℝ}
  {junkE : Axis → EdgeArrays ℝ} {MS : MedSetup (Coef ℝ)} {junkM : MArr (Coef ℝ)} {rest : CRef → ℝ} {dt : ℝ}
  (h : SetUp S C cn c0 mu0 big lines junkE MS junkM rest dt)
include h

theorem inGrid_of_sample {fc : Fc} {i j k : Int} (hi : SampleIn S.cfg.gibox fc i j k) : InGrid S.cfg i j k := by
  have fx := cfg_facts h.cfg .x; have fy := cfg_facts h.cfg .y; have fz := cfg_facts h.cfg .z
  simp only [Axis.lo, Axis.hi] at fx fy fz
  obtain ⟨h1, h2, h3⟩ := hi
  cases fc <;> simp only [pos2] at h1 h2 h3 <;> refine ⟨?_, ?_, ?_⟩ <;> omega

theorem free_accepted : Accepted dt (1 / (mu0 * c0 * c0)) mu0 MS.free := by
  obtain ⟨m, hm⟩ := h.free
  exact ⟨0, .freeSpace, [], _, by decide, rfl, by rw [hm]; rfl⟩
theorem pec_accepted : Accepted dt (1 / (mu0 * c0 * c0)) mu0 MS.pec := by
  obtain ⟨m, hm⟩ := h.pecm
  exact ⟨1, .pec, [], _, by decide, rfl, by rw [hm]; rfl⟩

/-- Every sample of the box has an accepted medium; samples on the walls have the conductor's. -/
theorem media_accepted {fc : Fc} {i j k : Int} (hi : SampleIn S.cfg.gibox fc i j k) :
    Accepted dt (1 / (mu0 * c0 * c0)) mu0 (mediaArrays S.cfg MS junkM fc i j k) ∧
    ∀ f, OnPlane S.cfg.gibox f fc i j k → mediaArrays S.cfg MS junkM fc i j k = MS.pec := by
  have hl := C19.setup_media_partial h.cfg MS junkM fc i j k hi
  have hcov := C19.background_covers h.cfg MS fc i j k (inGrid_of_sample h hi)
  have hgo : ∀ f, S.cfg.gobox f = S.cfg.gibox f := by
    intro f
    have hlay : ∀ f, S.cfg.layers f = 0 := fun f => h.cfg.other f (by rw [h.pec f]; decide)
    cases f <;> simp [Cfg.gobox, Cfg.gibox, Cfg.giboxLo, Cfg.goboxHi, Cfg.giboxHi, Cfg.numLines, hlay] <;> omega
  rcases hl with ⟨pre, f, post, e, hcon, hmed, hpost⟩ | ⟨hnone, _⟩
  · have hf : f ∈ initMediaFill S.cfg MS :: (blockFills S.cfg MS ++ lineFills S.cfg MS ++
        surfaceFills S.cfg MS ++ externalFills S.cfg MS) ++ resistFills S.cfg MS := by rw [e]; simp
    constructor
    · rw [← hmed]
      simp only [List.mem_cons, List.mem_append] at hf
      rcases hf with (rfl | ((hf | hf) | hf) | hf) | hf
      · exact free_accepted h
      · obtain ⟨b, hb, rfl⟩ := List.mem_map.1 hf; exact h.blocks b hb
      · obtain ⟨b, hb, rfl⟩ := List.mem_map.1 hf; exact h.lines_ b hb
      · obtain ⟨b, hb, rfl⟩ := List.mem_map.1 hf; exact h.surfaces b hb
      · obtain ⟨b, hb, rfl⟩ := List.mem_map.1 hf; exact pec_accepted h
      · obtain ⟨b, hb, rfl⟩ := List.mem_map.1 hf; exact h.resist b hb
    · intro w hw
      -- the fill of wall `w` contains the sample, so `f` is it or a later external fill
      have hcw : Contains (getFaceOfBoundingBox S.cfg.gobox w) maskAll fc i j k := by
        obtain ⟨h1, h2, h3⟩ := hi
        refine ⟨?_, fun _ _ => rfl⟩
        unfold OnPlane samplePos at hw
        cases w <;> simp [Face.axis] at hw <;>
          refine ⟨?_, ?_, ?_⟩ <;> simp [getFaceOfBoundingBox, mkBox, hgo] <;> omega
      have hmem : (⟨getFaceOfBoundingBox S.cfg.gobox w, maskAll, MS.pec⟩ : Fill (Coef ℝ)) ∈
          externalFills S.cfg MS :=
        List.mem_map.2 ⟨w, List.mem_filter.2 ⟨by cases w <;> simp [Face.all], by simp [h.pec]⟩, rfl⟩
      -- split the list of fills before the external ones
      by_contra hne
      have hf' : f ∉ externalFills S.cfg MS ++ resistFills S.cfg MS := by
        intro hx
        rcases List.mem_append.1 hx with hx | hx
        swap
        · obtain ⟨b, hb, rfl⟩ := List.mem_map.1 hx
          exact h.resist_inside b hb fc i j k w hw hcon
        obtain ⟨b, hb, rfl⟩ := List.mem_map.1 hx
        exact hne hmed.symm
      have key : ∀ (A E pre post : List (Fill (Coef ℝ))) (f : Fill (Coef ℝ)),
          A ++ E = pre ++ f :: post → f ∉ E → ∀ x ∈ E, x ∈ post := by
        intro A
        induction A with
        | nil =>
          intro E pre post f e hn x hx
          exfalso; apply hn; rw [List.nil_append] at e; rw [e]; simp
        | cons a A ih =>
          intro E pre post f e hn x hx
          cases pre with
          | nil =>
            simp only [List.nil_append, List.cons_append, List.cons.injEq] at e
            rw [← e.2]; exact List.mem_append_right _ hx
          | cons p pre =>
            simp only [List.cons_append, List.cons.injEq] at e
            exact ih E pre post f e.2 hn x hx
      exact hpost _ (key (initMediaFill S.cfg MS :: (blockFills S.cfg MS ++ lineFills S.cfg MS ++
        surfaceFills S.cfg MS)) (externalFills S.cfg MS ++ resistFills S.cfg MS) pre post f (by rw [← e]; simp) hf' _
        (List.mem_append_left _ hmem)) hcw
  · exact absurd hcov (hnone _ (by simp))

/-- **C17**, link: whatever mesh, media and Courant number below or above one, the arrays of the set-up
code describe a closed box with permittivities at least `eps0`, permeabilities at least `mu0`, and the
time step respects the limit with that Courant number. -/
theorem setup_closed : ∃ g : Filling, Closed S C g ∧ Courant S g cn ∧ g.dt = dt ∧
    (∀ a, g.de a = (initCellEdges S.cfg a (lines a) big (junkE a)).de) ∧
    ∀ a, g.dh a = (initCellEdges S.cfg a (lines a) big (junkE a)).dh := by
  have hedge := fun a i => C18.all_edges_ge S.cfg h.cfg a (lines a) big (junkE a) (h.increasing a) (h.big_ge a) i
  obtain ⟨hdt, hlim, -⟩ := C18.time_step_courant cn c0 h.c0_pos h.cn_pos
    (fun a => (initCellEdges S.cfg a (lines a) big (junkE a)).dmin) (fun a => (hedge a 0).2.2)
  rw [← h.dt_eq] at hdt hlim
  have he : 0 < 1 / (mu0 * c0 * c0) := by have := h.c0_pos; have := h.mu0_pos; positivity
  have hconst : ∀ fc i j k, ∃ e sg mu : ℝ, SampleIn S.cfg.gibox fc i j k →
      1 / (mu0 * c0 * c0) ≤ e ∧ 0 ≤ sg ∧ mu0 ≤ mu ∧
      (C (.beta fc i j k) = 0 ∨ (C (.alpha fc i j k) * (2 * e + dt * sg) = 2 * e - dt * sg ∧
        C (.beta fc i j k) * (2 * e + dt * sg) = 2 * dt)) ∧ C (.gamma fc i j k) * mu = dt := by
    intro fc i j k
    by_cases hi : SampleIn S.cfg.gibox fc i j k
    · obtain ⟨e, sg, mu, hx⟩ := accepted_constants hdt.le he h.mu0_pos (media_accepted h hi).1
      refine ⟨e, sg, mu, fun _ => ?_⟩
      rw [h.coef]; exact hx
    · exact ⟨0, 0, 0, fun hi' => absurd hi' hi⟩
  choose e sg mu hx using hconst
  have hgo : ∀ f, S.cfg.gobox f = S.cfg.gibox f := by
    intro f
    have hlay : ∀ f, S.cfg.layers f = 0 := fun f => h.cfg.other f (by rw [h.pec f]; decide)
    cases f <;> simp [Cfg.gobox, Cfg.gibox, Cfg.giboxLo, Cfg.goboxHi, Cfg.giboxHi, Cfg.numLines, hlay] <;> omega
  refine ⟨⟨fun a => (initCellEdges S.cfg a (lines a) big (junkE a)).de,
    fun a => (initCellEdges S.cfg a (lines a) big (junkE a)).dh, e, sg, mu, dt⟩, ?_, ?_, rfl, fun _ => rfl, fun _ => rfl⟩
  · constructor
    · exact h.cfg
    · exact h.pec
    · exact h.debye
    · exact h.sibc
    · exact h.srcs
    · exact h.pws
    · intro a i h1 h2
      exact lt_of_lt_of_le (hedge a i).2.2 ((hedge a i).1 (by rw [hgo]; omega) (by rw [hgo]; omega))
    · intro a i h1 h2
      exact lt_of_lt_of_le (hedge a i).2.2 ((hedge a i).2.1 (by rw [hgo]; omega) (by rw [hgo]; omega))
    · intro a i h1 h2
      exact C18.dual_edges S.cfg h.cfg a (lines a) big (junkE a) i (by rw [hgo]; omega) (by rw [hgo]; omega)
    · intro a i h1 h2
      have := (C18.reciprocals S.cfg h.cfg a (lines a) big (junkE a) i (by rw [hgo]; omega) (by rw [hgo]; omega)).1
      rw [h.coef]; exact (h.rest_ide a i).trans this
    · intro a i h1 h2
      have := (C18.reciprocals S.cfg h.cfg a (lines a) big (junkE a) i (by rw [hgo]; omega) (by rw [hgo]; omega)).2
      rw [h.coef]; exact (h.rest_idh a i).trans this
    · intro fc i j k f hf hi hw
      have := (media_accepted h hi).2 f hw
      obtain ⟨m, hm⟩ := h.pecm
      rw [h.coef]
      change (mediaArrays S.cfg MS junkM fc i j k).beta = 0
      rw [this, hm]; rfl
    · intro fc i j k hf hi; exact (hx fc i j k hi).2.2.2.1
    · intro fc i j k hf hi; exact (hx fc i j k hi).2.2.2.2
  · refine ⟨hdt.le, h.cn_pos, fun fc i j k hf hi => (hx fc i j k hi).2.1, 1 / (mu0 * c0 * c0), mu0,
      fun a => (initCellEdges S.cfg a (lines a) big (junkE a)).dmin, he, h.mu0_pos, fun a => (hedge a 0).2.2, ?_, ?_, ?_, ?_⟩
    · intro a i h1 h2; exact (hedge a i).1 (by rw [hgo]; omega) (by rw [hgo]; omega)
    · intro fc i j k hf hi; exact (hx fc i j k hi).1
    · intro fc i j k hf hi; exact (hx fc i j k hi).2.2.1
    · have h1 := h.c0_pos; have h2 := h.mu0_pos
      rw [show cn ^ 2 * (1 / (mu0 * c0 * c0) * mu0) = cn ^ 2 / c0 ^ 2 by field_simp, ← hlim]
      simp only
      rw [le_div_iff₀ (by positivity)]
      ring_nf
      exact le_refl _

/-- **C17** for the program: a run in a PEC box with Courant number below one never blows up. -/
theorem run_stays_bounded (hlt : cn < 1) : ∃ g : Filling, Closed S C g ∧ g.dt = dt ∧
    ∀ (u : ℕ → Loc → ℝ) (s0 : Loc → ℝ), FieldFree C S.cfg.gibox s0 → ∀ n,
      stored g S.cfg.gibox (S.state C u s0 n) ≤ (1 + cn) / (1 - cn) * stored g S.cfg.gibox s0 := by
  obtain ⟨g, hg, hC, hdt, -⟩ := setup_closed h
  refine ⟨g, hg, hdt, fun u s0 h0 n => ?_⟩
  have := stored_bounded hg u s0 h0 hC n
  rw [div_mul_eq_mul_div, le_div_iff₀ (by linarith)]
  linarith

end

/-! ### After the sources have stopped -/

/-- A run without its sources. -/
def undriven (S : Sim) : Sim := { S with srcs := [] }

/-- One step with soft sources whose drive values are zero is a step without sources. -/
theorem silent_step {S : Sim} {C : CRef → ℝ} (hd : S.debye = []) (hs : S.sibc = []) (hp : S.pws = [])
    (hsoft : ∀ n, n < S.srcs.length → C (.soft n) = 1) {s : Loc → ℝ} (hz : ∀ h n, s (.src h n) = 0) :
    S.step.run C s = (undriven S).step.run C s := by
  have eE : S.stepE = (updatePmlEfield S.cfg ++ updateMurEfield S.cfg ++ updateGridEfield S.cfg) ++
      (updateSourcesE S.srcs ++ updateGhostEfield S.cfg) := by
    simp [Sim.stepE, hd, hs, hp, updateDebye, updateSibcE, updatePlaneWavesE]
  have eE' : (undriven S).stepE = (updatePmlEfield S.cfg ++ updateMurEfield S.cfg ++ updateGridEfield S.cfg) ++
      updateGhostEfield S.cfg := by
    simp [undriven, Sim.stepE, hd, hs, hp, updateDebye, updateSibcE, updatePlaneWavesE, updateSourcesE]
  have eH : S.stepH = (updatePmlHfield S.cfg ++ updateMurHfield S.cfg ++ updateGridHfield S.cfg) ++
      (updateSourcesH S.srcs ++ updateGhostHfield S.cfg) := by
    simp [Sim.stepH, hs, hp, updateSibcH, updatePlaneWavesH]
  have eH' : (undriven S).stepH = (updatePmlHfield S.cfg ++ updateMurHfield S.cfg ++ updateGridHfield S.cfg) ++
      updateGhostHfield S.cfg := by
    simp [undriven, Sim.stepH, hs, hp, updateSibcH, updatePlaneWavesH, updateSourcesH]
  have coreE := ((inputSafe_pmlE S.cfg).append (inputSafe_murE S.cfg)).append (inputSafe_gridE S.cfg)
  have coreH := ((inputSafe_pmlH S.cfg).append (inputSafe_murH S.cfg)).append (inputSafe_gridH S.cfg)
  have key : ∀ (A D G : Prog) (s : Loc → ℝ), D.run C (A.run C s) = A.run C s →
      (A ++ (D ++ G)).run C s = (A ++ G).run C s := by
    intro A D G s h
    rw [run_append, run_append, run_append, h]
  unfold Sim.step
  rw [run_append, run_append]
  have hE : S.stepE.run C s = (undriven S).stepE.run C s := by
    rw [eE, eE']
    refine key _ _ _ _ (silent_srcE C hsoft ?_)
    intro n _
    rw [NoWrite.run C (coreE _ rfl)]; exact hz false n
  rw [hE, eH, eH']
  refine key _ _ _ _ (silent_srcH C hsoft ?_)
  intro n _
  rw [NoWrite.run C (coreH _ rfl), eE', NoWrite.run C ((coreE.append (inputSafe_ghostE _)) _ rfl)]
  exact hz true n

/-- **C17** for driven runs: once every (soft) source is silent, from step `N` on, the stored energy
stays below a fixed multiple of what it was at step `N`. -/
theorem bounded_after_sources {S : Sim} {C : CRef → ℝ} {g : Filling} {cn : ℝ}
    (hc : Closed (undriven S) C g) (hC : Courant (undriven S) g cn)
    (hsoft : ∀ n, n < S.srcs.length → C (.soft n) = 1) (u : ℕ → Loc → ℝ) (s0 : Loc → ℝ) (N : ℕ)
    (hz : ∀ n h q, u (N + n) (.src h q) = 0) (h0 : FieldFree C S.cfg.gibox (S.state C u s0 N)) (n : ℕ) :
    (1 - cn) * stored g S.cfg.gibox (S.state C u s0 (N + n)) ≤
      (1 + cn) * stored g S.cfg.gibox (S.state C u s0 N) := by
  have hst : ∀ n, S.state C u s0 (N + n) =
      (undriven S).state C (fun m => u (N + m)) (S.state C u s0 N) n := by
    intro n
    induction n with
    | zero => rfl
    | succ n ih =>
      have e : S.state C u s0 (N + (n + 1)) = S.step.run C (setInputs (u (N + n)) (S.state C u s0 (N + n))) := rfl
      rw [e, silent_step (S := S) (C := C) hc.debye hc.sibc hc.pws hsoft (fun h q => by
        simp [setInputs, Loc.isInput, hz n h q]), ih]
      rfl
  rw [hst n]
  exact stored_bounded hc (fun m => u (N + m)) (S.state C u s0 N) h0 hC n

/-! ### A concrete run -/

/-- 3 by 2 by 2 cells with PEC walls. -/
def exCfg : Cfg := { n := fun | .x => 3 | .y => 2 | .z => 2, bt := fun _ => .pec, layers := fun _ => 0 }
def exSim : Sim := ⟨exCfg, [], [], [], []⟩
def exLines : Axis → Int → ℝ := fun _ m => m
noncomputable def exJunk : Axis → EdgeArrays ℝ := fun _ => ⟨fun _ => 7, fun _ => 7, fun _ => 7, fun _ => 7, 0, 0⟩
noncomputable def exDt : ℝ := timeStep (1/2) 1 fun a => (initCellEdges exCfg a (exLines a) 100 (exJunk a)).dmin
noncomputable def exMS : MedSetup (Coef ℝ) :=
  ⟨mediumCoef exDt (1 / (1 * 1 * 1)) 1 0 ⟨.freeSpace, 1, 0, 1, 0⟩, mediumCoef exDt (1 / (1 * 1 * 1)) 1 1 ⟨.pec, 1, 0, 1, 0⟩,
   [(mkBox 0 1 0 2 0 2, fun _ => true, mediumCoef exDt (1 / (1 * 1 * 1)) 1 2 ⟨.simple, 4, 1, 2, 0⟩)], [], [], []⟩
noncomputable def exRest : CRef → ℝ
  | .ide a i => (initCellEdges exCfg a (exLines a) 100 (exJunk a)).ide i
  | .idh a i => (initCellEdges exCfg a (exLines a) 100 (exJunk a)).idh i
  | _ => 0
noncomputable def exC : CRef → ℝ := coefRef (mediaArrays exCfg exMS fun _ _ _ _ => ⟨9, 9, 9⟩) exRest

/-- The hypotheses of `setup_closed` and `run_stays_bounded` are met by a box with a lossy dielectric
block. -/
example : SetUp exSim exC (1/2) 1 1 100 exLines exJunk exMS (fun _ _ _ _ => ⟨9, 9, 9⟩) exRest exDt where
  cfg := ⟨by intro a; cases a <;> decide, by intro f h; simp [exSim, exCfg] at h, by intro f _; rfl,
    by intro f h; simp [exSim, exCfg] at h⟩
  pec _ := rfl
  debye := rfl
  sibc := rfl
  srcs := rfl
  pws := rfl
  c0_pos := by norm_num
  mu0_pos := by norm_num
  cn_pos := by norm_num
  increasing a m _ _ := by simp [exLines]
  big_ge a m _ _ := by simp [C18.cellSize, exLines]
  dt_eq := rfl
  rest_ide _ _ := rfl
  rest_idh _ _ := rfl
  coef := rfl
  free := ⟨⟨.freeSpace, 1, 0, 1, 0⟩, rfl⟩
  pecm := ⟨⟨.pec, 1, 0, 1, 0⟩, rfl⟩
  blocks b hb := by
    simp only [exMS, List.mem_singleton] at hb
    subst hb
    refine ⟨2, .simple, [4, 1, 2], _, by decide, ?_, rfl⟩
    simp [parseMT]
  lines_ b hb := by simp [exMS] at hb
  surfaces b hb := by simp [exMS] at hb
  resist b hb := by simp [exMS] at hb
  resist_inside b hb := by simp [exMS] at hb

/-- A non-zero initial field that meets `FieldFree`: one magnetic sample. -/
example : FieldFree exC exSim.cfg.gibox (fun l => if l = .fld .hx 2 1 1 then 1 else 0) := by
  intro fc i j k hf _ _
  rcases hf with rfl | rfl | rfl <;> simp

end Vulture.C17
