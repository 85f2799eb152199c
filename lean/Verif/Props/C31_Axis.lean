import Verif.Props.C31_Aux
/-
C31, continued: with the auxiliary grid, a wave along a mesh axis is separated exactly.
-/
set_option linter.unusedSimpArgs false
set_option linter.unusedSectionVars false
namespace Vulture.C31
open Vulture Spec C10 PlaneWave Real

section general
variable {K : Type*} [CommRing K] {C : CRef → K}

/-- The incident field the auxiliary grid holds. -/
def auxWave (C : CRef → K) (w : PW) (s : Loc → K) : FieldOf K := fun fc i j k =>
  (incField false 0 w fc (i, j, k)).eval C s

theorem inc_flag {w : PW} {g : AuxGrid} (h : w.aux = some g) (b : Bool) (n : Nat) (fc : Fc) (t : Int × Int × Int) :
    incField b n w fc t = incField false n w fc t := by
  unfold incField; rw [h]

theorem inc_eval {w : PW} {g : AuxGrid} (h : w.aux = some g) (s : Loc → K) (fc : Fc) (i j k : Int) :
    auxWave C w s fc i j k =
      C (.auxW 0 false fc i j k) * s (.aux 0 (if fc.isE then .ey else .hz) (g.idx fc i j k)) +
      C (.auxW 0 true fc i j k) * s (.aux 0 (if fc.isE then .ey else .hz) (g.idx fc i j k + 1)) := by
  unfold auxWave incField
  rw [h]
  rfl

theorem stepE_aux (c : Cfg) {w : PW} {g : AuxGrid} (h : w.aux = some g) (s : Loc → K) :
    (∀ m, (oneWave c w).stepE.run C s (.aux 0 .hz m) = s (.aux 0 .hz m)) ∧
    ∀ m, 1 ≤ m → m < g.xb → (oneWave c w).stepE.run C s (.aux 0 .ey m) =
      s (.aux 0 .ey m) + C (.auxBeta 0) * (s (.aux 0 .hz (m-1)) - s (.aux 0 .hz m)) := by
  have core : ∀ arr m, (updatePmlEfield c ++ updateMurEfield c ++ updateGridEfield c).run C s (.aux 0 arr m) =
      s (.aux 0 arr m) := fun arr m => ((coreE_only c).noWrite (by simp [Loc.kind])).run C s
  have tab : ∀ arr m s, (tableE c w).run C s (.aux 0 arr m) = s (.aux 0 arr m) := fun arr m s =>
    ((wo_tableE c w).noWrite (by simp [Loc.kind])).run C s
  have gh : ∀ arr m s, (updateGhostEfield c).run C s (.aux 0 arr m) = s (.aux 0 arr m) := fun arr m s =>
    ((wo_ghost c ghostEcomps).noWrite (by simp [Loc.kind])).run C s
  have e : auxPartE w = auxE 0 g := by unfold auxPartE; rw [h]
  constructor
  · intro m
    rw [stepE_eq, run_append, run_append, run_append, gh, tab, e, auxE_keeps_hz, core]
  · intro m h1 h2
    rw [stepE_eq, run_append, run_append, run_append, gh, tab, e, auxE_value 0 g _ h1 h2, core, core, core]

theorem stepH_aux (c : Cfg) {w : PW} {g : AuxGrid} (h : w.aux = some g) (s : Loc → K) :
    (∀ m, (oneWave c w).stepH.run C s (.aux 0 .ey m) = s (.aux 0 .ey m)) ∧
    ∀ m, 0 ≤ m → m < g.xb → (oneWave c w).stepH.run C s (.aux 0 .hz m) =
      s (.aux 0 .hz m) + C (.auxGamma 0) * (s (.aux 0 .ey m) - s (.aux 0 .ey (m+1))) := by
  have core : ∀ arr m, (updatePmlHfield c ++ updateMurHfield c ++ updateGridHfield c).run C s (.aux 0 arr m) =
      s (.aux 0 arr m) := fun arr m => ((coreH_only c).noWrite (by simp [Loc.kind])).run C s
  have tab : ∀ arr m s, (tableH c w).run C s (.aux 0 arr m) = s (.aux 0 arr m) := fun arr m s =>
    ((wo_tableH c w).noWrite (by simp [Loc.kind])).run C s
  have gh : ∀ arr m s, (updateGhostHfield c).run C s (.aux 0 arr m) = s (.aux 0 arr m) := fun arr m s =>
    ((wo_ghost c ghostHcomps).noWrite (by simp [Loc.kind])).run C s
  have e : auxPartH w = auxH 0 g := by unfold auxPartH; rw [h]
  constructor
  · intro m
    rw [stepH_eq, run_append, run_append, run_append, gh, tab, e, auxH_keeps_ey, core]
  · intro m h1 h2
    rw [stepH_eq, run_append, run_append, run_append, gh, tab, e, auxH_value 0 g _ h1 h2, core, core, core]

/-- The auxiliary grid's wave between two steps: electric part new, magnetic part old. -/
theorem wave_congr {w : PW} {g : AuxGrid} (h : w.aux = some g) {s s' : Loc → K} {fc : Fc} (i j k : Int)
    (hs : ∀ m, s (.aux 0 (if fc.isE then .ey else .hz) m) = s' (.aux 0 (if fc.isE then .ey else .hz) m)) :
    auxWave C w s fc i j k = auxWave C w s' fc i j k := by
  rw [inc_eval h, inc_eval h, hs, hs]

/-- Separation with the auxiliary grid: whenever the wave it holds satisfies the discrete equations in the box. -/
theorem separation_aux {c : Cfg} (hv : ValidCfg c) {w : PW} {g : AuxGrid} (haux : w.aux = some g)
    (hact : ∀ f, w.active f = true)
    (hc : ClearOf c w.gbbox) (hl : LosslessFaces C w.gbbox) {u : Nat → Loc → K} {s0 : Loc → K}
    (hI : IncidentWave C w.gbbox fun n => auxWave C w ((oneWave c w).state C u s0 n))
    (h0 : Holds w.gbbox (auxWave C w s0) s0) (n : Nat) :
    Holds w.gbbox (auxWave C w ((oneWave c w).state C u s0 n)) ((oneWave c w).state C u s0 n) := by
  induction n with
  | zero => exact h0
  | succ n ih =>
    set S := (oneWave c w).state C u s0 n with hS
    have hE : ∀ fc : Fc, fc.isE = true → ∀ i j k, auxWave C w ((oneWave c w).state C u s0 (n+1)) fc i j k =
        auxWave C w ((oneWave c w).stepE.run C (setInputs (u n) S)) fc i j k := by
      intro fc hf i j k
      refine wave_congr haux i j k fun m => ?_
      rw [hf]
      show ((oneWave c w).stepE ++ (oneWave c w).stepH).run C (setInputs (u n) S) _ = _
      rw [run_append]
      exact (stepH_aux c haux _).1 m
    have hH : ∀ fc : Fc, fc.isE = false → ∀ i j k,
        auxWave C w ((oneWave c w).stepE.run C (setInputs (u n) S)) fc i j k = auxWave C w S fc i j k := by
      intro fc hf i j k
      refine wave_congr haux i j k fun m => ?_
      rw [hf]
      exact (stepE_aux c haux _).1 m
    have hI' := hI.electric n
    have hI'' := hI.magnetic n
    show Holds w.gbbox (auxWave C w ((oneWave c w).state C u s0 (n+1)))
      (((oneWave c w).stepE ++ (oneWave c w).stepH).run C (setInputs (u n) S))
    rw [run_append]
    have m1 : ∀ fc : Fc, fc.isE = true → auxWave C w ((oneWave c w).stepE.run C (setInputs (u n) S)) fc =
        auxWave C w ((oneWave c w).state C u s0 (n+1)) fc := fun fc hf => by funext i j k; exact (hE fc hf i j k).symm
    have m2 : ∀ fc : Fc, fc.isE = false → auxWave C w ((oneWave c w).stepE.run C (setInputs (u n) S)) fc =
        auxWave C w S fc := fun fc hf => by funext i j k; exact hH fc hf i j k
    have hm := halfE (F := auxWave C w S) (F' := auxWave C w ((oneWave c w).stepE.run C (setInputs (u n) S))) hv hact hc hl
      (holds_inputs ih (u n)) (by
        intro s1 h1 fc hf i j k
        show auxWave C w _ fc i j k = _
        refine wave_congr haux i j k fun m => ?_
        rw [hf]
        have e : auxPartE w = auxE 0 g := by unfold auxPartE; rw [haux]
        show (auxPartE w).run C s1 (.aux 0 .hz m) = _
        rw [e, auxE_keeps_hz, h1 _ (by simp [Loc.kind]) (by simp [Loc.kind])]
        rfl)
      (fun a i j k hi => by rw [← hE _ (axis_e_isE a)]; exact hI' a i j k hi)
      (fun a i j k _ => hH _ (axis_h_isE a) i j k)
    refine halfH hv hact hc hm ?_ ?_ ?_
    · intro s1 h1 fc hf i j k
      rw [inc_flag haux]
      show auxWave C w _ fc i j k = _
      refine wave_congr haux i j k fun m => ?_
      rw [hf]
      have e : auxPartH w = auxH 0 g := by unfold auxPartH; rw [haux]
      show (auxPartH w).run C s1 (.aux 0 .ey m) = _
      rw [e, auxH_keeps_ey, h1 _ (by simp [Loc.kind]) (by simp [Loc.kind])]
      rfl
    · intro a i j k _; exact hE _ (axis_e_isE a) i j k
    · intro a i j k hi
      have hM : curlAtH (fun a i => C (.ide a i)) (auxWave C w ((oneWave c w).stepE.run C (setInputs (u n) S))) i j k a =
          curlAtH (fun a i => C (.ide a i)) (auxWave C w ((oneWave c w).state C u s0 (n+1))) i j k a := by
        cases a <;> simp only [curlAtH, m1 .ex rfl, m1 .ey rfl, m1 .ez rfl]
      rw [hM, m2 _ (axis_h_isE a)]
      exact hI'' a i j k hi

end general

/-! ### Waves along a mesh axis -/

/-- What the set-up computes for a plane wave on a cubic mesh of cell size `d` whose relative phase velocity is one. -/
structure AuxSetUp (C : CRef → ℝ) (w : PW) (theta phi eta eta0 size dt eps0 mu0 d : ℝ) (q0 : Axis → ℤ) : Prop where
  angles : anglesOk theta phi eta
  aux : w.aux = some (auxGridOf theta phi w.gbbox q0)
  origin : ijk0 theta phi w.gbbox = some q0
  weight : ∀ up fc i j k, C (.auxW 0 up fc i j k) = auxWeight eta0 (finc eta0 size theta phi eta fc) fc
    (auxDist (kinc theta phi) q0 fc (trip i j k)) up
  beta : C (.auxBeta 0) = betaEyi dt eps0 d 1
  gamma : C (.auxGamma 0) = gammaHzi dt mu0 d 1

/-- Free space on a cubic mesh, in the closed box; `1/d` only on the nodes and cells of the box. -/
structure FreeCubic (C : CRef → ℝ) (b : BBox) (dt eps0 mu0 d : ℝ) : Prop where
  alpha : ∀ (a : Axis) i j k, SampleIn b a.e i j k → C (.alpha a.e i j k) = 1
  beta : ∀ (a : Axis) i j k, SampleIn b a.e i j k → C (.beta a.e i j k) = dt / eps0
  gamma : ∀ (a : Axis) i j k, SampleIn b a.h i j k → C (.gamma a.h i j k) = dt / mu0
  idh : ∀ (a : Axis) i, b a.lo ≤ i → i ≤ b a.hi → C (.idh a i) = 1 / d
  ide : ∀ (a : Axis) i, b a.lo ≤ i → i < b a.hi → C (.ide a i) = 1 / d

section axis
variable {C : CRef → ℝ} {w : PW} {theta phi eta eta0 size dt eps0 mu0 d : ℝ} {q0 : Axis → ℤ}

/-- Index of the electric element for the node coordinate `q` along the axis. -/
def eIdx (σ q q0 : ℤ) : ℤ := 2 + σ * (q - q0)
/-- Index of the magnetic element for the coordinate `q + 1/2`. -/
def hIdx (σ q q0 : ℤ) : ℤ := 1 + (σ * (q - q0) + (if σ = 1 then 1 else 0))

theorem others_zero {a : Axis} {σ : ℤ} (hσ : σ = 1 ∨ σ = -1) (hk : kinc theta phi a = σ) :
    ∀ a', a' ≠ a → kinc theta phi a' = 0 := by
  have u := kinc_unit theta phi
  have : kinc theta phi a ^ 2 = 1 := by rw [hk]; rcases hσ with rfl | rfl <;> norm_num
  intro a' ha'
  have : kinc theta phi a' ^ 2 ≤ 0 := by
    cases a <;> cases a' <;> first | exact absurd rfl ha' |
      nlinarith [sq_nonneg (kinc theta phi .x), sq_nonneg (kinc theta phi .y), sq_nonneg (kinc theta phi .z)]
  exact pow_eq_zero_iff (two_ne_zero) |>.1 (le_antisymm this (sq_nonneg _))

theorem dist_axis {a : Axis} {σ : ℤ} (hσ : σ = 1 ∨ σ = -1) (hk : kinc theta phi a = σ) (fc : Fc) (q : Axis → ℤ) :
    auxDist (kinc theta phi) q0 fc q = σ * (indexLocation fc q a - q0 a) := by
  have z := others_zero hσ hk
  unfold auxDist
  cases a
  · rw [z .y (by decide), z .z (by decide), hk]; ring
  · rw [z .x (by decide), z .z (by decide), hk]; ring
  · rw [z .x (by decide), z .y (by decide), hk]; ring

variable (hs : AuxSetUp C w theta phi eta eta0 size dt eps0 mu0 d q0)
include hs

/-- Tangential electric component. -/
theorem wave_e {a b : Axis} {σ : ℤ} (hσ : σ = 1 ∨ σ = -1) (hk : kinc theta phi a = σ) (hab : b ≠ a) (s : Loc → ℝ)
    (i j k : Int) : auxWave C w s b.e i j k =
      finc eta0 size theta phi eta b.e * s (.aux 0 .ey (eIdx σ (trip i j k a) (q0 a))) := by
  have hd : auxDist (kinc theta phi) q0 b.e (trip i j k) = ((σ * (trip i j k a - q0 a) : ℤ) : ℝ) := by
    rw [dist_axis hσ hk]
    have : halfOff b.e a = 0 := by cases a <;> cases b <;> first | rfl | exact absurd rfl hab
    simp only [indexLocation, this]; push_cast; ring
  rw [inc_eval hs.aux, hs.weight, hs.weight, grid_idx, axis_e_isE, hd]
  simp only [auxWeight, auxIdx, auxFrac, axis_e_isE, if_true, Int.floor_intCast, sub_self, Bool.false_eq_true, if_false,
    eIdx]
  ring

/-- Tangential magnetic component. -/
theorem wave_h {a b : Axis} {σ : ℤ} (hσ : σ = 1 ∨ σ = -1) (hk : kinc theta phi a = σ) (hab : b ≠ a) (s : Loc → ℝ)
    (i j k : Int) : auxWave C w s b.h i j k =
      eta0 * finc eta0 size theta phi eta b.h * s (.aux 0 .hz (hIdx σ (trip i j k a) (q0 a))) := by
  have hd : auxDist (kinc theta phi) q0 b.h (trip i j k) + 1 / 2 =
      ((σ * (trip i j k a - q0 a) + (if σ = 1 then 1 else 0) : ℤ) : ℝ) := by
    rw [dist_axis hσ hk]
    have : halfOff b.h a = 1 / 2 := by cases a <;> cases b <;> first | rfl | exact absurd rfl hab
    simp only [indexLocation, this]
    rcases hσ with rfl | rfl <;> push_cast <;> simp <;> ring
  rw [inc_eval hs.aux, hs.weight, hs.weight, grid_idx, axis_h_isE]
  simp only [auxWeight, auxIdx, auxFrac, axis_h_isE, Bool.false_eq_true, if_false, if_true, hd, Int.floor_intCast, sub_self,
    hIdx]
  ring_nf

/-- Component along the direction of propagation. -/
theorem wave_n (h0 : 0 < eta0) (hsz : 0 ≤ size) {a : Axis} {σ : ℤ} (hσ : σ = 1 ∨ σ = -1) (hk : kinc theta phi a = σ) :
    finc eta0 size theta phi eta a.e = 0 ∧ finc eta0 size theta phi eta a.h = 0 ∧
    (∀ s i j k, auxWave C w s a.e i j k = 0) ∧ ∀ s i j k, auxWave C w s a.h i j k = 0 := by
  have u := C30.uniform_wave eta0 size theta phi eta h0 hsz
  have z := others_zero hσ hk
  have n : (σ : ℝ) ≠ 0 := by rcases hσ with rfl | rfl <;> norm_num
  have f : finc eta0 size theta phi eta a.e = 0 ∧ finc eta0 size theta phi eta a.h = 0 := by
    have h1 := u.kE; have h2 := u.kH
    unfold dot at h1 h2
    cases a
    · rw [z .y (by decide), z .z (by decide), hk] at h1 h2
      simp only [zero_mul, add_zero, mul_eq_zero, n, false_or] at h1 h2
      exact ⟨h1, h2⟩
    · rw [z .x (by decide), z .z (by decide), hk] at h1 h2
      simp only [zero_mul, add_zero, zero_add, mul_eq_zero, n, false_or] at h1 h2
      exact ⟨h1, h2⟩
    · rw [z .x (by decide), z .y (by decide), hk] at h1 h2
      simp only [zero_mul, add_zero, zero_add, mul_eq_zero, n, false_or] at h1 h2
      exact ⟨h1, h2⟩
  refine ⟨f.1, f.2, fun s i j k => ?_, fun s i j k => ?_⟩
  · rw [inc_eval hs.aux, hs.weight, hs.weight]; simp only [auxWeight, f.1]; ring
  · rw [inc_eval hs.aux, hs.weight, hs.weight]; simp only [auxWeight, f.2]; ring

/-- Position of the origin, and the range of the lookups. -/
theorem axis_range (hord : ∀ a : Axis, w.gbbox a.lo ≤ w.gbbox a.hi) {a : Axis} {σ : ℤ} (hσ : σ = 1 ∨ σ = -1)
    (hk : kinc theta phi a = σ) {q : ℤ} (hq : w.gbbox a.lo ≤ q ∧ q ≤ w.gbbox a.hi) :
    0 ≤ σ * (q - q0 a) ∧ σ * (q - q0 a) ≤ ⌊diagonal w.gbbox⌋ := by
  have ho := hs.origin
  unfold ijk0 at ho
  obtain ⟨o, ho', e⟩ := Option.map_eq_some_iff.1 ho
  have e' : q0 a = w.gbbox (o a) := by rw [← e]
  have fl : w.gbbox a.hi - w.gbbox a.lo ≤ ⌊diagonal w.gbbox⌋ :=
    Int.le_floor.2 (side_le_diagonal w.gbbox a (hord a))
  rcases C30.corner_sign theta phi eta hs.angles o ho' a with ⟨hf, hk'⟩ | ⟨hf, hk'⟩
  · rw [hf] at e'
    rcases hσ with rfl | rfl
    · omega
    · rw [hk] at hk'; norm_num at hk'
  · rw [hf] at e'
    rcases hσ with rfl | rfl
    · rw [hk] at hk'; norm_num at hk'
    · omega

omit hs in
theorem in_coord {b : BBox} {fc : Fc} {i j k : Int} (h : SampleIn b fc i j k) (a : Axis) :
    2 * b a.lo ≤ pos2 fc a (trip i j k a) ∧ pos2 fc a (trip i j k a) ≤ 2 * b a.hi := by
  cases a
  exacts [h.1, h.2.1, h.2.2]

omit hs in
theorem curlAtE_congr {d d' : Axis → Int → ℝ} (F : FieldOf ℝ) (i j k : Int) (b : Axis)
    (h : ∀ a' : Axis, a' ≠ b → d a' (trip i j k a') = d' a' (trip i j k a')) : curlAtE d F i j k b = curlAtE d' F i j k b := by
  have hx := h .x; have hy := h .y; have hz := h .z
  simp only [trip] at hx hy hz
  cases b
  · simp only [curlAtE, hy (by decide), hz (by decide)]
  · simp only [curlAtE, hx (by decide), hz (by decide)]
  · simp only [curlAtE, hx (by decide), hy (by decide)]

omit hs in
theorem curlAtH_congr {d d' : Axis → Int → ℝ} (F : FieldOf ℝ) (i j k : Int) (b : Axis)
    (h : ∀ a' : Axis, a' ≠ b → d a' (trip i j k a') = d' a' (trip i j k a')) : curlAtH d F i j k b = curlAtH d' F i j k b := by
  have hx := h .x; have hy := h .y; have hz := h .z
  simp only [trip] at hx hy hz
  cases b
  · simp only [curlAtH, hy (by decide), hz (by decide)]
  · simp only [curlAtH, hx (by decide), hz (by decide)]
  · simp only [curlAtH, hx (by decide), hy (by decide)]

omit hs in
/-- Magnetic elements on the two sides of an electric element. -/
theorem hIdx_pair {σ : ℤ} (hσ : σ = 1 ∨ σ = -1) (q p : ℤ) (f : ℤ → ℝ) :
    f (hIdx σ q p) - f (hIdx σ (q-1) p) = σ * (f (eIdx σ q p) - f (eIdx σ q p - 1)) := by
  rcases hσ with rfl | rfl
  · have e1 : hIdx 1 q p = eIdx 1 q p := by simp [hIdx, eIdx]; ring
    have e2 : hIdx 1 (q-1) p = eIdx 1 q p - 1 := by simp [hIdx, eIdx]; ring
    rw [e1, e2]; simp
  · have e1 : hIdx (-1) q p = eIdx (-1) q p - 1 := by simp [hIdx, eIdx]; ring
    have e2 : hIdx (-1) (q-1) p = eIdx (-1) q p := by simp [hIdx, eIdx]; ring
    rw [e1, e2]; push_cast; ring

omit hs in
/-- Electric elements on the two sides of a magnetic element. -/
theorem eIdx_pair {σ : ℤ} (hσ : σ = 1 ∨ σ = -1) (q p : ℤ) (f : ℤ → ℝ) :
    f (eIdx σ (q+1) p) - f (eIdx σ q p) = σ * (f (hIdx σ q p + 1) - f (hIdx σ q p)) := by
  rcases hσ with rfl | rfl
  · have e1 : eIdx 1 (q+1) p = hIdx 1 q p + 1 := by simp [hIdx, eIdx]; ring
    have e2 : eIdx 1 q p = hIdx 1 q p := by simp [hIdx, eIdx]; ring
    rw [e1, e2]; simp
  · have e1 : eIdx (-1) (q+1) p = hIdx (-1) q p := by simp [hIdx, eIdx]; ring
    have e2 : eIdx (-1) q p = hIdx (-1) q p + 1 := by simp [hIdx, eIdx]; ring
    rw [e1, e2]; push_cast; ring

/-- The wave of the auxiliary grid satisfies the discrete equations in the box. -/
theorem axis_wave_solves {c : Cfg} (hord : ∀ a : Axis, w.gbbox a.lo ≤ w.gbbox a.hi)
    (hf : FreeCubic C w.gbbox dt eps0 mu0 d) (h0 : 0 < eta0) (hsz : 0 ≤ size)
    {a : Axis} {σ : ℤ} (hσ : σ = 1 ∨ σ = -1) (hk : kinc theta phi a = σ) (u : Nat → Loc → ℝ) (s0 : Loc → ℝ) :
    IncidentWave C w.gbbox fun n => auxWave C w ((oneWave c w).state C u s0 n) := by
  have σσ : (σ : ℝ) * σ = 1 := by rcases hσ with rfl | rfl <;> norm_num
  have z := others_zero hσ hk
  have amp := (C30.uniform_wave eta0 size theta phi eta h0 hsz).right_handed
  have ux := amp .x; have uy := amp .y; have uz := amp .z
  simp only [cross, C30.E0, C30.H0] at ux uy uz
  obtain ⟨-, -, ne, nh⟩ := wave_n hs h0 hsz hσ hk
  have we := fun b hb s i j k => wave_e hs hσ hk (b := b) hb s i j k
  have wh := fun b hb s i j k => wave_h hs hσ hk (b := b) hb s i j k
  have xb := xb_eq theta phi w.gbbox q0
  -- one step of the auxiliary grid
  have stE : ∀ n m, 1 ≤ m → m < (auxGridOf theta phi w.gbbox q0).xb →
      (oneWave c w).state C u s0 (n+1) (.aux 0 .ey m) = (oneWave c w).state C u s0 n (.aux 0 .ey m) +
        C (.auxBeta 0) * ((oneWave c w).state C u s0 n (.aux 0 .hz (m-1)) - (oneWave c w).state C u s0 n (.aux 0 .hz m)) := by
    intro n m h1 h2
    show ((oneWave c w).stepE ++ (oneWave c w).stepH).run C (setInputs (u n) _) _ = _
    rw [run_append, (stepH_aux c hs.aux _).1, (stepE_aux c hs.aux _).2 m h1 h2]
    rfl
  have stH : ∀ n m, 0 ≤ m → m < (auxGridOf theta phi w.gbbox q0).xb →
      (oneWave c w).state C u s0 (n+1) (.aux 0 .hz m) = (oneWave c w).state C u s0 n (.aux 0 .hz m) +
        C (.auxGamma 0) * ((oneWave c w).state C u s0 (n+1) (.aux 0 .ey m) -
          (oneWave c w).state C u s0 (n+1) (.aux 0 .ey (m+1))) := by
    intro n m h1 h2
    have e : ∀ m, (oneWave c w).state C u s0 (n+1) (.aux 0 .ey m) =
        (oneWave c w).stepE.run C (setInputs (u n) ((oneWave c w).state C u s0 n)) (.aux 0 .ey m) := fun m => by
      show ((oneWave c w).stepE ++ (oneWave c w).stepH).run C (setInputs (u n) _) _ = _
      rw [run_append, (stepH_aux c hs.aux _).1]
    rw [e, e]
    show ((oneWave c w).stepE ++ (oneWave c w).stepH).run C (setInputs (u n) _) _ = _
    rw [run_append, (stepH_aux c hs.aux _).2 m h1 h2, (stepE_aux c hs.aux _).1]
    rfl
  have stE' : ∀ n (q : ℤ), w.gbbox a.lo ≤ q → q ≤ w.gbbox a.hi →
      (oneWave c w).state C u s0 (n+1) (.aux 0 .ey (eIdx σ q (q0 a))) =
        (oneWave c w).state C u s0 n (.aux 0 .ey (eIdx σ q (q0 a))) - dt / eps0 * (1 / d) * (σ *
          ((oneWave c w).state C u s0 n (.aux 0 .hz (hIdx σ q (q0 a))) -
            (oneWave c w).state C u s0 n (.aux 0 .hz (hIdx σ (q-1) (q0 a))))) := by
    intro n q h1 h2
    have r := axis_range hs hord hσ hk ⟨h1, h2⟩
    rw [stE n (eIdx σ q (q0 a)) (by unfold eIdx; omega) (by unfold eIdx; omega),
      hIdx_pair hσ q (q0 a) fun m => (oneWave c w).state C u s0 n (.aux 0 .hz m), hs.beta]
    have : betaEyi dt eps0 d 1 = dt / eps0 * (1 / d) := by unfold betaEyi; rw [div_one, ← div_div]; ring
    rw [this]
    linear_combination (-(dt / eps0 * (1 / d)) * ((oneWave c w).state C u s0 n (.aux 0 .hz (eIdx σ q (q0 a) - 1)) -
      (oneWave c w).state C u s0 n (.aux 0 .hz (eIdx σ q (q0 a))))) * σσ
  have stH' : ∀ n (q : ℤ), w.gbbox a.lo ≤ q → q + 1 ≤ w.gbbox a.hi →
      (oneWave c w).state C u s0 (n+1) (.aux 0 .hz (hIdx σ q (q0 a))) =
        (oneWave c w).state C u s0 n (.aux 0 .hz (hIdx σ q (q0 a))) - dt / mu0 * (1 / d) * (σ *
          ((oneWave c w).state C u s0 (n+1) (.aux 0 .ey (eIdx σ (q+1) (q0 a))) -
            (oneWave c w).state C u s0 (n+1) (.aux 0 .ey (eIdx σ q (q0 a))))) := by
    intro n q h1 h2
    have r := axis_range hs hord hσ hk (q := q) ⟨h1, by omega⟩
    have r' := axis_range hs hord hσ hk (q := q+1) ⟨by omega, h2⟩
    rw [stH n (hIdx σ q (q0 a)) (by unfold hIdx; split_ifs <;> omega) (by unfold hIdx; split_ifs <;> omega),
      eIdx_pair hσ q (q0 a) fun m => (oneWave c w).state C u s0 (n+1) (.aux 0 .ey m), hs.gamma]
    have : gammaHzi dt mu0 d 1 = dt / mu0 * (1 / d) := by unfold gammaHzi; rw [div_one, ← div_div]; ring
    rw [this]
    linear_combination (-(dt / mu0 * (1 / d)) * ((oneWave c w).state C u s0 (n+1) (.aux 0 .ey (hIdx σ q (q0 a))) -
      (oneWave c w).state C u s0 (n+1) (.aux 0 .ey (hIdx σ q (q0 a) + 1)))) * σσ
  constructor
  · intro n b i j k hi
    rw [hf.alpha b i j k hi, hf.beta b i j k hi, curlAtE_congr (d' := fun _ _ => 1 / d) _ i j k b fun a' ha' => by
      have co := in_coord hi a'
      have hp : pos2 b.e a' (trip i j k a') = 2 * trip i j k a' := by
        cases a' <;> cases b <;> first | rfl | exact absurd rfl ha'
      exact hf.idh a' _ (by omega) (by omega)]
    have st := stE' n (trip i j k a)
    have co := in_coord hi a
    clear stE stH stE' stH'
    generalize (oneWave c w).state C u s0 (n+1) = S' at *
    generalize (oneWave c w).state C u s0 n = S at *
    cases a
    · have ey := we .y (by decide); have hy := wh .y (by decide)
      have ez := we .z (by decide); have hz := wh .z (by decide)
      simp only [Axis.e, Axis.h, trip, Axis.lo, Axis.hi] at ey ez hy hz ne nh st co
      simp only [z .y (by decide), z .z (by decide), hk, zero_mul, sub_zero, zero_sub] at ux uy uz
      rcases b with _ | _ | _
      · simp only [curlAtE, Axis.e, ey, ez, hy, hz, ne, nh]; ring
      · simp only [curlAtE, Axis.e, ey, ez, hy, hz, ne, nh]
        simp only [pos2, Axis.e] at co
        rw [st (by omega) (by omega)]
        linear_combination (-(dt / eps0 * (1 / d)) * (S (.aux 0 .hz (hIdx σ i (q0 .x))) - S (.aux 0 .hz (hIdx σ (i-1) (q0 .x))))) * uz
      · simp only [curlAtE, Axis.e, ey, ez, hy, hz, ne, nh]
        simp only [pos2, Axis.e] at co
        rw [st (by omega) (by omega)]
        linear_combination ((dt / eps0 * (1 / d)) * (S (.aux 0 .hz (hIdx σ i (q0 .x))) - S (.aux 0 .hz (hIdx σ (i-1) (q0 .x))))) * uy
    · have ex := we .x (by decide); have hx := wh .x (by decide)
      have ez := we .z (by decide); have hz := wh .z (by decide)
      simp only [Axis.e, Axis.h, trip, Axis.lo, Axis.hi] at ex ez hx hz ne nh st co
      simp only [z .x (by decide), z .z (by decide), hk, zero_mul, sub_zero, zero_sub] at ux uy uz
      rcases b with _ | _ | _
      · simp only [curlAtE, Axis.e, ex, ez, hx, hz, ne, nh]
        simp only [pos2, Axis.e] at co
        rw [st (by omega) (by omega)]
        linear_combination ((dt / eps0 * (1 / d)) * (S (.aux 0 .hz (hIdx σ j (q0 .y))) - S (.aux 0 .hz (hIdx σ (j-1) (q0 .y))))) * uz
      · simp only [curlAtE, Axis.e, ex, ez, hx, hz, ne, nh]; ring
      · simp only [curlAtE, Axis.e, ex, ez, hx, hz, ne, nh]
        simp only [pos2, Axis.e] at co
        rw [st (by omega) (by omega)]
        linear_combination (-(dt / eps0 * (1 / d)) * (S (.aux 0 .hz (hIdx σ j (q0 .y))) - S (.aux 0 .hz (hIdx σ (j-1) (q0 .y))))) * ux
    · have ex := we .x (by decide); have hx := wh .x (by decide)
      have ey := we .y (by decide); have hy := wh .y (by decide)
      simp only [Axis.e, Axis.h, trip, Axis.lo, Axis.hi] at ex ey hx hy ne nh st co
      simp only [z .x (by decide), z .y (by decide), hk, zero_mul, sub_zero, zero_sub] at ux uy uz
      rcases b with _ | _ | _
      · simp only [curlAtE, Axis.e, ex, ey, hx, hy, ne, nh]
        simp only [pos2, Axis.e] at co
        rw [st (by omega) (by omega)]
        linear_combination (-(dt / eps0 * (1 / d)) * (S (.aux 0 .hz (hIdx σ k (q0 .z))) - S (.aux 0 .hz (hIdx σ (k-1) (q0 .z))))) * uy
      · simp only [curlAtE, Axis.e, ex, ey, hx, hy, ne, nh]
        simp only [pos2, Axis.e] at co
        rw [st (by omega) (by omega)]
        linear_combination ((dt / eps0 * (1 / d)) * (S (.aux 0 .hz (hIdx σ k (q0 .z))) - S (.aux 0 .hz (hIdx σ (k-1) (q0 .z))))) * ux
      · simp only [curlAtE, Axis.e, ex, ey, hx, hy, ne, nh]; ring
  · intro n b i j k hi
    rw [hf.gamma b i j k hi, curlAtH_congr (d' := fun _ _ => 1 / d) _ i j k b fun a' ha' => by
      have co := in_coord hi a'
      have hp : pos2 b.h a' (trip i j k a') = 2 * trip i j k a' + 1 := by
        cases a' <;> cases b <;> first | rfl | exact absurd rfl ha'
      exact hf.ide a' _ (by omega) (by omega)]
    have st := stH' n (trip i j k a)
    have co := in_coord hi a
    clear stE stH stE' stH'
    generalize (oneWave c w).state C u s0 (n+1) = S' at *
    generalize (oneWave c w).state C u s0 n = S at *
    cases a
    · have ey := we .y (by decide); have hy := wh .y (by decide)
      have ez := we .z (by decide); have hz := wh .z (by decide)
      simp only [Axis.e, Axis.h, trip, Axis.lo, Axis.hi] at ey ez hy hz ne nh st co
      simp only [z .y (by decide), z .z (by decide), hk, zero_mul, sub_zero, zero_sub] at ux uy uz
      rcases b with _ | _ | _
      · simp only [curlAtH, Axis.h, ey, ez, hy, hz, ne, nh]; ring
      · simp only [curlAtH, Axis.h, ey, ez, hy, hz, ne, nh]
        simp only [pos2, Axis.h] at co
        rw [st (by omega) (by omega)]
        linear_combination (dt / mu0 * (1 / d) * σ * (S' (.aux 0 .ey (eIdx σ (i+1) (q0 .x))) - S' (.aux 0 .ey (eIdx σ i (q0 .x))))) * uy +
          (dt / mu0 * (1 / d) * (S' (.aux 0 .ey (eIdx σ (i+1) (q0 .x))) - S' (.aux 0 .ey (eIdx σ i (q0 .x)))) * finc eta0 size theta phi eta .ez) * σσ
      · simp only [curlAtH, Axis.h, ey, ez, hy, hz, ne, nh]
        simp only [pos2, Axis.h] at co
        rw [st (by omega) (by omega)]
        linear_combination (dt / mu0 * (1 / d) * σ * (S' (.aux 0 .ey (eIdx σ (i+1) (q0 .x))) - S' (.aux 0 .ey (eIdx σ i (q0 .x))))) * uz -
          (dt / mu0 * (1 / d) * (S' (.aux 0 .ey (eIdx σ (i+1) (q0 .x))) - S' (.aux 0 .ey (eIdx σ i (q0 .x)))) * finc eta0 size theta phi eta .ey) * σσ
    · have ex := we .x (by decide); have hx := wh .x (by decide)
      have ez := we .z (by decide); have hz := wh .z (by decide)
      simp only [Axis.e, Axis.h, trip, Axis.lo, Axis.hi] at ex ez hx hz ne nh st co
      simp only [z .x (by decide), z .z (by decide), hk, zero_mul, sub_zero, zero_sub] at ux uy uz
      rcases b with _ | _ | _
      · simp only [curlAtH, Axis.h, ex, ez, hx, hz, ne, nh]
        simp only [pos2, Axis.h] at co
        rw [st (by omega) (by omega)]
        linear_combination (dt / mu0 * (1 / d) * σ * (S' (.aux 0 .ey (eIdx σ (j+1) (q0 .y))) - S' (.aux 0 .ey (eIdx σ j (q0 .y))))) * ux -
          (dt / mu0 * (1 / d) * (S' (.aux 0 .ey (eIdx σ (j+1) (q0 .y))) - S' (.aux 0 .ey (eIdx σ j (q0 .y)))) * finc eta0 size theta phi eta .ez) * σσ
      · simp only [curlAtH, Axis.h, ex, ez, hx, hz, ne, nh]; ring
      · simp only [curlAtH, Axis.h, ex, ez, hx, hz, ne, nh]
        simp only [pos2, Axis.h] at co
        rw [st (by omega) (by omega)]
        linear_combination (dt / mu0 * (1 / d) * σ * (S' (.aux 0 .ey (eIdx σ (j+1) (q0 .y))) - S' (.aux 0 .ey (eIdx σ j (q0 .y))))) * uz +
          (dt / mu0 * (1 / d) * (S' (.aux 0 .ey (eIdx σ (j+1) (q0 .y))) - S' (.aux 0 .ey (eIdx σ j (q0 .y)))) * finc eta0 size theta phi eta .ex) * σσ
    · have ex := we .x (by decide); have hx := wh .x (by decide)
      have ey := we .y (by decide); have hy := wh .y (by decide)
      simp only [Axis.e, Axis.h, trip, Axis.lo, Axis.hi] at ex ey hx hy ne nh st co
      simp only [z .x (by decide), z .y (by decide), hk, zero_mul, sub_zero, zero_sub] at ux uy uz
      rcases b with _ | _ | _
      · simp only [curlAtH, Axis.h, ex, ey, hx, hy, ne, nh]
        simp only [pos2, Axis.h] at co
        rw [st (by omega) (by omega)]
        linear_combination (dt / mu0 * (1 / d) * σ * (S' (.aux 0 .ey (eIdx σ (k+1) (q0 .z))) - S' (.aux 0 .ey (eIdx σ k (q0 .z))))) * ux +
          (dt / mu0 * (1 / d) * (S' (.aux 0 .ey (eIdx σ (k+1) (q0 .z))) - S' (.aux 0 .ey (eIdx σ k (q0 .z)))) * finc eta0 size theta phi eta .ey) * σσ
      · simp only [curlAtH, Axis.h, ex, ey, hx, hy, ne, nh]
        simp only [pos2, Axis.h] at co
        rw [st (by omega) (by omega)]
        linear_combination (dt / mu0 * (1 / d) * σ * (S' (.aux 0 .ey (eIdx σ (k+1) (q0 .z))) - S' (.aux 0 .ey (eIdx σ k (q0 .z))))) * uy -
          (dt / mu0 * (1 / d) * (S' (.aux 0 .ey (eIdx σ (k+1) (q0 .z))) - S' (.aux 0 .ey (eIdx σ k (q0 .z)))) * finc eta0 size theta phi eta .ex) * σσ
      · simp only [curlAtH, Axis.h, ex, ey, hx, hy, ne, nh]; ring

/-- A wave that travels up or down a mesh axis, in free space on a cubic mesh, from fields at rest: at every step and
whatever the waveform and the polarisation, the field is zero at every sample outside the closed box, and inside it is
the incident field held by the auxiliary grid. -/
theorem axis_wave_separated {c : Cfg} (hv : ValidCfg c) (hact : ∀ f, w.active f = true) (hc : ClearOf c w.gbbox)
    (hf : FreeCubic C w.gbbox dt eps0 mu0 d) (h0 : 0 < eta0) (hsz : 0 ≤ size)
    {a : Axis} {σ : ℤ} (hσ : σ = 1 ∨ σ = -1) (hk : kinc theta phi a = σ) (u : Nat → Loc → ℝ) (n : Nat)
    (fc : Fc) (i j k : Int) :
    (¬ SampleIn w.gbbox fc i j k → (oneWave c w).state C u (fun _ => 0) n (.fld fc i j k) = 0) ∧
    (SampleIn w.gbbox fc i j k → (oneWave c w).state C u (fun _ => 0) n (.fld fc i j k) =
      auxWave C w ((oneWave c w).state C u (fun _ => 0) n) fc i j k) := by
  have hl : LosslessFaces C w.gbbox := fun f a i j k _ h _ => hf.alpha a i j k h
  have := (separation_aux hv hs.aux hact hc hl (u := u) (s0 := fun _ => 0)
    (axis_wave_solves hs (clear_ord hc) hf h0 hsz hσ hk u _)
    ⟨fun fc i j k => by
      have : auxWave C w (fun _ => (0 : ℝ)) fc i j k = 0 := by rw [inc_eval hs.aux]; ring
      unfold separated
      split_ifs
      · exact this.symm
      · rfl, fun _ _ _ _ _ => ⟨rfl, rfl, rfl⟩⟩ n).fld fc i j k
  rw [this]
  exact ⟨sep_out, sep_in⟩

end axis

namespace Example

/-- Six cells per axis between conducting walls, a box from 2 to 4. -/
def cfg : Cfg := ⟨fun _ => 6, fun _ => .pec, fun _ => 0⟩
def box : BBox := fun f => if f.isLo then 2 else 4
def origin : Axis → ℤ := fun _ => 2
noncomputable def wave : PW := ⟨box, fun _ => true, some (auxGridOf 0 0 box origin)⟩
noncomputable def coef : CRef → ℝ
  | .alpha .. => 1
  | .beta .. => 1 / 4 | .gamma .. => 1 / 4
  | .idh .. => 1 | .ide .. => 1
  | .auxBeta _ => 1 / 4 | .auxGamma _ => 1 / 4
  | .auxW _ up fc i j k => auxWeight 1 (finc 1 1 0 0 0 fc) fc (auxDist (kinc 0 0) origin fc (trip i j k)) up
  | _ => 0

theorem box_clear : ClearOf cfg box := by
  intro a; cases a <;> decide

theorem kinc_up : kinc 0 0 .z = ((1 : ℤ) : ℝ) := by simp [kinc, rad]

theorem set_up : AuxSetUp coef wave 0 0 0 1 1 (1/4) 1 1 1 origin where
  angles := by unfold anglesOk; norm_num
  aux := rfl
  origin := by
    unfold ijk0 originCorner
    norm_num
    funext a; cases a <;> rfl
  weight := fun _ _ _ _ _ => rfl
  beta := by show (1 : ℝ) / 4 = _; unfold betaEyi; norm_num
  gamma := by show (1 : ℝ) / 4 = _; unfold gammaHzi; norm_num

theorem free : FreeCubic coef box (1/4) 1 1 1 := by
  constructor <;> intros <;> norm_num [coef]

/-- The hypotheses are met, and the wave is polarised along -y with unit amplitude. -/
example (u : Nat → Loc → ℝ) (n : Nat) (i j k : Int) (h : ¬ SampleIn box .ey i j k) :
    (oneWave cfg wave).state coef u (fun _ => 0) n (.fld .ey i j k) = 0 :=
  (axis_wave_separated set_up (c := cfg) (by constructor <;> decide) (fun _ => rfl) box_clear free one_pos zero_le_one
    (Or.inl rfl) kinc_up u n .ey i j k).1 h

example : finc 1 1 0 0 0 .ey = -1 := by simp [finc, rad]

end Example
end Vulture.C31
