import Verif.Lemmas.Balance
import Verif.Spec.Energy
import Verif.Props.C15_DivB
import Verif.Props.C18_Edges
import Verif.Props.C14_Coeff
/-
C17: energy of a closed box.
-/
set_option linter.unusedSimpArgs false
namespace Vulture.C17
open Spec Energy

/-- A closed box: six PEC walls, nothing dispersive, no impedance surface, no excitation; the
coefficient arrays hold reciprocal lengths, and per sample either the conductor's `beta = 0` or the
coefficients of a medium with permittivity `eps` and conductivity `sigma`; `gamma = dt/mu`. That the
set-up code produces such arrays is `setup_closed` below. -/
structure Closed (S : Sim) (C : CRef → ℝ) (g : Filling) : Prop where
  cfg : ValidCfg S.cfg
  pec : ∀ f, S.cfg.bt f = .pec
  debye : S.debye = []
  sibc : S.sibc = []
  srcs : S.srcs = []
  pws : S.pws = []
  de_pos : ∀ a i, S.cfg.gibox a.lo ≤ i → i < S.cfg.gibox a.hi → 0 < g.de a i
  dh_pos : ∀ a i, S.cfg.gibox a.lo ≤ i → i ≤ S.cfg.gibox a.hi → 0 < g.dh a i
  dh_mean : ∀ a i, S.cfg.gibox a.lo < i → i < S.cfg.gibox a.hi → g.dh a i = (g.de a (i-1) + g.de a i) / 2
  ide : ∀ a i, S.cfg.gibox a.lo ≤ i → i < S.cfg.gibox a.hi → C (.ide a i) = 1 / g.de a i
  idh : ∀ a i, S.cfg.gibox a.lo < i → i < S.cfg.gibox a.hi → C (.idh a i) = 1 / g.dh a i
  wall : ∀ fc i j k f, fc.isE = true → SampleIn S.cfg.gibox fc i j k → OnPlane S.cfg.gibox f fc i j k →
    C (.beta fc i j k) = 0
  electric : ∀ fc i j k, fc.isE = true → SampleIn S.cfg.gibox fc i j k →
    C (.beta fc i j k) = 0 ∨
    (C (.alpha fc i j k) * (2 * g.eps fc i j k + g.dt * g.sigma fc i j k) =
        2 * g.eps fc i j k - g.dt * g.sigma fc i j k ∧
      C (.beta fc i j k) * (2 * g.eps fc i j k + g.dt * g.sigma fc i j k) = 2 * g.dt)
  magnetic : ∀ fc i j k, fc.isE = false → SampleIn S.cfg.gibox fc i j k →
    C (.gamma fc i j k) * g.mu fc i j k = g.dt

section
variable {S : Sim} {C : CRef → ℝ} {g : Filling} (hc : Closed S C g)
include hc

/-- Electric samples after one step. -/
theorem stepE_val {fc : Fc} (hf : fc.isE = true) {i j k : Int} (hi : SampleIn S.cfg.gibox fc i j k)
    (s : Loc → ℝ) : S.step.run C s (.fld fc i j k) = (ampere fc i j k).eval C s := by
  unfold Sim.step
  rw [run_append, NoWrite.run C (noE_stepH hf i j k S)]
  have e : S.stepE = (updatePmlEfield S.cfg ++ updateMurEfield S.cfg ++ updateGridEfield S.cfg) ++
      updateGhostEfield S.cfg := by
    simp [Sim.stepE, hc.debye, hc.sibc, hc.srcs, hc.pws, updateDebye, updateSibcE, updateSourcesE,
      updatePlaneWavesE]
  rw [e, run_append, NoWrite.run C (noWrite_ghostE hc.cfg (sampleIn_mono (gibox_within hc.cfg) hi)),
    electric_value C hc.cfg hf]
  obtain ⟨h1, h2, h3⟩ := hi
  cases fc <;> simp only [pos2] at h1 h2 h3 <;>
    simp [InLim, Cfg.gfilim, setFieldLimits, Face.isLo, fieldIsInBoundary, hc.pec] <;> omega

/-- Magnetic samples after one step. -/
theorem stepH_val {fc : Fc} (hf : fc.isE = false) {i j k : Int} (hi : SampleIn S.cfg.gibox fc i j k)
    (s : Loc → ℝ) : S.step.run C s (.fld fc i j k) = (faraday fc i j k).eval C (S.stepE.run C s) := by
  refine C15.step_value S hc.cfg C hf hi ?_ s
  have e : updateSibcH S.sibc ++ updateSourcesH S.srcs ++ updatePlaneWavesH S.cfg S.pws = [] := by
    simp [hc.sibc, hc.srcs, hc.pws, updateSibcH, updateSourcesH, updatePlaneWavesH]
  rw [e]; exact NoWrite.nil

end

/-! ### Translation to arrays indexed from the low corner -/

theorem sum_Icc (lo hi : Int) (n : ℕ) (h : hi = lo + n) (f : Int → ℝ) :
    ∑ i ∈ Finset.Icc lo hi, f i = ∑ a ∈ Finset.range (n+1), f (lo + a) := by
  subst h
  symm
  refine Finset.sum_bij (fun (a : ℕ) _ => lo + (a : Int)) ?_ ?_ ?_ ?_
  · intro a ha; simp at ha ⊢; omega
  · intro a _ b _ hab; simpa using hab
  · intro b hb
    simp at hb
    exact ⟨(b - lo).toNat, by simp; omega, by omega⟩
  · intro a _; rfl

/-- Component arrays of a state. -/
def vE (b : BBox) (s : Loc → ℝ) : V3 :=
  ⟨fun p q r => s (.fld .ex (b .xlo + p) (b .ylo + q) (b .zlo + r)),
   fun p q r => s (.fld .ey (b .xlo + p) (b .ylo + q) (b .zlo + r)),
   fun p q r => s (.fld .ez (b .xlo + p) (b .ylo + q) (b .zlo + r))⟩
def vH (b : BBox) (s : Loc → ℝ) : V3 :=
  ⟨fun p q r => s (.fld .hx (b .xlo + p) (b .ylo + q) (b .zlo + r)),
   fun p q r => s (.fld .hy (b .xlo + p) (b .ylo + q) (b .zlo + r)),
   fun p q r => s (.fld .hz (b .xlo + p) (b .ylo + q) (b .zlo + r))⟩
/-- Material arrays. -/
def mE (b : BBox) (w : Fc → Int → Int → Int → ℝ) : V3 :=
  ⟨fun p q r => w .ex (b .xlo + p) (b .ylo + q) (b .zlo + r),
   fun p q r => w .ey (b .xlo + p) (b .ylo + q) (b .zlo + r),
   fun p q r => w .ez (b .xlo + p) (b .ylo + q) (b .zlo + r)⟩
def mH (b : BBox) (w : Fc → Int → Int → Int → ℝ) : V3 :=
  ⟨fun p q r => w .hx (b .xlo + p) (b .ylo + q) (b .zlo + r),
   fun p q r => w .hy (b .xlo + p) (b .ylo + q) (b .zlo + r),
   fun p q r => w .hz (b .xlo + p) (b .ylo + q) (b .zlo + r)⟩

/-- Interior nodes along an axis. -/
def inn (c : Cfg) (a : Axis) : ℕ := (c.n a - 1).toNat

section
variable {S : Sim} {C : CRef → ℝ} {g : Filling} (hc : Closed S C g)
include hc

theorem hi_eq (a : Axis) : S.cfg.gibox a.hi = S.cfg.gibox a.lo + (inn S.cfg a : Int) + 1 := by
  have h := hc.cfg.cells a
  unfold inn
  cases a <;> simp [Axis.lo, Axis.hi, Cfg.gibox, Cfg.giboxHi, Cfg.numLines] at * <;> omega

end

/-- One axis of the closed box as the mathematics sees it. -/
def axisOf {S : Sim} {C : CRef → ℝ} {g : Filling} (hc : Closed S C g) (a : Axis) (m : ℝ) (hm : 0 < m)
    (hge : ∀ i, S.cfg.gibox a.lo ≤ i → i < S.cfg.gibox a.hi → m ≤ g.de a i) : Ax (inn S.cfg a) where
  de b := g.de a (S.cfg.gibox a.lo + b)
  dh b := g.dh a (S.cfg.gibox a.lo + b)
  m := m
  m_pos := hm
  de_ge b hb := hge _ (by omega) (by have := hi_eq hc a; omega)
  dh_mean b hb := by
    have := hi_eq hc a
    rw [hc.dh_mean a _ (by push_cast; omega) (by push_cast; omega)]
    push_cast
    rw [show S.cfg.gibox a.lo + ((b:Int) + 1) - 1 = S.cfg.gibox a.lo + b by ring]
  dh_pos b hb := hc.dh_pos a _ (by omega) (by have := hi_eq hc a; push_cast; omega)

section
variable {S : Sim} {C : CRef → ℝ} {g : Filling} (hc : Closed S C g) (m : Axis → ℝ) (hm : ∀ a, 0 < m a)
  (hge : ∀ a i, S.cfg.gibox a.lo ≤ i → i < S.cfg.gibox a.hi → m a ≤ g.de a i)

local notation "X" => axisOf hc Axis.x (m Axis.x) (hm Axis.x) (hge Axis.x)
local notation "Y" => axisOf hc Axis.y (m Axis.y) (hm Axis.y) (hge Axis.y)
local notation "Z" => axisOf hc Axis.z (m Axis.z) (hm Axis.z) (hge Axis.z)
local notation "B" => S.cfg.gibox

theorem sumE_eq (w u v : Fc → Int → Int → Int → ℝ) :
    sumE B (fun fc i j k => w fc i j k * g.vol fc i j k * (u fc i j k * v fc i j k)) =
      dotE X Y Z (wmul (mE B w) (mE B u)) (mE B v) := by
  have hx := hi_eq hc .x; have hy := hi_eq hc .y; have hz := hi_eq hc .z
  simp only [Axis.lo, Axis.hi] at hx hy hz
  unfold sumE dotE boxSum sum3
  congr 1
  · congr 1
    · rw [sum_Icc _ _ (inn S.cfg .x) (by simp [pos2]; omega)]
      refine Finset.sum_congr rfl fun p _ => ?_
      rw [sum_Icc _ _ (inn S.cfg .y + 1) (by simp [pos2]; omega)]
      refine Finset.sum_congr rfl fun q _ => ?_
      rw [sum_Icc _ _ (inn S.cfg .z + 1) (by simp [pos2]; omega)]
      refine Finset.sum_congr rfl fun r _ => ?_
      simp [Filling.vol, Filling.len, pos2, wmul, mE, axisOf, Axis.lo]; ring
    · rw [sum_Icc _ _ (inn S.cfg .x + 1) (by simp [pos2]; omega)]
      refine Finset.sum_congr rfl fun p _ => ?_
      rw [sum_Icc _ _ (inn S.cfg .y) (by simp [pos2]; omega)]
      refine Finset.sum_congr rfl fun q _ => ?_
      rw [sum_Icc _ _ (inn S.cfg .z + 1) (by simp [pos2]; omega)]
      refine Finset.sum_congr rfl fun r _ => ?_
      simp [Filling.vol, Filling.len, pos2, wmul, mE, axisOf, Axis.lo]; ring
  · rw [sum_Icc _ _ (inn S.cfg .x + 1) (by simp [pos2]; omega)]
    refine Finset.sum_congr rfl fun p _ => ?_
    rw [sum_Icc _ _ (inn S.cfg .y + 1) (by simp [pos2]; omega)]
    refine Finset.sum_congr rfl fun q _ => ?_
    rw [sum_Icc _ _ (inn S.cfg .z) (by simp [pos2]; omega)]
    refine Finset.sum_congr rfl fun r _ => ?_
    simp [Filling.vol, Filling.len, pos2, wmul, mE, axisOf, Axis.lo]; ring

theorem sumH_eq (w u v : Fc → Int → Int → Int → ℝ) :
    sumH B (fun fc i j k => w fc i j k * g.vol fc i j k * (u fc i j k * v fc i j k)) =
      dotH X Y Z (wmul (mH B w) (mH B u)) (mH B v) := by
  have hx := hi_eq hc .x; have hy := hi_eq hc .y; have hz := hi_eq hc .z
  simp only [Axis.lo, Axis.hi] at hx hy hz
  unfold sumH dotH boxSum sum3
  congr 1
  · congr 1
    · rw [sum_Icc _ _ (inn S.cfg .x + 1) (by simp [pos2]; omega)]
      refine Finset.sum_congr rfl fun p _ => ?_
      rw [sum_Icc _ _ (inn S.cfg .y) (by simp [pos2]; omega)]
      refine Finset.sum_congr rfl fun q _ => ?_
      rw [sum_Icc _ _ (inn S.cfg .z) (by simp [pos2]; omega)]
      refine Finset.sum_congr rfl fun r _ => ?_
      simp [Filling.vol, Filling.len, pos2, wmul, mH, axisOf, Axis.lo]; ring
    · rw [sum_Icc _ _ (inn S.cfg .x) (by simp [pos2]; omega)]
      refine Finset.sum_congr rfl fun p _ => ?_
      rw [sum_Icc _ _ (inn S.cfg .y + 1) (by simp [pos2]; omega)]
      refine Finset.sum_congr rfl fun q _ => ?_
      rw [sum_Icc _ _ (inn S.cfg .z) (by simp [pos2]; omega)]
      refine Finset.sum_congr rfl fun r _ => ?_
      simp [Filling.vol, Filling.len, pos2, wmul, mH, axisOf, Axis.lo]; ring
  · rw [sum_Icc _ _ (inn S.cfg .x) (by simp [pos2]; omega)]
    refine Finset.sum_congr rfl fun p _ => ?_
    rw [sum_Icc _ _ (inn S.cfg .y) (by simp [pos2]; omega)]
    refine Finset.sum_congr rfl fun q _ => ?_
    rw [sum_Icc _ _ (inn S.cfg .z + 1) (by simp [pos2]; omega)]
    refine Finset.sum_congr rfl fun r _ => ?_
    simp [Filling.vol, Filling.len, pos2, wmul, mH, axisOf, Axis.lo]; ring

end

/-! ### One step -/

section
variable {S : Sim} {C : CRef → ℝ} {g : Filling} (hc : Closed S C g)
include hc

local notation "B" => S.cfg.gibox

/-- Conductors stay field-free. -/
theorem fieldFree_step {s : Loc → ℝ} (h : FieldFree C B s) : FieldFree C B (S.step.run C s) := by
  intro fc i j k hf hi hb
  have hE : fc.isE = true := by rcases hf with rfl | rfl | rfl <;> rfl
  rw [stepE_val hc hE hi]
  have := h fc i j k hf hi hb
  rcases hf with rfl | rfl | rfl <;>
    simp [ampere, ampereX, ampereY, ampereZ, Expr.eval, EX, EY, EZ, hb, this]

theorem fieldFree_walls {s : Loc → ℝ} (h : FieldFree C B s) :
    Walls (inn S.cfg .x) (inn S.cfg .y) (inn S.cfg .z) (vE B s) := by
  have hx := hi_eq hc .x; have hy := hi_eq hc .y; have hz := hi_eq hc .z
  simp only [Axis.lo, Axis.hi] at hx hy hz
  constructor
  · intro a b c h1 h2 h3 hw
    have hin : SampleIn B .ex (B .xlo + a) (B .ylo + b) (B .zlo + c) := by
      refine ⟨?_, ?_, ?_⟩ <;> simp only [pos2] <;> omega
    refine h .ex _ _ _ (by simp) hin ?_
    rcases hw with hw | hw | hw | hw
    · exact hc.wall _ _ _ _ .ylo rfl hin (by simp [OnPlane, samplePos, Face.axis, pos2]; omega)
    · exact hc.wall _ _ _ _ .yhi rfl hin (by simp [OnPlane, samplePos, Face.axis, pos2]; omega)
    · exact hc.wall _ _ _ _ .zlo rfl hin (by simp [OnPlane, samplePos, Face.axis, pos2]; omega)
    · exact hc.wall _ _ _ _ .zhi rfl hin (by simp [OnPlane, samplePos, Face.axis, pos2]; omega)
  · intro a b c h1 h2 h3 hw
    have hin : SampleIn B .ey (B .xlo + a) (B .ylo + b) (B .zlo + c) := by
      refine ⟨?_, ?_, ?_⟩ <;> simp only [pos2] <;> omega
    refine h .ey _ _ _ (by simp) hin ?_
    rcases hw with hw | hw | hw | hw
    · exact hc.wall _ _ _ _ .xlo rfl hin (by simp [OnPlane, samplePos, Face.axis, pos2]; omega)
    · exact hc.wall _ _ _ _ .xhi rfl hin (by simp [OnPlane, samplePos, Face.axis, pos2]; omega)
    · exact hc.wall _ _ _ _ .zlo rfl hin (by simp [OnPlane, samplePos, Face.axis, pos2]; omega)
    · exact hc.wall _ _ _ _ .zhi rfl hin (by simp [OnPlane, samplePos, Face.axis, pos2]; omega)
  · intro a b c h1 h2 h3 hw
    have hin : SampleIn B .ez (B .xlo + a) (B .ylo + b) (B .zlo + c) := by
      refine ⟨?_, ?_, ?_⟩ <;> simp only [pos2] <;> omega
    refine h .ez _ _ _ (by simp) hin ?_
    rcases hw with hw | hw | hw | hw
    · exact hc.wall _ _ _ _ .xlo rfl hin (by simp [OnPlane, samplePos, Face.axis, pos2]; omega)
    · exact hc.wall _ _ _ _ .xhi rfl hin (by simp [OnPlane, samplePos, Face.axis, pos2]; omega)
    · exact hc.wall _ _ _ _ .ylo rfl hin (by simp [OnPlane, samplePos, Face.axis, pos2]; omega)
    · exact hc.wall _ _ _ _ .yhi rfl hin (by simp [OnPlane, samplePos, Face.axis, pos2]; omega)

/-- The electric update of one sample in law form. -/
theorem edge_law {fc : Fc} (hf : fc.isE = true) {i j k : Int} (hi : SampleIn B fc i j k) {s : Loc → ℝ}
    (h : FieldFree C B s) {e' q : ℝ}
    (he : e' = C (.alpha fc i j k) * s (.fld fc i j k) + C (.beta fc i j k) * q) :
    EdgeLaw g.dt (g.eps fc i j k) (g.sigma fc i j k) (s (.fld fc i j k)) e' q := by
  by_cases hb : C (.beta fc i j k) = 0
  · have h0 := h fc i j k (fc_isE hf) hi hb
    exact Or.inl ⟨h0, by rw [he, h0, hb]; ring⟩
  · rcases hc.electric fc i j k hf hi with h0 | ⟨ha, hbb⟩
    · exact absurd h0 hb
    · refine Or.inr ?_
      -- multiply by 2, using the coefficient identities
      by_cases hd : 2 * g.eps fc i j k + g.dt * g.sigma fc i j k = 0
      · rw [hd] at ha hbb
        have hdt : g.dt = 0 := by linarith
        have : g.eps fc i j k = 0 := by rw [hdt] at hd; linarith
        rw [hdt, this]; ring
      · have : (2 * g.eps fc i j k + g.dt * g.sigma fc i j k) * e' =
            (2 * g.eps fc i j k - g.dt * g.sigma fc i j k) * s (.fld fc i j k) + 2 * g.dt * q := by
          rw [he]; linear_combination (s (.fld fc i j k)) * ha + q * hbb
        linear_combination (1/2) * this

end

section
variable {S : Sim} {C : CRef → ℝ} {g : Filling} (hc : Closed S C g) (m : Axis → ℝ) (hm : ∀ a, 0 < m a)
  (hge : ∀ a i, S.cfg.gibox a.lo ≤ i → i < S.cfg.gibox a.hi → m a ≤ g.de a i)

local notation "X" => axisOf hc Axis.x (m Axis.x) (hm Axis.x) (hge Axis.x)
local notation "Y" => axisOf hc Axis.y (m Axis.y) (hm Axis.y) (hge Axis.y)
local notation "Z" => axisOf hc Axis.z (m Axis.z) (hm Axis.z) (hge Axis.z)
local notation "B" => S.cfg.gibox

/-- Magnetic law of one step. -/
theorem mag_law (s : Loc → ℝ) :
    let H := vH B s
    let H' := vH B (S.step.run C s)
    let E' := vE B (S.step.run C s)
    let mu := mH B g.mu
    (∀ a b c, a < inn S.cfg .x+2 → b < inn S.cfg .y+1 → c < inn S.cfg .z+1 →
      mu.x a b c * (H'.x a b c - H.x a b c) = - g.dt * (curlE X Y Z E').x a b c) ∧
    (∀ a b c, a < inn S.cfg .x+1 → b < inn S.cfg .y+2 → c < inn S.cfg .z+1 →
      mu.y a b c * (H'.y a b c - H.y a b c) = - g.dt * (curlE X Y Z E').y a b c) ∧
    (∀ a b c, a < inn S.cfg .x+1 → b < inn S.cfg .y+1 → c < inn S.cfg .z+2 →
      mu.z a b c * (H'.z a b c - H.z a b c) = - g.dt * (curlE X Y Z E').z a b c) := by
  have hx := hi_eq hc .x; have hy := hi_eq hc .y; have hz := hi_eq hc .z
  simp only [Axis.lo, Axis.hi] at hx hy hz
  have keepE : ∀ fc i j k, fc.isE = true →
      S.stepE.run C s (.fld fc i j k) = S.step.run C s (.fld fc i j k) := by
    intro fc i j k hf
    unfold Sim.step
    rw [run_append, NoWrite.run C (noE_stepH hf i j k S)]
  have keepH : ∀ fc i j k, fc.isE = false → S.stepE.run C s (.fld fc i j k) = s (.fld fc i j k) :=
    fun fc i j k hf => NoWrite.run C (noH_stepE hf i j k S) s
  refine ⟨?_, ?_, ?_⟩
  · intro a b c h1 h2 h3
    have hin : SampleIn B .hx (B .xlo + a) (B .ylo + b) (B .zlo + c) := by
      refine ⟨?_, ?_, ?_⟩ <;> simp only [pos2] <;> omega
    have hv := stepH_val hc rfl hin s
    have hg := hc.magnetic .hx _ _ _ rfl hin
    have i1 := hc.ide .y (B .ylo + b) (by simp [Axis.lo]) (by simp only [Axis.hi]; omega)
    have i2 := hc.ide .z (B .zlo + c) (by simp [Axis.lo]) (by simp only [Axis.hi]; omega)
    simp only [faraday, faradayX, curlEx, Expr.eval, EX, EY, EZ, HX, keepH .hx _ _ _ rfl, keepE .ey _ _ _ rfl,
      keepE .ez _ _ _ rfl, i1, i2] at hv
    simp only [vH, vE, mH, curlE, axisOf, Axis.lo, hv, Nat.cast_add, Nat.cast_one, ← add_assoc]
    linear_combination (1 / g.de .z (B .zlo + c) * (S.step.run C s (.fld .ey (B .xlo + a) (B .ylo + b) (B .zlo + c + 1)) -
      S.step.run C s (.fld .ey (B .xlo + a) (B .ylo + b) (B .zlo + c))) +
      1 / g.de .y (B .ylo + b) * (S.step.run C s (.fld .ez (B .xlo + a) (B .ylo + b) (B .zlo + c)) -
      S.step.run C s (.fld .ez (B .xlo + a) (B .ylo + b + 1) (B .zlo + c)))) * hg
  · intro a b c h1 h2 h3
    have hin : SampleIn B .hy (B .xlo + a) (B .ylo + b) (B .zlo + c) := by
      refine ⟨?_, ?_, ?_⟩ <;> simp only [pos2] <;> omega
    have hv := stepH_val hc rfl hin s
    have hg := hc.magnetic .hy _ _ _ rfl hin
    have i1 := hc.ide .x (B .xlo + a) (by simp [Axis.lo]) (by simp only [Axis.hi]; omega)
    have i2 := hc.ide .z (B .zlo + c) (by simp [Axis.lo]) (by simp only [Axis.hi]; omega)
    simp only [faraday, faradayY, curlEy, Expr.eval, EX, EY, EZ, HY, keepH .hy _ _ _ rfl, keepE .ex _ _ _ rfl,
      keepE .ez _ _ _ rfl, i1, i2] at hv
    simp only [vH, vE, mH, curlE, axisOf, Axis.lo, hv, Nat.cast_add, Nat.cast_one, ← add_assoc]
    linear_combination (1 / g.de .x (B .xlo + a) * (S.step.run C s (.fld .ez (B .xlo + a + 1) (B .ylo + b) (B .zlo + c)) -
      S.step.run C s (.fld .ez (B .xlo + a) (B .ylo + b) (B .zlo + c))) +
      1 / g.de .z (B .zlo + c) * (S.step.run C s (.fld .ex (B .xlo + a) (B .ylo + b) (B .zlo + c)) -
      S.step.run C s (.fld .ex (B .xlo + a) (B .ylo + b) (B .zlo + c + 1)))) * hg
  · intro a b c h1 h2 h3
    have hin : SampleIn B .hz (B .xlo + a) (B .ylo + b) (B .zlo + c) := by
      refine ⟨?_, ?_, ?_⟩ <;> simp only [pos2] <;> omega
    have hv := stepH_val hc rfl hin s
    have hg := hc.magnetic .hz _ _ _ rfl hin
    have i1 := hc.ide .x (B .xlo + a) (by simp [Axis.lo]) (by simp only [Axis.hi]; omega)
    have i2 := hc.ide .y (B .ylo + b) (by simp [Axis.lo]) (by simp only [Axis.hi]; omega)
    simp only [faraday, faradayZ, curlEz, Expr.eval, EX, EY, EZ, HZ, keepH .hz _ _ _ rfl, keepE .ex _ _ _ rfl,
      keepE .ey _ _ _ rfl, i1, i2] at hv
    simp only [vH, vE, mH, curlE, axisOf, Axis.lo, hv, Nat.cast_add, Nat.cast_one, ← add_assoc]
    linear_combination (1 / g.de .y (B .ylo + b) * (S.step.run C s (.fld .ex (B .xlo + a) (B .ylo + b + 1) (B .zlo + c)) -
      S.step.run C s (.fld .ex (B .xlo + a) (B .ylo + b) (B .zlo + c))) +
      1 / g.de .x (B .xlo + a) * (S.step.run C s (.fld .ey (B .xlo + a) (B .ylo + b) (B .zlo + c)) -
      S.step.run C s (.fld .ey (B .xlo + a + 1) (B .ylo + b) (B .zlo + c)))) * hg

/-- The conserved form of a state. -/
noncomputable def F (s : Loc → ℝ) : ℝ := form X Y Z g.dt (mE B g.eps) (mH B g.mu) (vE B s) (vH B s)

/-- Balance of one step. -/
theorem form_step {s : Loc → ℝ} (h : FieldFree C B s) :
    F hc m hm hge (S.step.run C s) = F hc m hm hge s - 2 * heat g B s (S.step.run C s) := by
  have hx := hi_eq hc .x; have hy := hi_eq hc .y; have hz := hi_eq hc .z
  simp only [Axis.lo, Axis.hi] at hx hy hz
  obtain ⟨m1, m2, m3⟩ := mag_law hc m hm hge s
  have key := balance X Y Z g.dt (mE B g.eps) (mE B g.sigma) (mH B g.mu) (vE B s) (vE B (S.step.run C s))
    (vH B s) (vH B (S.step.run C s)) (fieldFree_walls hc h) (fieldFree_walls hc (fieldFree_step hc h))
    ?_ ?_ ?_ m1 m2 m3
  · unfold F
    rw [key]
    congr 1
    have := sumE_eq hc m hm hge g.sigma
      (fun fc i j k => s (.fld fc i j k) + S.step.run C s (.fld fc i j k))
      (fun fc i j k => s (.fld fc i j k) + S.step.run C s (.fld fc i j k))
    have e : mE B (fun fc i j k => s (.fld fc i j k) + S.step.run C s (.fld fc i j k)) =
        addV (vE B s) (vE B (S.step.run C s)) := rfl
    rw [e] at this
    rw [← this]
    unfold heat sumE boxSum
    simp only [Finset.mul_sum, mul_add]
    congr 1
    · congr 1 <;>
      · refine Finset.sum_congr rfl fun _ _ => Finset.sum_congr rfl fun _ _ => Finset.sum_congr rfl fun _ _ => ?_
        ring
    · refine Finset.sum_congr rfl fun _ _ => Finset.sum_congr rfl fun _ _ => Finset.sum_congr rfl fun _ _ => ?_
      ring
  · intro a b c h1 h2 h3
    have hin : SampleIn B .ex (B .xlo + a) (B .ylo + (b+1:ℕ)) (B .zlo + (c+1:ℕ)) := by
      refine ⟨?_, ?_, ?_⟩ <;> simp only [pos2] <;> push_cast <;> omega
    refine edge_law hc rfl hin h ?_
    have hv := stepE_val hc rfl hin s
    have i1 := hc.idh .y (B .ylo + (b+1:ℕ)) (by simp only [Axis.lo]; push_cast; omega) (by simp only [Axis.hi]; push_cast; omega)
    have i2 := hc.idh .z (B .zlo + (c+1:ℕ)) (by simp only [Axis.lo]; push_cast; omega) (by simp only [Axis.hi]; push_cast; omega)
    simp only [vE, hv, ampere, ampereX, curlHx, Expr.eval, EX, HY, HZ, i1, i2]
    simp only [vH, curlH, axisOf, Axis.lo, Nat.cast_add, Nat.cast_one, ← add_assoc, add_sub_cancel_right]
    ring
  · intro a b c h1 h2 h3
    have hin : SampleIn B .ey (B .xlo + (a+1:ℕ)) (B .ylo + b) (B .zlo + (c+1:ℕ)) := by
      refine ⟨?_, ?_, ?_⟩ <;> simp only [pos2] <;> push_cast <;> omega
    refine edge_law hc rfl hin h ?_
    have hv := stepE_val hc rfl hin s
    have i1 := hc.idh .x (B .xlo + (a+1:ℕ)) (by simp only [Axis.lo]; push_cast; omega) (by simp only [Axis.hi]; push_cast; omega)
    have i2 := hc.idh .z (B .zlo + (c+1:ℕ)) (by simp only [Axis.lo]; push_cast; omega) (by simp only [Axis.hi]; push_cast; omega)
    simp only [vE, hv, ampere, ampereY, curlHy, Expr.eval, EY, HX, HZ, i1, i2]
    simp only [vH, curlH, axisOf, Axis.lo, Nat.cast_add, Nat.cast_one, ← add_assoc, add_sub_cancel_right]
    ring
  · intro a b c h1 h2 h3
    have hin : SampleIn B .ez (B .xlo + (a+1:ℕ)) (B .ylo + (b+1:ℕ)) (B .zlo + c) := by
      refine ⟨?_, ?_, ?_⟩ <;> simp only [pos2] <;> push_cast <;> omega
    refine edge_law hc rfl hin h ?_
    have hv := stepE_val hc rfl hin s
    have i1 := hc.idh .x (B .xlo + (a+1:ℕ)) (by simp only [Axis.lo]; push_cast; omega) (by simp only [Axis.hi]; push_cast; omega)
    have i2 := hc.idh .y (B .ylo + (b+1:ℕ)) (by simp only [Axis.lo]; push_cast; omega) (by simp only [Axis.hi]; push_cast; omega)
    simp only [vE, hv, ampere, ampereZ, curlHz, Expr.eval, EZ, HX, HY, i1, i2]
    simp only [vH, curlH, axisOf, Axis.lo, Nat.cast_add, Nat.cast_one, ← add_assoc, add_sub_cancel_right]
    ring

/-- The form of the new state is twice the textbook energy of the step. -/
theorem form_eq_leap (s : Loc → ℝ) :
    F hc m hm hge (S.step.run C s) = 2 * leapEnergy g B s (S.step.run C s) := by
  obtain ⟨m1, m2, m3⟩ := mag_law hc m hm hge s
  have e1 := sumE_eq hc m hm hge g.eps (fun fc i j k => S.step.run C s (.fld fc i j k))
    (fun fc i j k => S.step.run C s (.fld fc i j k))
  have e2 := sumH_eq hc m hm hge g.mu (fun fc i j k => s (.fld fc i j k))
    (fun fc i j k => S.step.run C s (.fld fc i j k))
  have hl : 2 * leapEnergy g B s (S.step.run C s) =
      dotE X Y Z (wmul (mE B g.eps) (vE B (S.step.run C s))) (vE B (S.step.run C s)) +
      dotH X Y Z (wmul (mH B g.mu) (vH B s)) (vH B (S.step.run C s)) := by
    have f1 : mE B (fun fc i j k => S.step.run C s (.fld fc i j k)) = vE B (S.step.run C s) := rfl
    have f2 : mH B (fun fc i j k => S.step.run C s (.fld fc i j k)) = vH B (S.step.run C s) := rfl
    have f3 : mH B (fun fc i j k => s (.fld fc i j k)) = vH B s := rfl
    rw [f1] at e1
    rw [f2, f3] at e2
    rw [← e1, ← e2]
    unfold leapEnergy
    simp only [pow_two]
    ring
  rw [hl]
  unfold F form
  rw [add_assoc]
  congr 1
  rw [← dotH_smul, ← dotH_add]
  refine dotH_congr X Y Z ?_ ?_ ?_
  · intro a b c h1 h2 h3; have := m1 a b c h1 h2 h3
    simp only [wmul, addV]; linear_combination ((vH B (S.step.run C s)).x a b c) * this
  · intro a b c h1 h2 h3; have := m2 a b c h1 h2 h3
    simp only [wmul, addV]; linear_combination ((vH B (S.step.run C s)).y a b c) * this
  · intro a b c h1 h2 h3; have := m3 a b c h1 h2 h3
    simp only [wmul, addV]; linear_combination ((vH B (S.step.run C s)).z a b c) * this

/-- Distance of the form from the stored energy. -/
theorem form_near (cn e0 m0 : ℝ) (hcn : 0 < cn) (he0 : 0 < e0) (hm0 : 0 < m0)
    (hdt : g.dt ^ 2 * (1 / m .x ^ 2 + 1 / m .y ^ 2 + 1 / m .z ^ 2) ≤ cn ^ 2 * (e0 * m0))
    (heps : ∀ fc i j k, fc.isE = true → SampleIn B fc i j k → e0 ≤ g.eps fc i j k)
    (hmu : ∀ fc i j k, fc.isE = false → SampleIn B fc i j k → m0 ≤ g.mu fc i j k)
    {s : Loc → ℝ} (h : FieldFree C B s) :
    |F hc m hm hge s - 2 * stored g B s| ≤ cn * (2 * stored g B s) := by
  have hx := hi_eq hc .x; have hy := hi_eq hc .y; have hz := hi_eq hc .z
  simp only [Axis.lo, Axis.hi] at hx hy hz
  have e1 := sumE_eq hc m hm hge g.eps (fun fc i j k => s (.fld fc i j k)) (fun fc i j k => s (.fld fc i j k))
  have e2 := sumH_eq hc m hm hge g.mu (fun fc i j k => s (.fld fc i j k)) (fun fc i j k => s (.fld fc i j k))
  have f1 : mE B (fun fc i j k => s (.fld fc i j k)) = vE B s := rfl
  have f2 : mH B (fun fc i j k => s (.fld fc i j k)) = vH B s := rfl
  rw [f1] at e1
  rw [f2] at e2
  have hl : 2 * stored g B s = dotE X Y Z (wmul (mE B g.eps) (vE B s)) (vE B s) +
      dotH X Y Z (wmul (mH B g.mu) (vH B s)) (vH B s) := by
    rw [← e1, ← e2]; unfold stored; simp only [pow_two]; ring
  rw [hl]
  unfold F form
  rw [add_sub_cancel_left]
  refine coercive X Y Z g.dt cn e0 m0 hcn he0 hm0 hdt _ _ _ _ (fieldFree_walls hc h) ?_ ?_ ?_ ?_ ?_ ?_
  · intro a b c h1 h2 h3; exact heps .ex _ _ _ rfl (by refine ⟨?_, ?_, ?_⟩ <;> simp only [pos2] <;> omega)
  · intro a b c h1 h2 h3; exact heps .ey _ _ _ rfl (by refine ⟨?_, ?_, ?_⟩ <;> simp only [pos2] <;> omega)
  · intro a b c h1 h2 h3; exact heps .ez _ _ _ rfl (by refine ⟨?_, ?_, ?_⟩ <;> simp only [pos2] <;> omega)
  · intro a b c h1 h2 h3; exact hmu .hx _ _ _ rfl (by refine ⟨?_, ?_, ?_⟩ <;> simp only [pos2] <;> omega)
  · intro a b c h1 h2 h3; exact hmu .hy _ _ _ rfl (by refine ⟨?_, ?_, ?_⟩ <;> simp only [pos2] <;> omega)
  · intro a b c h1 h2 h3; exact hmu .hz _ _ _ rfl (by refine ⟨?_, ?_, ?_⟩ <;> simp only [pos2] <;> omega)

end

/-! ### Theorems -/

section
variable {S : Sim} {C : CRef → ℝ} {g : Filling}

local notation "B" => S.cfg.gibox

/-- A finite number of positive lengths has a positive lower bound. -/
theorem exists_min (hc : Closed S C g) : ∃ m : Axis → ℝ, (∀ a, 0 < m a) ∧
    ∀ a i, S.cfg.gibox a.lo ≤ i → i < S.cfg.gibox a.hi → m a ≤ g.de a i := by
  have key : ∀ a : Axis, ∃ m : ℝ, 0 < m ∧ ∀ i, S.cfg.gibox a.lo ≤ i → i < S.cfg.gibox a.hi → m ≤ g.de a i := by
    intro a
    have hh := hi_eq hc a
    obtain ⟨i, hi, hmin⟩ := Finset.exists_min_image (Finset.Ico (S.cfg.gibox a.lo) (S.cfg.gibox a.hi)) (g.de a)
      ⟨S.cfg.gibox a.lo, by simp; omega⟩
    simp only [Finset.mem_Ico] at hi hmin
    exact ⟨g.de a i, hc.de_pos a i hi.1 hi.2, fun j h1 h2 => hmin j ⟨h1, h2⟩⟩
  choose m hm using key
  exact ⟨m, fun a => (hm a).1, fun a => (hm a).2⟩

theorem fieldFree_state (u : ℕ → Loc → ℝ) (s0 : Loc → ℝ) (hc : Closed S C g) (h0 : FieldFree C B s0) (n : ℕ) :
    FieldFree C B (S.state C u s0 n) := by
  induction n with
  | zero => exact h0
  | succ n ih => exact fieldFree_step hc (s := setInputs (u n) (S.state C u s0 n)) ih

/-- **C17**, balance: the energy lost in a step is the ohmic heat of that step, whatever the fields,
the mesh and the (possibly conducting) media. -/
theorem energy_balance (hc : Closed S C g) (u : ℕ → Loc → ℝ) (s0 : Loc → ℝ) (h0 : FieldFree C B s0) (n : ℕ) :
    leapEnergy g B (S.state C u s0 (n+1)) (S.state C u s0 (n+2)) =
      leapEnergy g B (S.state C u s0 n) (S.state C u s0 (n+1)) -
        heat g B (S.state C u s0 (n+1)) (S.state C u s0 (n+2)) := by
  obtain ⟨m, hm, hge⟩ := exists_min hc
  have hf := fieldFree_state u s0 hc h0 (n+1)
  have e1 : F hc m hm hge (S.state C u s0 (n+1)) =
      2 * leapEnergy g B (S.state C u s0 n) (S.state C u s0 (n+1)) :=
    form_eq_leap hc m hm hge (setInputs (u n) (S.state C u s0 n))
  have e2 : F hc m hm hge (S.state C u s0 (n+2)) =
      2 * leapEnergy g B (S.state C u s0 (n+1)) (S.state C u s0 (n+2)) :=
    form_eq_leap hc m hm hge (setInputs (u (n+1)) (S.state C u s0 (n+1)))
  have e3 : F hc m hm hge (S.state C u s0 (n+2)) = F hc m hm hge (S.state C u s0 (n+1)) -
      2 * heat g B (S.state C u s0 (n+1)) (S.state C u s0 (n+2)) :=
    form_step hc m hm hge (s := setInputs (u (n+1)) (S.state C u s0 (n+1))) hf
  linarith

/-- **C17**, conservation: without conductivity the energy is the same at every time of the run. -/
theorem energy_conserved (hc : Closed S C g) (u : ℕ → Loc → ℝ) (s0 : Loc → ℝ) (h0 : FieldFree C B s0)
    (hs : ∀ fc i j k, fc.isE = true → g.sigma fc i j k = 0) (n : ℕ) :
    leapEnergy g B (S.state C u s0 n) (S.state C u s0 (n+1)) =
      leapEnergy g B (S.state C u s0 0) (S.state C u s0 1) := by
  induction n with
  | zero => rfl
  | succ n ih =>
    rw [energy_balance hc u s0 h0 n, ih]
    have : heat g B (S.state C u s0 (n+1)) (S.state C u s0 (n+2)) = 0 := by
      unfold heat sumE boxSum
      simp [hs .ex _ _ _ rfl, hs .ey _ _ _ rfl, hs .ez _ _ _ rfl]
    rw [this, sub_zero]

theorem boxSum_nonneg (b : BBox) (fc : Fc) (f : Int → Int → Int → ℝ)
    (h : ∀ i j k, SampleIn b fc i j k → 0 ≤ f i j k) : 0 ≤ boxSum b fc f := by
  unfold boxSum
  refine Finset.sum_nonneg fun i hi => Finset.sum_nonneg fun j hj => Finset.sum_nonneg fun k hk => h i j k ?_
  simp only [Finset.mem_Icc] at hi hj hk
  cases fc <;> simp only [pos2] at hi hj hk <;> refine ⟨?_, ?_, ?_⟩ <;> simp only [pos2] <;> omega

theorem boxSum_ge (b : BBox) (fc : Fc) (f : Int → Int → Int → ℝ)
    (h : ∀ i j k, SampleIn b fc i j k → 0 ≤ f i j k) {i j k : Int} (hi : SampleIn b fc i j k) :
    f i j k ≤ boxSum b fc f := by
  have mem : ∀ {i j k}, SampleIn b fc i j k → i ∈ Finset.Icc (b .xlo) (b .xhi - pos2 fc .x 0) ∧
      j ∈ Finset.Icc (b .ylo) (b .yhi - pos2 fc .y 0) ∧ k ∈ Finset.Icc (b .zlo) (b .zhi - pos2 fc .z 0) := by
    rintro i j k ⟨h1, h2, h3⟩
    simp only [Finset.mem_Icc]
    cases fc <;> simp only [pos2] at h1 h2 h3 ⊢ <;> omega
  have mem' : ∀ {i j k}, i ∈ Finset.Icc (b .xlo) (b .xhi - pos2 fc .x 0) →
      j ∈ Finset.Icc (b .ylo) (b .yhi - pos2 fc .y 0) → k ∈ Finset.Icc (b .zlo) (b .zhi - pos2 fc .z 0) →
      SampleIn b fc i j k := by
    intro i j k hi hj hk
    simp only [Finset.mem_Icc] at hi hj hk
    cases fc <;> simp only [pos2] at hi hj hk <;> refine ⟨?_, ?_, ?_⟩ <;> simp only [pos2] <;> omega
  obtain ⟨mi, mj, mk⟩ := mem hi
  unfold boxSum
  calc f i j k ≤ ∑ k ∈ Finset.Icc (b .zlo) (b .zhi - pos2 fc .z 0), f i j k :=
        Finset.single_le_sum (f := fun k => f i j k) (fun k hk => h i j k (mem' mi mj hk)) mk
    _ ≤ ∑ j ∈ Finset.Icc (b .ylo) (b .yhi - pos2 fc .y 0), ∑ k ∈ Finset.Icc (b .zlo) (b .zhi - pos2 fc .z 0), f i j k :=
        Finset.single_le_sum (f := fun j => ∑ k ∈ Finset.Icc (b .zlo) (b .zhi - pos2 fc .z 0), f i j k)
          (fun j hj => Finset.sum_nonneg fun k hk => h i j k (mem' mi hj hk)) mj
    _ ≤ _ := Finset.single_le_sum (f := fun i => ∑ j ∈ Finset.Icc (b .ylo) (b .yhi - pos2 fc .y 0),
          ∑ k ∈ Finset.Icc (b .zlo) (b .zhi - pos2 fc .z 0), f i j k)
          (fun i hi => Finset.sum_nonneg fun j hj => Finset.sum_nonneg fun k hk => h i j k (mem' hi hj hk)) mi

theorem vol_pos (hc : Closed S C g) {fc : Fc} {i j k : Int} (hi : SampleIn B fc i j k) : 0 < g.vol fc i j k := by
  obtain ⟨h1, h2, h3⟩ := hi
  have px := hc.de_pos .x i; have py := hc.de_pos .y j; have pz := hc.de_pos .z k
  have qx := hc.dh_pos .x i; have qy := hc.dh_pos .y j; have qz := hc.dh_pos .z k
  simp only [Axis.lo, Axis.hi] at px py pz qx qy qz
  cases fc <;> simp only [pos2] at h1 h2 h3 <;> simp [Filling.vol, Filling.len, pos2] <;>
    exact mul_pos (mul_pos (by first | exact px (by omega) (by omega) | exact qx (by omega) (by omega))
      (by first | exact py (by omega) (by omega) | exact qy (by omega) (by omega)))
      (by first | exact pz (by omega) (by omega) | exact qz (by omega) (by omega))

theorem heat_nonneg (hc : Closed S C g) (hdt : 0 ≤ g.dt)
    (hs : ∀ fc i j k, fc.isE = true → SampleIn B fc i j k → 0 ≤ g.sigma fc i j k) (s s' : Loc → ℝ) :
    0 ≤ heat g B s s' := by
  unfold heat sumE
  refine mul_nonneg hdt (add_nonneg (add_nonneg ?_ ?_) ?_)
  · exact boxSum_nonneg _ _ _ fun i j k h => mul_nonneg (mul_nonneg (hs .ex _ _ _ rfl h) (vol_pos hc h).le) (sq_nonneg _)
  · exact boxSum_nonneg _ _ _ fun i j k h => mul_nonneg (mul_nonneg (hs .ey _ _ _ rfl h) (vol_pos hc h).le) (sq_nonneg _)
  · exact boxSum_nonneg _ _ _ fun i j k h => mul_nonneg (mul_nonneg (hs .ez _ _ _ rfl h) (vol_pos hc h).le) (sq_nonneg _)

/-- **C17**: with conducting media the energy never grows. -/
theorem energy_nonincreasing (hc : Closed S C g) (u : ℕ → Loc → ℝ) (s0 : Loc → ℝ) (h0 : FieldFree C B s0) (hdt : 0 ≤ g.dt)
    (hs : ∀ fc i j k, fc.isE = true → SampleIn B fc i j k → 0 ≤ g.sigma fc i j k) (n : ℕ) :
    leapEnergy g B (S.state C u s0 (n+1)) (S.state C u s0 (n+2)) ≤
      leapEnergy g B (S.state C u s0 n) (S.state C u s0 (n+1)) := by
  rw [energy_balance hc u s0 h0 n]
  linarith [heat_nonneg hc hdt hs (S.state C u s0 (n+1)) (S.state C u s0 (n+2))]

/-- Media and time step below the Courant limit: `cn` is the Courant number with respect to the fastest
medium (`1/(e0 m0)`) and the smallest cell edges `m`. -/
structure Courant (S : Sim) (g : Filling) (cn : ℝ) : Prop where
  dt : 0 ≤ g.dt
  pos : 0 < cn
  sigma : ∀ fc i j k, fc.isE = true → SampleIn S.cfg.gibox fc i j k → 0 ≤ g.sigma fc i j k
  limit : ∃ (e0 m0 : ℝ) (m : Axis → ℝ), 0 < e0 ∧ 0 < m0 ∧ (∀ a, 0 < m a) ∧
    (∀ a i, S.cfg.gibox a.lo ≤ i → i < S.cfg.gibox a.hi → m a ≤ g.de a i) ∧
    (∀ fc i j k, fc.isE = true → SampleIn S.cfg.gibox fc i j k → e0 ≤ g.eps fc i j k) ∧
    (∀ fc i j k, fc.isE = false → SampleIn S.cfg.gibox fc i j k → m0 ≤ g.mu fc i j k) ∧
    g.dt ^ 2 * (1 / m .x ^ 2 + 1 / m .y ^ 2 + 1 / m .z ^ 2) ≤ cn ^ 2 * (e0 * m0)

/-- **C17**, positivity: below the limit the conserved energy is a positive multiple of the stored
energy, between `1 - cn` and `1 + cn`. -/
theorem energy_positive {cn : ℝ} (hc : Closed S C g) (u : ℕ → Loc → ℝ) (s0 : Loc → ℝ) (h0 : FieldFree C B s0) (hC : Courant S g cn) (n : ℕ) :
    (1 - cn) * stored g B (S.state C u s0 (n+1)) ≤ leapEnergy g B (S.state C u s0 n) (S.state C u s0 (n+1)) ∧
    leapEnergy g B (S.state C u s0 n) (S.state C u s0 (n+1)) ≤ (1 + cn) * stored g B (S.state C u s0 (n+1)) := by
  obtain ⟨e0, m0, m, he, hm0, hm, hge, heps, hmu, hdt⟩ := hC.limit
  have h1 := form_near hc m hm hge cn e0 m0 hC.pos he hm0 hdt heps hmu (fieldFree_state u s0 hc h0 (n+1))
  have e1 : F hc m hm hge (S.state C u s0 (n+1)) =
      2 * leapEnergy g B (S.state C u s0 n) (S.state C u s0 (n+1)) :=
    form_eq_leap hc m hm hge (setInputs (u n) (S.state C u s0 n))
  rw [e1, abs_le] at h1
  constructor <;> linarith [h1.1, h1.2]

/-- **C17**, stability: for a Courant number below one the stored energy never exceeds a fixed multiple
of its initial value, however long the run. -/
theorem stored_bounded {cn : ℝ} (hc : Closed S C g) (u : ℕ → Loc → ℝ) (s0 : Loc → ℝ) (h0 : FieldFree C B s0) (hC : Courant S g cn) (n : ℕ) :
    (1 - cn) * stored g B (S.state C u s0 n) ≤ (1 + cn) * stored g B s0 := by
  obtain ⟨e0, m0, m, he, hm0, hm, hge, heps, hmu, hdt⟩ := hC.limit
  have near := fun {s : Loc → ℝ} (h : FieldFree C B s) =>
    abs_le.1 (form_near hc m hm hge cn e0 m0 hC.pos he hm0 hdt heps hmu h)
  have mono : F hc m hm hge (S.state C u s0 n) ≤ F hc m hm hge s0 := by
    induction n with
    | zero => exact le_refl _
    | succ n ih =>
      have e3 : F hc m hm hge (S.state C u s0 (n+1)) = F hc m hm hge (S.state C u s0 n) -
          2 * heat g B (S.state C u s0 n) (S.state C u s0 (n+1)) :=
        form_step hc m hm hge (s := setInputs (u n) (S.state C u s0 n)) (fieldFree_state u s0 hc h0 n)
      linarith [heat_nonneg hc hC.dt hC.sigma (S.state C u s0 n) (S.state C u s0 (n+1))]
  have a1 := (near (fieldFree_state u s0 hc h0 n)).1
  have a2 := (near h0).2
  linarith

/-- **C17**: every single field value stays below a bound fixed by the initial energy. -/
theorem samples_bounded {cn : ℝ} (hc : Closed S C g) (u : ℕ → Loc → ℝ) (s0 : Loc → ℝ) (h0 : FieldFree C B s0) (hC : Courant S g cn) (hlt : cn < 1) (n : ℕ)
    (fc : Fc) (i j k : Int) (hi : SampleIn B fc i j k) :
    (if fc.isE then g.eps fc i j k else g.mu fc i j k) * g.vol fc i j k * S.state C u s0 n (.fld fc i j k) ^ 2 ≤
      2 * ((1 + cn) / (1 - cn)) * stored g B s0 := by
  have hb := stored_bounded hc u s0 h0 hC n
  obtain ⟨e0, m0, m, he, hm0, hm, hge, heps, hmu, hdt⟩ := hC.limit
  have nnE : ∀ fc i j k, fc.isE = true → SampleIn B fc i j k →
      0 ≤ g.eps fc i j k * g.vol fc i j k * S.state C u s0 n (.fld fc i j k) ^ 2 :=
    fun fc i j k hf h => mul_nonneg (mul_nonneg (he.le.trans (heps fc i j k hf h)) (vol_pos hc h).le) (sq_nonneg _)
  have nnH : ∀ fc i j k, fc.isE = false → SampleIn B fc i j k →
      0 ≤ g.mu fc i j k * g.vol fc i j k * S.state C u s0 n (.fld fc i j k) ^ 2 :=
    fun fc i j k hf h => mul_nonneg (mul_nonneg (hm0.le.trans (hmu fc i j k hf h)) (vol_pos hc h).le) (sq_nonneg _)
  have p1 := boxSum_nonneg B .ex _ fun i j k h => nnE .ex i j k rfl h
  have p2 := boxSum_nonneg B .ey _ fun i j k h => nnE .ey i j k rfl h
  have p3 := boxSum_nonneg B .ez _ fun i j k h => nnE .ez i j k rfl h
  have p4 := boxSum_nonneg B .hx _ fun i j k h => nnH .hx i j k rfl h
  have p5 := boxSum_nonneg B .hy _ fun i j k h => nnH .hy i j k rfl h
  have p6 := boxSum_nonneg B .hz _ fun i j k h => nnH .hz i j k rfl h
  have key : (if fc.isE then g.eps fc i j k else g.mu fc i j k) * g.vol fc i j k *
      S.state C u s0 n (.fld fc i j k) ^ 2 ≤ 2 * stored g B (S.state C u s0 n) := by
    unfold stored sumE sumH
    cases fc
    · have := boxSum_ge B .ex _ (fun i j k h => nnE .ex i j k rfl h) hi
      simp only [Fc.isE, if_true]; linarith
    · have := boxSum_ge B .ey _ (fun i j k h => nnE .ey i j k rfl h) hi
      simp only [Fc.isE, if_true]; linarith
    · have := boxSum_ge B .ez _ (fun i j k h => nnE .ez i j k rfl h) hi
      simp only [Fc.isE, if_true]; linarith
    · have := boxSum_ge B .hx _ (fun i j k h => nnH .hx i j k rfl h) hi
      simp only [Fc.isE, Bool.false_eq_true, if_false]; linarith
    · have := boxSum_ge B .hy _ (fun i j k h => nnH .hy i j k rfl h) hi
      simp only [Fc.isE, Bool.false_eq_true, if_false]; linarith
    · have := boxSum_ge B .hz _ (fun i j k h => nnH .hz i j k rfl h) hi
      simp only [Fc.isE, Bool.false_eq_true, if_false]; linarith
  refine key.trans ?_
  have : 0 < 1 - cn := by linarith
  rw [mul_assoc, div_mul_eq_mul_div]
  refine mul_le_mul_of_nonneg_left ?_ (by norm_num)
  rw [le_div_iff₀ this]; linarith

end
end Vulture.C17
