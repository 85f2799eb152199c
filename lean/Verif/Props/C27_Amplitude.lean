import Verif.Props.C27_Tags
import Verif.Props.C27_Step
import Mathlib.Algebra.BigOperators.Ring.Finset
import Mathlib.Algebra.BigOperators.Group.Finset.Sigma
/- C27, third part: totals. -/
set_option linter.unusedSimpArgs false
namespace Vulture.C27
open Vulture Spec Source Finset

/-- Samples a source drives are exactly the samples in its closed box. -/
theorem driven_iff (x : Src) (fc : Fc) (q : Axis → Int) :
    InLim (x.flim fc) (q .x) (q .y) (q .z) ↔ InSource x.gbbox fc q := by
  unfold InSource SampleIn InLim Src.flim
  cases fc <;> simp [setFieldLimits, pos2, fieldIsInBoundary, Face.isLo] <;> omega

/-- Range of one coordinate. -/
noncomputable def range (b : BBox) (fc : Fc) (c : Axis) : Finset Int := Icc (b c.lo) (b c.hi - pos2 fc c 0)

theorem inSource_iff (b : BBox) (fc : Fc) (q : Axis → Int) : InSource b fc q ↔ ∀ c : Axis, q c ∈ range b fc c := by
  have : (∀ c : Axis, q c ∈ range b fc c) ↔ q .x ∈ range b fc .x ∧ q .y ∈ range b fc .y ∧ q .z ∈ range b fc .z :=
    ⟨fun h => ⟨h _, h _, h _⟩, fun h c => by cases c; exacts [h.1, h.2.1, h.2.2]⟩
  rw [this]
  unfold InSource SampleIn range
  cases fc <;> simp [pos2, Axis.lo, Axis.hi] <;> omega

/-- Sum of the lengths belonging to the samples along one axis. -/
noncomputable def total (de dh : Axis → Int → ℝ) (b : BBox) (fc : Fc) (c : Axis) : ℝ :=
  ∑ i ∈ range b fc c, extent de dh fc c i

variable {de dh : Axis → Int → ℝ} {b : BBox}

theorem electricSize_eq (d : Axis) : electricSize de dh b d = ⟨total de dh b d.e d,
    total de dh b d.e d.next * total de dh b d.e d.next.next, fun c => if c = d then 0 else total de dh b d.e c⟩ := by
  unfold electricSize total range extent
  cases d <;> simp [Axis.e, Axis.next, pos2] <;> funext c <;> cases c <;> simp

theorem magneticSize_eq (d : Axis) : magneticSize de dh b d = ⟨total de dh b d.h d,
    total de dh b d.h d.next * total de dh b d.h d.next.next, fun c => if c = d then 0 else total de dh b d.h c⟩ := by
  unfold magneticSize total range extent
  cases d <;> simp [Axis.h, Axis.next, pos2] <;> funext c <;> cases c <;> simp

theorem setc_self (q : Axis → Int) (c : Axis) : setc q c (q c) = q := by
  funext d; unfold setc; split
  · rename_i h; rw [h]
  · rfl

theorem line_of {fc : Fc} {c : Axis} {q : Axis → Int} (hq : InSource b fc q) {T : Finset Int} (h : LineOf b fc c q T) :
    T = range b fc c := by
  ext i
  rw [h i, inSource_iff]
  rw [inSource_iff] at hq
  constructor
  · intro h'; have := h' c; simpa [setc] using this
  · intro h' d
    unfold setc
    split
    · rename_i e; rw [e]; exact h'
    · exact hq d

theorem plane_of {fc : Fc} {a : Axis} {q : Axis → Int} (hq : InSource b fc q) {T : Finset (Int × Int)}
    (h : PlaneOf b fc a q T) : T = range b fc a.next ×ˢ range b fc a.next.next := by
  ext ⟨j, k⟩
  rw [h j k, inSource_iff, Finset.mem_product]
  rw [inSource_iff] at hq
  constructor
  · intro h'
    have h1 := h' a.next
    have h2 := h' a.next.next
    constructor
    · cases a <;> simpa [setc, Axis.next] using h1
    · cases a <;> simpa [setc, Axis.next] using h2
  · rintro ⟨h1, h2⟩ d
    dsimp only at h1 h2
    unfold setc
    split
    · rename_i e; rw [e]; exact h2
    · split
      · rename_i e; rw [e]; exact h1
      · exact hq d

/-- A density that is constant on the source. -/
theorem flux_const {fc : Fc} {a : Axis} {q : Axis → Int} (hq : InSource b fc q) {T : Finset (Int × Int)}
    (h : PlaneOf b fc a q T) {J : (Axis → Int) → ℝ} {v : ℝ} (hJ : ∀ r, InSource b fc r → J r = v) :
    fluxThrough de dh fc a q T J = v * (total de dh b fc a.next * total de dh b fc a.next.next) := by
  unfold fluxThrough
  rw [Finset.sum_congr rfl (g := fun t => v * (extent de dh fc a.next t.1 * extent de dh fc a.next.next t.2))
    (fun t ht => by rw [hJ _ ((h t.1 t.2).1 ht)]), plane_of hq h, Finset.sum_product]
  unfold total
  rw [Finset.sum_mul_sum, Finset.mul_sum]
  exact Finset.sum_congr rfl fun j _ => by rw [Finset.mul_sum]

theorem line_const {fc : Fc} {c : Axis} {q : Axis → Int} (hq : InSource b fc q) {T : Finset Int}
    (h : LineOf b fc c q T) {J : (Axis → Int) → ℝ} {v : ℝ} (hJ : ∀ r, InSource b fc r → J r = v) :
    lineSum de dh fc c q T J = v * total de dh b fc c := by
  unfold lineSum total
  rw [Finset.sum_congr rfl (g := fun i => v * extent de dh fc c i)
    (fun i hi => by rw [hJ _ ((h i).1 hi)]), line_of hq h, Finset.mul_sum]

/-! ### Amplitudes

`J r` is the value the source contributes at driven sample `r`: the size `initSources` computed times the waveform
value `w`; `hJ` says this of the samples of the source. -/

section amplitude
variable {pol norm : Axis} {size R w : ℝ} {q : Axis → Int} {J : (Axis → Int) → ℝ}

/-- **C27** `I`: the total current through every cross-section is the size times the waveform. -/
theorem total_current (hq : InSource b pol.e q) {T : Finset (Int × Int)} (hT : PlaneOf b pol.e pol q T)
    (hA : (electricSize de dh b pol).area ≠ 0)
    (hJ : ∀ r, InSource b pol.e r → J r = (initSource de dh b .ecurrent pol norm size R).size * w) :
    fluxThrough de dh pol.e pol q T J = size * w := by
  rw [flux_const hq hT hJ]
  rw [electricSize_eq] at hA
  simp only [initSource, electricSize_eq] at *
  generalize total de dh b pol.e pol.next * total de dh b pol.e pol.next.next = A at *
  field_simp

/-- **C27** `IM`: the same for magnetic currents. -/
theorem total_magnetic_current (hq : InSource b pol.h q) {T : Finset (Int × Int)} (hT : PlaneOf b pol.h pol q T)
    (hA : (magneticSize de dh b pol).area ≠ 0)
    (hJ : ∀ r, InSource b pol.h r → J r = (initSource de dh b .mcurrent pol norm size R).size * w) :
    fluxThrough de dh pol.h pol q T J = size * w := by
  rw [flux_const hq hT hJ]
  rw [magneticSize_eq] at hA
  simp only [initSource, magneticSize_eq] at *
  generalize total de dh b pol.h pol.next * total de dh b pol.h pol.next.next = A at *
  field_simp

/-- **C27** `ID`: current through each cross-section times its length, summed along the source: the moment. -/
theorem total_moment (hq : InSource b pol.e q) {T : Finset (Int × Int)} (hT : PlaneOf b pol.e pol q T)
    {L : Finset Int} (hL : LineOf b pol.e pol q L)
    (hA : (electricSize de dh b pol).area ≠ 0) (hl : (electricSize de dh b pol).length ≠ 0)
    (hJ : ∀ r, InSource b pol.e r → J r = (initSource de dh b .emoment pol norm size R).size * w) :
    lineSum de dh pol.e pol q L (fun r => fluxThrough de dh pol.e pol r T J) = size * w := by
  have key : ∀ i ∈ L, fluxThrough de dh pol.e pol (setc q pol i) T J * extent de dh pol.e pol i =
      (initSource de dh b .emoment pol norm size R).size * w *
      (total de dh b pol.e pol.next * total de dh b pol.e pol.next.next) * extent de dh pol.e pol i := by
    intro i hi
    congr 1
    have hi' := (hL i).1 hi
    refine flux_const hi' ?_ hJ
    intro j k
    rw [plane_of hq hT, Finset.mem_product, inSource_iff]
    rw [inSource_iff] at hi'
    constructor
    · rintro ⟨h1, h2⟩ d
      dsimp only at h1 h2
      unfold setc
      split
      · rename_i e; rw [e]; exact h2
      · split
        · rename_i e; rw [e]; exact h1
        · exact hi' d
    · intro h'
      have h1 := h' pol.next
      have h2 := h' pol.next.next
      constructor
      · cases pol <;> simpa [setc, Axis.next] using h1
      · cases pol <;> simpa [setc, Axis.next] using h2
  unfold lineSum
  rw [Finset.sum_congr rfl key, ← Finset.mul_sum, line_of hq hL]
  rw [electricSize_eq] at hA hl
  simp only [initSource, electricSize_eq] at *
  change _ * total de dh b pol.e pol = _
  generalize total de dh b pol.e pol.next * total de dh b pol.e pol.next.next = A at *
  field_simp

/-- **C27** `JS`: the density integrated through the surface along its normal is the surface current density. -/
theorem surface_density (hn : norm ≠ pol) (hq : InSource b pol.e q) {L : Finset Int} (hL : LineOf b pol.e norm q L)
    (hs : (electricSize de dh b pol).side norm ≠ 0)
    (hJ : ∀ r, InSource b pol.e r → J r = (initSource de dh b .esurfDens pol norm size R).size * w) :
    lineSum de dh pol.e norm q L J = size * w := by
  rw [line_const hq hL hJ]
  rw [electricSize_eq] at hs
  simp only [initSource, electricSize_eq, if_neg hn] at *
  field_simp

/-- **C27** `JMS`. -/
theorem magnetic_surface_density (hn : norm ≠ pol) (hq : InSource b pol.h q) {L : Finset Int}
    (hL : LineOf b pol.h norm q L) (hs : (magneticSize de dh b pol).side norm ≠ 0)
    (hJ : ∀ r, InSource b pol.h r → J r = (initSource de dh b .msurfDens pol norm size R).size * w) :
    lineSum de dh pol.h norm q L J = size * w := by
  rw [line_const hq hL hJ]
  rw [magneticSize_eq] at hs
  simp only [initSource, magneticSize_eq, if_neg hn] at *
  field_simp

/-- **C27** `V`: minus the line integral of the field the source contributes is the voltage. -/
theorem voltage (hq : InSource b pol.e q) {L : Finset Int} (hL : LineOf b pol.e pol q L)
    (hl : (electricSize de dh b pol).length ≠ 0)
    (hJ : ∀ r, InSource b pol.e r → J r = (initSource de dh b .voltage pol norm size R).size * w) :
    -lineSum de dh pol.e pol q L J = size * w := by
  rw [line_const hq hL hJ]
  rw [electricSize_eq] at hl
  simp only [initSource, electricSize_eq] at *
  field_simp

/-- **C27** densities and fields are used as given. -/
theorem as_given : (initSource de dh b .efield pol norm size R).size = size ∧
    (initSource de dh b .hfield pol norm size R).size = size ∧
    (initSource de dh b .ecurrDens pol norm size R).size = size ∧
    (initSource de dh b .mcurrDens pol norm size R).size = size := ⟨rfl, rfl, rfl, rfl⟩

/-- **C27** lumped sources: with resistance above the threshold the source's cells get a conductivity for which, by
Ampere's law, the current through every cross-section is `(V + U)/R`: `U` is `L` times the mean of the electric field over
the cross-section and over the step, so that the source presents the resistance `R` in series with the voltage. -/
theorem resistive_source_partial (hR : R > 1 / 100) (hq : InSource b pol.e q) {T : Finset (Int × Int)}
    (hT : PlaneOf b pol.e pol q T) (hA : (electricSize de dh b pol).area ≠ 0)
    {Ebar : (Axis → Int) → ℝ} (hJ : ∀ r, InSource b pol.e r → J r = (initSource de dh b .thevenin pol norm size R).size * w) :
    ∃ sigma, (initSource de dh b .thevenin pol norm size R).med = .resistor sigma ∧
      (initSource de dh b .thevenin pol norm size R).kind = .ecurr ∧
      fluxThrough de dh pol.e pol q T (fun r => sigma * Ebar r + J r) =
        (size * w + (electricSize de dh b pol).length *
          (fluxThrough de dh pol.e pol q T Ebar / (electricSize de dh b pol).area)) / R := by
  have hR0 : R ≠ 0 := by linarith
  have e : initSource de dh b .thevenin pol norm size R = ⟨.ecurr, size / (electricSize de dh b pol).area / R,
      .resistor ((electricSize de dh b pol).length / ((electricSize de dh b pol).area * R))⟩ := by
    simp only [initSource, initThevenin]
    rw [if_pos (show R > minResistance from hR)]
  refine ⟨_, by rw [e], by rw [e], ?_⟩
  have h1 : fluxThrough de dh pol.e pol q T (fun r => (electricSize de dh b pol).length /
      ((electricSize de dh b pol).area * R) * Ebar r + J r) = (electricSize de dh b pol).length /
      ((electricSize de dh b pol).area * R) * fluxThrough de dh pol.e pol q T Ebar + fluxThrough de dh pol.e pol q T J := by
    unfold fluxThrough
    rw [Finset.mul_sum, ← Finset.sum_add_distrib]
    exact Finset.sum_congr rfl fun t _ => by ring
  rw [h1, flux_const hq hT hJ, e]
  simp only [electricSize_eq] at *
  generalize total de dh b pol.e pol.next * total de dh b pol.e pol.next.next = A at *
  field_simp
  ring

/-- **C27** a Norton source is the Thevenin source with voltage `R I`. -/
theorem norton_eq_thevenin : initSource de dh b .norton pol norm size R = initSource de dh b .thevenin pol norm (R * size) R :=
  rfl

/-- **C27** magnetic moment. -/
theorem total_magnetic_moment (hq : InSource b pol.h q) {T : Finset (Int × Int)} {L : Finset Int}
    (hL : LineOf b pol.h pol q L) (hT : ∀ i ∈ L, PlaneOf b pol.h pol (setc q pol i) T)
    (hA : (magneticSize de dh b pol).area ≠ 0) (hl : (magneticSize de dh b pol).length ≠ 0)
    (hJ : ∀ r, InSource b pol.h r → J r = (initSource de dh b .mmoment pol norm size R).size * w) :
    lineSum de dh pol.h pol q L (fun r => fluxThrough de dh pol.h pol r T J) = size * w := by
  have key : ∀ i ∈ L, fluxThrough de dh pol.h pol (setc q pol i) T J * extent de dh pol.h pol i =
      (initSource de dh b .mmoment pol norm size R).size * w *
      (total de dh b pol.h pol.next * total de dh b pol.h pol.next.next) * extent de dh pol.h pol i := by
    intro i hi
    rw [flux_const ((hL i).1 hi) (hT i hi) hJ]
  unfold lineSum
  rw [Finset.sum_congr rfl key, ← Finset.mul_sum, line_of hq hL]
  rw [magneticSize_eq] at hA hl
  simp only [initSource, magneticSize_eq] at *
  change _ * total de dh b pol.h pol = _
  generalize total de dh b pol.h pol.next * total de dh b pol.h pol.next.next = A at *
  field_simp

end amplitude

/-! ### Whole steps -/

/-- **C27** end to end for a soft current source: over one time step, the magnetic circulation around a cross-section of
the source, less displacement and conduction current, is the requested current. -/
theorem driven_total_current {S : Sim} {n : Nat} {x : Src} {pol norm : Axis} {q : Axis → Int} {C : CRef → ℝ}
    {dt eps0 mu0 size R w : ℝ} {m : (Axis → Int) → Medium ℝ} {T : Finset (Int × Int)}
    (hd : ∀ r, InSource x.gbbox pol.e r → DrivenE S n x pol r) (hk : x.kind = .ecurr) (soft : C (.soft n) = 1)
    (alpha : ∀ r, InSource x.gbbox pol.e r → C (.alpha pol.e (r .x) (r .y) (r .z)) = (calcCoeff dt eps0 mu0 (m r)).alpha)
    (beta : ∀ r, InSource x.gbbox pol.e r → C (.beta pol.e (r .x) (r .y) (r .z)) = (calcCoeff dt eps0 mu0 (m r)).beta)
    (hs : ∀ r, InSource x.gbbox pol.e r → (m r).sum = 0 ∧ 2 * (m r).eps_r * eps0 + dt * (m r).sigma ≠ 0)
    (edges : ∀ (c : Axis) (n : Int), C (.idh c n) = 1 / dh c n) (hdt : dt ≠ 0)
    (hq : InSource x.gbbox pol.e q) (hT : PlaneOf x.gbbox pol.e pol q T)
    (hA : (electricSize de dh x.gbbox pol).area ≠ 0) (s : Loc → ℝ)
    (hw : s (.src false n) = (initSource de dh x.gbbox .ecurrent pol norm size R).size * w) :
    fluxThrough de dh pol.e pol q T (fun r => curlOfH dh s pol r -
      (m r).eps_r * eps0 * ((at3 (S.step.run C s) pol.e r - at3 s pol.e r) / dt) -
      (m r).sigma * ((at3 (S.step.run C s) pol.e r + at3 s pol.e r) / 2)) = size * w := by
  refine total_current (norm := norm) (R := R) hq hT hA fun r hr => ?_
  have := driven_ampere (hd r hr) C hk soft (alpha r hr) (beta r hr) (hs r hr).1 edges hdt (hs r hr).2 s
  unfold AmpereWithCurrent at this
  rw [← hw]
  linear_combination -this

/-! ### Findings -/

/-- Finding: the "ideal" voltage source (resistance up to 0.01) makes its cells perfectly conducting and then adds its
field to the conductor's; the mean field over a step is a quarter of the requested one. -/
theorem ideal_source_quarter {S : Sim} {n : Nat} {x : Src} {pol norm : Axis} {q : Axis → Int} {C : CRef → ℝ}
    {size R w : ℝ} (hd : DrivenE S n x pol q) (hR : R ≤ 1 / 100)
    (hk : x.kind = (initSource de dh x.gbbox .thevenin pol norm size R).kind) (soft : C (.soft n) = 1)
    (alpha : C (.alpha pol.e (q .x) (q .y) (q .z)) = -1) (beta : C (.beta pol.e (q .x) (q .y) (q .z)) = 0)
    (hl : (electricSize de dh x.gbbox pol).length ≠ 0) (s : Loc → ℝ)
    (hw : s (.src false n) = (initSource de dh x.gbbox .thevenin pol norm size R).size * w) :
    -((at3 (S.step.run C s) pol.e q + at3 s pol.e q) / 2) * (electricSize de dh x.gbbox pol).length =
      size * w / 4 := by
  have e : initSource de dh x.gbbox .thevenin pol norm size R =
      ⟨.efield, -(1 / 2) * size / (electricSize de dh x.gbbox pol).length, .pec⟩ := by
    simp only [initSource, initThevenin]
    rw [if_neg (show ¬ R > minResistance from not_lt.2 hR)]
  rw [e] at hk hw
  rw [soft_field hd C hk soft s, alpha, beta, hw]
  field_simp
  ring

/-- Finding: the direction of the tag is not compared with the orientation of the lines: if the box has no extent along
the tag's direction, no sample is driven at all. -/
theorem misoriented_drives_nothing {b : BBox} {pol : Axis} (h : b pol.lo = b pol.hi) (q : Axis → Int) :
    ¬ InSource b pol.e q := by
  rw [inSource_iff]
  intro hq
  have := hq pol
  cases pol <;> simp [range, pos2, Axis.e, Axis.lo, Axis.hi] at this h <;> omega

/-! ### A concrete case: a two-cell line current along z in a mesh of 4 x 4 x 4 cells. -/

def exCfg : Cfg := ⟨fun _ => 4, fun _ => .pec, fun _ => 0⟩
def exBox : BBox := fun f => match f with
  | .zlo => exCfg.gibox .zlo + 1 | .zhi => exCfg.gibox .zlo + 3 | f => exCfg.gibox f.axis.lo + 2
def exSrc : Src := ⟨.ecurr, .ez, exBox⟩
def exSim : Sim := ⟨exCfg, [], [], [exSrc], []⟩

theorem ex_driven (r : Axis → Int) (hr : InSource exBox Axis.z.e r) : DrivenE exSim 0 exSrc .z r where
  cfg := by constructor <;> simp [exSim, exCfg]
  src := rfl
  field := rfl
  kind := Or.inr rfl
  inSrc := (driven_iff exSrc _ r).2 hr
  inGrid := by
    replace hr := (driven_iff exSrc _ r).2 hr
    unfold InLim at *
    have e : ∀ f, exSrc.flim Axis.z.e f = (match f with | .zlo => 1 | .zhi => 2 | _ => 2 : Int) + exCfg.gibox .zlo := by
      intro f; cases f <;> decide
    have e' : ∀ f, exSim.cfg.gfilim Axis.z.e f = (match f with | .zlo => 0 | .zhi => 3 | f => if f.isLo then 0 else 4 : Int) + exCfg.gibox .zlo := by
      intro f; cases f <;> decide
    simp only [e, e'] at *
    simp [Face.isLo]
    omega
  inside := by
    replace hr := (driven_iff exSrc _ r).2 hr
    unfold InLim at hr
    unfold SampleIn
    have e : ∀ f, exSrc.flim Axis.z.e f = (match f with | .zlo => 1 | .zhi => 2 | _ => 2 : Int) + exCfg.gibox .zlo := by
      intro f; cases f <;> decide
    have e' : ∀ f : Face, exSim.cfg.gibox f = (if f.isLo then 0 else 4 : Int) + exCfg.gibox .zlo := by
      intro f; cases f <;> decide
    simp only [e, e'] at *
    simp [Face.isLo, pos2, Axis.e]
    omega
  only := by
    intro n' x' h _ _ _
    by_contra hb
    have : exSim.srcs[n']? = none := by
      apply List.getElem?_eq_none
      simp [exSim]; omega
    rw [this] at h; cases h
  noDebye := NoWrite.nil
  noSibc := NoWrite.nil
  noPw := NoWrite.nil

/-- Non-vacuity of `driven_total_current`: source, cross-section and area. -/
example : InSource exBox Axis.z.e (fun a => exBox a.lo) ∧
    PlaneOf exBox Axis.z.e .z (fun a => exBox a.lo) {(exBox .xlo, exBox .ylo)} ∧
    (electricSize (fun _ _ => 1) (fun _ _ => 1) exBox .z).area = 1 := by
  refine ⟨by unfold InSource SampleIn; decide, ?_, ?_⟩
  · intro j k
    rw [Finset.mem_singleton, inSource_iff, Prod.mk.injEq]
    have hx : range exBox Axis.z.e .x = {exBox .xlo} := by decide
    have hy : range exBox Axis.z.e .y = {exBox .ylo} := by decide
    have hz : exBox .zlo ∈ range exBox Axis.z.e .z := by decide
    constructor
    · rintro ⟨rfl, rfl⟩ c
      cases c
      · rw [hx]; decide
      · rw [hy]; decide
      · exact hz
    · intro h
      have h1 := h .x
      have h2 := h .y
      rw [hx] at h1
      rw [hy] at h2
      simpa [setc, Axis.next] using And.intro h1 h2
  · have h : ∀ c : Axis, c ≠ .z → Finset.Icc (exBox c.lo) (exBox c.hi) = {exBox c.lo} := by
      intro c hc; cases c <;> first | decide | exact absurd rfl hc
    simp [electricSize, Axis.next, h]

end Vulture.C27
