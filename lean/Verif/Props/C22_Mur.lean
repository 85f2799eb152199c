import Verif.Lemmas.Pointwise
import Verif.Model.Mur
import Verif.Props.C18_Edges
import Verif.Props.C19_Media
import Mathlib.Analysis.SpecialFunctions.Trigonometric.Basic
/- C22: Mur boundaries. -/
set_option linter.unusedSimpArgs false
namespace Vulture.C22
open Spec
variable {K : Type*} [CommRing K] (C : CRef → K)

/-- An element written by exactly one block, whose other operands are not written at all, receives
that block's value computed from the initial memory. -/
theorem run_once {p : Prog} {l : Loc} {b : Block} (hb : b ∈ p) (hl : l ∈ b.writes)
    (hc : timesWritten p l = 1) (hr : ∀ m ∈ b.reads, m ≠ l → NoWrite p m) (s : Loc → K) :
    p.run C s l = b.exec C s l := by
  obtain ⟨p1, p2, rfl⟩ := List.append_of_mem hb
  rw [C09.tw_append, show b :: p2 = [b] ++ p2 from rfl, C09.tw_append] at hc
  have h1 : timesWritten [b] l = 1 := by simp [timesWritten, hl]
  have n1 : NoWrite p1 l := noWrite_of_count (by omega)
  have n2 : NoWrite p2 l := noWrite_of_count (by omega)
  rw [run_append, run_cons, NoWrite.run C n2]
  refine exec_congr C (fun m hm => ?_) hl
  by_cases e : m = l
  · subst e; exact NoWrite.run C n1 s
  · exact NoWrite.run C (fun b' hb' => hr m hm e b' (List.mem_append_left _ hb')) s

/-- The neighbour of a sample one cell further inside the mesh, seen from face `f`. -/
def Neighbour (f : Face) (q p : Axis → Int) : Prop :=
  p f.axis = q f.axis + (if f.isLo then 1 else -1) ∧ ∀ a, a ≠ f.axis → p a = q a

/-- Value stored for a sample. -/
def val (s : Loc → K) (fc : Fc) (q : Axis → Int) : K := s (.fld fc (q .x) (q .y) (q .z))

/-- A tangential electric sample on the Mur face `f`, on no other Mur face, with another sample behind it
(false only in a mesh one cell thick with Mur faces on both sides). -/
structure MurSample (c : Cfg) (f : Face) (fc : Fc) (q : Axis → Int) : Prop where
  mur : c.bt f = .mur
  elec : fc.isE = true
  inside : SampleIn c.gibox fc (q .x) (q .y) (q .z)
  onFace : OnPlane c.gibox f fc (q .x) (q .y) (q .z)
  only : ∀ g, c.bt g = .mur → OnPlane c.gibox g fc (q .x) (q .y) (q .z) → g = f
  thick : 2 ≤ c.n f.axis ∨ c.bt f.opposite ≠ .mur

theorem contains_inward {c : Cfg} (h : ValidCfg c) {f : Face} {fc : Fc} {q p : Axis → Int}
    (hq : MurSample c f fc q) (hp : Neighbour f q p) : InLim (c.gfilim fc) (p .x) (p .y) (p .z) := by
  obtain ⟨h1, h2, h3, h4, h5, h6⟩ := hq
  obtain ⟨n1, n2⟩ := hp
  have fx := cfg_facts h f.axis
  have off : c.gibox f.axis.hi = c.gibox f.axis.lo + c.n f.axis := by have := C07.inner_offset c f.axis; omega
  unfold Cfg.gfilim
  rw [C19.inLim_iff_contains]
  have ox := n2 .x; have oy := n2 .y; have oz := n2 .z
  constructor
  · obtain ⟨a1, a2, a3⟩ := h3
    unfold OnPlane samplePos at h4
    have tx := cfg_facts h .x; have ty := cfg_facts h .y; have tz := cfg_facts h .z
    cases f <;> rcases fc_isE h2 with rfl | rfl | rfl <;>
      simp [SampleIn, Face.isLo, Face.axis, pos2, Axis.lo, Axis.hi] at * <;> omega
  · intro g hg
    have hgne : g ≠ f := by
      rintro rfl
      unfold OnPlane samplePos at h4 hg
      cases g <;> rcases fc_isE h2 with rfl | rfl | rfl <;>
        simp [Face.isLo, Face.axis, pos2] at h4 hg n1 <;> omega
    by_cases ho : g = f.opposite
    · subst ho
      unfold OnPlane samplePos at h4 hg
      have : c.n f.axis = 1 := by
        cases f <;> rcases fc_isE h2 with rfl | rfl | rfl <;>
          simp [Face.isLo, Face.axis, pos2, Face.opposite, Axis.lo, Axis.hi] at h4 hg n1 off ⊢ <;> omega
      have := h6.resolve_left (by omega)
      simp [C09.bt_beq, this]
    · have hax : g.axis ≠ f.axis := by
        cases g <;> cases f <;> simp [Face.axis, Face.opposite] at hgne ho ⊢
      have : OnPlane c.gibox g fc (q .x) (q .y) (q .z) := by
        have := n2 g.axis hax
        unfold OnPlane samplePos at hg ⊢
        revert hg this
        cases g <;> simp only [Face.axis] <;> intro hg this <;> rw [this] at hg <;> exact hg
      have hm : c.bt g ≠ .mur := fun hm => hgne (h5 g hm this)
      simp [C09.bt_beq, hm]

theorem lim_mur {c : Cfg} {f : Face} {fc : Fc} {q : Axis → Int} (hq : MurSample c f fc q) :
    fc ∈ murComponents f ∧ InLim (c.fmlim f fc) (q .x) (q .y) (q .z) := by
  obtain ⟨h1, h2, h3, h4, h5, h6⟩ := hq
  constructor
  · unfold OnPlane samplePos at h4
    cases f <;> rcases fc_isE h2 with rfl | rfl | rfl <;> simp [Face.axis, pos2, murComponents] at h4 ⊢ <;> omega
  · unfold Cfg.fmlim
    rw [C19.inLim_iff_contains]
    constructor
    · obtain ⟨a1, a2, a3⟩ := h3
      unfold OnPlane samplePos at h4
      cases f <;> simp [SampleIn, Face.axis, getFaceOfBoundingBox, mkBox] at * <;> omega
    · intro g hg
      unfold Cfg.murInclude
      by_cases hax : g.axis = f.axis
      · simp [C09.ax_bne, hax]
      · have : OnPlane c.gibox g fc (q .x) (q .y) (q .z) := by
          unfold OnPlane at hg ⊢
          cases f <;> cases g <;> simp [Face.axis, getFaceOfBoundingBox, mkBox] at hax hg ⊢ <;> exact hg
        have hm : c.bt g ≠ .mur := fun hm => hax (by rw [h5 g hm this])
        simp [C09.bt_beq, hm]

/-- The two updates that touch Mur faces. -/
theorem count_mur {c : Cfg} (h : ValidCfg c) {f : Face} {fc : Fc} {q : Axis → Int} (hq : MurSample c f fc q) :
    timesWritten (updatePmlEfield c ++ updateMurEfield c) (.fld fc (q .x) (q .y) (q .z)) = 1 ∧
    timesWritten (updateGridEfield c) (.fld fc (q .x) (q .y) (q .z)) = 0 := by
  have hg : timesWritten (updateGridEfield c) (.fld fc (q .x) (q .y) (q .z)) = 0 := by
    rw [C09.tw_gridE c _ _ _ fc (fc_isE hq.elec), if_neg]
    unfold Cfg.gfilim
    rw [C19.inLim_iff_contains]
    rintro ⟨_, hh⟩
    have := hh f hq.onFace
    simp [C09.bt_beq, hq.mur] at this
  have hcount := C09.electric_exactly_once h fc (fc_isE hq.elec) (q .x) (q .y) (q .z)
  rw [C09.tw_append, hg, if_pos] at hcount
  · exact ⟨by omega, hg⟩
  · refine ⟨sampleIn_mono (gibox_within h) hq.inside, ?_⟩
    rintro ⟨_, f1, f2, hax, m1, m2, s1, s2⟩
    have on : ∀ g, SampleIn (getFaceOfBoundingBox c.gibox g) fc (q .x) (q .y) (q .z) →
        OnPlane c.gibox g fc (q .x) (q .y) (q .z) := by
      intro g hg
      obtain ⟨b1, b2, b3⟩ := hg
      unfold OnPlane samplePos
      cases g <;> simp [Face.axis, getFaceOfBoundingBox, mkBox] at * <;> omega
    have e1 := hq.only f1 m1 (on f1 s1)
    have e2 := hq.only f2 m2 (on f2 s2)
    exact hax (by rw [e1, e2])

/-- The core of an electric half step. -/
abbrev coreE (c : Cfg) : Prog := updatePmlEfield c ++ updateMurEfield c ++ updateGridEfield c

/-- The Mur update in terms of old and new field values: the predicted value of the inner neighbour is
the value that neighbour really takes. -/
theorem mur_value {c : Cfg} (h : ValidCfg c) {f : Face} {fc : Fc} {q p : Axis → Int} (hq : MurSample c f fc q)
    (hp : Neighbour f q p) (s : Loc → K) :
    val ((coreE c).run C s) fc q =
      val s fc p + C (.zeta f) * (val ((coreE c).run C s) fc p - val s fc q) := by
  have hin := contains_inward h hq hp
  have hnew : val ((coreE c).run C s) fc p = (ampere fc (p .x) (p .y) (p .z)).eval C s :=
    electric_value C h hq.elec hin s
  obtain ⟨hc1, hc2⟩ := count_mur h hq
  obtain ⟨hm1, hm2⟩ := lim_mur hq
  have hpin : inward f (q .x) (q .y) (q .z) = (p .x, p .y, p .z) := by
    obtain ⟨n1, n2⟩ := hp
    have ox := n2 .x; have oy := n2 .y; have oz := n2 .z
    cases f <;> simp [inward, Face.axis, Face.isLo] at * <;> omega
  have hpno : NoWrite (updatePmlEfield c ++ updateMurEfield c) (.fld fc (p .x) (p .y) (p .z)) := by
    have hcount := C09.electric_exactly_once h fc (fc_isE hq.elec) (p .x) (p .y) (p .z)
    have hg := C09.tw_gridE c (p .x) (p .y) (p .z) fc (fc_isE hq.elec)
    rw [if_pos hin] at hg
    rw [C09.tw_append, hg] at hcount
    apply noWrite_of_count
    split at hcount <;> omega
  have hb : murE f fc (q .x) (q .y) (q .z) ∈ updatePmlEfield c ++ updateMurEfield c := by
    refine List.mem_append_right _ (List.mem_flatMap.2 ⟨f, by cases f <;> simp [Face.all], ?_⟩)
    rw [if_pos hq.mur]
    exact List.mem_flatMap.2 ⟨fc, hm1, List.mem_map.2 ⟨(q .x, q .y, q .z), mem_boxLoop.2 hm2, rfl⟩⟩
  have hstep : val ((coreE c).run C s) fc q =
      (murE f fc (q .x) (q .y) (q .z)).exec C s (.fld fc (q .x) (q .y) (q .z)) := by
    unfold val coreE
    rw [run_append, NoWrite.run C (noWrite_of_count hc2)]
    refine run_once C hb (by simp [murE, Block.writes]) hc1 ?_ s
    intro m hm hne
    have hH : ∀ {g : Fc} {a b d : Int}, g.isE = false →
        NoWrite (updatePmlEfield c ++ updateMurEfield c) (.fld g a b d) := by
      intro g a b d hg b' hb'
      exact noH_core hg a b d c b' (List.mem_append_left _ hb')
    simp only [murE, hpin, Block.reads, List.flatMap_cons, List.flatMap_nil, List.append_nil, Expr.reads,
      List.mem_append, List.mem_singleton] at hm
    rcases hm with rfl | hm | rfl
    · exact hpno
    · rcases fc_isE hq.elec with rfl | rfl | rfl <;>
        simp [ampere, ampereX, ampereY, ampereZ, Expr.reads, curlHx, curlHy, curlHz, EX, EY, EZ, HX, HY, HZ] at hm <;>
        rcases hm with rfl | rfl | rfl | rfl | rfl <;> first | exact hpno | exact hH rfl
    · exact absurd rfl hne
  rw [hstep, hnew]
  simp [murE, hpin, Block.exec, Expr.eval, val]

/-- Programs of a step other than the core and the ghost copies. -/
def extrasE (S : Sim) : Prog :=
  updateDebye S.debye ++ updateSibcE S.sibc ++ updateSourcesE S.srcs ++ updatePlaneWavesE S.cfg S.pws

theorem stepE_core (S : Sim) (h : ValidCfg S.cfg) {fc : Fc} (q : Axis → Int)
    (hq : SampleIn S.cfg.gibox fc (q .x) (q .y) (q .z))
    (hx : NoWrite (extrasE S) (.fld fc (q .x) (q .y) (q .z))) (s : Loc → K) :
    val (S.stepE.run C s) fc q = val ((coreE S.cfg).run C s) fc q := by
  have : S.stepE = coreE S.cfg ++ (extrasE S ++ updateGhostEfield S.cfg) := by
    simp [Sim.stepE, coreE, extrasE, List.append_assoc]
  rw [this]
  unfold val
  rw [run_append, NoWrite.run C (hx.append (noWrite_ghostE h (sampleIn_mono (gibox_within h) hq)))]

section real
variable (Cr : CRef → ℝ)

/-- The size of the mesh cell next to a face. -/
def faceCell (c : Cfg) (lines : Axis → Int → ℝ) (f : Face) : ℝ :=
  if f.isLo then lines f.axis 1 - lines f.axis 0 else lines f.axis (c.n f.axis) - lines f.axis (c.n f.axis - 1)

/-- The Mur coefficient is computed from the size of the cell next to the face (on the high side the
code reads the length stored for the cell beyond the face, which is the same). -/
theorem zeta_value {c : Cfg} (h : ValidCfg c) (lines : Axis → Int → ℝ) (big : ℝ) (junk : Axis → EdgeArrays ℝ)
    (c0 dt : ℝ) {f : Face} (hf : c.bt f = .mur) :
    murZeta c0 dt c (fun a => (initCellEdges c a (lines a) big (junk a)).de) f =
      (c0 * dt - faceCell c lines f) / (c0 * dt + faceCell c lines f) := by
  have fx := cfg_facts h f.axis
  have off : c.gibox f.axis.hi = c.gibox f.axis.lo + c.n f.axis := by have := C07.inner_offset c f.axis; omega
  have hn := h.cells f.axis
  have hidx : (getFaceOfBoundingBox c.gibox f) f.axis.lo = c.gibox f := by cases f <;> rfl
  have hd : (initCellEdges c f.axis (lines f.axis) big (junk f.axis)).de
      ((getFaceOfBoundingBox c.gibox f) f.axis.lo) = faceCell c lines f := by
    rw [hidx]
    have hr : c.gibox f = c.gibox f.axis.lo ∨ c.gibox f = c.gibox f.axis.hi := by
      cases f <;> simp [Face.axis, Axis.lo, Axis.hi]
    rw [C18.edge_lengths c h f.axis (lines f.axis) big (junk f.axis) (c.gibox f) (by omega) (by omega)]
    unfold faceCell C18.cellSize C18.nearestCell
    cases hl : f.isLo
    · have : c.gibox f = c.gibox f.axis.hi := by cases f <;> first | rfl | cases hl
      have e : max 0 (min ((c.n f.axis : Int) - 1) (c.gibox f - c.gibox f.axis.lo)) = c.n f.axis - 1 := by omega
      rw [e]; simp
    · have : c.gibox f = c.gibox f.axis.lo := by cases f <;> first | rfl | cases hl
      have e : max 0 (min ((c.n f.axis : Int) - 1) (c.gibox f - c.gibox f.axis.lo)) = 0 := by omega
      rw [e]; simp
  unfold murZeta
  simp only [hf, if_true, hd]

/-- The Mur coefficient has modulus below one. -/
theorem zeta_lt_one {v d : ℝ} (hv : 0 < v) (hd : 0 < d) : |(v - d) / (v + d)| < 1 := by
  rw [abs_div, div_lt_one (by positivity), abs_of_pos (show 0 < v + d by positivity), abs_lt]
  constructor <;> linarith

/-- **C22, one-way wave equation.** On a Mur face the old and new values satisfy the discretisation,
centred in space and time, of `∂E/∂n = (1/c) ∂E/∂t` along the inward normal `n`: no wave travels
inwards. `d` is the distance to the inner neighbour, `v = c0 dt`. -/
theorem one_way (S : Sim) (h : ValidCfg S.cfg) {f : Face} {fc : Fc} {q p : Axis → Int}
    (hq : MurSample S.cfg f fc q) (hp : Neighbour f q p)
    (hxq : NoWrite (extrasE S) (.fld fc (q .x) (q .y) (q .z))) (hxp : NoWrite (extrasE S) (.fld fc (p .x) (p .y) (p .z)))
    {c0 dt d : ℝ} (hv : 0 < c0 * dt) (hd : 0 < d) (hz : Cr (.zeta f) = (c0 * dt - d) / (c0 * dt + d)) (s : Loc → ℝ) :
    let E' := S.stepE.run Cr s
    ((val E' fc p - val E' fc q) / d + (val s fc p - val s fc q) / d) / 2 =
      1 / c0 * (((val E' fc p - val s fc p) / dt + (val E' fc q - val s fc q) / dt) / 2) := by
  intro E'
  have hpin : SampleIn S.cfg.gibox fc (p .x) (p .y) (p .z) := by
    have := contains_inward h hq hp
    unfold Cfg.gfilim at this
    exact ((C19.inLim_iff_contains _ _ _ _ _ _).1 this).1
  have key := mur_value Cr h hq hp s
  rw [← stepE_core Cr S h q hq.inside hxq, ← stepE_core Cr S h p hpin hxp, hz] at key
  have hvd : c0 * dt + d ≠ 0 := by positivity
  have h0 : c0 ≠ 0 := by rintro rfl; simp at hv
  have h1 : dt ≠ 0 := by rintro rfl; simp at hv
  have h2 : d ≠ 0 := hd.ne'
  change val E' fc q = _ + _ * (val E' fc p - _) at key
  generalize val E' fc q = a at *
  generalize val E' fc p = b at *
  generalize val s fc q = x at *
  generalize val s fc p = y at *
  rw [div_mul_eq_mul_div, ← sub_eq_iff_eq_add', eq_div_iff hvd] at key
  field_simp
  linear_combination (-1) * key

/-- Conversely the equation determines the new boundary value, so the update is exactly this equation. -/
theorem one_way_unique {v d : ℝ} (hv : 0 < v) (hd : 0 < d) (a b x y : ℝ) :
    ((b - a) / d + (y - x) / d) / 2 = (((b - y) / v + (a - x) / v) / 2) ↔
      a = y + (v - d) / (v + d) * (b - x) := by
  have hvd : v + d ≠ 0 := by positivity
  rw [← sub_eq_iff_eq_add', div_mul_eq_mul_div, eq_div_iff hvd, ← add_div, ← add_div, div_div, div_div,
    div_eq_div_iff (by positivity) (by positivity)]
  constructor
  · intro h; linear_combination (-1/2 : ℝ) * h
  · intro h; linear_combination (-2 : ℝ) * h

/-- **C22, matched step.** When the wave crosses exactly one cell per step, the boundary transmits every
outgoing wave `g` without reflection, whatever its shape: if all samples follow `g (n + i)` (moving
towards the face, `i` cells inside) at step `n`, the boundary value follows it too. -/
theorem matched_absorbs (S : Sim) (h : ValidCfg S.cfg) {f : Face} {fc : Fc} {q p : Axis → Int}
    (hq : MurSample S.cfg f fc q) (hp : Neighbour f q p)
    (hxq : NoWrite (extrasE S) (.fld fc (q .x) (q .y) (q .z)))
    {v d : ℝ} (hm : v = d) (hz : Cr (.zeta f) = (v - d) / (v + d)) (s : Loc → ℝ) (g : Int → ℝ) (n : Int)
    (hs : val s fc p = g (n + 1)) :
    val (S.stepE.run Cr s) fc q = g (n + 1 + 0) := by
  have key := mur_value Cr h hq hp s
  rw [← stepE_core Cr S h q hq.inside hxq, hz, hm] at key
  simpa [hs] using key

end real

/-! ### Reflection of a harmonic wave -/

section reflection
open Complex

/-- An outgoing and a reflected harmonic wave: `2a` is the phase advance per time step, `2b` the phase
advance per cell, `i` counts cells from the face inwards. -/
noncomputable def wave (a b : ℝ) (R : ℂ) (n i : ℤ) : ℂ :=
  exp (2 * I * (a * n + b * i)) + R * exp (2 * I * (a * n - b * i))

theorem wave_eq (a b : ℝ) (R : ℂ) (n : ℤ) :
    wave a b R n 0 = exp (2 * I * a) ^ n * (1 + R) ∧
    wave a b R n 1 = exp (2 * I * a) ^ n * (exp (2 * I * b) + R * (exp (2 * I * b))⁻¹) := by
  unfold wave
  constructor
  · rw [← exp_int_mul]
    have e1 : 2 * I * (a * (n : ℂ) + b * ((0 : ℤ) : ℂ)) = n * (2 * I * a) := by push_cast; ring
    have e2 : 2 * I * (a * (n : ℂ) - b * ((0 : ℤ) : ℂ)) = n * (2 * I * a) := by push_cast; ring
    rw [e1, e2]; ring
  · rw [← exp_int_mul, ← exp_neg]
    have e1 : 2 * I * (a * (n : ℂ) + b * ((1 : ℤ) : ℂ)) = n * (2 * I * a) + 2 * I * b := by push_cast; ring
    have e2 : 2 * I * (a * (n : ℂ) - b * ((1 : ℤ) : ℂ)) = n * (2 * I * a) + -(2 * I * b) := by push_cast; ring
    rw [e1, e2, exp_add, exp_add]; ring

theorem exp_half (a : ℝ) : exp (2 * I * a) - 1 = 2 * I * Real.sin a * exp (I * a) ∧
    exp (2 * I * a) + 1 = 2 * Real.cos a * exp (I * a) := by
  have e : exp (2 * I * a) = exp (I * a) * exp (I * a) := by rw [← exp_add]; ring_nf
  have hi : I * (a : ℂ) = a * I := mul_comm _ _
  have h2 := Complex.exp_mul_I (a : ℂ)
  have hsq : Complex.sin a ^ 2 + Complex.cos a ^ 2 = 1 := Complex.sin_sq_add_cos_sq a
  have hI : I ^ 2 = -1 := I_sq
  rw [e, hi, h2, ofReal_sin, ofReal_cos]
  generalize Complex.sin a = S at *
  generalize Complex.cos a = D at *
  constructor
  · linear_combination hsq - S ^ 2 * hI
  · linear_combination (-1 : ℂ) * hsq + S ^ 2 * hI

/-- Reflected amplitude of the Mur boundary, referred to the half-way plane between the face and its
neighbour. -/
noncomputable def reflected (v d a b : ℝ) : ℝ :=
  (Real.sin b * Real.cos a / d - Real.sin a * Real.cos b / v) /
    (Real.sin b * Real.cos a / d + Real.sin a * Real.cos b / v)

theorem sines_pos {a : ℝ} (ha : 0 < a ∧ a < Real.pi / 2) : 0 < Real.sin a ∧ 0 < Real.cos a :=
  ⟨Real.sin_pos_of_pos_of_lt_pi ha.1 (by linarith [ha.2, Real.pi_pos]),
    Real.cos_pos_of_mem_Ioo ⟨by linarith [ha.1, Real.pi_pos], ha.2⟩⟩

/-- **C22, reflection.** The superposition satisfies the Mur update at every step exactly when the
reflected amplitude is the ratio above (times the phase of one cell). -/
theorem reflection {v d : ℝ} (hv : 0 < v) (hd : 0 < d) {a b : ℝ} (ha : 0 < a ∧ a < Real.pi / 2)
    (hb : 0 < b ∧ b < Real.pi / 2) (R : ℂ) :
    (∀ n : ℤ, wave a b R (n + 1) 0 =
        wave a b R n 1 + ((v - d) / (v + d) : ℝ) * (wave a b R (n + 1) 1 - wave a b R n 0)) ↔
      R = reflected v d a b * exp (2 * I * b) := by
  obtain ⟨sa, ca⟩ := sines_pos ha
  obtain ⟨sb, cb⟩ := sines_pos hb
  have hvd : ((v : ℂ) + d) ≠ 0 := by
    have : (v + d) ≠ 0 := by positivity
    exact_mod_cast this
  have hstep : (∀ n : ℤ, wave a b R (n + 1) 0 =
        wave a b R n 1 + ((v - d) / (v + d) : ℝ) * (wave a b R (n + 1) 1 - wave a b R n 0)) ↔
      exp (2 * I * a) * (1 + R) = (exp (2 * I * b) + R * (exp (2 * I * b))⁻¹) +
        ((v - d) / (v + d) : ℝ) * (exp (2 * I * a) * (exp (2 * I * b) + R * (exp (2 * I * b))⁻¹) - (1 + R)) := by
    constructor
    · intro h
      have := h 0
      rw [(wave_eq _ _ _ _).1, (wave_eq _ _ _ _).2, (wave_eq _ _ _ _).1, (wave_eq _ _ _ _).2] at this
      simpa using this
    · intro h n
      rw [(wave_eq _ _ _ _).1, (wave_eq _ _ _ _).2, (wave_eq _ _ _ _).1, (wave_eq _ _ _ _).2,
        zpow_add_one₀ (exp_ne_zero _)]
      linear_combination (exp (2 * I * a)) ^ n * h
  rw [hstep]
  have A1 := (exp_half a).1; have A2 := (exp_half a).2
  have B1 := (exp_half b).1; have B2 := (exp_half b).2
  have hB : exp (2 * I * (b : ℂ)) ≠ 0 := exp_ne_zero _
  have hu : exp (I * (a : ℂ)) ≠ 0 := exp_ne_zero _
  have hw : exp (I * (b : ℂ)) ≠ 0 := exp_ne_zero _
  generalize hAe : exp (2 * I * (a : ℂ)) = A at *
  generalize hBe : exp (2 * I * (b : ℂ)) = B at *
  generalize exp (I * (a : ℂ)) = u at *
  generalize exp (I * (b : ℂ)) = w at *
  have hI : I ≠ 0 := I_ne_zero
  -- numerator and denominator
  have hden : (v * Real.sin b * Real.cos a + d * Real.sin a * Real.cos b : ℝ) ≠ 0 := by positivity
  have hdenC : ((v * Real.sin b * Real.cos a + d * Real.sin a * Real.cos b : ℝ) : ℂ) ≠ 0 := by exact_mod_cast hden
  have href : reflected v d a b = (v * Real.sin b * Real.cos a - d * Real.sin a * Real.cos b) /
      (v * Real.sin b * Real.cos a + d * Real.sin a * Real.cos b) := by
    unfold reflected
    rw [div_add_div _ _ hd.ne' hv.ne', div_sub_div _ _ hd.ne' hv.ne', div_div_div_cancel_right₀ (by positivity)]
    congr 1 <;> ring
  have hz : (((v - d) / (v + d) : ℝ) : ℂ) * (v + d) = v - d := by
    push_cast
    rw [div_mul_cancel₀ _ hvd]
  have hP : (v : ℂ) * (B - 1) * (A + 1) = 4 * I * u * w * (v * Real.sin b * Real.cos a : ℝ) := by
    rw [B1, A2]; push_cast; ring
  have hQ : (d : ℂ) * (A - 1) * (B + 1) = 4 * I * u * w * (d * Real.sin a * Real.cos b : ℝ) := by
    rw [A1, B2]; push_cast; ring
  have hk : 4 * I * u * w ≠ 0 := mul_ne_zero (mul_ne_zero (mul_ne_zero (by norm_num) hI) hu) hw
  have lhs_iff : (A * (1 + R) = (B + R * B⁻¹) + ((v - d) / (v + d) : ℝ) * (A * (B + R * B⁻¹) - (1 + R))) ↔
      R * ((v : ℂ) * (B - 1) * (A + 1) + d * (A - 1) * (B + 1)) =
        B * ((v : ℂ) * (B - 1) * (A + 1) - d * (A - 1) * (B + 1)) := by
    have e : (A * (1 + R) - ((B + R * B⁻¹) + ((v - d) / (v + d) : ℝ) * (A * (B + R * B⁻¹) - (1 + R)))) * ((v + d) * B)
        = R * ((v : ℂ) * (B - 1) * (A + 1) + d * (A - 1) * (B + 1)) -
          B * ((v : ℂ) * (B - 1) * (A + 1) - d * (A - 1) * (B + 1)) := by
      have : B⁻¹ * B = 1 := inv_mul_cancel₀ hB
      linear_combination (-(A * (B * B + R * (B⁻¹ * B)) - (1 + R) * B)) * hz +
        (-R * (v + d) - (v - d) * A * R) * this
    constructor
    · intro h
      rw [← sub_eq_zero, ← e, sub_eq_zero.2 h, zero_mul]
    · intro h
      rw [← sub_eq_zero] at h ⊢
      rw [← e] at h
      exact (mul_eq_zero.1 h).resolve_right (mul_ne_zero hvd hB)
  rw [lhs_iff, hP, hQ, href]
  rw [← mul_add, ← mul_sub, ofReal_div, div_mul_eq_mul_div, eq_div_iff hdenC, ← ofReal_add, ← ofReal_sub]
  constructor
  · intro h
    apply mul_left_cancel₀ hk
    linear_combination h
  · intro h
    linear_combination (4 * I * u * w) * h

/-- The reflected wave is weaker than the incident one, at every frequency and cell size. -/
theorem reflection_lt_one {v d : ℝ} (hv : 0 < v) (hd : 0 < d) {a b : ℝ} (ha : 0 < a ∧ a < Real.pi / 2)
    (hb : 0 < b ∧ b < Real.pi / 2) : ‖(reflected v d a b : ℂ) * exp (2 * I * b)‖ < 1 := by
  obtain ⟨sa, ca⟩ := sines_pos ha
  obtain ⟨sb, cb⟩ := sines_pos hb
  have hn : ‖exp (2 * I * (b : ℂ))‖ = 1 := by
    have : 2 * I * (b : ℂ) = ((2 * b : ℝ) : ℂ) * I := by push_cast; ring
    rw [this, Complex.norm_exp_ofReal_mul_I]
  rw [norm_mul, hn, mul_one, Complex.norm_real, Real.norm_eq_abs]
  unfold reflected
  have p1 : 0 < Real.sin b * Real.cos a / d := by positivity
  have p2 : 0 < Real.sin a * Real.cos b / v := by positivity
  rw [abs_div, abs_of_pos (show 0 < Real.sin b * Real.cos a / d + Real.sin a * Real.cos b / v by positivity),
    div_lt_one (by positivity), abs_lt]
  constructor <;> linarith

/-- For a wave that obeys the dispersion relation of the grid at normal incidence,
`sin a / (c dt) = sin b / d`, the reflection is `(cos a - cos b) / (cos a + cos b)`. -/
theorem reflection_dispersion {v d : ℝ} (hd : 0 < d) {a b : ℝ} (ha : 0 < a ∧ a < Real.pi / 2)
    (hb : 0 < b ∧ b < Real.pi / 2) (hdisp : Real.sin a / v = Real.sin b / d) :
    reflected v d a b = (Real.cos a - Real.cos b) / (Real.cos a + Real.cos b) := by
  obtain ⟨sa, ca⟩ := sines_pos ha
  obtain ⟨sb, cb⟩ := sines_pos hb
  have hk : 0 < Real.sin b / d := by positivity
  unfold reflected
  have e1 : Real.sin b * Real.cos a / d = Real.sin b / d * Real.cos a := by ring
  have e2 : Real.sin a * Real.cos b / v = Real.sin b / d * Real.cos b := by rw [← hdisp]; ring
  rw [e1, e2, ← mul_sub, ← mul_add, mul_div_mul_left _ _ hk.ne']

/-- Without reflection exactly when the boundary's speed matches the wave's. -/
theorem no_reflection_iff {v d : ℝ} (hv : 0 < v) (hd : 0 < d) {a b : ℝ} (ha : 0 < a ∧ a < Real.pi / 2)
    (hb : 0 < b ∧ b < Real.pi / 2) : reflected v d a b = 0 ↔ Real.tan a / v = Real.tan b / d := by
  obtain ⟨sa, ca⟩ := sines_pos ha
  obtain ⟨sb, cb⟩ := sines_pos hb
  unfold reflected
  have p1 : 0 < Real.sin b * Real.cos a / d := by positivity
  have p2 : 0 < Real.sin a * Real.cos b / v := by positivity
  rw [div_eq_zero_iff, or_iff_left (by positivity), Real.tan_eq_sin_div_cos, Real.tan_eq_sin_div_cos, sub_eq_zero,
    div_eq_div_iff hd.ne' hv.ne', div_div, div_div, div_eq_div_iff (by positivity) (by positivity)]
  constructor <;> intro h <;> linarith

end reflection

/-! ### Witness -/

/-- 3×3×3 cells, Mur at low and high x, PEC elsewhere. -/
def wcfg : Cfg where
  n := fun _ => 3
  bt := fun | .xlo => .mur | .xhi => .mur | _ => .pec
  layers := fun _ => 0
def wq : Axis → Int := fun | .x => 4 | .y => 2 | .z => 3
def wp : Axis → Int := fun | .x => 3 | .y => 2 | .z => 3

example : ValidCfg wcfg := by constructor <;> decide
example : MurSample wcfg .xhi .ez wq := by
  refine ⟨rfl, rfl, ?_, ?_, ?_, Or.inl (by decide)⟩
  · unfold SampleIn; decide
  · unfold OnPlane; decide
  · unfold OnPlane; decide
example : Neighbour .xhi wq wp := by unfold Neighbour; decide

/-- Sources elsewhere do not disturb the Mur sample: no extras at all in this run. -/
example : NoWrite (extrasE ⟨wcfg, [], [], [], []⟩) (.fld .ez (wq .x) (wq .y) (wq .z)) := by
  intro b hb; cases hb

end Vulture.C22
