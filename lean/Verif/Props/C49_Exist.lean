import Verif.Lemmas.Extend
import Verif.Props.C49_Images
/-
C49: every box is cut out of a space, its images.
-/
set_option linter.unusedSimpArgs false
set_option linter.unusedVariables false
namespace Vulture.C49
open Spec Unbounded
open Classical

/-- Folding of the components of electric (`half a d = (a = d)`) and magnetic quantities, with and without signs. -/
noncomputable def foldOf (c : Cfg) (half : Axis → Axis → Bool) (s : BType → Axis → Axis → ℝ) (d : Axis) : Fold where
  per := decide (c.bt d.lo = .periodic)
  half := fun a => half a d
  sl := fun a => s (c.bt d.lo) d a
  sh := fun a => s (c.bt d.hi) d a
  l := c.gibox d.lo
  N := c.n d

def halfE (a d : Axis) : Bool := decide (a = d)
def halfH (a d : Axis) : Bool := decide (a ≠ d)
noncomputable def one (_ : BType) (_ _ : Axis) : ℝ := 1
noncomputable def sE (t : BType) (d a : Axis) : ℝ := match wallOf t with | some w => w.signE d a | none => 1
noncomputable def sH (t : BType) (d a : Axis) : ℝ := match wallOf t with | some w => w.signH d a | none => 1

theorem fold_ok {c : Cfg} (hv : ValidCfg c) {half : Axis → Axis → Bool} {s : BType → Axis → Axis → ℝ}
    (hs : ∀ t d a, s t d a = 1 ∨ s t d a = -1) (d : Axis) : (foldOf c half s d).Ok :=
  ⟨hv.cells d, fun a => hs _ _ _, fun a => hs _ _ _⟩

theorem one_unit (t : BType) (d a : Axis) : one t d a = 1 ∨ one t d a = -1 := Or.inl rfl
theorem sE_unit (t : BType) (d a : Axis) : sE t d a = 1 ∨ sE t d a = -1 := by
  unfold sE; cases t <;> simp only [wallOf, Wall.signE] <;> (try split) <;> simp
theorem sH_unit (t : BType) (d a : Axis) : sH t d a = 1 ∨ sH t d a = -1 := by
  unfold sH; cases t <;> simp only [wallOf, Wall.signH] <;> (try split) <;> simp

theorem width (c : Cfg) (d : Axis) : c.gibox d.lo + c.n d = c.gibox d.hi := by
  have := (C07.inner_offset c d).2.2.1; omega

theorem insideE {c : Cfg} {s : BType → Axis → Axis → ℝ} {a : Axis} {q : Axis → Int} (hq : InE c a q) (b : Axis) :
    (foldOf c halfE s b).Inside a (q b) := by
  have w := width c b
  obtain ⟨h1, h2, h3⟩ := hq
  unfold Fold.Inside
  simp only [foldOf, halfE]
  cases a <;> cases b <;> simp only [Axis.e, pos2, Axis.lo, Axis.hi] at h1 h2 h3 w ⊢ <;> simp <;> omega

theorem insideH {c : Cfg} {s : BType → Axis → Axis → ℝ} {a : Axis} {q : Axis → Int} (hq : InH c a q) (b : Axis) :
    (foldOf c halfH s b).Inside a (q b) := by
  have w := width c b
  obtain ⟨h1, h2, h3⟩ := hq
  unfold Fold.Inside
  simp only [foldOf, halfH]
  cases a <;> cases b <;> simp only [Axis.h, pos2, Axis.lo, Axis.hi] at h1 h2 h3 w ⊢ <;> simp <;> omega

theorem inE_of {c : Cfg} {s : BType → Axis → Axis → ℝ} {a : Axis} {q : Axis → Int}
    (h : ∀ b, (foldOf c halfE s b).Inside a (q b)) : InE c a q := by
  have wx := width c .x; have wy := width c .y; have wz := width c .z
  have hx := h .x; have hy := h .y; have hz := h .z
  unfold Fold.Inside at hx hy hz
  simp only [foldOf, halfE] at hx hy hz
  unfold InE SampleIn
  cases a <;> simp [Axis.e, pos2, Axis.lo, Axis.hi] at * <;> omega

theorem inH_of {c : Cfg} {s : BType → Axis → Axis → ℝ} {a : Axis} {q : Axis → Int}
    (h : ∀ b, (foldOf c halfH s b).Inside a (q b)) : InH c a q := by
  have wx := width c .x; have wy := width c .y; have wz := width c .z
  have hx := h .x; have hy := h .y; have hz := h .z
  unfold Fold.Inside at hx hy hz
  simp only [foldOf, halfH] at hx hy hz
  unfold InH SampleIn
  cases a <;> simp [Axis.h, pos2, Axis.lo, Axis.hi] at * <;> omega

/-- Matching end planes, in the form the continuation uses. -/
theorem matchesE {c : Cfg} (hv : ValidCfg c) {s : BType → Axis → Axis → ℝ} (hs : ∀ t d a, s t d a = 1 ∨ s t d a = -1) {V : Comp}
    (h : EndsMatch c InE V) : Matches (foldOf c halfE s) V := by
  intro d a q hp hh hi hq
  have hp' : c.bt d.lo = .periodic := by simpa [foldOf] using hp
  refine h d a q _ hp' (inE_of hi) (inE_of (put_inside (fold_ok hv hs) hh hi)) ?_ (by simp [put, foldOf])
    (fun b hb => by simp [put, hb])
  rw [hq]; exact width c d
theorem matchesH {c : Cfg} (hv : ValidCfg c) {s : BType → Axis → Axis → ℝ} (hs : ∀ t d a, s t d a = 1 ∨ s t d a = -1) {V : Comp}
    (h : EndsMatch c InH V) : Matches (foldOf c halfH s) V := by
  intro d a q hp hh hi hq
  have hp' : c.bt d.lo = .periodic := by simpa [foldOf] using hp
  refine h d a q _ hp' (inH_of hi) (inH_of (put_inside (fold_ok hv hs) hh hi)) ?_ (by simp [put, foldOf])
    (fun b hb => by simp [put, hb])
  rw [hq]; exact width c d

/-- Plane and sign of a mirror wall. -/
theorem wall_data {c : Cfg} {half : Axis → Axis → Bool} {s : BType → Axis → Axis → ℝ} (f : Face) :
    (c.gibox f = (foldOf c half s f.axis).l ∧ s (c.bt f) f.axis = (foldOf c half s f.axis).sl) ∨
    (c.gibox f = (foldOf c half s f.axis).l + (foldOf c half s f.axis).N ∧ s (c.bt f) f.axis = (foldOf c half s f.axis).sh) := by
  have w := width c f.axis
  cases f
  · exact Or.inl ⟨rfl, rfl⟩
  · exact Or.inr ⟨w.symm, rfl⟩
  · exact Or.inl ⟨rfl, rfl⟩
  · exact Or.inr ⟨w.symm, rfl⟩
  · exact Or.inl ⟨rfl, rfl⟩
  · exact Or.inr ⟨w.symm, rfl⟩

/-- An axis with a mirror wall is not periodic. -/
theorem not_periodic {c : Cfg} (hv : ValidCfg c) {f : Face} {w : Wall} (h : wallOf (c.bt f) = some w) : c.bt f.axis.lo ≠ .periodic := by
  intro hp
  have h1 : c.bt f = .periodic := by
    cases f <;> first | exact hp | exact hv.paired _ hp
  rw [h1] at h
  exact absurd h (by simp [wallOf])

/-- Continued electric quantities are symmetric in mirror walls. -/
theorem extend_symE {c : Cfg} (hv : ValidCfg c) {V : Comp} (h0 : ∀ a q, OnConductor c a q → V a q = 0) {f : Face} {w : Wall}
    (hw : wallOf (c.bt f) = some w) : SymmetricE w f.axis (c.gibox f) (extend (foldOf c halfE sE) V) := by
  intro a q
  have key := extend_mirror (W := foldOf c halfE sE) (fold_ok hv sE_unit) (d := f.axis) (V := V)
    (by simp [foldOf, not_periodic hv hw]) ?_ (wall_data f) a q
  · have e : sE (c.bt f) f.axis a = w.signE f.axis a := by simp only [sE, hw]
    rw [e] at key
    exact key
  · intro a q ha
    have ha' : a ≠ f.axis := by simpa [foldOf, halfE] using ha
    have pec : ∀ t, sE t f.axis a = -1 → t = .pec := by
      intro t ht
      cases t <;> simp [sE, wallOf, Wall.signE, ha'] at ht ⊢ <;> norm_num at ht
    have elo : f.axis.lo.axis = f.axis := by cases f <;> rfl
    have ehi : f.axis.hi.axis = f.axis := by cases f <;> rfl
    constructor
    · intro h1 h2
      refine h0 a q ⟨f.axis.lo, pec _ h2, by rw [elo]; exact ha'.symm, by rw [elo]; exact h1⟩
    · intro h1 h2
      refine h0 a q ⟨f.axis.hi, pec _ h2, by rw [ehi]; exact ha'.symm, by rw [ehi, h1]; exact width c _⟩

/-- Continued magnetic quantities are symmetric in mirror walls. -/
theorem extend_symH {c : Cfg} (hv : ValidCfg c) {V : Comp} (h0 : ∀ a q, OnConductorH c a q → V a q = 0) {f : Face} {w : Wall}
    (hw : wallOf (c.bt f) = some w) : SymmetricH w f.axis (c.gibox f) (extend (foldOf c halfH sH) V) := by
  intro a q
  have key := extend_mirror (W := foldOf c halfH sH) (fold_ok hv sH_unit) (d := f.axis) (V := V)
    (by simp [foldOf, not_periodic hv hw]) ?_ (wall_data f) a q
  · have e : sH (c.bt f) f.axis a = w.signH f.axis a := by simp only [sH, hw]
    rw [e] at key
    exact key
  · intro a q ha
    have ha' : a = f.axis := by simpa [foldOf, halfH] using ha
    have pec : ∀ t, sH t f.axis a = -1 → t = .pec := by
      intro t ht
      cases t <;> simp [sH, wallOf, Wall.signH, ha'] at ht ⊢ <;> norm_num at ht
    have elo : f.axis.lo.axis = f.axis := by cases f <;> rfl
    have ehi : f.axis.hi.axis = f.axis := by cases f <;> rfl
    constructor
    · intro h1 h2
      refine h0 a q ⟨f.axis.lo, pec _ h2, by rw [elo]; exact ha'.symm, by rw [ha']; exact h1⟩
    · intro h1 h2
      refine h0 a q ⟨f.axis.hi, pec _ h2, by rw [ehi]; exact ha'.symm, by rw [ha', h1]; exact width c _⟩

/-- Continued coefficients are their own images. -/
theorem extend_oneE {c : Cfg} (hv : ValidCfg c) (V : Comp) {f : Face} {w : Wall} (hw : wallOf (c.bt f) = some w)
    (a : Axis) (q : Axis → Int) :
    extend (foldOf c halfE one) V a (imageE f.axis (c.gibox f) a q) = extend (foldOf c halfE one) V a q := by
  have key := extend_mirror (W := foldOf c halfE one) (fold_ok hv one_unit) (d := f.axis) (V := V)
    (by simp [foldOf, not_periodic hv hw]) ?_ (wall_data f) a q
  · have e : one (c.bt f) f.axis a = 1 := rfl
    rw [e, one_mul] at key; exact key
  · intro a q ha
    exact ⟨fun _ h => by simp [foldOf, one] at h; norm_num at h, fun _ h => by simp [foldOf, one] at h; norm_num at h⟩
theorem extend_oneH {c : Cfg} (hv : ValidCfg c) (V : Comp) {f : Face} {w : Wall} (hw : wallOf (c.bt f) = some w)
    (a : Axis) (q : Axis → Int) :
    extend (foldOf c halfH one) V a (imageH f.axis (c.gibox f) a q) = extend (foldOf c halfH one) V a q := by
  have key := extend_mirror (W := foldOf c halfH one) (fold_ok hv one_unit) (d := f.axis) (V := V)
    (by simp [foldOf, not_periodic hv hw]) ?_ (wall_data f) a q
  · have e : one (c.bt f) f.axis a = 1 := rfl
    rw [e, one_mul] at key; exact key
  · intro a q ha
    exact ⟨fun _ h => by simp [foldOf, one] at h; norm_num at h, fun _ h => by simp [foldOf, one] at h; norm_num at h⟩

theorem repeats_of {c : Cfg} {half : Axis → Axis → Bool} {s : BType → Axis → Axis → ℝ} (hv : ValidCfg c) {f : Face}
    (hf : c.bt f = .periodic) (V : Comp) : Repeats f.axis (c.n f.axis) (extend (foldOf c half s) V) := by
  have hp : c.bt f.axis.lo = .periodic := by
    cases f <;> first | exact hf | exact hv.paired _ hf
  exact extend_repeats (W := foldOf c half s) (d := f.axis) (by simp [foldOf, hp]) V

/-- Conducting walls cross the end planes of a period. -/
theorem conductor_ends {c : Cfg} (hv : ValidCfg c) {d a : Axis} {q r : Axis → Int} (hp : c.bt d.lo = .periodic)
    (hr : ∀ b, b ≠ d → r b = q b) : (OnConductor c a r ↔ OnConductor c a q) ∧ (OnConductorH c a r ↔ OnConductorH c a q) := by
  have ne : ∀ f, c.bt f = .pec → f.axis ≠ d := by
    rintro f hf rfl
    have : c.bt f = .periodic := by cases f <;> first | exact hp | exact hv.paired _ hp
    rw [hf] at this; exact absurd this (by decide)
  constructor
  · constructor <;> rintro ⟨f, h1, h2, h3⟩
    · exact ⟨f, h1, h2, by rw [← hr _ (ne f h1)]; exact h3⟩
    · exact ⟨f, h1, h2, by rw [hr _ (ne f h1)]; exact h3⟩
  · constructor <;> rintro ⟨f, h1, h2, h3⟩
    · exact ⟨f, h1, h2, by rw [← hr _ (h2 ▸ ne f h1)]; exact h3⟩
    · exact ⟨f, h1, h2, by rw [hr _ (h2 ▸ ne f h1)]; exact h3⟩

/-- The space of a box: its media continued by images and repetition; in place of the metal of conducting walls it has the media
`fa`, `fb`. -/
noncomputable def imagesOf (S : Sim) (C : CRef → ℝ) (fa fb : Comp) : Space where
  alpha := extend (foldOf S.cfg halfE one) fun a q => if OnConductor S.cfg a q then fa a q else coef C .alpha a.e q
  beta := extend (foldOf S.cfg halfE one) fun a q => if OnConductor S.cfg a q then fb a q else coef C .beta a.e q
  gamma := extend (foldOf S.cfg halfH one) fun a q => coef C .gamma a.h q
  de := fun d i => 1 / C (.ide d ((foldOf S.cfg halfE one d).idx d i))
  dh := fun d i => 1 / C (.idh d ((foldOf S.cfg halfH one d).idx d i))

theorem into_zero (q : Axis → Int) : into (fun _ => 0) q = q := by funext a; simp [into]

section
variable {S : Sim} {C : CRef → ℝ} (hb : BoxModel S C) {fa fb : Comp}
  (ha : EndsMatch S.cfg InE fa) (hbb : EndsMatch S.cfg InE fb)
include hb ha hbb

theorem ends_mixed {V F : Comp} (hV : EndsMatch S.cfg InE V) (hF : EndsMatch S.cfg InE F) :
    EndsMatch S.cfg InE fun a q => if OnConductor S.cfg a q then F a q else V a q := by
  intro d a q r hp hq hr h1 h2 h3
  have e := (conductor_ends (a := a) hb.cfg hp h3).1
  simp only [e]
  split
  · exact hF d a q r hp hq hr h1 h2 h3
  · exact hV d a q r hp hq hr h1 h2 h3

/-- **C49.** Every box with conducting, magnetic and periodic walls is cut out of a space, namely that of its images; on the
conducting walls the space may be given any media. -/
theorem images_exist : CutOut S C (imagesOf S C fa fb) (fun _ => 0) ∧
    ∀ a q, InE S.cfg a q → OnConductor S.cfg a q → (imagesOf S C fa fb).alpha a q = fa a q ∧ (imagesOf S C fa fb).beta a q = fb a q := by
  have inA : ∀ a q, InE S.cfg a q → (imagesOf S C fa fb).alpha a q =
      if OnConductor S.cfg a q then fa a q else coef C .alpha a.e q := fun a q hq =>
    extend_inside (fold_ok hb.cfg one_unit) (matchesE hb.cfg one_unit (ends_mixed hb ha hbb hb.endsAlpha ha)) (insideE hq)
  have inB : ∀ a q, InE S.cfg a q → (imagesOf S C fa fb).beta a q =
      if OnConductor S.cfg a q then fb a q else coef C .beta a.e q := fun a q hq =>
    extend_inside (fold_ok hb.cfg one_unit) (matchesE hb.cfg one_unit (ends_mixed hb ha hbb hb.endsBeta hbb)) (insideE hq)
  refine ⟨⟨hb.cfg, hb.walls, hb.debye, hb.sibc, hb.pws, hb.currents, hb.soft, ?_, ?_, ?_, ?_, hb.metal, ?_, ?_, ?_⟩, ?_⟩
  · intro d i h1 h2
    have w := width S.cfg d
    have hi : (foldOf S.cfg halfE one d).Inside d i := by
      unfold Fold.Inside; simp only [foldOf, halfE]; simp; omega
    simp only [imagesOf, add_zero]
    have e : (foldOf S.cfg halfE one d).idx d i = i := by
      cases hp : (foldOf S.cfg halfE one d).per
      · exact Fold.idx_inside (fold_ok hb.cfg one_unit d) hp hi
      · rcases Fold.idx_per_inside (fold_ok hb.cfg one_unit d) hp hi with h | ⟨_, _, h⟩
        · exact h
        · simp [foldOf, halfE] at h
    rw [e]; simp
  · intro d i h1 h2
    have w := width S.cfg d
    have hi : (foldOf S.cfg halfH one d).Inside d i := by
      unfold Fold.Inside; simp only [foldOf, halfH]; simp; omega
    simp only [imagesOf, add_zero]
    have e : C (.idh d ((foldOf S.cfg halfH one d).idx d i)) = C (.idh d i) := by
      cases hp : (foldOf S.cfg halfH one d).per
      · rw [Fold.idx_inside (fold_ok hb.cfg one_unit d) hp hi]
      · rcases Fold.idx_per_inside (fold_ok hb.cfg one_unit d) hp hi with h | ⟨h, h', _⟩
        · rw [h]
        · rw [h, h']
          have hp' : S.cfg.bt d.lo = .periodic := by simpa [foldOf] using hp
          have := hb.endsLength d hp'
          rw [← w] at this
          exact this
    rw [e]; simp
  · intro a q hq hn
    rw [into_zero, inA a q hq, if_neg hn]
  · intro a q hq hn
    rw [into_zero, inB a q hq, if_neg hn]
  · intro a q hq
    rw [into_zero]
    exact (extend_inside (fold_ok hb.cfg one_unit) (matchesH hb.cfg one_unit hb.endsGamma) (insideH hq)).symm
  · intro f w hw
    rw [add_zero]
    have np : (foldOf S.cfg halfE one f.axis).per = false ∧ (foldOf S.cfg halfH one f.axis).per = false := by
      simp [foldOf, not_periodic hb.cfg hw]
    have pl : S.cfg.gibox f = S.cfg.gibox f.axis.lo ∨ S.cfg.gibox f = S.cfg.gibox f.axis.lo + S.cfg.n f.axis := by
      rw [width]; cases f <;> simp [Face.axis, Axis.lo, Axis.hi]
    refine ⟨extend_oneE hb.cfg _ hw, extend_oneE hb.cfg _ hw, extend_oneH hb.cfg _ hw, fun i => ?_, fun i => ?_⟩
    · have := Fold.idx_mirror (fold_ok hb.cfg one_unit f.axis) np.1 f.axis i (S.cfg.gibox f) pl
      simp only [imagesOf]
      have e : (foldOf S.cfg halfE one f.axis).half f.axis = true := by simp [foldOf, halfE]
      rw [e] at this; rw [this]
    · have := Fold.idx_mirror (fold_ok hb.cfg one_unit f.axis) np.2 f.axis i (S.cfg.gibox f) pl
      simp only [imagesOf]
      have e : (foldOf S.cfg halfH one f.axis).half f.axis = false := by simp [foldOf, halfH]
      rw [e] at this; rw [this]
  · intro f hf
    have hp : S.cfg.bt f.axis.lo = .periodic := by
      cases f <;> first | exact hf | exact hb.cfg.paired _ hf
    refine ⟨repeats_of hb.cfg hf _, repeats_of hb.cfg hf _, repeats_of hb.cfg hf _, fun i => ?_, fun i => ?_⟩
    · simp only [imagesOf]
      have := Fold.idx_period (w := foldOf S.cfg halfE one f.axis) (by simp [foldOf, hp]) f.axis i
      rw [show (foldOf S.cfg halfE one f.axis).N = S.cfg.n f.axis from rfl] at this
      rw [this]
    · simp only [imagesOf]
      have := Fold.idx_period (w := foldOf S.cfg halfH one f.axis) (by simp [foldOf, hp]) f.axis i
      rw [show (foldOf S.cfg halfH one f.axis).N = S.cfg.n f.axis from rfl] at this
      rw [this]
  · intro a q hq hn
    rw [inA a q hq, inB a q hq, if_pos hn, if_pos hn]
    exact ⟨rfl, rfl⟩
end

/-- The image currents. -/
noncomputable def imageJ (S : Sim) (u : Nat → Loc → ℝ) (n : Nat) : Comp :=
  extend (foldOf S.cfg halfE sE) fun a q => if OnConductor S.cfg a q then 0
    else currentE S.srcs (fun m => u n (.src false m)) a.e (q .x) (q .y) (q .z)
noncomputable def imageM (S : Sim) (u : Nat → Loc → ℝ) (n : Nat) : Comp :=
  extend (foldOf S.cfg halfH sH) fun a q => if OnConductorH S.cfg a q then 0
    else currentH S.srcs (fun m => u n (.src true m)) a.h (q .x) (q .y) (q .z)

/-- **C49.** The currents of the sources have images. -/
theorem currents_exist {S : Sim} {C : CRef → ℝ} (hb : BoxModel S C) {u : Nat → Loc → ℝ} (hu : BoxCurrents S u) :
    Impressed S (fun _ => 0) u (imageJ S u) (imageM S u) := by
  refine ⟨?_, ?_, ?_, ?_, fun f hf n => repeats_of hb.cfg hf _, fun f hf n => repeats_of hb.cfg hf _⟩
  · intro n a q hq hn
    rw [into_zero]
    refine (extend_inside (fold_ok hb.cfg sE_unit) (matchesE hb.cfg sE_unit ?_) (insideE hq)).trans (if_neg hn)
    intro d a q r hp hq hr h1 h2 h3
    have e := (conductor_ends (a := a) hb.cfg hp h3).1
    simp only [e]
    split
    · rfl
    · exact hu.endsJ n d a q r hp hq hr h1 h2 h3
  · intro n a q hq
    rw [into_zero]
    refine (extend_inside (fold_ok hb.cfg sH_unit) (matchesH hb.cfg sH_unit ?_) (insideH hq)).trans ?_
    · intro d a q r hp hq hr h1 h2 h3
      have e := (conductor_ends (a := a) hb.cfg hp h3).2
      simp only [e]
      split
      · rfl
      · exact hu.endsM n d a q r hp hq hr h1 h2 h3
    · split
      · rename_i h; exact (hu.normal n a q hq h).symm
      · rfl
  · intro f w hw n
    rw [add_zero]
    exact extend_symE hb.cfg (fun a q h => if_pos h) hw
  · intro f w hw n
    rw [add_zero]
    exact extend_symH hb.cfg (fun a q h => if_pos h) hw

/-- **C49.** Image principle: the run of any box with conducting, magnetic and periodic walls is the run in the unbounded space of
its images, whatever media (`fa`, `fb`) take the place of the metal of its conducting walls. -/
theorem image_principle {S : Sim} {C : CRef → ℝ} (hb : BoxModel S C) {u : Nat → Loc → ℝ} (hu : BoxCurrents S u) {fa fb : Comp}
    (ha : EndsMatch S.cfg InE fa) (hbb : EndsMatch S.cfg InE fb) (n : Nat) (a : Axis) (q : Axis → Int) :
    (InE S.cfg a q → at3 (S.state C u (fun _ => 0) n) a.e q = ((imagesOf S C fa fb).run (imageJ S u) (imageM S u) n).E a q) ∧
    (InH S.cfg a q → at3 (S.state C u (fun _ => 0) n) a.h q = ((imagesOf S C fa fb).run (imageJ S u) (imageM S u) n).H a q) := by
  have := walls_are_mirrors (images_exist hb ha hbb).1 (currents_exist hb hu) n a q
  rwa [into_zero] at this

end Vulture.C49
