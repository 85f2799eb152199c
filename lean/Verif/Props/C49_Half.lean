import Verif.Props.C49_Exist
/-
C49: a symmetry plane may be replaced by a wall.
-/
set_option linter.unusedSimpArgs false
set_option linter.unusedVariables false
namespace Vulture.C49
open Spec Unbounded
open Classical

/-- **C49.** Two models cut out of the same space and driven by the same currents have the same fields wherever they overlap. -/
theorem shared_space {S₁ S₂ : Sim} {C₁ C₂ : CRef → ℝ} {X : Space} {o₁ o₂ : Axis → Int} {u₁ u₂ : Nat → Loc → ℝ} {J M : Nat → Comp}
    (h₁ : CutOut S₁ C₁ X o₁) (h₂ : CutOut S₂ C₂ X o₂) (i₁ : Impressed S₁ o₁ u₁ J M) (i₂ : Impressed S₂ o₂ u₂ J M) (n : Nat)
    (a : Axis) (q r : Axis → Int) (hqr : into o₁ q = into o₂ r) :
    (InE S₁.cfg a q → InE S₂.cfg a r →
      at3 (S₁.state C₁ u₁ (fun _ => 0) n) a.e q = at3 (S₂.state C₂ u₂ (fun _ => 0) n) a.e r) ∧
    (InH S₁.cfg a q → InH S₂.cfg a r →
      at3 (S₁.state C₁ u₁ (fun _ => 0) n) a.h q = at3 (S₂.state C₂ u₂ (fun _ => 0) n) a.h r) := by
  have w1 := walls_are_mirrors h₁ i₁ n a q
  have w2 := walls_are_mirrors h₂ i₂ n a r
  exact ⟨fun p1 p2 => by rw [w1.1 p1, w2.1 p2, hqr], fun p1 p2 => by rw [w1.2 p1, w2.2 p2, hqr]⟩

/-- With conducting, magnetic and periodic walls the box always starts at the same index. -/
theorem box_no_layers {S : Sim} {C : CRef → ℝ} (hb : BoxModel S C) (f : Face) : S.cfg.layers f = 0 :=
  hb.cfg.other f (by rcases hb.walls f with h | h | h <;> rw [h] <;> decide)

theorem same_start {S₁ S₂ : Sim} {C₁ C₂ : CRef → ℝ} (h₁ : BoxModel S₁ C₁) (h₂ : BoxModel S₂ C₂) (a : Axis) :
    S₁.cfg.gibox a.lo = S₂.cfg.gibox a.lo := by
  have e1 := (C07.inner_offset S₁.cfg a).1
  have e2 := (C07.inner_offset S₂.cfg a).1
  rw [box_no_layers h₁] at e1
  rw [box_no_layers h₂] at e2
  have g : S₁.cfg.gobox a.lo = S₂.cfg.gobox a.lo := by cases a <;> rfl
  omega

section
variable {S₁ S₂ : Sim} {C₁ C₂ : CRef → ℝ} {u₁ u₂ : Nat → Loc → ℝ} {d : Axis} {w : Wall} {h m : Int}
  (hb₁ : BoxModel S₁ C₁) (hb₂ : BoxModel S₂ C₂) (hu₂ : BoxCurrents S₂ u₂) (hh : UpperHalf S₁ C₁ u₁ S₂ C₂ u₂ d w h m)
include hb₁ hb₂ hh

/-- The space the whole is cut out of. -/
noncomputable def wholeSpace (S : Sim) (C : CRef → ℝ) : Space :=
  imagesOf S C (fun a q => coef C .alpha a.e q) (fun a q => coef C .beta a.e q)

omit hb₁ hh in
theorem whole_cut : CutOut S₂ C₂ (wholeSpace S₂ C₂) (fun _ => 0) := (images_exist hb₂ hb₂.endsAlpha hb₂.endsBeta).1

omit hb₁ hh in
/-- Coefficients of the space in the box, metal walls included. -/
theorem whole_inside {a : Axis} {q : Axis → Int} (hq : InE S₂.cfg a q) :
    (wholeSpace S₂ C₂).alpha a q = coef C₂ .alpha a.e q ∧ (wholeSpace S₂ C₂).beta a q = coef C₂ .beta a.e q := by
  have k := images_exist hb₂ hb₂.endsAlpha hb₂.endsBeta
  by_cases hn : OnConductor S₂.cfg a q
  · exact k.2 a q hq hn
  · have k1 := k.1.alpha a q hq hn
    have k2 := k.1.beta a q hq hn
    rw [into_zero] at k1 k2
    exact ⟨k1.symm, k2.symm⟩

/-- The walls at the two ends of the whole along `d` are equal mirrors. -/
theorem ends_mirror : ∃ w', wallOf (S₂.cfg.bt d.lo) = some w' ∧ wallOf (S₂.cfg.bt d.hi) = some w' ∧ wallOf (S₁.cfg.bt d.hi) = some w' := by
  have np : S₁.cfg.bt d.hi ≠ .periodic := by
    intro hp
    have := hb₁.cfg.paired d.hi hp
    have e : d.hi.opposite = d.lo := by cases d <;> rfl
    rw [e] at this
    have c := hh.closed
    rw [this] at c; exact absurd c (by simp [wallOf])
  rw [hh.ends.2, ← hh.ends.1]
  rcases hb₁.walls d.hi with e | e | e
  · exact ⟨.electric, by rw [e]; exact ⟨rfl, rfl, rfl⟩⟩
  · exact ⟨.magnetic, by rw [e]; exact ⟨rfl, rfl, rfl⟩⟩
  · exact absurd e np

theorem whole_not_periodic : S₂.cfg.bt d.lo ≠ .periodic := by
  obtain ⟨w', e, _⟩ := ends_mirror hb₁ hb₂ hh
  intro k; rw [k] at e; exact absurd e (by simp [wallOf])

/-- The upper half is where it says. -/
theorem half_start : S₁.cfg.gibox d.lo + h = m ∧ S₁.cfg.gibox d.hi + h = S₂.cfg.gibox d.hi ∧
    ∀ b, b ≠ d → S₁.cfg.gibox b.lo = S₂.cfg.gibox b.lo ∧ S₁.cfg.gibox b.hi = S₂.cfg.gibox b.hi := by
  have e := same_start hb₁ hb₂
  have w1 := fun b => width S₁.cfg b
  have w2 := fun b => width S₂.cfg b
  obtain ⟨c1, c2, c3⟩ := hh.cells
  refine ⟨by rw [e, hh.plane], ?_, fun b hb => ⟨e b, ?_⟩⟩
  · rw [← w1, ← w2, e, c1, c2]; ring
  · rw [← w1, ← w2, e, c3 b hb]

theorem half_inE {a : Axis} {q : Axis → Int} (hq : InE S₁.cfg a q) : InE S₂.cfg a (shifted d h q) := by
  have k := half_start hb₁ hb₂ hh
  have e := same_start hb₁ hb₂ d
  have hp := hh.plane
  have c := hh.cells.1 ▸ hb₁.cfg.cells d
  apply inE_of (s := one)
  intro b
  have i := insideE (s := one) hq b
  have w1 := width S₁.cfg b
  have w2 := width S₂.cfg b
  unfold Fold.Inside at i ⊢
  simp only [foldOf] at i ⊢
  by_cases hb : b = d
  · subst hb
    simp only [shifted, if_true]
    by_cases hx : halfE a b = true <;> simp [hx] at i ⊢ <;> omega
  · simp only [shifted, if_neg hb]
    have := k.2.2 b hb
    by_cases hx : halfE a b = true <;> simp [hx] at i ⊢ <;> omega

theorem half_inH {a : Axis} {q : Axis → Int} (hq : InH S₁.cfg a q) : InH S₂.cfg a (shifted d h q) := by
  have k := half_start hb₁ hb₂ hh
  have e := same_start hb₁ hb₂ d
  have hp := hh.plane
  have c := hh.cells.1 ▸ hb₁.cfg.cells d
  apply inH_of (s := one)
  intro b
  have i := insideH (s := one) hq b
  have w1 := width S₁.cfg b
  have w2 := width S₂.cfg b
  unfold Fold.Inside at i ⊢
  simp only [foldOf] at i ⊢
  by_cases hb : b = d
  · subst hb
    simp only [shifted, if_true]
    by_cases hx : halfH a b = true <;> simp [hx] at i ⊢ <;> omega
  · simp only [shifted, if_neg hb]
    have := k.2.2 b hb
    by_cases hx : halfH a b = true <;> simp [hx] at i ⊢ <;> omega

/-- Samples off the conducting walls of the half are off those of the whole. -/
theorem half_conductor {a : Axis} {q : Axis → Int} (hq : InE S₁.cfg a q) (hn : ¬ OnConductor S₁.cfg a q) :
    ¬ OnConductor S₂.cfg a (shifted d h q) := by
  have k := half_start hb₁ hb₂ hh
  rintro ⟨f, f1, f2, f3⟩
  apply hn
  by_cases hf : f.axis = d
  · have hl : f = d.lo ∨ f = d.hi := by subst hf; cases f <;> simp [Face.axis, Axis.lo, Axis.hi]
    rcases hl with rfl | rfl
    · exfalso
      have e := same_start hb₁ hb₂ d
      have i := (insideE (s := one) hq d).1
      simp only [foldOf] at i
      have c := hh.cells.1 ▸ hb₁.cfg.cells d
      simp only [shifted, hf, if_true] at f3
      omega
    · refine ⟨d.hi, hh.ends.1 ▸ f1, f2, ?_⟩
      simp only [shifted, hf, if_true] at f3 ⊢
      omega
  · refine ⟨f, hh.sides f hf ▸ f1, f2, ?_⟩
    simp only [shifted, if_neg hf] at f3
    have := k.2.2 _ hf
    cases f <;> simp only [Face.axis, Axis.lo, Axis.hi] at this f3 ⊢ <;> omega

/-- The space of the whole is its own image in the middle plane. -/
theorem whole_mirrors : (wholeSpace S₂ C₂).Mirrors d m := by
  have np : ∀ half s, (foldOf S₂.cfg half s d).per = false := fun half s => by
    simp [foldOf, whole_not_periodic hb₁ hb₂ hh]
  have hN := hh.cells.2.1
  have hp := hh.plane
  have vA : (wholeSpace S₂ C₂).alpha = extend (foldOf S₂.cfg halfE one) fun a q => coef C₂ .alpha a.e q := by
    simp [wholeSpace, imagesOf]
  have vB : (wholeSpace S₂ C₂).beta = extend (foldOf S₂.cfg halfE one) fun a q => coef C₂ .beta a.e q := by
    simp [wholeSpace, imagesOf]
  have mid := fun half (i : Int) (a : Axis) => (foldOf S₂.cfg half one d).middle (fold_ok hb₂.cfg one_unit d) (np _ _) a rfl hN i
  refine ⟨?_, ?_, ?_, fun i => ?_, fun i => ?_⟩
  · intro a q
    have k := extend_middle (W := foldOf S₂.cfg halfE one) (fold_ok hb₂.cfg one_unit) (d := d) (np _ _) rfl hN
      (V := fun a q => coef C₂ .alpha a.e q) (s := fun _ => 1)
      (fun a q hi => by rw [one_mul]; have := hh.imageAlpha a q (inE_of hi); rw [hp] at this; exact this) a q
    rw [vA, hp]; rw [one_mul] at k; exact k
  · intro a q
    have k := extend_middle (W := foldOf S₂.cfg halfE one) (fold_ok hb₂.cfg one_unit) (d := d) (np _ _) rfl hN
      (V := fun a q => coef C₂ .beta a.e q) (s := fun _ => 1)
      (fun a q hi => by rw [one_mul]; have := hh.imageBeta a q (inE_of hi); rw [hp] at this; exact this) a q
    rw [vB, hp]; rw [one_mul] at k; exact k
  · intro a q
    have k := extend_middle (W := foldOf S₂.cfg halfH one) (fold_ok hb₂.cfg one_unit) (d := d) (np _ _) rfl hN
      (V := fun a q => coef C₂ .gamma a.h q) (s := fun _ => 1)
      (fun a q hi => by rw [one_mul]; have := hh.imageGamma a q (inH_of hi); rw [hp] at this; exact this) a q
    rw [hp]; rw [one_mul] at k; exact k
  · have k := (mid halfE i d).1
    have hf : (foldOf S₂.cfg halfE one d).half d = true := by simp [foldOf, halfE]
    have hr := (foldOf S₂.cfg halfE one d).idx_range (fold_ok hb₂.cfg one_unit d) d i
    unfold Fold.Inside at hr
    rw [hf] at k hr
    have w2 := width S₂.cfg d
    simp only [wholeSpace, imagesOf]
    rw [hp]
    rw [show (foldOf S₂.cfg halfE one d).l = S₂.cfg.gibox d.lo from rfl] at k hr
    rw [show (foldOf S₂.cfg halfE one d).N = S₂.cfg.n d from rfl] at hr
    rw [k, ← hp, hh.imageIde _ hr.1 (by have := hr.2; simp at this; omega)]
  · have k := (mid halfH i d).1
    have hf : (foldOf S₂.cfg halfH one d).half d = false := by simp [foldOf, halfH]
    have hr := (foldOf S₂.cfg halfH one d).idx_range (fold_ok hb₂.cfg one_unit d) d i
    unfold Fold.Inside at hr
    rw [hf] at k hr
    have w2 := width S₂.cfg d
    simp only [wholeSpace, imagesOf]
    rw [hp]
    rw [show (foldOf S₂.cfg halfH one d).l = S₂.cfg.gibox d.lo from rfl] at k hr
    rw [show (foldOf S₂.cfg halfH one d).N = S₂.cfg.n d from rfl] at hr
    rw [k, ← hp, hh.imageIdh _ hr.1 (by have := hr.2; simp at this; omega)]

/-- Conducting walls are their own images in the middle plane. -/
theorem conductor_image {a : Axis} (q : Axis → Int) :
    (OnConductor S₂.cfg a (imageE d m a q) ↔ OnConductor S₂.cfg a q) := by
  have hp := hh.plane
  have hN := hh.cells.2.1
  have w2 := width S₂.cfg d
  have e2 := hh.ends.2
  have go : ∀ q, OnConductor S₂.cfg a q → OnConductor S₂.cfg a (imageE d m a q) := by
    rintro q ⟨f, f1, f2, f3⟩
    by_cases hf : f.axis = d
    · have hl : f = d.lo ∨ f = d.hi := by subst hf; cases f <;> simp [Face.axis, Axis.lo, Axis.hi]
      have ha : ¬ a = d := fun k => f2 (by rw [hf, k])
      rcases hl with rfl | rfl
      · refine ⟨d.hi, e2 ▸ f1, by intro k; exact ha (by rw [← k]; cases d <;> rfl), ?_⟩
        have : d.hi.axis = d := by cases d <;> rfl
        rw [hf] at f3
        rw [this]
        simp only [imageE, mirror, mirrorIndex, if_true, ha, decide_false, Bool.false_eq_true, if_false]
        omega
      · refine ⟨d.lo, e2 ▸ f1, by intro k; exact ha (by rw [← k]; cases d <;> rfl), ?_⟩
        have : d.lo.axis = d := by cases d <;> rfl
        rw [hf] at f3
        rw [this]
        simp only [imageE, mirror, mirrorIndex, if_true, ha, decide_false, Bool.false_eq_true, if_false]
        omega
    · exact ⟨f, f1, f2, by simp only [imageE, mirror, if_neg hf]; exact f3⟩
  refine ⟨fun k => ?_, go q⟩
  have := go _ k
  have e : imageE d m a (imageE d m a q) = q := by
    funext b
    simp only [imageE, mirror, mirrorIndex]
    split <;> (try split) <;> omega
  rwa [e] at this

theorem conductorH_image {a : Axis} (q : Axis → Int) :
    (OnConductorH S₂.cfg a (imageH d m a q) ↔ OnConductorH S₂.cfg a q) := by
  have hp := hh.plane
  have hN := hh.cells.2.1
  have w2 := width S₂.cfg d
  have e2 := hh.ends.2
  have go : ∀ q, OnConductorH S₂.cfg a q → OnConductorH S₂.cfg a (imageH d m a q) := by
    rintro q ⟨f, f1, f2, f3⟩
    by_cases hf : f.axis = d
    · have hl : f = d.lo ∨ f = d.hi := by subst hf; cases f <;> simp [Face.axis, Axis.lo, Axis.hi]
      have ha : a = d := by rw [← f2, hf]
      subst ha
      have il : a.lo.axis = a ∧ a.hi.axis = a := by cases a <;> exact ⟨rfl, rfl⟩
      rcases hl with rfl | rfl
      · refine ⟨a.hi, e2 ▸ f1, il.2, ?_⟩
        simp only [imageH, mirror, mirrorIndex, if_true, ne_eq, not_true, decide_false, Bool.false_eq_true, if_false]
        omega
      · refine ⟨a.lo, e2 ▸ f1, il.1, ?_⟩
        simp only [imageH, mirror, mirrorIndex, if_true, ne_eq, not_true, decide_false, Bool.false_eq_true, if_false]
        omega
    · refine ⟨f, f1, f2, ?_⟩
      rw [f2] at hf
      simp only [imageH, mirror, if_neg hf]; exact f3
  refine ⟨fun k => ?_, go q⟩
  have := go _ k
  have e : imageH d m a (imageH d m a q) = q := by
    funext b
    simp only [imageH, mirror, mirrorIndex]
    split <;> (try split) <;> omega
  rwa [e] at this

/-- The currents of the whole with their images are their own image in the middle plane. -/
theorem whole_currents (n : Nat) : SymmetricE w d m (imageJ S₂ u₂ n) ∧ SymmetricH w d m (imageM S₂ u₂ n) := by
  have np : ∀ half s, (foldOf S₂.cfg half s d).per = false := fun half s => by
    simp [foldOf, whole_not_periodic hb₁ hb₂ hh]
  have hN := hh.cells.2.1
  have hp := hh.plane
  have sl : ∀ half s, (foldOf S₂.cfg half s d).sl = (foldOf S₂.cfg half s d).sh := fun half s => by
    simp only [foldOf, hh.ends.2]
  constructor
  · intro a q
    have k := extend_middle (W := foldOf S₂.cfg halfE sE) (fold_ok hb₂.cfg sE_unit) (d := d) (np _ _) (sl _ _) hN
      (V := fun a q => if OnConductor S₂.cfg a q then 0
        else currentE S₂.srcs (fun m => u₂ n (.src false m)) a.e (q .x) (q .y) (q .z)) (s := w.signE d)
      (fun a q hi => by
        have e1 := hh.imageJ n a q (inE_of hi)
        have e2 := conductor_image (a := a) hb₁ hb₂ hh q
        have e3 : mirror ((foldOf S₂.cfg halfE sE d).half a) d ((foldOf S₂.cfg halfE sE d).l + h) q = imageE d m a q := by
          rw [hp]; rfl
        rw [e3]
        by_cases c : OnConductor S₂.cfg a q
        · rw [if_pos (e2.2 c), if_pos c, mul_zero]
        · rw [if_neg (fun k => c (e2.1 k)), if_neg c, e1]) a q
    rw [show imageE d m a q = mirror ((foldOf S₂.cfg halfE sE d).half a) d ((foldOf S₂.cfg halfE sE d).l + h) q from by
      rw [hp]; rfl]
    exact k
  · intro a q
    have k := extend_middle (W := foldOf S₂.cfg halfH sH) (fold_ok hb₂.cfg sH_unit) (d := d) (np _ _) (sl _ _) hN
      (V := fun a q => if OnConductorH S₂.cfg a q then 0
        else currentH S₂.srcs (fun m => u₂ n (.src true m)) a.h (q .x) (q .y) (q .z)) (s := w.signH d)
      (fun a q hi => by
        have e1 := hh.imageM n a q (inH_of hi)
        have e2 := conductorH_image (a := a) hb₁ hb₂ hh q
        have e3 : mirror ((foldOf S₂.cfg halfH sH d).half a) d ((foldOf S₂.cfg halfH sH d).l + h) q = imageH d m a q := by
          rw [hp]; rfl
        rw [e3]
        by_cases c : OnConductorH S₂.cfg a q
        · rw [if_pos (e2.2 c), if_pos c, mul_zero]
        · rw [if_neg (fun k => c (e2.1 k)), if_neg c, e1]) a q
    rw [show imageH d m a q = mirror ((foldOf S₂.cfg halfH sH d).half a) d ((foldOf S₂.cfg halfH sH d).l + h) q from by
      rw [hp]; rfl]
    exact k

/-- Origin of the half in the space of the whole. -/
def halfOrigin (d : Axis) (h : Int) : Axis → Int := fun b => if b = d then h else 0

omit hb₁ hb₂ hh in
theorem into_half (q : Axis → Int) : into (halfOrigin d h) q = shifted d h q := by
  funext b; simp only [into, halfOrigin, shifted]; split <;> simp

theorem wall_places (f : Face) : S₁.cfg.gibox f + halfOrigin d h f.axis = (if f = d.lo then m else S₂.cfg.gibox f) := by
  have k := half_start hb₁ hb₂ hh
  by_cases hf : f.axis = d
  · have hl : f = d.lo ∨ f = d.hi := by subst hf; cases f <;> simp [Face.axis, Axis.lo, Axis.hi]
    rcases hl with rfl | rfl
    · simp only [halfOrigin, hf, if_true]; exact k.1
    · rw [if_neg (by cases d <;> decide)]
      simp only [halfOrigin, hf, if_true]; exact k.2.1
  · rw [if_neg (by rintro rfl; exact hf (by cases d <;> rfl))]
    simp only [halfOrigin, if_neg hf, add_zero]
    have := k.2.2 _ hf
    cases f <;> simp only [Face.axis, Axis.lo, Axis.hi] at this ⊢ <;> omega

/-- Every mirror wall of the half but the new one is a wall of the whole. -/
theorem wall_kept {f : Face} (hf : f ≠ d.lo) : S₁.cfg.bt f = S₂.cfg.bt f := by
  by_cases e : f.axis = d
  · have hl : f = d.lo ∨ f = d.hi := by subst e; cases f <;> simp [Face.axis, Axis.lo, Axis.hi]
    rcases hl with rfl | rfl
    · exact absurd rfl hf
    · exact hh.ends.1
  · exact hh.sides f e

/-- **C49.** The half is cut out of the same space as the whole. -/
theorem half_cut : CutOut S₁ C₁ (wholeSpace S₂ C₂) (halfOrigin d h) := by
  have hc := whole_cut hb₂
  have k := half_start hb₁ hb₂ hh
  have e := same_start hb₁ hb₂ d
  have hcell := hh.cells.1 ▸ hb₁.cfg.cells d
  refine ⟨hb₁.cfg, hb₁.walls, hb₁.debye, hb₁.sibc, hb₁.pws, hb₁.currents, hb₁.soft, ?_, ?_, ?_, ?_, hb₁.metal, ?_, ?_, ?_⟩
  · intro b i h1 h2
    rw [hh.ide b i h1 h2]
    by_cases hb : b = d
    · subst hb
      have := hc.ide b (i + h) (by omega) (by omega)
      simp only [if_true, halfOrigin, add_zero] at this ⊢
      exact this
    · have kb := k.2.2 b hb
      have := hc.ide b i (by omega) (by omega)
      simp only [if_neg hb, halfOrigin] at this ⊢
      exact this
  · intro b i h1 h2
    rw [hh.idh b i h1 h2]
    by_cases hb : b = d
    · subst hb
      have := hc.idh b (i + h) (by omega) (by omega)
      simp only [if_true, halfOrigin, add_zero] at this ⊢
      exact this
    · have kb := k.2.2 b hb
      have := hc.idh b i (by omega) (by omega)
      simp only [if_neg hb, halfOrigin] at this ⊢
      exact this
  · intro a q hq hn
    rw [into_half, hh.alpha a q hq hn, (whole_inside hb₂ (half_inE hb₁ hb₂ hh hq)).1]
  · intro a q hq hn
    rw [into_half, hh.beta a q hq hn, (whole_inside hb₂ (half_inE hb₁ hb₂ hh hq)).2]
  · intro a q hq
    have := hc.gamma a _ (half_inH hb₁ hb₂ hh hq)
    rw [into_zero] at this
    rw [into_half, hh.gamma a q hq, this]
  · intro f w' hw
    rw [wall_places hb₁ hb₂ hh f]
    by_cases hf : f = d.lo
    · subst hf
      rw [if_pos rfl]
      have : d.lo.axis = d := by cases d <;> rfl
      rw [this]; exact whole_mirrors hb₁ hb₂ hh
    · rw [if_neg hf]
      rw [wall_kept hb₁ hb₂ hh hf] at hw
      have := hc.mirrors f w' hw
      rwa [add_zero] at this
  · intro f hf
    have hf' : f ≠ d.lo := by
      rintro rfl
      have := hh.closed
      rw [hf] at this; exact absurd this (by simp [wallOf])
    rw [wall_kept hb₁ hb₂ hh hf'] at hf
    have ha : f.axis ≠ d := by
      rintro rfl
      have : S₂.cfg.bt f.axis.lo = .periodic := by
        cases f <;> first | exact hf | exact hb₂.cfg.paired _ hf
      exact whole_not_periodic hb₁ hb₂ hh this
    rw [hh.cells.2.2 _ ha]
    exact hc.repeats f hf

include hu₂ in
theorem half_impressed : Impressed S₁ (halfOrigin d h) u₁ (imageJ S₂ u₂) (imageM S₂ u₂) := by
  have hi := currents_exist hb₂ hu₂
  have hc := whole_currents hb₁ hb₂ hh
  refine ⟨?_, ?_, ?_, ?_, ?_, ?_⟩
  · intro n a q hq hn
    have := hi.electric n a _ (half_inE hb₁ hb₂ hh hq) (half_conductor hb₁ hb₂ hh hq hn)
    rw [into_zero] at this
    rw [into_half, this, hh.electric n a q hq hn]
  · intro n a q hq
    have := hi.magnetic n a _ (half_inH hb₁ hb₂ hh hq)
    rw [into_zero] at this
    rw [into_half, this, hh.magnetic n a q hq]
  · intro f w' hw n
    rw [wall_places hb₁ hb₂ hh f]
    by_cases hf : f = d.lo
    · subst hf
      rw [if_pos rfl]
      have : d.lo.axis = d := by cases d <;> rfl
      rw [this]
      have e : w' = w := by rw [hh.closed] at hw; exact (Option.some.inj hw).symm
      rw [e]; exact (hc n).1
    · rw [if_neg hf]
      rw [wall_kept hb₁ hb₂ hh hf] at hw
      have := hi.imagesE f w' hw n
      rwa [add_zero] at this
  · intro f w' hw n
    rw [wall_places hb₁ hb₂ hh f]
    by_cases hf : f = d.lo
    · subst hf
      rw [if_pos rfl]
      have : d.lo.axis = d := by cases d <;> rfl
      rw [this]
      have e : w' = w := by rw [hh.closed] at hw; exact (Option.some.inj hw).symm
      rw [e]; exact (hc n).2
    · rw [if_neg hf]
      rw [wall_kept hb₁ hb₂ hh hf] at hw
      have := hi.imagesH f w' hw n
      rwa [add_zero] at this
  all_goals
    intro f hf n
    have hf' : f ≠ d.lo := by
      rintro rfl
      have := hh.closed
      rw [hf] at this; exact absurd this (by simp [wallOf])
    rw [wall_kept hb₁ hb₂ hh hf'] at hf
    have ha : f.axis ≠ d := by
      rintro rfl
      have : S₂.cfg.bt f.axis.lo = .periodic := by
        cases f <;> first | exact hf | exact hb₂.cfg.paired _ hf
      exact whole_not_periodic hb₁ hb₂ hh this
    rw [hh.cells.2.2 _ ha]
  · exact hi.repeatsE f hf n
  · exact hi.repeatsH f hf n

include hu₂ in
/-- **C49.** A symmetry plane may be replaced by a wall: if media, mesh and currents of a model are their own image in its middle
plane, then the model of the upper half, closed by the wall of that kind, gives in every step exactly the fields of the upper half
of the whole, and its images are the fields of the lower half. -/
theorem symmetry_plane (n : Nat) (a : Axis) (q : Axis → Int) :
    (InE S₁.cfg a q →
      at3 (S₂.state C₂ u₂ (fun _ => 0) n) a.e (shifted d h q) = at3 (S₁.state C₁ u₁ (fun _ => 0) n) a.e q ∧
      at3 (S₂.state C₂ u₂ (fun _ => 0) n) a.e (imageE d m a (shifted d h q)) =
        w.signE d a * at3 (S₁.state C₁ u₁ (fun _ => 0) n) a.e q) ∧
    (InH S₁.cfg a q →
      at3 (S₂.state C₂ u₂ (fun _ => 0) n) a.h (shifted d h q) = at3 (S₁.state C₁ u₁ (fun _ => 0) n) a.h q ∧
      at3 (S₂.state C₂ u₂ (fun _ => 0) n) a.h (imageH d m a (shifted d h q)) =
        w.signH d a * at3 (S₁.state C₁ u₁ (fun _ => 0) n) a.h q) := by
  have hi2 := currents_exist hb₂ hu₂
  have hi1 := half_impressed hb₁ hb₂ hu₂ hh
  have w1 := walls_are_mirrors (half_cut hb₁ hb₂ hh) hi1 n a q
  have w2 := walls_are_mirrors (whole_cut hb₂) hi2 n a
  have sy := run_symmetric (whole_mirrors hb₁ hb₂ hh) (fun n => (whole_currents hb₁ hb₂ hh n).1)
    (fun n => (whole_currents hb₁ hb₂ hh n).2) n
  have hp := hh.plane
  have hN := hh.cells.2.1
  rw [into_half] at w1
  have imE : InE S₁.cfg a q → InE S₂.cfg a (imageE d m a (shifted d h q)) := by
    intro hq
    have i := half_inE hb₁ hb₂ hh hq
    apply inE_of (s := one)
    intro b
    have ib := insideE (s := one) i b
    have w2 := width S₂.cfg b
    unfold Fold.Inside at ib ⊢
    simp only [foldOf] at ib ⊢
    by_cases hb : b = d
    · subst hb
      simp only [imageE, mirror, mirrorIndex, if_true, halfE] at ib ⊢
      split <;> simp_all <;> omega
    · simp only [imageE, mirror, if_neg hb]; exact ib
  have imH : InH S₁.cfg a q → InH S₂.cfg a (imageH d m a (shifted d h q)) := by
    intro hq
    have i := half_inH hb₁ hb₂ hh hq
    apply inH_of (s := one)
    intro b
    have ib := insideH (s := one) i b
    have w2 := width S₂.cfg b
    unfold Fold.Inside at ib ⊢
    simp only [foldOf] at ib ⊢
    by_cases hb : b = d
    · subst hb
      simp only [imageH, mirror, mirrorIndex, if_true, halfH] at ib ⊢
      split <;> simp_all <;> omega
    · simp only [imageH, mirror, if_neg hb]; exact ib
  refine ⟨fun hq => ?_, fun hq => ?_⟩
  · have e1 := (w2 (shifted d h q)).1 (half_inE hb₁ hb₂ hh hq)
    have e2 := (w2 (imageE d m a (shifted d h q))).1 (imE hq)
    rw [into_zero] at e1 e2
    refine ⟨by rw [w1.1 hq]; exact e1, ?_⟩
    rw [w1.1 hq]
    exact e2.trans (sy.1 a _)
  · have e1 := (w2 (shifted d h q)).2 (half_inH hb₁ hb₂ hh hq)
    have e2 := (w2 (imageH d m a (shifted d h q))).2 (imH hq)
    rw [into_zero] at e1 e2
    refine ⟨by rw [w1.2 hq]; exact e1, ?_⟩
    rw [w1.2 hq]
    exact e2.trans (sy.2 a _)
end

end Vulture.C49
