import Verif.Spec.Images
import Verif.Spec.Reaction
/-
When a model is a piece cut out of unbounded space along mirror planes and periods (C49).
-/
namespace Vulture.Spec.Unbounded
open Vulture Vulture.Spec

/-- The mirror a boundary type stands for. -/
def wallOf : BType → Option Wall
  | .pec => some .electric
  | .pmc => some .magnetic
  | _ => none

/-- The point of space of an index of the model, whose origin lies at `o`. -/
def into (o q : Axis → Int) : Axis → Int := fun a => q a + o a

/-- The electric, magnetic sample of component `a` at `q` is in the closed box of the model. -/
def InE (c : Cfg) (a : Axis) (q : Axis → Int) : Prop := SampleIn c.gibox a.e (q .x) (q .y) (q .z)
def InH (c : Cfg) (a : Axis) (q : Axis → Int) : Prop := SampleIn c.gibox a.h (q .x) (q .y) (q .z)

/-- The electric sample lies in the plane of a conducting wall. -/
def OnConductor (c : Cfg) (a : Axis) (q : Axis → Int) : Prop := ∃ f, c.bt f = .pec ∧ f.axis ≠ a ∧ q f.axis = c.gibox f

/-- A coefficient of the run at a sample. -/
def coef (C : CRef → ℝ) (k : Fc → Int → Int → Int → CRef) (fc : Fc) (q : Axis → Int) : ℝ := C (k fc (q .x) (q .y) (q .z))

/-- The model `S` with the coefficients `C` is cut out of the space `X`: its outer faces are conducting, magnetic or periodic
walls; it contains simple media and current sources only; its lengths and coefficients are those of the space, and on conducting
walls it is metal; the space is its own mirror image in every conducting and magnetic wall and repeats along periodic axes. -/
structure CutOut (S : Sim) (C : CRef → ℝ) (X : Space) (o : Axis → Int) : Prop where
  cfg : ValidCfg S.cfg
  walls : ∀ f, S.cfg.bt f = .pec ∨ S.cfg.bt f = .pmc ∨ S.cfg.bt f = .periodic
  debye : S.debye = []
  sibc : S.sibc = []
  pws : S.pws = []
  currents : CurrentsOnly S.srcs
  soft : ∀ n, n < S.srcs.length → C (.soft n) = 1
  ide : ∀ a i, S.cfg.gibox a.lo ≤ i → i < S.cfg.gibox a.hi → C (.ide a i) = 1 / X.de a (i + o a)
  idh : ∀ a i, S.cfg.gibox a.lo ≤ i → i ≤ S.cfg.gibox a.hi → C (.idh a i) = 1 / X.dh a (i + o a)
  alpha : ∀ a q, InE S.cfg a q → ¬ OnConductor S.cfg a q → coef C .alpha a.e q = X.alpha a (into o q)
  beta : ∀ a q, InE S.cfg a q → ¬ OnConductor S.cfg a q → coef C .beta a.e q = X.beta a (into o q)
  metal : ∀ a q, InE S.cfg a q → OnConductor S.cfg a q → coef C .beta a.e q = 0
  gamma : ∀ a q, InH S.cfg a q → coef C .gamma a.h q = X.gamma a (into o q)
  mirrors : ∀ f w, wallOf (S.cfg.bt f) = some w → X.Mirrors f.axis (S.cfg.gibox f + o f.axis)
  repeats : ∀ f, S.cfg.bt f = .periodic → X.Repeats f.axis (S.cfg.n f.axis)

/-- The currents `J`, `M` in space are those the sources of the model impress (with the driving values `u`), together with their
images and repetitions. -/
structure Impressed (S : Sim) (o : Axis → Int) (u : Nat → Loc → ℝ) (J M : Nat → Comp) : Prop where
  electric : ∀ n a q, InE S.cfg a q → ¬ OnConductor S.cfg a q →
    J n a (into o q) = currentE S.srcs (fun m => u n (.src false m)) a.e (q .x) (q .y) (q .z)
  magnetic : ∀ n a q, InH S.cfg a q →
    M n a (into o q) = currentH S.srcs (fun m => u n (.src true m)) a.h (q .x) (q .y) (q .z)
  imagesE : ∀ f w, wallOf (S.cfg.bt f) = some w → ∀ n, SymmetricE w f.axis (S.cfg.gibox f + o f.axis) (J n)
  imagesH : ∀ f w, wallOf (S.cfg.bt f) = some w → ∀ n, SymmetricH w f.axis (S.cfg.gibox f + o f.axis) (M n)
  repeatsE : ∀ f, S.cfg.bt f = .periodic → ∀ n, Repeats f.axis (S.cfg.n f.axis) (J n)
  repeatsH : ∀ f, S.cfg.bt f = .periodic → ∀ n, Repeats f.axis (S.cfg.n f.axis) (M n)

end Vulture.Spec.Unbounded

namespace Vulture.Spec.Unbounded
open Vulture Vulture.Spec

/-- The magnetic sample lies in the plane of a conducting wall. -/
def OnConductorH (c : Cfg) (a : Axis) (q : Axis → Int) : Prop := ∃ f, c.bt f = .pec ∧ f.axis = a ∧ q a = c.gibox f

/-- The two end planes of periodic axes carry the same values. -/
def EndsMatch (c : Cfg) (In : Cfg → Axis → (Axis → Int) → Prop) (V : Comp) : Prop :=
  ∀ d a q r, c.bt d.lo = .periodic → In c a q → In c a r → q d = c.gibox d.hi → r d = c.gibox d.lo → (∀ b, b ≠ d → r b = q b) →
    V a r = V a q

/-- A model with conducting, magnetic and periodic walls, simple media and current sources. Conducting walls are metal; along
periodic axes the two end planes carry the same coefficients. -/
structure BoxModel (S : Sim) (C : CRef → ℝ) : Prop where
  cfg : ValidCfg S.cfg
  walls : ∀ f, S.cfg.bt f = .pec ∨ S.cfg.bt f = .pmc ∨ S.cfg.bt f = .periodic
  debye : S.debye = []
  sibc : S.sibc = []
  pws : S.pws = []
  currents : CurrentsOnly S.srcs
  soft : ∀ n, n < S.srcs.length → C (.soft n) = 1
  metal : ∀ a q, InE S.cfg a q → OnConductor S.cfg a q → coef C .beta a.e q = 0
  endsAlpha : EndsMatch S.cfg InE fun a q => coef C .alpha a.e q
  endsBeta : EndsMatch S.cfg InE fun a q => coef C .beta a.e q
  endsGamma : EndsMatch S.cfg InH fun a q => coef C .gamma a.h q
  endsLength : ∀ d, S.cfg.bt d.lo = .periodic → C (.idh d (S.cfg.gibox d.lo)) = C (.idh d (S.cfg.gibox d.hi))

/-- Sources whose images make sense: none drives the magnetic field normal to a conducting wall in the wall, and on periodic axes
they drive both end planes alike. -/
structure BoxCurrents (S : Sim) (u : Nat → Loc → ℝ) : Prop where
  normal : ∀ n a q, InH S.cfg a q → OnConductorH S.cfg a q →
    currentH S.srcs (fun m => u n (.src true m)) a.h (q .x) (q .y) (q .z) = 0
  endsJ : ∀ n, EndsMatch S.cfg InE fun a q => currentE S.srcs (fun m => u n (.src false m)) a.e (q .x) (q .y) (q .z)
  endsM : ∀ n, EndsMatch S.cfg InH fun a q => currentH S.srcs (fun m => u n (.src true m)) a.h (q .x) (q .y) (q .z)

end Vulture.Spec.Unbounded

namespace Vulture.Spec.Unbounded
open Vulture Vulture.Spec

/-- `S₁` with coefficients `C₁` and driving values `u₁` is the upper half along `d` of the model `S₂`, `C₂`, `u₂`, closed with the
wall `w` on the middle plane (the node plane `m`, `h` cells above the low wall); `S₂` is its own image in that plane. -/
structure UpperHalf (S₁ : Sim) (C₁ : CRef → ℝ) (u₁ : Nat → Loc → ℝ) (S₂ : Sim) (C₂ : CRef → ℝ) (u₂ : Nat → Loc → ℝ)
    (d : Axis) (w : Wall) (h m : Int) : Prop where
  plane : m = S₂.cfg.gibox d.lo + h
  cells : S₁.cfg.n d = h ∧ S₂.cfg.n d = 2 * h ∧ ∀ b, b ≠ d → S₁.cfg.n b = S₂.cfg.n b
  sides : ∀ f, f.axis ≠ d → S₁.cfg.bt f = S₂.cfg.bt f
  closed : wallOf (S₁.cfg.bt d.lo) = some w
  ends : S₁.cfg.bt d.hi = S₂.cfg.bt d.hi ∧ S₂.cfg.bt d.lo = S₂.cfg.bt d.hi
  /- The lengths, media and currents of the half are those of the whole. -/
  ide : ∀ b i, S₁.cfg.gibox b.lo ≤ i → i < S₁.cfg.gibox b.hi → C₁ (.ide b i) = C₂ (.ide b (if b = d then i + h else i))
  idh : ∀ b i, S₁.cfg.gibox b.lo ≤ i → i ≤ S₁.cfg.gibox b.hi → C₁ (.idh b i) = C₂ (.idh b (if b = d then i + h else i))
  alpha : ∀ a q, InE S₁.cfg a q → ¬ OnConductor S₁.cfg a q → coef C₁ .alpha a.e q = coef C₂ .alpha a.e (shifted d h q)
  beta : ∀ a q, InE S₁.cfg a q → ¬ OnConductor S₁.cfg a q → coef C₁ .beta a.e q = coef C₂ .beta a.e (shifted d h q)
  gamma : ∀ a q, InH S₁.cfg a q → coef C₁ .gamma a.h q = coef C₂ .gamma a.h (shifted d h q)
  electric : ∀ n a q, InE S₁.cfg a q → ¬ OnConductor S₁.cfg a q →
    currentE S₁.srcs (fun m => u₁ n (.src false m)) a.e (q .x) (q .y) (q .z) =
    currentE S₂.srcs (fun m => u₂ n (.src false m)) a.e (shifted d h q .x) (shifted d h q .y) (shifted d h q .z)
  magnetic : ∀ n a q, InH S₁.cfg a q →
    currentH S₁.srcs (fun m => u₁ n (.src true m)) a.h (q .x) (q .y) (q .z) =
    currentH S₂.srcs (fun m => u₂ n (.src true m)) a.h (shifted d h q .x) (shifted d h q .y) (shifted d h q .z)
  /- The whole is its own image. -/
  imageIde : ∀ i, S₂.cfg.gibox d.lo ≤ i → i < S₂.cfg.gibox d.hi → C₂ (.ide d (mirrorIndex true m i)) = C₂ (.ide d i)
  imageIdh : ∀ i, S₂.cfg.gibox d.lo ≤ i → i ≤ S₂.cfg.gibox d.hi → C₂ (.idh d (mirrorIndex false m i)) = C₂ (.idh d i)
  imageAlpha : ∀ a q, InE S₂.cfg a q → coef C₂ .alpha a.e (imageE d m a q) = coef C₂ .alpha a.e q
  imageBeta : ∀ a q, InE S₂.cfg a q → coef C₂ .beta a.e (imageE d m a q) = coef C₂ .beta a.e q
  imageGamma : ∀ a q, InH S₂.cfg a q → coef C₂ .gamma a.h (imageH d m a q) = coef C₂ .gamma a.h q
  imageJ : ∀ n a q, InE S₂.cfg a q →
    currentE S₂.srcs (fun m => u₂ n (.src false m)) a.e (imageE d m a q .x) (imageE d m a q .y) (imageE d m a q .z) =
    w.signE d a * currentE S₂.srcs (fun m => u₂ n (.src false m)) a.e (q .x) (q .y) (q .z)
  imageM : ∀ n a q, InH S₂.cfg a q →
    currentH S₂.srcs (fun m => u₂ n (.src true m)) a.h (imageH d m a q .x) (imageH d m a q .y) (imageH d m a q .z) =
    w.signH d a * currentH S₂.srcs (fun m => u₂ n (.src true m)) a.h (q .x) (q .y) (q .z)

end Vulture.Spec.Unbounded
