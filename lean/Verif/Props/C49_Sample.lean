import Verif.Props.C49_Half
/-
C49: concrete boxes that meet the hypotheses of the image principle and of the symmetry plane.
-/
set_option linter.unusedSimpArgs false
set_option linter.unusedVariables false
namespace Vulture.C49
open Spec Unbounded

/-- Two by two by `nz` cells; a conducting and a magnetic wall along x, periodic along y, conducting walls along z. -/
def boxCfg (nz : Int) : Cfg where
  n := fun | .z => nz | _ => 2
  bt := fun | .xlo => .pec | .xhi => .pmc | .ylo => .periodic | .yhi => .periodic | _ => .pec
  layers := fun _ => 0

/-- A current along z on the edges between the node planes `lo` and `hi` of a line in the middle of the box. -/
def boxSrc (lo hi : Int) : Src where
  kind := .ecurr
  field := .ez
  gbbox := fun | .zlo => lo | .zhi => hi | _ => 2

def boxSim (nz lo hi : Int) : Sim := ⟨boxCfg nz, [], [], [boxSrc lo hi], []⟩

/-- Free space with cells of unit size, metal on the conducting walls. -/
noncomputable def boxCoef (nz : Int) : CRef → ℝ
  | .beta .ex _ _ k => if k = 1 ∨ k = 1 + nz then 0 else 1 / 2
  | .beta .ey i _ k => if i = 1 ∨ k = 1 ∨ k = 1 + nz then 0 else 1 / 2
  | .beta .ez i _ _ => if i = 1 then 0 else 1 / 2
  | .gamma .. => 1 / 2
  | _ => 1

/-- A ramp. -/
noncomputable def boxDrive : Nat → Loc → ℝ := fun n _ => n + 1

theorem box_gibox (nz : Int) : (boxCfg nz).gibox .xlo = 1 ∧ (boxCfg nz).gibox .xhi = 3 ∧ (boxCfg nz).gibox .ylo = 1 ∧
    (boxCfg nz).gibox .yhi = 3 ∧ (boxCfg nz).gibox .zlo = 1 ∧ (boxCfg nz).gibox .zhi = 1 + nz := by
  simp [Cfg.gibox, Cfg.giboxLo, Cfg.giboxHi, Cfg.goboxLo, Cfg.numLines, boxCfg, NUM_GHOST_CELLS, add_comm]

theorem box_conductor (nz : Int) (a : Axis) (q : Axis → Int) :
    OnConductor (boxCfg nz) a q ↔ (a ≠ .x ∧ q .x = 1) ∨ (a ≠ .z ∧ (q .z = 1 ∨ q .z = 1 + nz)) := by
  have g := box_gibox nz
  constructor
  · rintro ⟨f, f1, f2, f3⟩
    cases f <;> simp [boxCfg] at f1 <;> simp only [Face.axis] at f2 f3
    · exact Or.inl ⟨fun h => f2 h.symm, by rw [f3]; exact g.1⟩
    · exact Or.inr ⟨fun h => f2 h.symm, Or.inl (by rw [f3]; exact g.2.2.2.2.1)⟩
    · exact Or.inr ⟨fun h => f2 h.symm, Or.inr (by rw [f3]; exact g.2.2.2.2.2)⟩
  · rintro (⟨h1, h2⟩ | ⟨h1, h2 | h2⟩)
    · exact ⟨.xlo, rfl, fun h => h1 h.symm, by rw [g.1]; exact h2⟩
    · exact ⟨.zlo, rfl, fun h => h1 h.symm, by rw [g.2.2.2.2.1]; exact h2⟩
    · exact ⟨.zhi, rfl, fun h => h1 h.symm, by rw [g.2.2.2.2.2]; exact h2⟩

theorem box_currentE (nz lo hi : Int) (v : Nat → ℝ) (a : Axis) (q : Axis → Int) :
    currentE (boxSim nz lo hi).srcs v a.e (q .x) (q .y) (q .z) =
      if a = .z ∧ q .x = 2 ∧ q .y = 2 ∧ lo ≤ q .z ∧ q .z < hi then v 0 else 0 := by
  unfold currentE boxSim
  simp only [List.zipIdx_cons, List.zipIdx_nil, List.map_cons, List.map_nil, List.sum_cons, List.sum_nil, add_zero]
  refine if_congr ?_ rfl rfl
  cases a <;> simp [boxSrc, Axis.e, SampleIn, pos2]
  constructor
  · rintro ⟨h1, h2, h3, h4⟩; omega
  · rintro ⟨h1, h2, h3, h4⟩; omega

theorem box_currentH (nz lo hi : Int) (v : Nat → ℝ) (a : Axis) (q : Axis → Int) :
    currentH (boxSim nz lo hi).srcs v a.h (q .x) (q .y) (q .z) = 0 := by
  unfold currentH boxSim
  simp [boxSrc]

theorem box_model {nz lo hi : Int} (h : 1 ≤ nz) : BoxModel (boxSim nz lo hi) (boxCoef nz) where
  cfg := by
    refine ⟨?_, ?_, ?_, ?_⟩
    · intro a; cases a <;> simp [boxSim, boxCfg, h]
    · intro f hf; cases f <;> simp [boxSim, boxCfg] at hf
    · intro f hf; rfl
    · intro f hf; cases f <;> simp [boxSim, boxCfg] at hf <;> rfl
  walls := by intro f; cases f <;> simp [boxSim, boxCfg]
  debye := rfl
  sibc := rfl
  pws := rfl
  currents := by intro x hx; simp [boxSim] at hx; subst hx; exact Or.inl ⟨rfl, rfl⟩
  soft := by intro n hn; rfl
  metal := by
    intro a q _ hc
    rw [show (boxSim nz lo hi).cfg = boxCfg nz from rfl, box_conductor] at hc
    cases a <;> simp [coef, Axis.e, boxCoef] at hc ⊢ <;> tauto
  endsAlpha := by intro d a q r _ _ _ _ _ _; rfl
  endsBeta := by
    intro d a q r hp _ _ _ _ hr
    have hd : d = .y := by cases d <;> simp [boxSim, boxCfg, Axis.lo] at hp ⊢
    subst hd
    have e1 := hr .x (by decide)
    have e2 := hr .z (by decide)
    cases a <;> simp [coef, Axis.e, boxCoef, e1, e2]
  endsGamma := by intro d a q r _ _ _ _ _ _; rfl
  endsLength := by intro d _; rfl

theorem box_currents {nz lo hi : Int} : BoxCurrents (boxSim nz lo hi) boxDrive where
  normal := by intro n a q _ _; exact box_currentH nz lo hi _ a q
  endsJ := by
    intro n d a q r hp _ _ hq hr h
    have hd : d = .y := by cases d <;> simp [boxSim, boxCfg, Axis.lo] at hp ⊢
    subst hd
    have g := box_gibox nz
    have e1 := hr; have e2 := hq
    simp only [Axis.lo, Axis.hi, show (boxSim nz lo hi).cfg = boxCfg nz from rfl] at e1 e2
    rw [g.2.2.1] at e1
    rw [g.2.2.2.1] at e2
    simp only [box_currentE]
    rw [if_neg (by rintro ⟨-, -, k, -⟩; omega), if_neg (by rintro ⟨-, -, k, -⟩; omega)]
  endsM := by
    intro n d a q r hp _ _ hq hr h
    simp only [box_currentH]

/-- The box of two layers, with the source on the edge at its low wall, is the upper half of the box of four layers with the source
on the two edges in its middle. -/
theorem box_half : UpperHalf (boxSim 2 1 2) (boxCoef 2) boxDrive (boxSim 4 2 4) (boxCoef 4) boxDrive .z .electric 2 3 where
  plane := by have g := box_gibox 4; simp only [Axis.lo, show (boxSim 4 2 4).cfg = boxCfg 4 from rfl]; rw [g.2.2.2.2.1]; rfl
  cells := by refine ⟨rfl, rfl, fun b hb => ?_⟩; cases b <;> first | rfl | exact absurd rfl hb
  sides := by intro f hf; cases f <;> first | rfl | exact absurd rfl hf
  closed := rfl
  ends := ⟨rfl, rfl⟩
  ide := by intros; rfl
  idh := by intros; rfl
  alpha := by intros; rfl
  beta := by
    intro a q hq hn
    have i := insideE (s := one) hq .z
    have g := box_gibox 2
    rw [show (boxSim 2 1 2).cfg = boxCfg 2 from rfl] at hn i
    rw [box_conductor] at hn
    have i1 := i.1
    simp only [foldOf, Axis.lo] at i1
    rw [g.2.2.2.2.1] at i1
    cases a <;> simp [coef, Axis.e, boxCoef, shifted] at hn ⊢ <;> split <;> split <;> first | rfl | (exfalso; omega)
  gamma := by intros; rfl
  electric := by
    intro n a q hq hn
    rw [box_currentE, box_currentE]
    refine if_congr ?_ rfl rfl
    have e1 : shifted .z 2 q .x = q .x := rfl
    have e2 : shifted .z 2 q .y = q .y := rfl
    have e3 : shifted .z 2 q .z = q .z + 2 := rfl
    rw [e1, e2, e3]
    have i1 := (insideE (s := one) hq .z).1
    have g := box_gibox 2
    simp only [foldOf, Axis.lo, show (boxSim 2 1 2).cfg = boxCfg 2 from rfl] at i1
    rw [g.2.2.2.2.1] at i1
    constructor <;> rintro ⟨h1, h2, h3, h4, h5⟩ <;> exact ⟨h1, h2, h3, by omega, by omega⟩
  magnetic := by intro n a q _; rw [box_currentH, box_currentH]
  imageIde := by intros; rfl
  imageIdh := by intros; rfl
  imageAlpha := by intros; rfl
  imageBeta := by
    intro a q hq
    cases a <;> simp [coef, Axis.e, boxCoef, imageE, mirror, mirrorIndex] <;> split <;> split <;> first | rfl | (exfalso; omega)
  imageGamma := by intros; rfl
  imageJ := by
    intro n a q hq
    rw [box_currentE, box_currentE]
    cases a
    · simp
    · simp
    · simp only [Wall.signE, if_true, one_mul, imageE, mirror, mirrorIndex, decide_true]
      refine if_congr ?_ rfl rfl
      simp
      intros; omega
  imageM := by intro n a q _; rw [box_currentH, box_currentH, mul_zero]

/-- The hypotheses of the theorems of C49 are met, with a source that acts: the field of the whole and of the half after the first
step. -/
theorem box_acts (q : Axis → Int) (hx : q .x = 2) (hy : q .y = 2) (hz : q .z = 1) :
    at3 ((boxSim 2 1 2).state (boxCoef 2) boxDrive (fun _ => 0) 1) .ez q = -(1 / 2) ∧
    at3 ((boxSim 4 2 4).state (boxCoef 4) boxDrive (fun _ => 0) 1) .ez (shifted .z 2 q) = -(1 / 2) := by
  have g := box_gibox 2
  have hin : InE (boxCfg 2) .z q := by
    refine ⟨?_, ?_, ?_⟩ <;> simp only [g, Axis.e, pos2, hx, hy, hz] <;> omega
  have hn : ¬ OnConductor (boxCfg 2) .z q := by
    rw [box_conductor]; simp [hx]
  have hb := box_model (nz := 2) (lo := 1) (hi := 2) (by norm_num)
  have p := (image_principle hb (u := boxDrive) box_currents (fa := fun _ _ => 0) (fb := fun _ _ => 0)
    (fun _ _ _ _ _ _ _ _ _ _ => rfl) (fun _ _ _ _ _ _ _ _ _ _ => rfl) 1 .z q).1 hin
  have c := images_exist (fa := fun _ _ => 0) (fb := fun _ _ => 0) hb
    (fun _ _ _ _ _ _ _ _ _ _ => rfl) (fun _ _ _ _ _ _ _ _ _ _ => rfl)
  have i := currents_exist hb (u := boxDrive) box_currents
  have e1 := c.1.beta .z q hin hn
  have e2 := i.electric 0 .z q hin hn
  rw [into_zero] at e1 e2
  have key : at3 ((boxSim 2 1 2).state (boxCoef 2) boxDrive (fun _ => 0) 1) .ez q = -(1 / 2) := by
    refine p.trans ?_
    simp only [Space.run, Space.step, Space.electric, curlH]
    rw [← e1, e2, box_currentE]
    simp [hx, hy, hz, coef, Axis.e, boxCoef, boxDrive]
  refine ⟨key, ?_⟩
  have s := (symmetry_plane hb (box_model (by norm_num)) box_currents box_half 1 .z q).1 hin
  exact s.1.trans key

end Vulture.C49
