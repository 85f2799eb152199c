import Verif.Props.C31_Huygens
import Verif.Model.PlaneWave
import Mathlib.Tactic.LinearCombination
/-
C31, second part: the separation at every step.
-/
set_option linter.unusedSimpArgs false
set_option linter.unusedSectionVars false
set_option linter.unusedVariables false
namespace Vulture.C31
open Vulture Spec C10

section half
variable {K : Type*} [CommRing K] {C : CRef → K}

/-- A run with one plane wave and nothing else. -/
def oneWave (c : Cfg) (w : PW) : Sim := ⟨c, [], [], [], [w]⟩

/-- The auxiliary grid's part of the two phases. -/
def auxPartE (w : PW) : Prog := match w.aux with | some g => auxE 0 g | none => []
def auxPartH (w : PW) : Prog := match w.aux with | some g => auxH 0 g | none => []

/-- The corrections. -/
def tableE (c : Cfg) (w : PW) : Prog := pwTableE.flatMap fun r => if w.active r.1 then
  loopOver (w.flim c r.1 r.2.1) (pwEBlock 0 w r.1 r.2.1 r.2.2.1 r.2.2.2) else []
def tableH (c : Cfg) (w : PW) : Prog := pwTableH.flatMap fun r => if w.active r.1 then
  loopOver (w.flim c r.1 r.2.1) (pwHBlock 0 w r.1 r.2.1 r.2.2.1 r.2.2.2) else []

theorem stepE_eq (c : Cfg) (w : PW) : (oneWave c w).stepE =
    (updatePmlEfield c ++ updateMurEfield c ++ updateGridEfield c) ++ auxPartE w ++ tableE c w ++
      updateGhostEfield c := by
  have h1 : updateDebye [] = [] := rfl
  have h2 : updateSibcE [] = [] := rfl
  have h3 : updateSourcesE [] = [] := rfl
  have h4 : updatePlaneWavesE c [w] = (auxPartE w ++ tableE c w) ++ [] := rfl
  simp only [Sim.stepE, oneWave, h1, h2, h3, h4, List.append_nil, List.append_assoc]

theorem stepH_eq (c : Cfg) (w : PW) : (oneWave c w).stepH =
    (updatePmlHfield c ++ updateMurHfield c ++ updateGridHfield c) ++ auxPartH w ++ tableH c w ++
      updateGhostHfield c := by
  have h2 : updateSibcH [] = [] := rfl
  have h3 : updateSourcesH [] = [] := rfl
  have h4 : updatePlaneWavesH c [w] = (auxPartH w ++ tableH c w) ++ [] := rfl
  simp only [Sim.stepH, oneWave, h2, h3, h4, List.append_nil, List.append_assoc]

theorem noFld_auxE (w : PW) (l : Loc) (hl : l.kind ≠ .aux) : NoWrite (auxPartE w) l := by
  unfold auxPartE
  split
  · intro b hb hw
    simp only [auxE, List.mem_append, List.mem_map] at hb
    rcases hb with (⟨_, _, rfl⟩ | ⟨_, _, rfl⟩) | hb
    · simp [Block.writes] at hw; subst hw; exact hl rfl
    · simp [Block.writes] at hw; rcases hw with rfl | rfl | rfl <;> exact hl rfl
    · simp only [List.mem_singleton] at hb; subst hb; simp [Block.writes] at hw; subst hw; exact hl rfl
  · exact NoWrite.nil

theorem noFld_auxH (w : PW) (l : Loc) (hl : l.kind ≠ .aux) : NoWrite (auxPartH w) l := by
  unfold auxPartH
  split
  · intro b hb hw
    simp only [auxH, List.mem_append, List.mem_map] at hb
    rcases hb with ⟨_, _, rfl⟩ | ⟨_, _, rfl⟩
    · simp [Block.writes] at hw; subst hw; exact hl rfl
    · simp [Block.writes] at hw; rcases hw with rfl | rfl <;> exact hl rfl
  · exact NoWrite.nil

theorem wo_tableE (c : Cfg) (w : PW) : WritesOnly [.fld] (tableE c w) := by
  refine WritesOnly.flatMap fun r _ => ?_
  split
  · exact WritesOnly.loop fun i j k l hl => by
      simp [pwEBlock, Block.writes] at hl; subst hl; simp [Loc.kind]
  · exact WritesOnly.nil

theorem wo_tableH (c : Cfg) (w : PW) : WritesOnly [.fld] (tableH c w) := by
  refine WritesOnly.flatMap fun r _ => ?_
  split
  · exact WritesOnly.loop fun i j k l hl => by
      simp [pwHBlock, Block.writes] at hl; subst hl; simp [Loc.kind]
  · exact WritesOnly.nil

/-- The memory holds the separated field of `F` and silent layers. -/
structure Holds (b : BBox) (F : FieldOf K) (s : Loc → K) : Prop where
  fld : ∀ fc i j k, s (.fld fc i j k) = separated b F fc i j k
  quiet : ∀ r fc i j k, s (.pp r fc i j k) = 0 ∧ s (.p r fc i j k) = 0 ∧ s (.b r fc i j k) = 0

theorem Holds.out {b : BBox} {F : FieldOf K} {s : Loc → K} (h : Holds b F s) : ∀ l, Out b l → s l = 0 := by
  intro l hl
  cases l with
  | fld fc i j k => rw [h.fld]; exact if_neg hl
  | pp r fc i j k => exact (h.quiet r fc i j k).1
  | p r fc i j k => exact (h.quiet r fc i j k).2.1
  | b r fc i j k => exact (h.quiet r fc i j k).2.2
  | _ => exact absurd hl id

theorem inner_limits {c : Cfg} {b : BBox} (h : ClearOf c b) {fc : Fc} {i j k : Int}
    (hi : SampleIn b fc i j k) : InLim (c.gfilim fc) i j k ∧ SampleIn c.gibox fc i j k := by
  obtain ⟨⟨x1, x2, x3⟩, ⟨y1, y2, y3⟩, ⟨z1, z2, z3⟩, -⟩ := clear_facts h
  constructor
  · cases fc <;> simp only [SampleIn, pos2] at hi <;>
      simp [InLim, Cfg.gfilim, setFieldLimits, fieldIsInBoundary, Face.isLo] <;> (repeat' split) <;> omega
  · cases fc <;> simp only [SampleIn, pos2] at hi ⊢ <;> omega

/-- The values of the incident magnetic field the electric phase uses. -/
def UsesH (C : CRef → K) (w : PW) (s : Loc → K) (F : FieldOf K) : Prop :=
  ∀ s1 : Loc → K, (∀ l : Loc, l.kind ≠ .fld → l.kind ≠ .pml → s1 l = s l) → ∀ fc, fc.isE = false → ∀ i j k,
    (incField false 0 w fc (i, j, k)).eval C ((auxPartE w).run C s1) = F fc i j k

/-- The values of the incident electric field the magnetic phase uses. -/
def UsesE (C : CRef → K) (w : PW) (s : Loc → K) (F : FieldOf K) : Prop :=
  ∀ s1 : Loc → K, (∀ l : Loc, l.kind ≠ .fld → l.kind ≠ .pml → s1 l = s l) → ∀ fc, fc.isE = true → ∀ i j k,
    (incField true 0 w fc (i, j, k)).eval C ((auxPartH w).run C s1) = F fc i j k

theorem coreE_only (c : Cfg) : WritesOnly [.fld, .pml] (updatePmlEfield c ++ updateMurEfield c ++ updateGridEfield c) :=
  ((wo_pmlE c).append ((wo_murE c).mono (by simp))).append ((wo_gridE c).mono (by simp))
theorem coreH_only (c : Cfg) : WritesOnly [.fld, .pml] (updatePmlHfield c ++ updateMurHfield c ++ updateGridHfield c) :=
  ((wo_pmlH c).append ((wo_murH c).mono (by simp))).append ((wo_gridH c).mono (by simp))

theorem sep_in {b : BBox} {F : FieldOf K} {fc : Fc} {i j k : Int} (h : SampleIn b fc i j k) :
    separated b F fc i j k = F fc i j k := if_pos h
theorem sep_out {b : BBox} {F : FieldOf K} {fc : Fc} {i j k : Int} (h : ¬ SampleIn b fc i j k) :
    separated b F fc i j k = 0 := if_neg h

macro "mask" : tactic => `(tactic| (
  split_ifs
  · exact sep_out (by simp only [SampleIn, pos2]; omega)
  · exact sep_in (by simp only [SampleIn, pos2]; omega)))

/-- The sum of the corrections at an electric sample of the box. -/
theorem foldE {c : Cfg} {w : PW} (hact : ∀ f, w.active f = true) (hord : ∀ a : Axis, w.gbbox a.lo ≤ w.gbbox a.hi)
    (hl : LosslessFaces C w.gbbox) (s2 : Loc → K) (F : FieldOf K)
    (hinc : ∀ fc, fc.isE = false → ∀ i j k, (incField false 0 w fc (i, j, k)).eval C s2 = F fc i j k) (a : Axis)
    (i j k : Int) (hi : SampleIn w.gbbox a.e i j k)
    (hv : s2 (.fld a.e i j k) = C (.alpha a.e i j k) * F a.e i j k + C (.beta a.e i j k) *
      curlAtE (fun a i => C (.idh a i)) (separated w.gbbox F) i j k a) :
    (tableE c w).run C s2 (.fld a.e i j k) = C (.alpha a.e i j k) * F a.e i j k + C (.beta a.e i j k) *
      curlAtE (fun a i => C (.idh a i)) F i j k a := by
  unfold tableE
  rw [tableE_run c 0 w hact, hv]
  have L := limE c w hact hord
  have A := fun f => hl f a i j k
  cases a
  · have a1 := A .ylo (by decide) hi; have a2 := A .yhi (by decide) hi
    have a3 := A .zlo (by decide) hi; have a4 := A .zhi (by decide) hi
    simp only [Axis.e] at hi ⊢ a1 a2 a3 a4
    have l1 := L (.ylo, .ex, true, .hz) (by decide) i j k
    have l2 := L (.yhi, .ex, false, .hz) (by decide) i j k
    have l3 := L (.zlo, .ex, false, .hy) (by decide) i j k
    have l4 := L (.zhi, .ex, true, .hy) (by decide) i j k
    simp only [hi, true_and, Face.axis, coord] at l1 l2 l3 l4 a1 a2 a3 a4
    simp only [pwTableE, List.foldl_cons, List.foldl_nil, reduceCtorEq, false_and, if_false, true_and, l1, l2, l3, l4,
      corrE, Face.isLo, if_true, shift, hinc .hz rfl, hinc .hy rfl, curlAtE, Face.axis, coord, Bool.false_eq_true]
    simp only [SampleIn, pos2] at hi
    have m1 : separated w.gbbox F .hz i j k = if j = w.gbbox .yhi then 0 else F .hz i j k := by
      mask
    have m2 : separated w.gbbox F .hz i (j-1) k = if j = w.gbbox .ylo then 0 else F .hz i (j-1) k := by
      mask
    have m3 : separated w.gbbox F .hy i j k = if k = w.gbbox .zhi then 0 else F .hy i j k := by
      mask
    have m4 : separated w.gbbox F .hy i j (k-1) = if k = w.gbbox .zlo then 0 else F .hy i j (k-1) := by
      mask
    rw [m1, m2, m3, m4]
    simp only [← sub_eq_add_neg]
    split_ifs <;> (try simp only [*, forall_true_left] at *) <;> (try simp only [a1, a2, a3, a4]) <;> ring
  · have a1 := A .xlo (by decide) hi; have a2 := A .xhi (by decide) hi
    have a3 := A .zlo (by decide) hi; have a4 := A .zhi (by decide) hi
    simp only [Axis.e] at hi ⊢ a1 a2 a3 a4
    have l1 := L (.xlo, .ey, false, .hz) (by decide) i j k
    have l2 := L (.xhi, .ey, true, .hz) (by decide) i j k
    have l3 := L (.zlo, .ey, true, .hx) (by decide) i j k
    have l4 := L (.zhi, .ey, false, .hx) (by decide) i j k
    simp only [hi, true_and, Face.axis, coord] at l1 l2 l3 l4 a1 a2 a3 a4
    simp only [pwTableE, List.foldl_cons, List.foldl_nil, reduceCtorEq, false_and, if_false, true_and, l1, l2, l3, l4,
      corrE, Face.isLo, if_true, shift, hinc .hz rfl, hinc .hx rfl, curlAtE, Face.axis, coord, Bool.false_eq_true]
    simp only [SampleIn, pos2] at hi
    have m1 : separated w.gbbox F .hz i j k = if i = w.gbbox .xhi then 0 else F .hz i j k := by
      mask
    have m2 : separated w.gbbox F .hz (i-1) j k = if i = w.gbbox .xlo then 0 else F .hz (i-1) j k := by
      mask
    have m3 : separated w.gbbox F .hx i j k = if k = w.gbbox .zhi then 0 else F .hx i j k := by
      mask
    have m4 : separated w.gbbox F .hx i j (k-1) = if k = w.gbbox .zlo then 0 else F .hx i j (k-1) := by
      mask
    rw [m1, m2, m3, m4]
    simp only [← sub_eq_add_neg]
    split_ifs <;> (try simp only [*, forall_true_left] at *) <;> (try simp only [a1, a2, a3, a4]) <;> ring
  · have a1 := A .xlo (by decide) hi; have a2 := A .xhi (by decide) hi
    have a3 := A .ylo (by decide) hi; have a4 := A .yhi (by decide) hi
    simp only [Axis.e] at hi ⊢ a1 a2 a3 a4
    have l1 := L (.xlo, .ez, true, .hy) (by decide) i j k
    have l2 := L (.xhi, .ez, false, .hy) (by decide) i j k
    have l3 := L (.ylo, .ez, false, .hx) (by decide) i j k
    have l4 := L (.yhi, .ez, true, .hx) (by decide) i j k
    simp only [hi, true_and, Face.axis, coord] at l1 l2 l3 l4 a1 a2 a3 a4
    simp only [pwTableE, List.foldl_cons, List.foldl_nil, reduceCtorEq, false_and, if_false, true_and, l1, l2, l3, l4,
      corrE, Face.isLo, if_true, shift, hinc .hy rfl, hinc .hx rfl, curlAtE, Face.axis, coord, Bool.false_eq_true]
    simp only [SampleIn, pos2] at hi
    have m1 : separated w.gbbox F .hy i j k = if i = w.gbbox .xhi then 0 else F .hy i j k := by
      mask
    have m2 : separated w.gbbox F .hy (i-1) j k = if i = w.gbbox .xlo then 0 else F .hy (i-1) j k := by
      mask
    have m3 : separated w.gbbox F .hx i j k = if j = w.gbbox .yhi then 0 else F .hx i j k := by
      mask
    have m4 : separated w.gbbox F .hx i (j-1) k = if j = w.gbbox .ylo then 0 else F .hx i (j-1) k := by
      mask
    rw [m1, m2, m3, m4]
    simp only [← sub_eq_add_neg]
    split_ifs <;> (try simp only [*, forall_true_left] at *) <;> (try simp only [a1, a2, a3, a4]) <;> ring

open Classical in
/-- The sum of the corrections at a magnetic sample. -/
theorem foldH {c : Cfg} {w : PW} (hact : ∀ f, w.active f = true) (hord : ∀ a : Axis, w.gbbox a.lo ≤ w.gbbox a.hi)
    (s2 : Loc → K) (F F' : FieldOf K)
    (hinc : ∀ fc, fc.isE = true → ∀ i j k, (incField true 0 w fc (i, j, k)).eval C s2 = F' fc i j k) (a : Axis)
    (i j k : Int)
    (hv : s2 (.fld a.h i j k) = separated w.gbbox F a.h i j k - C (.gamma a.h i j k) *
      curlAtH (fun a i => C (.ide a i)) (separated w.gbbox F') i j k a) :
    (SampleIn w.gbbox a.h i j k → (tableH c w).run C s2 (.fld a.h i j k) = F a.h i j k - C (.gamma a.h i j k) *
      curlAtH (fun a i => C (.ide a i)) F' i j k a) ∧
    (¬ SampleIn w.gbbox a.h i j k → (tableH c w).run C s2 (.fld a.h i j k) = 0) := by
  unfold tableH
  rw [tableH_run c 0 w hact, hv]
  have L := limH c w hact hord
  have ox := hord .x; have oy := hord .y; have oz := hord .z
  simp only [Axis.lo, Axis.hi] at ox oy oz
  cases a
  · simp only [Axis.h] at hv ⊢
    have l1 := L (.ylo, .hx, false, .ez) (by decide) i j k
    have l2 := L (.yhi, .hx, true, .ez) (by decide) i j k
    have l3 := L (.zlo, .hx, true, .ey) (by decide) i j k
    have l4 := L (.zhi, .hx, false, .ey) (by decide) i j k
    simp only [Face.axis, coord, Face.isLo, if_true, shift, Bool.false_eq_true, if_false] at l1 l2 l3 l4
    simp only [pwTableH, List.foldl_cons, List.foldl_nil, reduceCtorEq, false_and, if_false, true_and, l1, l2, l3, l4,
      corrH, Face.isLo, if_true, shift, hinc .ey rfl, hinc .ez rfl, curlAtH, Face.axis, coord, Bool.false_eq_true]
    constructor <;> intro hb
    · rw [sep_in hb]
      have hb' := hb
      simp only [SampleIn, pos2] at hb
      have m1 : separated w.gbbox F' .ez i (j+1) k = F' .ez i (j+1) k := sep_in (by simp only [SampleIn, pos2]; omega)
      have n1 : ¬ (SampleIn w.gbbox .ez i (j+1) k ∧ j + 1 = w.gbbox .ylo) := by simp only [SampleIn, pos2]; omega
      have m2 : separated w.gbbox F' .ez i j k = F' .ez i j k := sep_in (by simp only [SampleIn, pos2]; omega)
      have n2 : ¬ (SampleIn w.gbbox .ez i j k ∧ j = w.gbbox .yhi) := by simp only [SampleIn, pos2]; omega
      have m3 : separated w.gbbox F' .ey i j (k+1) = F' .ey i j (k+1) := sep_in (by simp only [SampleIn, pos2]; omega)
      have n3 : ¬ (SampleIn w.gbbox .ey i j (k+1) ∧ k + 1 = w.gbbox .zlo) := by simp only [SampleIn, pos2]; omega
      have m4 : separated w.gbbox F' .ey i j k = F' .ey i j k := sep_in (by simp only [SampleIn, pos2]; omega)
      have n4 : ¬ (SampleIn w.gbbox .ey i j k ∧ k = w.gbbox .zhi) := by simp only [SampleIn, pos2]; omega
      simp only [m1, m2, m3, m4, n1, n2, n3, n4, if_false]
    · rw [sep_out hb]
      simp only [SampleIn, pos2] at hb
      have m1 : separated w.gbbox F' .ez i (j+1) k = if SampleIn w.gbbox .ez i (j+1) k ∧ j + 1 = w.gbbox .ylo then F' .ez i (j+1) k else 0 := by
        split_ifs with g
        · exact sep_in g.1
        · exact sep_out (fun e => g ⟨e, by simp only [SampleIn, pos2] at e; omega⟩)
      have m2 : separated w.gbbox F' .ez i j k = if SampleIn w.gbbox .ez i j k ∧ j = w.gbbox .yhi then F' .ez i j k else 0 := by
        split_ifs with g
        · exact sep_in g.1
        · exact sep_out (fun e => g ⟨e, by simp only [SampleIn, pos2] at e; omega⟩)
      have m3 : separated w.gbbox F' .ey i j (k+1) = if SampleIn w.gbbox .ey i j (k+1) ∧ k + 1 = w.gbbox .zlo then F' .ey i j (k+1) else 0 := by
        split_ifs with g
        · exact sep_in g.1
        · exact sep_out (fun e => g ⟨e, by simp only [SampleIn, pos2] at e; omega⟩)
      have m4 : separated w.gbbox F' .ey i j k = if SampleIn w.gbbox .ey i j k ∧ k = w.gbbox .zhi then F' .ey i j k else 0 := by
        split_ifs with g
        · exact sep_in g.1
        · exact sep_out (fun e => g ⟨e, by simp only [SampleIn, pos2] at e; omega⟩)
      rw [m1, m2, m3, m4]
      split_ifs <;> ring
  · simp only [Axis.h] at hv ⊢
    have l1 := L (.zlo, .hy, false, .ex) (by decide) i j k
    have l2 := L (.zhi, .hy, true, .ex) (by decide) i j k
    have l3 := L (.xlo, .hy, true, .ez) (by decide) i j k
    have l4 := L (.xhi, .hy, false, .ez) (by decide) i j k
    simp only [Face.axis, coord, Face.isLo, if_true, shift, Bool.false_eq_true, if_false] at l1 l2 l3 l4
    simp only [pwTableH, List.foldl_cons, List.foldl_nil, reduceCtorEq, false_and, if_false, true_and, l1, l2, l3, l4,
      corrH, Face.isLo, if_true, shift, hinc .ex rfl, hinc .ez rfl, curlAtH, Face.axis, coord, Bool.false_eq_true]
    constructor <;> intro hb
    · rw [sep_in hb]
      have hb' := hb
      simp only [SampleIn, pos2] at hb
      have m1 : separated w.gbbox F' .ex i j (k+1) = F' .ex i j (k+1) := sep_in (by simp only [SampleIn, pos2]; omega)
      have n1 : ¬ (SampleIn w.gbbox .ex i j (k+1) ∧ k + 1 = w.gbbox .zlo) := by simp only [SampleIn, pos2]; omega
      have m2 : separated w.gbbox F' .ex i j k = F' .ex i j k := sep_in (by simp only [SampleIn, pos2]; omega)
      have n2 : ¬ (SampleIn w.gbbox .ex i j k ∧ k = w.gbbox .zhi) := by simp only [SampleIn, pos2]; omega
      have m3 : separated w.gbbox F' .ez (i+1) j k = F' .ez (i+1) j k := sep_in (by simp only [SampleIn, pos2]; omega)
      have n3 : ¬ (SampleIn w.gbbox .ez (i+1) j k ∧ i + 1 = w.gbbox .xlo) := by simp only [SampleIn, pos2]; omega
      have m4 : separated w.gbbox F' .ez i j k = F' .ez i j k := sep_in (by simp only [SampleIn, pos2]; omega)
      have n4 : ¬ (SampleIn w.gbbox .ez i j k ∧ i = w.gbbox .xhi) := by simp only [SampleIn, pos2]; omega
      simp only [m1, m2, m3, m4, n1, n2, n3, n4, if_false]
    · rw [sep_out hb]
      simp only [SampleIn, pos2] at hb
      have m1 : separated w.gbbox F' .ex i j (k+1) = if SampleIn w.gbbox .ex i j (k+1) ∧ k + 1 = w.gbbox .zlo then F' .ex i j (k+1) else 0 := by
        split_ifs with g
        · exact sep_in g.1
        · exact sep_out (fun e => g ⟨e, by simp only [SampleIn, pos2] at e; omega⟩)
      have m2 : separated w.gbbox F' .ex i j k = if SampleIn w.gbbox .ex i j k ∧ k = w.gbbox .zhi then F' .ex i j k else 0 := by
        split_ifs with g
        · exact sep_in g.1
        · exact sep_out (fun e => g ⟨e, by simp only [SampleIn, pos2] at e; omega⟩)
      have m3 : separated w.gbbox F' .ez (i+1) j k = if SampleIn w.gbbox .ez (i+1) j k ∧ i + 1 = w.gbbox .xlo then F' .ez (i+1) j k else 0 := by
        split_ifs with g
        · exact sep_in g.1
        · exact sep_out (fun e => g ⟨e, by simp only [SampleIn, pos2] at e; omega⟩)
      have m4 : separated w.gbbox F' .ez i j k = if SampleIn w.gbbox .ez i j k ∧ i = w.gbbox .xhi then F' .ez i j k else 0 := by
        split_ifs with g
        · exact sep_in g.1
        · exact sep_out (fun e => g ⟨e, by simp only [SampleIn, pos2] at e; omega⟩)
      rw [m1, m2, m3, m4]
      split_ifs <;> ring
  · simp only [Axis.h] at hv ⊢
    have l1 := L (.xlo, .hz, false, .ey) (by decide) i j k
    have l2 := L (.xhi, .hz, true, .ey) (by decide) i j k
    have l3 := L (.ylo, .hz, true, .ex) (by decide) i j k
    have l4 := L (.yhi, .hz, false, .ex) (by decide) i j k
    simp only [Face.axis, coord, Face.isLo, if_true, shift, Bool.false_eq_true, if_false] at l1 l2 l3 l4
    simp only [pwTableH, List.foldl_cons, List.foldl_nil, reduceCtorEq, false_and, if_false, true_and, l1, l2, l3, l4,
      corrH, Face.isLo, if_true, shift, hinc .ex rfl, hinc .ey rfl, curlAtH, Face.axis, coord, Bool.false_eq_true]
    constructor <;> intro hb
    · rw [sep_in hb]
      have hb' := hb
      simp only [SampleIn, pos2] at hb
      have m1 : separated w.gbbox F' .ey (i+1) j k = F' .ey (i+1) j k := sep_in (by simp only [SampleIn, pos2]; omega)
      have n1 : ¬ (SampleIn w.gbbox .ey (i+1) j k ∧ i + 1 = w.gbbox .xlo) := by simp only [SampleIn, pos2]; omega
      have m2 : separated w.gbbox F' .ey i j k = F' .ey i j k := sep_in (by simp only [SampleIn, pos2]; omega)
      have n2 : ¬ (SampleIn w.gbbox .ey i j k ∧ i = w.gbbox .xhi) := by simp only [SampleIn, pos2]; omega
      have m3 : separated w.gbbox F' .ex i (j+1) k = F' .ex i (j+1) k := sep_in (by simp only [SampleIn, pos2]; omega)
      have n3 : ¬ (SampleIn w.gbbox .ex i (j+1) k ∧ j + 1 = w.gbbox .ylo) := by simp only [SampleIn, pos2]; omega
      have m4 : separated w.gbbox F' .ex i j k = F' .ex i j k := sep_in (by simp only [SampleIn, pos2]; omega)
      have n4 : ¬ (SampleIn w.gbbox .ex i j k ∧ j = w.gbbox .yhi) := by simp only [SampleIn, pos2]; omega
      simp only [m1, m2, m3, m4, n1, n2, n3, n4, if_false]
    · rw [sep_out hb]
      simp only [SampleIn, pos2] at hb
      have m1 : separated w.gbbox F' .ey (i+1) j k = if SampleIn w.gbbox .ey (i+1) j k ∧ i + 1 = w.gbbox .xlo then F' .ey (i+1) j k else 0 := by
        split_ifs with g
        · exact sep_in g.1
        · exact sep_out (fun e => g ⟨e, by simp only [SampleIn, pos2] at e; omega⟩)
      have m2 : separated w.gbbox F' .ey i j k = if SampleIn w.gbbox .ey i j k ∧ i = w.gbbox .xhi then F' .ey i j k else 0 := by
        split_ifs with g
        · exact sep_in g.1
        · exact sep_out (fun e => g ⟨e, by simp only [SampleIn, pos2] at e; omega⟩)
      have m3 : separated w.gbbox F' .ex i (j+1) k = if SampleIn w.gbbox .ex i (j+1) k ∧ j + 1 = w.gbbox .ylo then F' .ex i (j+1) k else 0 := by
        split_ifs with g
        · exact sep_in g.1
        · exact sep_out (fun e => g ⟨e, by simp only [SampleIn, pos2] at e; omega⟩)
      have m4 : separated w.gbbox F' .ex i j k = if SampleIn w.gbbox .ex i j k ∧ j = w.gbbox .yhi then F' .ex i j k else 0 := by
        split_ifs with g
        · exact sep_in g.1
        · exact sep_out (fun e => g ⟨e, by simp only [SampleIn, pos2] at e; omega⟩)
      rw [m1, m2, m3, m4]
      split_ifs <;> ring

theorem eval_ampere (s : Loc → K) (a : Axis) (i j k : Int) : (ampere a.e i j k).eval C s =
    C (.alpha a.e i j k) * s (.fld a.e i j k) +
      C (.beta a.e i j k) * curlAtE (fun a i => C (.idh a i)) (fun fc i j k => s (.fld fc i j k)) i j k a := by
  cases a <;> simp [ampere, Axis.e, ampereX, ampereY, ampereZ, curlHx, curlHy, curlHz, EX, EY, EZ, HX, HY, HZ, Expr.eval,
    curlAtE] <;> ring

theorem eval_faraday (s : Loc → K) (a : Axis) (i j k : Int) : (faraday a.h i j k).eval C s =
    s (.fld a.h i j k) -
      C (.gamma a.h i j k) * curlAtH (fun a i => C (.ide a i)) (fun fc i j k => s (.fld fc i j k)) i j k a := by
  cases a <;> simp [faraday, Axis.h, faradayX, faradayY, faradayZ, curlEx, curlEy, curlEz, EX, EY, EZ, HX, HY, HZ,
    Expr.eval, curlAtH] <;> ring

theorem out_kind {b : BBox} {l : Loc} (h : Out b l) : l.kind ≠ .aux := by
  cases l <;> first | exact absurd h id | simp [Loc.kind]

theorem noOut_tableE {c : Cfg} {w : PW} (hact : ∀ f, w.active f = true)
    (hord : ∀ a : Axis, w.gbbox a.lo ≤ w.gbbox a.hi) {l : Loc} (hl : Out w.gbbox l) : NoWrite (tableE c w) l := by
  refine NoWrite.flatMap fun r hr => ?_
  rw [hact, if_pos rfl]
  refine NoWrite.loop fun i j k hi hm => ?_
  have : l = .fld r.2.1 i j k := by simpa [pwEBlock, Block.writes] using hm
  subst this
  exact hl ((limE c w hact hord r hr i j k).1 hi).1

/-- Samples of the outer grid from those of the box. -/
theorem in_gobox {c : Cfg} (hv : ValidCfg c) {b : BBox} (hc : ClearOf c b) {fc : Fc} {i j k : Int}
    (hi : SampleIn b fc i j k) : SampleIn c.gobox fc i j k :=
  sampleIn_mono (gibox_within hv) (inner_limits hc hi).2

theorem clear_ord {c : Cfg} {b : BBox} (h : ClearOf c b) (a : Axis) : b a.lo ≤ b a.hi := (h a).2.1

theorem halfE {c : Cfg} (hv : ValidCfg c) {w : PW} (hact : ∀ f, w.active f = true) (hc : ClearOf c w.gbbox)
    (hl : LosslessFaces C w.gbbox) {F F' : FieldOf K} {s : Loc → K} (hs : Holds w.gbbox F s) (hu : UsesH C w s F)
    (hE : ∀ (a : Axis) i j k, SampleIn w.gbbox a.e i j k → F' a.e i j k = C (.alpha a.e i j k) * F a.e i j k +
      C (.beta a.e i j k) * curlAtE (fun a i => C (.idh a i)) F i j k a)
    (hH : ∀ (a : Axis) i j k, SampleIn w.gbbox a.h i j k → F' a.h i j k = F a.h i j k) :
    Holds w.gbbox F' ((oneWave c w).stepE.run C s) := by
  have hord := clear_ord hc
  have hout : ∀ l, Out w.gbbox l → (oneWave c w).stepE.run C s l = 0 := by
    rw [stepE_eq, run_append, run_append, run_append]
    refine (keeps_ghost hv hc ghostEcomps (by decide)).run fun l hl => ?_
    rw [(noOut_tableE hact hord hl).run, (noFld_auxE w l (out_kind hl)).run]
    exact (keeps_coreE hc).run hs.out l hl
  refine ⟨fun fc i j k => ?_, fun r fc i j k => ⟨hout _ trivial, hout _ trivial, hout _ trivial⟩⟩
  by_cases hi : SampleIn w.gbbox fc i j k
  swap; · rw [sep_out hi]; exact hout _ hi
  rw [sep_in hi]
  by_cases hf : fc.isE = true
  · obtain ⟨a, rfl⟩ : ∃ a : Axis, fc = a.e := by
      rcases fc_isE hf with rfl | rfl | rfl
      exacts [⟨.x, rfl⟩, ⟨.y, rfl⟩, ⟨.z, rfl⟩]
    rw [stepE_eq, run_append, run_append, run_append, (noWrite_ghostE hv (in_gobox hv hc hi)).run, hE a i j k hi]
    refine foldE hact hord hl _ F ?_ a i j k hi ?_
    · exact hu _ fun l h1 h2 => ((coreE_only c).noWrite (by simp [h1, h2])).run C s
    · rw [(noFld_auxE w _ (by simp [Loc.kind])).run, electric_value C hv (axis_e_isE a) (inner_limits hc hi).1,
        eval_ampere, hs.fld, sep_in hi]
      simp only [hs.fld]
  · have hf : fc.isE = false := by simpa using hf
    obtain ⟨a, rfl⟩ : ∃ a : Axis, fc = a.h := by
      rcases fc_isH hf with rfl | rfl | rfl
      exacts [⟨.x, rfl⟩, ⟨.y, rfl⟩, ⟨.z, rfl⟩]
    rw [(noH_stepE hf i j k _).run, hs.fld, sep_in hi, hH a i j k hi]

/-- A magnetic sample that is not far from the box is one of the user region. -/
theorem near_inner {c : Cfg} {b : BBox} (hc : ClearOf c b) (a : Axis) (i j k : Int) (h : ¬ Far b (.fld a.h i j k)) :
    SampleIn c.gibox a.h i j k := by
  obtain ⟨⟨x1, x2, x3⟩, ⟨y1, y2, y3⟩, ⟨z1, z2, z3⟩, -⟩ := clear_facts hc
  cases a <;> simp only [Axis.h, Far, SampleIn, pos2] at h ⊢ <;> omega

theorem far_out {b : BBox} {l : Loc} (h : Far b l) : Out b l := by
  cases l with
  | fld fc i j k => cases fc <;> first | exact h | exact h.1
  | _ => first | exact h | trivial

theorem halfH {c : Cfg} (hv : ValidCfg c) {w : PW} (hact : ∀ f, w.active f = true) (hc : ClearOf c w.gbbox)
    {F F' : FieldOf K} {s : Loc → K} (hs : Holds w.gbbox F s) (hu : UsesE C w s F)
    (hE : ∀ (a : Axis) i j k, SampleIn w.gbbox a.e i j k → F' a.e i j k = F a.e i j k)
    (hH : ∀ (a : Axis) i j k, SampleIn w.gbbox a.h i j k → F' a.h i j k = F a.h i j k -
      C (.gamma a.h i j k) * curlAtH (fun a i => C (.ide a i)) F i j k a) :
    Holds w.gbbox F' ((oneWave c w).stepH.run C s) := by
  have hord := clear_ord hc
  -- after the corrections
  have hval : ∀ (a : Axis) i j k, ¬ Far w.gbbox (.fld a.h i j k) →
      (SampleIn w.gbbox a.h i j k → (tableH c w).run C ((auxPartH w).run C
        ((updatePmlHfield c ++ updateMurHfield c ++ updateGridHfield c).run C s)) (.fld a.h i j k) = F' a.h i j k) ∧
      (¬ SampleIn w.gbbox a.h i j k → (tableH c w).run C ((auxPartH w).run C
        ((updatePmlHfield c ++ updateMurHfield c ++ updateGridHfield c).run C s)) (.fld a.h i j k) = 0) := by
    intro a i j k hf
    have := foldH (c := c) (C := C) (w := w) hact hord ((auxPartH w).run C
      ((updatePmlHfield c ++ updateMurHfield c ++ updateGridHfield c).run C s)) F F
      (hu _ fun l h1 h2 => ((coreH_only c).noWrite (by simp [h1, h2])).run C s) a i j k (by
        rw [(noFld_auxH w _ (by simp [Loc.kind])).run, magnetic_value C hv (axis_h_isE a) (near_inner hc a i j k hf),
          eval_faraday, hs.fld]
        simp only [hs.fld])
    exact ⟨fun h => by rw [this.1 h, hH a i j k h], this.2⟩
  have hfar : ∀ l, Far w.gbbox l → (tableH c w).run C ((auxPartH w).run C
        ((updatePmlHfield c ++ updateMurHfield c ++ updateGridHfield c).run C s)) l = 0 := by
    intro l hl
    have h1 : ((auxPartH w).run C ((updatePmlHfield c ++ updateMurHfield c ++ updateGridHfield c).run C s)) l = 0 := by
      rw [(noFld_auxH w l (out_kind (far_out hl))).run]
      exact (keeps_coreH hc).run (fun l hl => hs.out l (far_out hl)) l hl
    rw [NoWrite.run, h1]
    refine NoWrite.flatMap fun r hr => ?_
    rw [hact, if_pos rfl]
    refine NoWrite.loop fun i j k hi hm => ?_
    have : l = .fld r.2.1 i j k := by simpa [pwHBlock, Block.writes] using hm
    subst this
    have h2 := ((limH c w hact hord r hr i j k).1 hi).1
    simp only [pwTableH, List.mem_cons, List.not_mem_nil, or_false] at hr
    rcases hr with rfl | rfl | rfl | rfl | rfl | rfl | rfl | rfl | rfl | rfl | rfl | rfl <;>
      simp [Face.isLo, Face.axis, shift] at h2 <;> simp [Far, h2] at hl
  have hout : ∀ l, Out w.gbbox l → (oneWave c w).stepH.run C s l = 0 := by
    rw [stepH_eq, run_append, run_append, run_append]
    refine (keeps_ghost hv hc ghostHcomps (by decide)).run fun l hl => ?_
    by_cases hf : Far w.gbbox l
    · exact hfar l hf
    · cases l with
      | fld fc i j k =>
        cases fc with
        | hx => exact (hval .x i j k hf).2 hl
        | hy => exact (hval .y i j k hf).2 hl
        | hz => exact (hval .z i j k hf).2 hl
        | _ => exact absurd hl hf
      | _ => exact absurd hl hf
  refine ⟨fun fc i j k => ?_, fun r fc i j k => ⟨hout _ trivial, hout _ trivial, hout _ trivial⟩⟩
  by_cases hi : SampleIn w.gbbox fc i j k
  swap; · rw [sep_out hi]; exact hout _ hi
  rw [sep_in hi]
  by_cases hf : fc.isE = true
  · obtain ⟨a, rfl⟩ : ∃ a : Axis, fc = a.e := by
      rcases fc_isE hf with rfl | rfl | rfl
      exacts [⟨.x, rfl⟩, ⟨.y, rfl⟩, ⟨.z, rfl⟩]
    rw [(noE_stepH hf i j k _).run, hs.fld, sep_in hi, hE a i j k hi]
  · have hf : fc.isE = false := by simpa using hf
    obtain ⟨a, rfl⟩ : ∃ a : Axis, fc = a.h := by
      rcases fc_isH hf with rfl | rfl | rfl
      exacts [⟨.x, rfl⟩, ⟨.y, rfl⟩, ⟨.z, rfl⟩]
    rw [stepH_eq, run_append, run_append, run_append, (noWrite_ghostH hv (in_gobox hv hc hi)).run]
    refine (hval a i j k fun h => far_out h hi).1 hi

theorem holds_inputs {b : BBox} {F : FieldOf K} {s : Loc → K} (h : Holds b F s) (u : Loc → K) :
    Holds b F (setInputs u s) :=
  ⟨fun fc i j k => h.fld fc i j k, fun r fc i j k => h.quiet r fc i j k⟩

theorem keeps_input_stepE (c : Cfg) (w : PW) (s : Loc → K) {l : Loc} (hl : l.isInput = true) :
    (oneWave c w).stepE.run C s l = s l := by
  have hk : l.kind ≠ .fld ∧ l.kind ≠ .pml ∧ l.kind ≠ .aux := by cases l <;> simp [Loc.isInput] at hl <;> simp [Loc.kind]
  rw [stepE_eq]
  refine NoWrite.run C (NoWrite.append (NoWrite.append (NoWrite.append ?_ ?_) ?_) ?_) s
  · exact (coreE_only c).noWrite (by simp [hk])
  · exact noFld_auxE w l hk.2.2
  · exact (wo_tableE c w).noWrite (by simp [hk])
  · exact (wo_ghost c ghostEcomps).noWrite (by simp [hk])

/-- One wave whose incident values are supplied from outside, all faces active, in a mesh without other sources: if
the supplied values are those of a wave that satisfies the discrete equations in the box, the memory holds that wave
inside the closed box and zero outside it, at every step. -/
theorem separation {c : Cfg} (hv : ValidCfg c) {w : PW} (haux : w.aux = none) (hact : ∀ f, w.active f = true)
    (hc : ClearOf c w.gbbox) (hl : LosslessFaces C w.gbbox) {I : Nat → FieldOf K} (hI : IncidentWave C w.gbbox I)
    {u : Nat → Loc → K}
    (huH : ∀ n (a : Axis) i j k, u n (.inc false 0 a.h i j k) = I n a.h i j k)
    (huE : ∀ n (a : Axis) i j k, u n (.inc true 0 a.e i j k) = I (n+1) a.e i j k)
    {s0 : Loc → K} (h0 : Holds w.gbbox (I 0) s0) (n : Nat) :
    Holds w.gbbox (I n) ((oneWave c w).state C u s0 n) := by
  induction n with
  | zero => exact h0
  | succ n ih =>
    unfold Sim.state Sim.step
    rw [run_append]
    have ax : ∀ fc : Fc, fc.isE = false → ∃ a : Axis, fc = a.h := fun fc h => by
      rcases fc_isH h with rfl | rfl | rfl
      exacts [⟨.x, rfl⟩, ⟨.y, rfl⟩, ⟨.z, rfl⟩]
    have ay : ∀ fc : Fc, fc.isE = true → ∃ a : Axis, fc = a.e := fun fc h => by
      rcases fc_isE h with rfl | rfl | rfl
      exacts [⟨.x, rfl⟩, ⟨.y, rfl⟩, ⟨.z, rfl⟩]
    have hpE : auxPartE w = [] := by unfold auxPartE; rw [haux]
    have hpH : auxPartH w = [] := by unfold auxPartH; rw [haux]
    -- the field between the two halves
    let M : FieldOf K := fun fc => if fc.isE then I (n+1) fc else I n fc
    have hm := halfE (F' := M) hv hact hc hl (holds_inputs ih (u n)) (by
        intro s1 h1 fc hf i j k
        obtain ⟨a, rfl⟩ := ax fc hf
        rw [hpE, run_nil]
        simp only [incField, haux, Expr.eval]
        rw [h1 _ (by simp [Loc.kind]) (by simp [Loc.kind])]
        exact huH n a i j k)
      (fun a i j k hi => by simpa only [M, axis_e_isE, if_true] using hI.electric n a i j k hi)
      (fun a i j k hi => by simp only [M, axis_h_isE]; rfl)
    refine halfH hv hact hc hm ?_ ?_ ?_
    · intro s1 h1 fc hf i j k
      obtain ⟨a, rfl⟩ := ay fc hf
      rw [hpH, run_nil]
      simp only [incField, haux, Expr.eval]
      rw [h1 _ (by simp [Loc.kind]) (by simp [Loc.kind]), keeps_input_stepE c w _ rfl]
      simp only [M, axis_e_isE, if_true]
      exact huE n a i j k
    · intro a i j k hi; simp only [M, axis_e_isE, if_true]
    · intro a i j k hi
      have hM : curlAtH (fun a i => C (.ide a i)) M i j k a = curlAtH (fun a i => C (.ide a i)) (I (n+1)) i j k a := by
        cases a <;> rfl
      rw [hM, hI.magnetic n a i j k hi]
      simp only [M, axis_h_isE]; rfl

/-- In particular the field outside the box is zero for ever and inside it is the incident field. -/
theorem total_inside_nothing_outside {c : Cfg} (hv : ValidCfg c) {w : PW} (haux : w.aux = none)
    (hact : ∀ f, w.active f = true)
    (hc : ClearOf c w.gbbox) (hl : LosslessFaces C w.gbbox) {I : Nat → FieldOf K} (hI : IncidentWave C w.gbbox I)
    {u : Nat → Loc → K}
    (huH : ∀ n (a : Axis) i j k, u n (.inc false 0 a.h i j k) = I n a.h i j k)
    (huE : ∀ n (a : Axis) i j k, u n (.inc true 0 a.e i j k) = I (n+1) a.e i j k)
    (h0 : ∀ fc i j k, SampleIn w.gbbox fc i j k → I 0 fc i j k = 0) (n : Nat) (fc : Fc) (i j k : Int) :
    (SampleIn w.gbbox fc i j k → (oneWave c w).state C u (fun _ => 0) n (.fld fc i j k) = I n fc i j k) ∧
    (¬ SampleIn w.gbbox fc i j k → (oneWave c w).state C u (fun _ => 0) n (.fld fc i j k) = 0) := by
  have := (separation hv haux hact hc hl hI huH huE (s0 := fun _ => 0)
    ⟨fun fc i j k => by unfold separated; split_ifs with h <;> simp [h0, h], fun _ _ _ _ _ => ⟨rfl, rfl, rfl⟩⟩ n).fld fc i j k
  rw [this]
  exact ⟨sep_in, sep_out⟩

/-- What the electric correction does at a sample of the low x face away from the other faces, whatever the loss: the
already updated value is multiplied by `alpha` once more. -/
theorem face_value {c : Cfg} (hv : ValidCfg c) {w : PW} (haux : w.aux = none) (hact : ∀ f, w.active f = true)
    (hc : ClearOf c w.gbbox) {F : FieldOf K} {s : Loc → K} (hs : Holds w.gbbox F s)
    (hinc : ∀ i j k, s (.inc false 0 .hz i j k) = F .hz i j k)
    {i j k : Int} (hi : SampleIn w.gbbox .ey i j k) (hx : i = w.gbbox .xlo) (hx' : i < w.gbbox .xhi)
    (hz : w.gbbox .zlo < k ∧ k < w.gbbox .zhi) :
    let A := C (.alpha .ey i j k); let B := C (.beta .ey i j k)
    let wanted := A * F .ey i j k + B * curlAtE (fun a i => C (.idh a i)) F i j k .y
    (oneWave c w).stepE.run C s (.fld .ey i j k) =
      wanted + (A - 1) * (wanted - B * (C (.idh .x i) * F .hz (i-1) j k)) := by
  intro A B wanted
  have hord := clear_ord hc
  have hpE : auxPartE w = [] := by unfold auxPartE; rw [haux]
  have L := limE c w hact hord
  rw [stepE_eq, run_append, run_append, run_append, (noWrite_ghostE hv (in_gobox hv hc hi)).run, hpE, run_nil]
  unfold tableE
  rw [tableE_run c 0 w hact, electric_value C hv (by rfl) (inner_limits hc hi).1]
  have e := eval_ampere (C := C) s .y i j k
  simp only [Axis.e] at e
  rw [e]
  have l1 := L (.xlo, .ey, false, .hz) (by decide) i j k
  have l2 := L (.xhi, .ey, true, .hz) (by decide) i j k
  have l3 := L (.zlo, .ey, true, .hx) (by decide) i j k
  have l4 := L (.zhi, .ey, false, .hx) (by decide) i j k
  simp only [hi, true_and, Face.axis, coord] at l1 l2 l3 l4
  have n2 : ¬ i = w.gbbox .xhi := by omega
  have n3 : ¬ k = w.gbbox .zlo := by omega
  have n4 : ¬ k = w.gbbox .zhi := by omega
  have inc : (updatePmlEfield c ++ updateMurEfield c ++ updateGridEfield c).run C s (.inc false 0 .hz (i-1) j k) =
      F .hz (i-1) j k := by
    rw [((coreE_only c).noWrite (by simp [Loc.kind])).run, hinc]
  simp only [pwTableE, List.foldl_cons, List.foldl_nil, reduceCtorEq, false_and, if_false, true_and, l1, l2, l3, l4,
    corrE, Face.isLo, if_true, shift, n2, n3, n4, Face.axis, coord, Bool.false_eq_true, incField, haux,
    Expr.eval]
  simp only [SampleIn, pos2] at hi
  have m1 : separated w.gbbox F .hz i j k = F .hz i j k := sep_in (by simp only [SampleIn, pos2]; omega)
  have m2 : separated w.gbbox F .hz (i-1) j k = 0 := sep_out (by simp only [SampleIn, pos2]; omega)
  have m3 : separated w.gbbox F .hx i j k = F .hx i j k := sep_in (by simp only [SampleIn, pos2]; omega)
  have m4 : separated w.gbbox F .hx i j (k-1) = F .hx i j (k-1) := sep_in (by simp only [SampleIn, pos2]; omega)
  have m5 : separated w.gbbox F .ey i j k = F .ey i j k := sep_in (by simp only [SampleIn, pos2]; omega)
  rw [if_pos hx]
  simp only [curlAtE, hs.fld, m1, m2, m3, m4, m5, ← sub_eq_add_neg, inc, wanted, A, B]
  ring

end half
end Vulture.C31
