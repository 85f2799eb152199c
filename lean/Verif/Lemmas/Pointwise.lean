import Verif.Model.Sim
import Verif.Props.C10_Order
import Verif.Spec.Media
/- What one time step does to one field sample. -/
set_option linter.unusedSimpArgs false
namespace Vulture
open Spec C10
variable {K : Type*} [CommRing K] (C : CRef → K)

/-- The program does not write the location. -/
def NoWrite (p : Prog) (l : Loc) : Prop := ∀ b ∈ p, l ∉ b.writes

theorem NoWrite.append {p q : Prog} {l : Loc} (h : NoWrite p l) (h' : NoWrite q l) : NoWrite (p ++ q) l := by
  intro b hb
  rcases List.mem_append.1 hb with hb | hb
  · exact h b hb
  · exact h' b hb

theorem NoWrite.nil {l : Loc} : NoWrite [] l := by intro b hb; cases hb

theorem NoWrite.flatMap {α : Type*} {L : List α} {f : α → Prog} {l : Loc} (h : ∀ x ∈ L, NoWrite (f x) l) :
    NoWrite (L.flatMap f) l := by
  intro b hb
  obtain ⟨x, hx, hb⟩ := List.mem_flatMap.1 hb
  exact h x hx b hb

theorem NoWrite.loop {lim : Face → Int} {body : Int → Int → Int → Block} {l : Loc}
    (h : ∀ i j k, InLim lim i j k → l ∉ (body i j k).writes) : NoWrite (loopOver lim body) l :=
  (forall_loopOver (Q := fun b => l ∉ b.writes)).2 h

theorem NoWrite.run {p : Prog} {l : Loc} (h : NoWrite p l) (s : Loc → K) : p.run C s l = s l :=
  run_not_written C h

/-- Components of the magnetic field. -/
def Fc.isH (fc : Fc) : Prop := fc = .hx ∨ fc = .hy ∨ fc = .hz

theorem fc_isH {fc : Fc} (h : fc.isE = false) : fc = .hx ∨ fc = .hy ∨ fc = .hz := by
  cases fc <;> simp_all [Fc.isE]
theorem fc_isE {fc : Fc} (h : fc.isE = true) : fc = .ex ∨ fc = .ey ∨ fc = .ez := by
  cases fc <;> simp_all [Fc.isE]

theorem noWrite_of_count {p : Prog} {l : Loc} (h : Spec.timesWritten p l = 0) : NoWrite p l := by
  unfold Spec.timesWritten at h
  rw [List.countP_eq_zero] at h
  intro b hb
  simpa using h b hb

/-- Axis components. -/
theorem axis_e_isE (a : Axis) : a.e.isE = true := by cases a <;> rfl
theorem axis_h_isE (a : Axis) : a.h.isE = false := by cases a <;> rfl

section noH
variable {fc : Fc} (hf : fc.isE = false) (i j k : Int)
include hf

theorem noH_core (c : Cfg) :
    NoWrite (updatePmlEfield c ++ updateMurEfield c ++ updateGridEfield c) (.fld fc i j k) :=
  noWrite_of_count (C09.electric_only c fc (fc_isH hf) i j k)

theorem noH_debye (l : List DebyeBlk) : NoWrite (updateDebye l) (.fld fc i j k) := by
  refine NoWrite.flatMap fun x _ => NoWrite.flatMap fun fc' h' => NoWrite.loop fun i' j' k' _ => ?_
  have : fc'.isE = true := by simp at h'; rcases h' with rfl | rfl | rfl <;> rfl
  intro h
  simp only [debyeBlock, Block.writes, List.map_cons, List.mem_cons, Loc.fld.injEq, reduceCtorEq, false_or,
    List.mem_map, List.mem_flatMap, List.not_mem_nil, or_false] at h
  rcases h with h | ⟨a, ⟨m, _, rfl | rfl⟩, h⟩
  · rw [h.1] at hf; rw [hf] at this; cases this
  · cases h
  · cases h

theorem noH_sibcE (l : List SibcSurf) : NoWrite (updateSibcE l) (.fld fc i j k) := by
  refine NoWrite.flatMap fun x _ => NoWrite.loop fun i' j' k' _ => ?_
  intro h
  have ne : ∀ (a : Axis) t, Loc.fld fc i j k ≠ fldAt a.e t := by
    intro a t h
    simp only [fldAt, Loc.fld.injEq] at h
    have := axis_e_isE a
    rw [← h.1, hf] at this; cases this
  simp only [sibcEBlock, Block.writes, List.map_append, List.mem_append, List.map_cons, List.map_nil,
    List.mem_cons, List.not_mem_nil, or_false, ne, false_or, List.mem_map, List.mem_flatMap] at h
  rcases h with ⟨a, ⟨m, _, rfl⟩, h⟩ | ⟨a, ⟨p, _, q, _, rfl | ⟨m, _, rfl | rfl⟩⟩, h⟩ <;> cases h

theorem noH_srcE (l : List Src) : NoWrite (updateSourcesE l) (.fld fc i j k) := by
  refine NoWrite.flatMap fun x _ => ?_
  split
  · rename_i hx
    refine NoWrite.loop fun i' j' k' _ => ?_
    intro h
    have : fc = x.1.field := by
      unfold srcEBlock at h
      split at h <;> simp [Block.writes] at h <;> exact h.1
    rw [this] at hf; rw [hf] at hx; simp at hx
  · exact NoWrite.nil

theorem noH_pwE (c : Cfg) (l : List PW) : NoWrite (updatePlaneWavesE c l) (.fld fc i j k) := by
  refine NoWrite.flatMap fun x _ => NoWrite.append ?_ ?_
  · split
    · intro b hb
      simp only [auxE, List.mem_append, List.mem_map] at hb
      rcases hb with (⟨_, _, rfl⟩ | ⟨_, _, rfl⟩) | hb
      · simp [Block.writes]
      · simp [Block.writes]
      · simp at hb; subst hb; simp [Block.writes]
    · exact NoWrite.nil
  · refine NoWrite.flatMap fun r hr => ?_
    split
    · refine NoWrite.loop fun i' j' k' _ => ?_
      intro h
      have e : ∀ r ∈ pwTableE, r.2.1.isE = true := by decide
      have e := e r hr
      simp [pwEBlock, Block.writes] at h
      rw [← h.1, hf] at e; cases e
    · exact NoWrite.nil

theorem noH_ghostE (c : Cfg) : NoWrite (updateGhostEfield c) (.fld fc i j k) := by
  refine NoWrite.flatMap fun f _ => ?_
  have hc : fc ∉ ghostEcomps f := by
    intro h; cases f <;> simp [ghostEcomps] at h <;> subst h <;> cases hf
  intro b hb
  unfold ghostFace at hb
  split at hb
  · cases hb
  · cases hb
  · obtain ⟨q, _, hb⟩ := List.mem_flatMap.1 hb
    obtain ⟨fc', h', rfl⟩ := List.mem_map.1 hb
    simp only [Block.writes, List.map_cons, List.map_nil, List.mem_singleton, fldAt, Loc.fld.injEq]
    rintro ⟨rfl, -⟩
    exact hc h'

/-- The electric half step leaves the magnetic field alone. -/
theorem noH_stepE (S : Sim) : NoWrite S.stepE (.fld fc i j k) :=
  (((((noH_core hf i j k S.cfg).append (noH_debye hf i j k _)).append (noH_sibcE hf i j k _)).append
    (noH_srcE hf i j k _)).append (noH_pwE hf i j k _ _)).append (noH_ghostE hf i j k _)

end noH

section noE
variable {fc : Fc} (hf : fc.isE = true) (i j k : Int)
include hf

theorem noE_core (c : Cfg) :
    NoWrite (updatePmlHfield c ++ updateMurHfield c ++ updateGridHfield c) (.fld fc i j k) :=
  noWrite_of_count (C09.magnetic_only c fc (fc_isE hf) i j k)

theorem noE_sibcH (l : List SibcSurf) : NoWrite (updateSibcH l) (.fld fc i j k) := by
  have ne : ∀ (a : Axis) t, Loc.fld fc i j k ≠ fldAt a.h t := by
    intro a t h
    simp only [fldAt, Loc.fld.injEq] at h
    have := axis_h_isE a
    rw [← h.1, hf] at this; cases this
  refine NoWrite.append ?_ ?_
  · refine NoWrite.flatMap fun x _ => NoWrite.loop fun i' j' k' _ => ?_
    intro h
    obtain ⟨s, n⟩ := x
    obtain ⟨nrm, g, np⟩ := s
    cases nrm <;>
      simp [sibcHBlock, Block.writes, ne, sibcCorr, sibcAdj] at h
  · refine NoWrite.flatMap fun x _ => NoWrite.loop fun i' j' k' _ => ?_
    intro h
    simp [Block.writes, ne] at h

theorem noE_srcH (l : List Src) : NoWrite (updateSourcesH l) (.fld fc i j k) := by
  refine NoWrite.flatMap fun x _ => ?_
  split
  · rename_i hx
    refine NoWrite.loop fun i' j' k' _ => ?_
    intro h
    have : fc = x.1.field := by
      unfold srcHBlock at h
      split at h <;> simp [Block.writes] at h <;> exact h.1
    rw [this] at hf; rw [hf] at hx; simp at hx
  · exact NoWrite.nil

theorem noE_pwH (c : Cfg) (l : List PW) : NoWrite (updatePlaneWavesH c l) (.fld fc i j k) := by
  refine NoWrite.flatMap fun x _ => NoWrite.append ?_ ?_
  · split
    · intro b hb
      simp only [auxH, List.mem_append, List.mem_map] at hb
      rcases hb with ⟨_, _, rfl⟩ | ⟨_, _, rfl⟩ <;> simp [Block.writes]
    · exact NoWrite.nil
  · refine NoWrite.flatMap fun r hr => ?_
    split
    · refine NoWrite.loop fun i' j' k' _ => ?_
      intro h
      have e : ∀ r ∈ pwTableH, r.2.1.isE = false := by decide
      have e := e r hr
      simp [pwHBlock, Block.writes] at h
      rw [← h.1, hf] at e; cases e
    · exact NoWrite.nil

theorem noE_ghostH (c : Cfg) : NoWrite (updateGhostHfield c) (.fld fc i j k) := by
  refine NoWrite.flatMap fun f _ => ?_
  have hc : fc ∉ ghostHcomps f := by
    intro h; cases f <;> simp [ghostHcomps] at h <;> rcases h with rfl | rfl <;> cases hf
  intro b hb
  unfold ghostFace at hb
  split at hb
  · cases hb
  · cases hb
  · obtain ⟨q, _, hb⟩ := List.mem_flatMap.1 hb
    obtain ⟨fc', h', rfl⟩ := List.mem_map.1 hb
    simp only [Block.writes, List.map_cons, List.map_nil, List.mem_singleton, fldAt, Loc.fld.injEq]
    rintro ⟨rfl, -⟩
    exact hc h'

/-- The magnetic half step leaves the electric field alone. -/
theorem noE_stepH (S : Sim) : NoWrite S.stepH (.fld fc i j k) :=
  ((((noE_core hf i j k S.cfg).append (noE_sibcH hf i j k _)).append
    (noE_srcH hf i j k _)).append (noE_pwH hf i j k _ _)).append (noE_ghostH hf i j k _)

end noE

/-- Samples inside the outer grid are not ghosts. -/
theorem noWrite_ghost {c : Cfg} (h : ValidCfg c) {fc : Fc} {i j k : Int} (hi : SampleIn c.gobox fc i j k)
    (comps : Face → List Fc) (hcomp : ∀ f, ∀ fc ∈ comps f, fieldIsInBoundary fc f = false) :
    NoWrite (Face.all.flatMap fun f => ghostFace c (comps f) f) (.fld fc i j k) := by
  refine NoWrite.flatMap fun f _ => ?_
  intro b hb
  unfold ghostFace at hb
  split at hb
  · cases hb
  · cases hb
  · obtain ⟨q, hq, hb⟩ := List.mem_flatMap.1 hb
    obtain ⟨fc', h', rfl⟩ := List.mem_map.1 hb
    simp only [Block.writes, List.map_cons, List.map_nil, List.mem_singleton, fldAt, Loc.fld.injEq]
    rintro ⟨rfl, rfl, rfl, rfl⟩
    have hn := hcomp f _ h'
    obtain ⟨q1, q2, q3⟩ := q
    have hq := mem_boxLoop.1 hq
    obtain ⟨h1, h2, h3⟩ := hi
    have fx := cfg_facts h .x; have fy := cfg_facts h .y; have fz := cfg_facts h .z
    simp only [Axis.lo, Axis.hi] at fx fy fz
    cases f <;> cases fc <;> first | (exfalso; revert hn; decide) | (
      simp [ghostFaceLim, ghostTarget, Face.axis, Face.isLo] at hq
      simp only [pos2] at h1 h2 h3
      omega)

theorem noWrite_ghostH {c : Cfg} (h : ValidCfg c) {fc : Fc} {i j k : Int} (hi : SampleIn c.gobox fc i j k) :
    NoWrite (updateGhostHfield c) (.fld fc i j k) :=
  noWrite_ghost h hi ghostHcomps (by decide)
theorem noWrite_ghostE {c : Cfg} (h : ValidCfg c) {fc : Fc} {i j k : Int} (hi : SampleIn c.gobox fc i j k) :
    NoWrite (updateGhostEfield c) (.fld fc i j k) :=
  noWrite_ghost h hi ghostEcomps (by decide)

theorem sampleIn_mono {b b' : BBox} (h : Within b b') {fc : Fc} {i j k : Int} (hi : SampleIn b fc i j k) :
    SampleIn b' fc i j k := by
  obtain ⟨h1, h2, h3⟩ := hi
  have a := h .x; have b := h .y; have c := h .z
  simp only [Axis.lo, Axis.hi] at a b c
  exact ⟨by omega, by omega, by omega⟩

/-- A magnetic sample of the user region is advanced by the ordinary update. -/
theorem magnetic_value {c : Cfg} (h : ValidCfg c) {fc : Fc} (hf : fc.isE = false) {i j k : Int}
    (hi : SampleIn c.gibox fc i j k) (s : Loc → K) :
    Prog.run C (updatePmlHfield c ++ updateMurHfield c ++ updateGridHfield c) s (.fld fc i j k) =
      (faraday fc i j k).eval C s := by
  have hind : (updatePmlHfield c ++ updateMurHfield c ++ updateGridHfield c).Pairwise Indep :=
    magnetic_independent h
  have key : ∃ b ∈ updatePmlHfield c ++ updateMurHfield c ++ updateGridHfield c,
      b = [⟨.fld fc i j k, faraday fc i j k⟩] := by
    refine ⟨_, ?_, rfl⟩
    by_cases hm : ∃ f, c.bt f = .mur ∧ fc = murNormal f ∧ samplePos fc i j k f.axis = 2 * c.gibox f
    · obtain ⟨f, h1, h2, h3⟩ := hm
      refine List.mem_append_left _ (List.mem_append_right _ (List.mem_flatMap.2 ⟨f, by cases f <;> simp [Face.all], ?_⟩))
      rw [if_pos h1]
      subst h2
      refine List.mem_map.2 ⟨(i, j, k), mem_boxLoop.2 ?_, rfl⟩
      obtain ⟨a1, a2, a3⟩ := hi
      cases f <;> simp [Cfg.fmlim, setFieldLimits, Face.isLo, fieldIsInBoundary, getFaceOfBoundingBox,
        mkBox, murNormal, samplePos, pos2, Face.axis, Cfg.murInclude] at * <;> omega
    · refine List.mem_append_right _ ?_
      push Not at hm
      unfold updateGridHfield
      obtain ⟨a1, a2, a3⟩ := hi
      simp only [List.mem_append]
      rcases fc_isH hf with rfl | rfl | rfl
      · refine Or.inl (Or.inl (List.mem_map.2 ⟨(i, j, k), mem_boxLoop.2 ?_, rfl⟩))
        have m1 := hm .xlo; have m2 := hm .xhi
        simp only [murNormal, samplePos, pos2, Face.axis] at *
        simp [Cfg.gfilim, setFieldLimits, Face.isLo, fieldIsInBoundary, C09.bt_beq]
        by_cases e1 : c.bt .xlo = .mur <;> by_cases e2 : c.bt .xhi = .mur <;> simp [e1, e2] at m1 m2 ⊢ <;> omega
      · refine Or.inl (Or.inr (List.mem_map.2 ⟨(i, j, k), mem_boxLoop.2 ?_, rfl⟩))
        have m1 := hm .ylo; have m2 := hm .yhi
        simp only [murNormal, samplePos, pos2, Face.axis] at *
        simp [Cfg.gfilim, setFieldLimits, Face.isLo, fieldIsInBoundary, C09.bt_beq]
        by_cases e1 : c.bt .ylo = .mur <;> by_cases e2 : c.bt .yhi = .mur <;> simp [e1, e2] at m1 m2 ⊢ <;> omega
      · refine Or.inr (List.mem_map.2 ⟨(i, j, k), mem_boxLoop.2 ?_, rfl⟩)
        have m1 := hm .zlo; have m2 := hm .zhi
        simp only [murNormal, samplePos, pos2, Face.axis] at *
        simp [Cfg.gfilim, setFieldLimits, Face.isLo, fieldIsInBoundary, C09.bt_beq]
        by_cases e1 : c.bt .zlo = .mur <;> by_cases e2 : c.bt .zhi = .mur <;> simp [e1, e2] at m1 m2 ⊢ <;> omega
  obtain ⟨b, hb, rfl⟩ := key
  rw [run_indep C hind hb (l := .fld fc i j k) (by simp [Block.writes])]
  simp [Block.exec]

/-- An electric sample of the user region off the Mur faces is advanced by the ordinary update. -/
theorem electric_value {c : Cfg} (h : ValidCfg c) {fc : Fc} (hf : fc.isE = true) {i j k : Int}
    (hi : InLim (c.gfilim fc) i j k) (s : Loc → K) :
    Prog.run C (updatePmlEfield c ++ updateMurEfield c ++ updateGridEfield c) s (.fld fc i j k) =
      (ampere fc i j k).eval C s := by
  have hcount := C09.electric_exactly_once h fc (fc_isE hf) i j k
  have hg := C09.tw_gridE c i j k fc (fc_isE hf)
  rw [if_pos hi] at hg
  rw [C09.tw_append, hg] at hcount
  have hno : NoWrite (updatePmlEfield c ++ updateMurEfield c) (.fld fc i j k) := by
    apply noWrite_of_count
    split at hcount <;> omega
  have hind : (updateGridEfield c).Pairwise Indep :=
    (List.pairwise_append.1 (electric_independent h)).2.1
  have hb : [⟨.fld fc i j k, ampere fc i j k⟩] ∈ updateGridEfield c := by
    unfold updateGridEfield
    simp only [List.mem_append]
    rcases fc_isE hf with rfl | rfl | rfl
    · exact Or.inl (Or.inl (List.mem_map.2 ⟨(i, j, k), mem_boxLoop.2 hi, rfl⟩))
    · exact Or.inl (Or.inr (List.mem_map.2 ⟨(i, j, k), mem_boxLoop.2 hi, rfl⟩))
    · exact Or.inr (List.mem_map.2 ⟨(i, j, k), mem_boxLoop.2 hi, rfl⟩)
  rw [run_append, run_indep C hind hb (l := .fld fc i j k) (by simp [Block.writes])]
  have : (ampere fc i j k).eval C ((updatePmlEfield c ++ updateMurEfield c).run C s) =
      (ampere fc i j k).eval C s := by
    apply eval_congr
    intro l hl
    have hH : ∀ {g : Fc} {a b d : Int}, g.isE = false →
        NoWrite (updatePmlEfield c ++ updateMurEfield c) (.fld g a b d) := by
      intro g a b d hg b' hb'
      exact noH_core hg a b d c b' (List.mem_append_left _ hb')
    rcases fc_isE hf with rfl | rfl | rfl <;>
      simp [ampere, ampereX, ampereY, ampereZ, Expr.reads, curlHx, curlHy, curlHz, EX, EY, EZ, HX, HY, HZ] at hl <;>
      rcases hl with rfl | rfl | rfl | rfl | rfl <;>
      first | exact NoWrite.run C hno s | exact NoWrite.run C (hH rfl) s
  simp [Block.exec, this]

end Vulture
