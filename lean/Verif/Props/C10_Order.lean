import Verif.Props.C09_Partition
import Verif.Lemmas.Schedule
/-
C10: the result of a field update does not depend on the order in which samples are visited, nor on
how the memory accesses of concurrently running iterations interleave.
-/
set_option linter.unusedSimpArgs false
namespace Vulture.C10
open Spec
variable {K : Type*} [CommRing K] (C : CRef → K)

theorem pairwise_of_count {p : Prog} (P : Loc → Prop) (h : ∀ l, P l → timesWritten p l ≤ 1) :
    p.Pairwise (fun a b => ∀ l, P l → ¬ (l ∈ a.writes ∧ l ∈ b.writes)) := by
  induction p with
  | nil => exact List.Pairwise.nil
  | cons b p ih =>
    rw [List.pairwise_cons]
    refine ⟨?_, ih fun l hl => ?_⟩
    · rintro b' hb' l hl ⟨h1, h2⟩
      have := h l hl
      unfold timesWritten at this
      rw [List.countP_cons_of_pos (by simpa using h1)] at this
      have h3 : 0 < p.countP (fun b => decide (l ∈ b.writes)) :=
        List.countP_pos_iff.2 ⟨b', hb', by simpa using h2⟩
      omega
    · have := h l hl
      unfold timesWritten at *
      rw [List.countP_cons] at this
      omega

def IsE : Fc → Prop | .ex => True | .ey => True | .ez => True | _ => False

/-- The data an electric iteration owns: the sample and its slab variables. -/
def OwnE (c : Cfg) (fc : Fc) (i j k : Int) (l : Loc) : Prop :=
  l = .fld fc i j k ∨ ∃ r, l = PPr r fc (c.fplim r fc) i j k ∨ l = Pr r fc (c.fplim r fc) i j k
/-- Magnetic samples. -/
def Hloc (l : Loc) : Prop := ∃ fc i j k, l = .fld fc i j k ∧ ¬ IsE fc

def FormE (c : Cfg) (b : Block) : Prop :=
  ∃ fc i j k, IsE fc ∧ Loc.fld fc i j k ∈ b.writes ∧ (∀ l ∈ b.writes, OwnE c fc i j k l) ∧
    (∀ l ∈ b.reads, OwnE c fc i j k l ∨ Hloc l)

/-- The data a magnetic iteration owns. -/
def OwnH (c : Cfg) (fc : Fc) (i j k : Int) (l : Loc) : Prop :=
  l = .fld fc i j k ∨ ∃ r, l = Br r fc (c.fplim r fc) i j k
/-- Electric samples. -/
def Eloc (l : Loc) : Prop := ∃ fc i j k, l = .fld fc i j k ∧ IsE fc

def FormH (c : Cfg) (b : Block) : Prop :=
  ∃ fc i j k, ¬ IsE fc ∧ Loc.fld fc i j k ∈ b.writes ∧ (∀ l ∈ b.writes, OwnH c fc i j k l) ∧
    (∀ l ∈ b.reads, OwnH c fc i j k l ∨ Eloc l)

theorem ownE_inj {c : Cfg} {fc fc' : Fc} {i j k i' j' k' : Int} {l : Loc}
    (h : OwnE c fc i j k l) (h' : OwnE c fc' i' j' k' l) : Loc.fld fc i j k = Loc.fld fc' i' j' k' := by
  rcases h with rfl | ⟨r, rfl | rfl⟩ <;> rcases h' with h' | ⟨r', h' | h'⟩ <;>
    simp only [PPr, Pr, Loc.fld.injEq, Loc.pp.injEq, Loc.p.injEq, reduceCtorEq] at h' ⊢
  · exact h'
  · obtain ⟨rfl, rfl, h1, h2, h3⟩ := h'
    exact ⟨rfl, by omega, by omega, by omega⟩
  · obtain ⟨rfl, rfl, h1, h2, h3⟩ := h'
    exact ⟨rfl, by omega, by omega, by omega⟩

theorem ownH_inj {c : Cfg} {fc fc' : Fc} {i j k i' j' k' : Int} {l : Loc}
    (h : OwnH c fc i j k l) (h' : OwnH c fc' i' j' k' l) : Loc.fld fc i j k = Loc.fld fc' i' j' k' := by
  rcases h with rfl | ⟨r, rfl⟩ <;> rcases h' with h' | ⟨r', h'⟩ <;>
    simp only [Br, Loc.fld.injEq, Loc.b.injEq, reduceCtorEq] at h' ⊢
  · exact h'
  · obtain ⟨rfl, rfl, h1, h2, h3⟩ := h'
    exact ⟨rfl, by omega, by omega, by omega⟩

theorem ownE_not_H {c : Cfg} {fc : Fc} {i j k : Int} {l : Loc} (hE : IsE fc) (h : OwnE c fc i j k l) :
    ¬ Hloc l := by
  rintro ⟨fc', i', j', k', rfl, hn⟩
  rcases h with h | ⟨r, h | h⟩
  · simp only [Loc.fld.injEq] at h; rw [h.1] at hn; exact hn hE
  · simp [PPr] at h
  · simp [Pr] at h

theorem ownH_not_E {c : Cfg} {fc : Fc} {i j k : Int} {l : Loc} (hE : ¬ IsE fc) (h : OwnH c fc i j k l) :
    ¬ Eloc l := by
  rintro ⟨fc', i', j', k', rfl, hn⟩
  rcases h with h | ⟨r, h⟩
  · simp only [Loc.fld.injEq] at h; rw [h.1] at hn; exact hE hn
  · simp [Br] at h

theorem indep_E {c : Cfg} {a b : Block} (ha : FormE c a) (hb : FormE c b)
    (hd : ∀ l, (∃ fc i j k, l = Loc.fld fc i j k) → ¬ (l ∈ a.writes ∧ l ∈ b.writes)) : Indep a b := by
  obtain ⟨fc, i, j, k, hE, hw, hws, hrs⟩ := ha
  obtain ⟨fc', i', j', k', hE', hw', hws', hrs'⟩ := hb
  have key : ∀ l, OwnE c fc i j k l → ¬ OwnE c fc' i' j' k' l := by
    intro l h h'
    have := ownE_inj h h'
    exact hd _ ⟨fc, i, j, k, rfl⟩ ⟨hw, by rw [this]; exact hw'⟩
  constructor
  · intro l hl
    refine ⟨fun h => key l (hws l hl) (hws' l h), fun h => ?_⟩
    rcases hrs' l h with h | h
    · exact key l (hws l hl) h
    · exact ownE_not_H hE (hws l hl) h
  · intro l hl
    refine ⟨fun h => key l (hws l h) (hws' l hl), fun h => ?_⟩
    rcases hrs l h with h | h
    · exact key l h (hws' l hl)
    · exact ownE_not_H hE' (hws' l hl) h

theorem indep_H {c : Cfg} {a b : Block} (ha : FormH c a) (hb : FormH c b)
    (hd : ∀ l, (∃ fc i j k, l = Loc.fld fc i j k) → ¬ (l ∈ a.writes ∧ l ∈ b.writes)) : Indep a b := by
  obtain ⟨fc, i, j, k, hE, hw, hws, hrs⟩ := ha
  obtain ⟨fc', i', j', k', hE', hw', hws', hrs'⟩ := hb
  have key : ∀ l, OwnH c fc i j k l → ¬ OwnH c fc' i' j' k' l := by
    intro l h h'
    have := ownH_inj h h'
    exact hd _ ⟨fc, i, j, k, rfl⟩ ⟨hw, by rw [this]; exact hw'⟩
  constructor
  · intro l hl
    refine ⟨fun h => key l (hws l hl) (hws' l h), fun h => ?_⟩
    rcases hrs' l h with h | h
    · exact key l (hws l hl) h
    · exact ownH_not_E hE (hws l hl) h
  · intro l hl
    refine ⟨fun h => key l (hws l h) (hws' l hl), fun h => ?_⟩
    rcases hrs l h with h | h
    · exact key l h (hws' l hl)
    · exact ownH_not_E hE' (hws' l hl) h

theorem hloc_hx (i j k : Int) : Hloc (.fld .hx i j k) := ⟨.hx, i, j, k, rfl, fun h => h⟩
theorem hloc_hy (i j k : Int) : Hloc (.fld .hy i j k) := ⟨.hy, i, j, k, rfl, fun h => h⟩
theorem hloc_hz (i j k : Int) : Hloc (.fld .hz i j k) := ⟨.hz, i, j, k, rfl, fun h => h⟩
theorem eloc_ex (i j k : Int) : Eloc (.fld .ex i j k) := ⟨.ex, i, j, k, rfl, trivial⟩
theorem eloc_ey (i j k : Int) : Eloc (.fld .ey i j k) := ⟨.ey, i, j, k, rfl, trivial⟩
theorem eloc_ez (i j k : Int) : Eloc (.fld .ez i j k) := ⟨.ez, i, j, k, rfl, trivial⟩

macro "formE" fc:ident i:ident j:ident k:ident : tactic => `(tactic| (
  refine ⟨$fc, $i, $j, $k, trivial, ?_, ?_, ?_⟩
  · simp [Block.writes, pmlExBlock, pmlEyBlock, pmlEzBlock]
  · simp [Block.writes, pmlExBlock, pmlEyBlock, pmlEzBlock, OwnE, PPr, Pr]
  · simp [Block.reads, Expr.reads, pmlExBlock, pmlEyBlock, pmlEzBlock, ampereX, ampereY, ampereZ,
      curlHx, curlHy, curlHz, EX, EY, EZ, HX, HY, HZ, OwnE, PPr, Pr, hloc_hx, hloc_hy, hloc_hz]))

theorem form_gridE (c : Cfg) : ∀ b ∈ updateGridEfield c, FormE c b := by
  intro b hb
  simp only [updateGridEfield, List.mem_append] at hb
  rcases hb with (hb | hb) | hb
  · refine forall_loopOver.2 ?_ b hb; intro i j k _; formE Fc.ex i j k
  · refine forall_loopOver.2 ?_ b hb; intro i j k _; formE Fc.ey i j k
  · refine forall_loopOver.2 ?_ b hb; intro i j k _; formE Fc.ez i j k

theorem form_pmlE (c : Cfg) : ∀ b ∈ updatePmlEfield c, FormE c b := by
  intro b hb
  obtain ⟨r, _, hb⟩ := List.mem_flatMap.1 hb
  unfold pmlRegionE at hb
  split at hb
  · simp only [List.mem_append] at hb
    rcases hb with (hb | hb) | hb
    · refine forall_loopOver.2 ?_ b hb; intro i j k _; formE Fc.ex i j k
    · refine forall_loopOver.2 ?_ b hb; intro i j k _; formE Fc.ey i j k
    · refine forall_loopOver.2 ?_ b hb; intro i j k _; formE Fc.ez i j k
  · cases hb

macro "formH" fc:ident i:ident j:ident k:ident : tactic => `(tactic| (
  refine ⟨$fc, $i, $j, $k, fun h => h, ?_, ?_, ?_⟩
  · simp [Block.writes, pmlHxBlock, pmlHyBlock, pmlHzBlock]
  · simp [Block.writes, pmlHxBlock, pmlHyBlock, pmlHzBlock, OwnH, Br]
  · simp [Block.reads, Expr.reads, pmlHxBlock, pmlHyBlock, pmlHzBlock, faradayX, faradayY, faradayZ,
      curlEx, curlEy, curlEz, EX, EY, EZ, HX, HY, HZ, OwnH, Br, eloc_ex, eloc_ey, eloc_ez, faraday]))

theorem form_gridH (c : Cfg) : ∀ b ∈ updateGridHfield c, FormH c b := by
  intro b hb
  simp only [updateGridHfield, List.mem_append] at hb
  rcases hb with (hb | hb) | hb
  · refine forall_loopOver.2 ?_ b hb; intro i j k _; formH Fc.hx i j k
  · refine forall_loopOver.2 ?_ b hb; intro i j k _; formH Fc.hy i j k
  · refine forall_loopOver.2 ?_ b hb; intro i j k _; formH Fc.hz i j k

theorem form_pmlH (c : Cfg) : ∀ b ∈ updatePmlHfield c, FormH c b := by
  intro b hb
  obtain ⟨r, _, hb⟩ := List.mem_flatMap.1 hb
  unfold pmlRegionH at hb
  split at hb
  · simp only [List.mem_append] at hb
    rcases hb with (hb | hb) | hb
    · refine forall_loopOver.2 ?_ b hb; intro i j k _; formH Fc.hx i j k
    · refine forall_loopOver.2 ?_ b hb; intro i j k _; formH Fc.hy i j k
    · refine forall_loopOver.2 ?_ b hb; intro i j k _; formH Fc.hz i j k
  · cases hb

theorem form_murH (c : Cfg) : ∀ b ∈ updateMurHfield c, FormH c b := by
  intro b hb
  obtain ⟨f, _, hb⟩ := List.mem_flatMap.1 hb
  split at hb
  · refine forall_loopOver.2 ?_ b hb
    intro i j k _
    cases f <;> simp only [murNormal]
    · formH Fc.hx i j k
    · formH Fc.hx i j k
    · formH Fc.hy i j k
    · formH Fc.hy i j k
    · formH Fc.hz i j k
    · formH Fc.hz i j k
  · cases hb

/-- The electric update: all PML and main-grid iterations. -/
def electricUpdate (c : Cfg) : Prog := updatePmlEfield c ++ updateGridEfield c
/-- The magnetic update: all PML, Mur and main-grid iterations. -/
def magneticUpdate (c : Cfg) : Prog := updatePmlHfield c ++ updateMurHfield c ++ updateGridHfield c

/-- No electric iteration writes what another one reads or writes. -/
theorem electric_independent {c : Cfg} (h : ValidCfg c) : (electricUpdate c).Pairwise Indep := by
  have hf : ∀ b ∈ electricUpdate c, FormE c b := by
    intro b hb
    rcases List.mem_append.1 hb with hb | hb
    · exact form_pmlE c b hb
    · exact form_gridE c b hb
  have hp := pairwise_of_count (p := electricUpdate c) (fun l => ∃ fc i j k, l = Loc.fld fc i j k) (by
    rintro l ⟨fc, i, j, k, rfl⟩
    have h1 : timesWritten (electricUpdate c) (.fld fc i j k) ≤
        timesWritten (C09.stepUpdates c) (.fld fc i j k) := by
      unfold electricUpdate C09.stepUpdates
      simp only [C09.tw_append]; omega
    rw [C09.advanced_exactly_once h] at h1
    split at h1 <;> omega)
  exact List.Pairwise.imp_of_mem (fun ha hb hd => indep_E (hf _ ha) (hf _ hb) hd) hp

/-- No magnetic iteration writes what another one reads or writes. -/
theorem magnetic_independent {c : Cfg} (h : ValidCfg c) : (magneticUpdate c).Pairwise Indep := by
  have hf : ∀ b ∈ magneticUpdate c, FormH c b := by
    intro b hb
    rcases List.mem_append.1 hb with hb | hb
    · rcases List.mem_append.1 hb with hb | hb
      · exact form_pmlH c b hb
      · exact form_murH c b hb
    · exact form_gridH c b hb
  have hp := pairwise_of_count (p := magneticUpdate c) (fun l => ∃ fc i j k, l = Loc.fld fc i j k) (by
    rintro l ⟨fc, i, j, k, rfl⟩
    have h1 : timesWritten (magneticUpdate c) (.fld fc i j k) ≤
        timesWritten (C09.stepUpdates c) (.fld fc i j k) := by
      unfold magneticUpdate C09.stepUpdates
      simp only [C09.tw_append]; omega
    rw [C09.advanced_exactly_once h] at h1
    split at h1 <;> omega)
  exact List.Pairwise.imp_of_mem (fun ha hb hd => indep_H (hf _ ha) (hf _ hb) hd) hp

/-- The iterations of one Mur parallel loop (one face, one component) are independent, although they
read electric samples. -/
theorem mur_loop_independent (c : Cfg) (f : Face) (fc : Fc) (hfc : fc ∈ murComponents f) :
    (loopOver (c.fmlim f fc) (murE f fc)).Pairwise Indep := by
  unfold loopOver
  rw [List.pairwise_map]
  refine List.Pairwise.imp_of_mem ?_ (nodup_boxLoop (c.fmlim f fc))
  rintro ⟨i, j, k⟩ ⟨i', j', k'⟩ ha hb hne
  have ha := mem_boxLoop.1 ha
  have hb := mem_boxLoop.1 hb
  have hne' : ¬ (i = i' ∧ j = j' ∧ k = k') := by
    rintro ⟨rfl, rfl, rfl⟩; exact hne rfl
  cases f <;> simp [murComponents] at hfc <;> rcases hfc with rfl | rfl <;>
    simp [Cfg.fmlim, setFieldLimits, Face.isLo, fieldIsInBoundary, getFaceOfBoundingBox, mkBox,
      Cfg.murInclude, Face.axis] at ha hb <;>
    simp [Indep, murE, inward, ampere, Block.writes, Block.reads, Expr.reads, ampereX, ampereY, ampereZ,
      curlHx, curlHy, curlHz, EX, EY, EZ, HX, HY, HZ] <;> omega

theorem nodup_E {c : Cfg} : ∀ b ∈ electricUpdate c, b.writes.Nodup := by
  intro b hb
  rcases List.mem_append.1 hb with hb | hb
  · obtain ⟨r, _, hb⟩ := List.mem_flatMap.1 hb
    unfold pmlRegionE at hb
    split at hb
    · simp only [List.mem_append] at hb
      rcases hb with (hb | hb) | hb <;>
      · refine (forall_loopOver (Q := fun b => b.writes.Nodup)).2 ?_ b hb; intro i j k _
        simp [Block.writes, pmlExBlock, pmlEyBlock, pmlEzBlock, PPr, Pr]
    · cases hb
  · simp only [updateGridEfield, List.mem_append] at hb
    rcases hb with (hb | hb) | hb <;>
    · refine (forall_loopOver (Q := fun b => b.writes.Nodup)).2 ?_ b hb; intro i j k _; simp [Block.writes]

theorem nodup_H {c : Cfg} : ∀ b ∈ magneticUpdate c, b.writes.Nodup := by
  intro b hb
  simp only [magneticUpdate, List.mem_append] at hb
  rcases hb with (hb | hb) | hb
  · obtain ⟨r, _, hb⟩ := List.mem_flatMap.1 hb
    unfold pmlRegionH at hb
    split at hb
    · simp only [List.mem_append] at hb
      rcases hb with (hb | hb) | hb <;>
      · refine (forall_loopOver (Q := fun b => b.writes.Nodup)).2 ?_ b hb; intro i j k _
        simp [Block.writes, pmlHxBlock, pmlHyBlock, pmlHzBlock, Br]
    · cases hb
  · obtain ⟨r, _, hb⟩ := List.mem_flatMap.1 hb
    split at hb
    · refine (forall_loopOver (Q := fun b => b.writes.Nodup)).2 ?_ b hb; intro i j k _; simp [Block.writes]
    · cases hb
  · simp only [updateGridHfield, List.mem_append] at hb
    rcases hb with (hb | hb) | hb <;>
    · refine (forall_loopOver (Q := fun b => b.writes.Nodup)).2 ?_ b hb; intro i j k _; simp [Block.writes]

/-- C10, visiting order: any reordering of all iterations of the electric (magnetic) update gives the
same memory. -/
theorem any_order {c : Cfg} (h : ValidCfg c) (s : Loc → K) :
    (∀ q : Prog, (electricUpdate c).Perm q → q.run C s = (electricUpdate c).run C s) ∧
    (∀ q : Prog, (magneticUpdate c).Perm q → q.run C s = (magneticUpdate c).run C s) :=
  ⟨fun _ hq => (run_perm C (electric_independent h) hq s).symm,
   fun _ hq => (run_perm C (magnetic_independent h) hq s).symm⟩

/-- C10, threads: any interleaving of the memory accesses of all iterations of the electric
(magnetic) update ends in the memory of the sequential loop. -/
theorem any_schedule {c : Cfg} (h : ValidCfg c) (s : Loc → K) (log0 : Nat → Loc → K) (σ : List Ev) :
    (ScheduleOf (electricUpdate c) σ → (Mach.run C ⟨s, log0⟩ σ).mem = (electricUpdate c).run C s) ∧
    (ScheduleOf (magneticUpdate c) σ → (Mach.run C ⟨s, log0⟩ σ).mem = (magneticUpdate c).run C s) :=
  ⟨fun hs => schedule_eq_sequential C (electric_independent h) nodup_E hs s log0,
   fun hs => schedule_eq_sequential C (magnetic_independent h) nodup_H hs s log0⟩

/-- C10, threads, Mur: any interleaving of the iterations of one Mur parallel loop. -/
theorem any_schedule_mur (c : Cfg) (f : Face) (fc : Fc) (hfc : fc ∈ murComponents f) (s : Loc → K)
    (log0 : Nat → Loc → K) (σ : List Ev)
    (hs : ScheduleOf (loopOver (c.fmlim f fc) (murE f fc)) σ) :
    (Mach.run C ⟨s, log0⟩ σ).mem = (loopOver (c.fmlim f fc) (murE f fc)).run C s :=
  schedule_eq_sequential C (mur_loop_independent c f fc hfc)
    (forall_loopOver.2 fun i j k _ => by simp [murE, Block.writes]) hs s log0

/-- An extreme interleaving: all iterations perform all their reads before any of them writes. -/
def lockstep (p : Prog) : List Ev :=
  (p.zipIdx.flatMap fun x => x.1.reads.map (fun l => Ev.rd x.2 l)) ++
  (p.zipIdx.flatMap fun x => x.1.map (fun a => Ev.wr x.2 a))

theorem mem_reads {p : Prog} {n : Nat} {l : Loc} :
    Ev.rd n l ∈ (p.zipIdx.flatMap fun x => x.1.reads.map (fun l => Ev.rd x.2 l)) ↔
      ∃ b, p[n]? = some b ∧ l ∈ b.reads := by
  simp only [List.mem_flatMap, List.mem_map, Prod.exists, List.mem_zipIdx_iff_getElem?]
  constructor
  · rintro ⟨b, m, hb, l', hl, he⟩
    injection he with h1 h2; subst h1 h2; exact ⟨b, hb, hl⟩
  · rintro ⟨b, hb, hl⟩; exact ⟨b, n, hb, l, hl, rfl⟩

theorem mem_writes {p : Prog} {n : Nat} {a : Asg} :
    Ev.wr n a ∈ (p.zipIdx.flatMap fun x => x.1.map (fun a => Ev.wr x.2 a)) ↔
      ∃ b, p[n]? = some b ∧ a ∈ b := by
  simp only [List.mem_flatMap, List.mem_map, Prod.exists, List.mem_zipIdx_iff_getElem?]
  constructor
  · rintro ⟨b, m, hb, l', hl, he⟩
    injection he with h1 h2; subst h1 h2; exact ⟨b, hb, hl⟩
  · rintro ⟨b, hb, hl⟩; exact ⟨b, n, hb, a, hl, rfl⟩

theorem no_wr {p : Prog} {n : Nat} {a : Asg} :
    Ev.wr n a ∉ (p.zipIdx.flatMap fun x => x.1.reads.map (fun l => Ev.rd x.2 l)) := by
  simp
theorem no_rd {p : Prog} {n : Nat} {l : Loc} :
    Ev.rd n l ∉ (p.zipIdx.flatMap fun x => x.1.map (fun a => Ev.wr x.2 a)) := by
  simp

/-- Non-vacuity of `any_schedule`: every program has schedules other than the sequential one. -/
theorem lockstep_schedule (p : Prog) : ScheduleOf p (lockstep p) := by
  refine ⟨?_, ?_, ?_, ?_, ?_⟩
  · intro n l h
    rcases List.mem_append.1 h with h | h
    · exact mem_reads.1 h
    · exact absurd h no_rd
  · intro n a h
    rcases List.mem_append.1 h with h | h
    · exact absurd h no_wr
    · exact mem_writes.1 h
  · intro n b hb a ha
    exact List.mem_append_right _ (mem_writes.2 ⟨b, hb, ha⟩)
  · intro σ1 σ2 n a h l hl
    unfold lockstep at h
    rcases List.append_eq_append_iff.1 h with ⟨t, h1, h2⟩ | ⟨t, h1, h2⟩
    · have hm : Ev.wr n a ∈ (p.zipIdx.flatMap fun x => x.1.map (fun a => Ev.wr x.2 a)) := by
        rw [h2]; simp
      obtain ⟨b, hb, ha⟩ := mem_writes.1 hm
      rw [h1]
      exact List.mem_append_left _ (mem_reads.2 ⟨b, hb, List.mem_flatMap.2 ⟨a, ha, hl⟩⟩)
    · cases t with
      | nil =>
        simp only [List.nil_append] at h2
        have hm : Ev.wr n a ∈ (p.zipIdx.flatMap fun x => x.1.map (fun a => Ev.wr x.2 a)) := by
          rw [← h2]; simp
        obtain ⟨b, hb, ha⟩ := mem_writes.1 hm
        rw [List.append_nil] at h1
        rw [← h1]
        exact mem_reads.2 ⟨b, hb, List.mem_flatMap.2 ⟨a, ha, hl⟩⟩
      | cons e t =>
        simp only [List.cons_append, List.cons.injEq] at h2
        exact absurd (show Ev.wr n a ∈ _ by rw [h1, ← h2.1]; simp) (no_wr (p := p) (n := n) (a := a))
  · intro σ1 σ2 n l h a ha
    unfold lockstep at h
    exfalso
    rcases List.append_eq_append_iff.1 h with ⟨t, h1, h2⟩ | ⟨t, h1, h2⟩
    · exact no_rd (p := p) (n := n) (l := l) (by rw [h2]; simp)
    · exact no_wr (p := p) (n := n) (a := a) (by rw [h1]; simp [ha])

/-- Hence running all reads first and all writes afterwards is also equivalent. -/
example {c : Cfg} (h : ValidCfg c) (s : Loc → K) (log0 : Nat → Loc → K) :
    (Mach.run C ⟨s, log0⟩ (lockstep (electricUpdate c))).mem = (electricUpdate c).run C s :=
  (any_schedule C h s log0 _).1 (lockstep_schedule _)

end Vulture.C10
