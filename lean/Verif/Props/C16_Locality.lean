import Verif.Lemmas.Pointwise
/-
C16: information travels at most one cell per time step.
-/
set_option linter.unusedSimpArgs false
namespace Vulture.C16
open Spec
variable {K : Type*} [CommRing K]

/-- The field sample a memory element belongs to (component and grid indices): field arrays
themselves, PML and Debye auxiliary arrays, and for the state of a face of an impedance sheet the magnetic
component normal to the face, which sits in its centre.  `none`: not attached to one place of the grid
(excitation values, auxiliary grids of plane waves). -/
def sampleOf (S : Sim) : Loc → Option (Fc × Int × Int × Int)
  | .fld fc i j k => some (fc, i, j, k)
  | .pp r fc i j k => some (fc, i + S.cfg.fplim r fc .xlo, j + S.cfg.fplim r fc .ylo, k + S.cfg.fplim r fc .zlo)
  | .p r fc i j k => some (fc, i + S.cfg.fplim r fc .xlo, j + S.cfg.fplim r fc .ylo, k + S.cfg.fplim r fc .zlo)
  | .b r fc i j k => some (fc, i + S.cfg.fplim r fc .xlo, j + S.cfg.fplim r fc .ylo, k + S.cfg.fplim r fc .zlo)
  | .dj _ n _ fc i j k => (S.debye[n]?).map fun d => (fc, i + d.flim fc .xlo, j + d.flim fc .ylo, k + d.flim fc .zlo)
  | .dl n fc i j k => (S.debye[n]?).map fun d => (fc, i + d.flim fc .xlo, j + d.flim fc .ylo, k + d.flim fc .zlo)
  | .et n _ i j k => (S.sibc[n]?).map fun s => (s.normal.h, i + s.gbbox .xlo, j + s.gbbox .ylo, k + s.gbbox .zlo)
  | .rz _ n _ _ _ i j k => (S.sibc[n]?).map fun s => (s.normal.h, i + s.gbbox .xlo, j + s.gbbox .ylo, k + s.gbbox .zlo)
  | .ro n _ _ i j k => (S.sibc[n]?).map fun s => (s.normal.h, i + s.gbbox .xlo, j + s.gbbox .ylo, k + s.gbbox .zlo)
  | _ => none

/-- Position (doubled) along an axis; a sample outside the middle of the outermost cell counts as there
(this only concerns ghosts and samples on the outer boundary). -/
def place (c : Cfg) (a : Axis) (x : Int) : Int :=
  max (2 * c.gobox a.lo + 1) (min (2 * c.gobox a.hi - 1) x)

/-- Within `r` half cells of the interval `B` along an axis; along a periodic axis, of one of the copies of `B` that
are whole periods away. -/
def near (c : Cfg) (B : Face → Int) (a : Axis) (r x : Int) : Prop :=
  if c.bt a.lo = .periodic then
    ∃ m : Int, B a.lo - r ≤ x + m * (2 * (c.gobox a.hi - c.gobox a.lo)) ∧
      x + m * (2 * (c.gobox a.hi - c.gobox a.lo)) ≤ B a.hi + r
  else B a.lo - r ≤ place c a x ∧ place c a x ≤ B a.hi + r

/-- A memory element within `r` half cells of the region `B` (given in half cells). -/
def Within2 (S : Sim) (B : Face → Int) (r : Int) (l : Loc) : Prop :=
  ∀ q, sampleOf S l = some q → ∀ a, near S.cfg B a r (samplePos q.1 q.2.1 q.2.2.1 q.2.2.2 a)

/-! ### Proof -/

/-- Two memories agree on a set. -/
def Agree (A : Loc → Prop) (s t : Loc → K) : Prop := ∀ l, A l → s l = t l

/-- Targets in the set are computed from the set. -/
def Closed (A : Loc → Prop) (p : Prog) : Prop := ∀ b ∈ p, ∀ a ∈ b, A a.tgt → ∀ l ∈ a.rhs.reads, A l

theorem Closed.run {A : Loc → Prop} {p : Prog} (h : Closed A p) (C : CRef → K) {s t : Loc → K}
    (hst : Agree A s t) : Agree A (p.run C s) (p.run C t) := by
  induction p generalizing s t with
  | nil => exact hst
  | cons b p ih =>
    rw [run_cons, run_cons]
    apply ih (fun b hb => h b (by simp [hb]))
    intro l hl
    unfold Block.exec
    cases e : b.find? (fun a => a.tgt = l) with
    | none => exact hst l hl
    | some a =>
      have h1 := List.mem_of_find?_eq_some e
      have h2 : a.tgt = l := by simpa using List.find?_some e
      exact eval_congr C _ fun m hm => hst m (h b (by simp) a h1 (h2 ▸ hl) m hm)

theorem Closed.append {A : Loc → Prop} {p q : Prog} (h : Closed A p) (h' : Closed A q) : Closed A (p ++ q) := by
  intro b hb
  rcases List.mem_append.1 hb with hb | hb
  · exact h b hb
  · exact h' b hb
theorem Closed.nil {A : Loc → Prop} : Closed A [] := fun _ hb => by cases hb
theorem Closed.flatMap {α : Type*} {A : Loc → Prop} {L : List α} {f : α → Prog} (h : ∀ x ∈ L, Closed A (f x)) :
    Closed A (L.flatMap f) := by
  intro b hb
  obtain ⟨x, hx, hb⟩ := List.mem_flatMap.1 hb
  exact h x hx b hb
theorem Closed.loop {A : Loc → Prop} {lim : Face → Int} {body : Int → Int → Int → Block}
    (h : ∀ i j k, InLim lim i j k → ∀ a ∈ body i j k, A a.tgt → ∀ l ∈ a.rhs.reads, A l) :
    Closed A (loopOver lim body) :=
  (forall_loopOver (Q := fun b => ∀ a ∈ b, A a.tgt → ∀ l ∈ a.rhs.reads, A l)).2 h

/-- Sample `x` lies on a Mur plane of the axis. -/
def onMur (c : Cfg) (a : Axis) (x : Int) : Prop :=
  (c.bt a.lo = .mur ∧ x = 2 * c.gobox a.lo) ∨ (c.bt a.hi = .mur ∧ x = 2 * c.gobox a.hi)

/-- What is known about a sample during a step that starts with agreement within `R`: electric samples
lose one half cell (two across a Mur plane), magnetic ones `ρ`. -/
def kn (c : Cfg) (B : Face → Int) (R ρ : Int) (e : Bool) (q : Fc × Int × Int × Int) : Prop :=
  ∀ a, near c B a (if e then R - 1 else R - ρ) (samplePos q.1 q.2.1 q.2.2.1 q.2.2.2 a) ∧
    (q.1.isE = true → onMur c a (samplePos q.1 q.2.1 q.2.2.1 q.2.2.2 a) →
      near c B a (R - 2) (samplePos q.1 q.2.1 q.2.2.1 q.2.2.2 a))

abbrev known (c : Cfg) (B : Face → Int) (R ρ : Int) (q : Fc × Int × Int × Int) : Prop := kn c B R ρ q.1.isE q

/-- State of an impedance sheet. -/
def ofSheet : Loc → Bool
  | .et .. | .rz .. | .ro .. => true
  | _ => false

/-- The state of a sheet is computed with the electric fields. -/
def Known (S : Sim) (B : Face → Int) (R ρ : Int) (l : Loc) : Prop :=
  ∀ q, sampleOf S l = some q → kn S.cfg B R ρ (ofSheet l || q.1.isE) q

variable {S : Sim} {B : Face → Int} {R ρ : Int}

theorem known_fld (fc : Fc) (i j k : Int) :
    Known S B R ρ (.fld fc i j k) ↔ known S.cfg B R ρ (fc, i, j, k) := by
  simp [Known, sampleOf, ofSheet]
theorem known_pp (r : Face) (fc : Fc) (i j k : Int) :
    Known S B R ρ (PPr r fc (S.cfg.fplim r fc) i j k) ↔ known S.cfg B R ρ (fc, i, j, k) := by
  simp [Known, sampleOf, ofSheet, PPr]
theorem known_p (r : Face) (fc : Fc) (i j k : Int) :
    Known S B R ρ (Pr r fc (S.cfg.fplim r fc) i j k) ↔ known S.cfg B R ρ (fc, i, j, k) := by
  simp [Known, sampleOf, ofSheet, Pr]
theorem known_b (r : Face) (fc : Fc) (i j k : Int) :
    Known S B R ρ (Br r fc (S.cfg.fplim r fc) i j k) ↔ known S.cfg B R ρ (fc, i, j, k) := by
  simp [Known, sampleOf, ofSheet, Br]

theorem near_mono {c : Cfg} {B : Face → Int} {a : Axis} {r r' x : Int} (h : r ≤ r') (hn : near c B a r x) :
    near c B a r' x := by
  unfold near at *
  by_cases hp : c.bt a.lo = .periodic
  · rw [if_pos hp] at *
    obtain ⟨m, hm⟩ := hn; exact ⟨m, by omega, by omega⟩
  · rw [if_neg hp] at *
    omega

/-- One half cell further. -/
theorem near_step {c : Cfg} {B : Face → Int} {a : Axis} {r x y d : Int} (hn : near c B a r x)
    (h : x - y ≤ d ∧ y - x ≤ d) (hd : 0 ≤ d) : near c B a (r + d) y := by
  unfold near at *
  by_cases hp : c.bt a.lo = .periodic
  · rw [if_pos hp] at *
    obtain ⟨m, hm⟩ := hn; exact ⟨m, by omega, by omega⟩
  · rw [if_neg hp] at *
    unfold place at *; omega

/-- On an axis without periodic faces. -/
theorem near_plain {c : Cfg} {B : Face → Int} {a : Axis} {r x : Int} (h : c.bt a.lo ≠ .periodic) :
    near c B a r x ↔ B a.lo - r ≤ place c a x ∧ place c a x ≤ B a.hi + r := by unfold near; rw [if_neg h]

/-- Mur planes belong to axes without periodic faces. -/
theorem onMur_plain {c : Cfg} (hv : ValidCfg c) {a : Axis} {x : Int} (h : onMur c a x) : c.bt a.lo ≠ .periodic := by
  intro hp
  have := hv.paired a.lo hp
  rcases h with ⟨h, -⟩ | ⟨h, -⟩
  · rw [hp] at h; cases h
  · have e : a.lo.opposite = a.hi := by cases a <;> rfl
    rw [e, h] at this; cases this

/-- A period further. -/
theorem near_period {c : Cfg} {B : Face → Int} {a : Axis} {r x : Int} (h : c.bt a.lo = .periodic) (m : Int)
    (hn : near c B a r x) : near c B a r (x + m * (2 * (c.gobox a.hi - c.gobox a.lo))) := by
  unfold near at *
  rw [if_pos h] at *
  obtain ⟨m', hm⟩ := hn
  refine ⟨m' - m, ?_⟩
  have e : x + m * (2 * (c.gobox a.hi - c.gobox a.lo)) + (m' - m) * (2 * (c.gobox a.hi - c.gobox a.lo)) =
      x + m' * (2 * (c.gobox a.hi - c.gobox a.lo)) := by ring
  rw [e]; exact hm

/-- Stencils: magnetic samples an electric update reads. -/
theorem known_E_of {fc g : Fc} {i j k i' j' k' : Int} (hf : fc.isE = true) (hg : g.isE = false)
    (hk : known S.cfg B R 0 (fc, i, j, k))
    (hd : ∀ a : Axis, samplePos fc i j k a - samplePos g i' j' k' a ≤ 1 ∧
      samplePos g i' j' k' a - samplePos fc i j k a ≤ 1) : known S.cfg B R 0 (g, i', j', k') := by
  intro a
  have h := (hk a).1
  simp only [hf, hg, if_true, Bool.false_eq_true, if_false, false_implies, and_true] at *
  have := near_step h (hd a) (by omega)
  exact near_mono (by omega) this

/-- Electric samples a magnetic update reads. -/
theorem known_H_of (hv : ValidCfg S.cfg) (hρ : 2 ≤ ρ) {fc g : Fc} {i j k i' j' k' : Int} (hf : fc.isE = false)
    (hg : g.isE = true) (hk : known S.cfg B R ρ (fc, i, j, k))
    (hd : ∀ a : Axis, samplePos fc i j k a - samplePos g i' j' k' a ≤ 1 ∧
      samplePos g i' j' k' a - samplePos fc i j k a ≤ 1) : known S.cfg B R ρ (g, i', j', k') := by
  intro a
  have h := (hk a).1
  have cf := cfg_facts hv a
  have hd := hd a
  simp only [hf, hg, if_true, Bool.false_eq_true, if_false, true_implies] at *
  generalize samplePos fc i j k a = x at *
  generalize samplePos g i' j' k' a = y at *
  refine ⟨near_mono (by omega) (near_step h hd (by omega)), ?_⟩
  intro hm
  have hp := onMur_plain hv hm
  unfold onMur at hm
  rw [near_plain hp] at *
  unfold place at *
  omega

macro "stencil" : tactic => `(tactic| (
  intro a; cases a <;> simp only [samplePos, pos2] <;> omega))

/-- The reads of the ordinary electric update. -/
theorem ampere_known {fc : Fc} (hf : fc.isE = true) {i j k : Int} (hk : known S.cfg B R 0 (fc, i, j, k)) :
    ∀ l ∈ (ampere fc i j k).reads, Known S B R 0 l := by
  intro l hl
  rcases fc_isE hf with rfl | rfl | rfl <;>
    simp [ampere, ampereX, ampereY, ampereZ, Expr.reads, curlHx, curlHy, curlHz, EX, EY, EZ, HX, HY, HZ] at hl <;>
    rcases hl with rfl | rfl | rfl | rfl | rfl <;> rw [known_fld] <;>
    first | exact hk | exact known_E_of rfl rfl hk (by stencil)

theorem faraday_known (hv : ValidCfg S.cfg) (hρ : 2 ≤ ρ) {fc : Fc} (hf : fc.isE = false) {i j k : Int}
    (hk : known S.cfg B R ρ (fc, i, j, k)) : ∀ l ∈ (faraday fc i j k).reads, Known S B R ρ l := by
  intro l hl
  rcases fc_isH hf with rfl | rfl | rfl <;>
    simp [faraday, faradayX, faradayY, faradayZ, Expr.reads, curlEx, curlEy, curlEz, EX, EY, EZ, HX, HY, HZ] at hl <;>
    rcases hl with rfl | rfl | rfl | rfl | rfl <;> rw [known_fld] <;>
    first | exact hk | exact known_H_of hv hρ rfl rfl hk (by stencil)

theorem closed_gridE : Closed (Known S B R 0) (updateGridEfield S.cfg) := by
  refine ((Closed.loop ?_).append (Closed.loop ?_)).append (Closed.loop ?_)
  · intro i j k _ a ha ht
    simp only [List.mem_singleton] at ha
    subst ha
    rw [known_fld] at ht
    exact ampere_known (fc := .ex) rfl ht
  · intro i j k _ a ha ht
    simp only [List.mem_singleton] at ha
    subst ha
    rw [known_fld] at ht
    exact ampere_known (fc := .ey) rfl ht
  · intro i j k _ a ha ht
    simp only [List.mem_singleton] at ha
    subst ha
    rw [known_fld] at ht
    exact ampere_known (fc := .ez) rfl ht

theorem closed_gridH (hv : ValidCfg S.cfg) (hρ : 2 ≤ ρ) : Closed (Known S B R ρ) (updateGridHfield S.cfg) := by
  refine ((Closed.loop ?_).append (Closed.loop ?_)).append (Closed.loop ?_)
  · intro i j k _ a ha ht
    simp only [List.mem_singleton] at ha
    subst ha
    rw [known_fld] at ht
    exact faraday_known hv hρ (fc := .hx) rfl ht
  · intro i j k _ a ha ht
    simp only [List.mem_singleton] at ha
    subst ha
    rw [known_fld] at ht
    exact faraday_known hv hρ (fc := .hy) rfl ht
  · intro i j k _ a ha ht
    simp only [List.mem_singleton] at ha
    subst ha
    rw [known_fld] at ht
    exact faraday_known hv hρ (fc := .hz) rfl ht

theorem closed_murH (hv : ValidCfg S.cfg) (hρ : 2 ≤ ρ) : Closed (Known S B R ρ) (updateMurHfield S.cfg) := by
  refine Closed.flatMap fun f _ => ?_
  split
  · refine Closed.loop fun i j k _ a ha ht => ?_
    simp only [List.mem_singleton] at ha
    subst ha
    rw [known_fld] at ht
    exact faraday_known hv hρ (by cases f <;> rfl) ht
  · exact Closed.nil

theorem closed_pmlE : Closed (Known S B R 0) (updatePmlEfield S.cfg) := by
  refine Closed.flatMap fun r _ => ?_
  unfold pmlRegionE
  split
  · refine ((Closed.loop ?_).append (Closed.loop ?_)).append (Closed.loop ?_) <;>
    · intro i j k _ a ha ht l hl
      simp only [pmlExBlock, pmlEyBlock, pmlEzBlock, List.mem_cons, List.not_mem_nil, or_false] at ha
      rcases ha with rfl | rfl | rfl <;>
      simp only [known_fld, known_pp, known_p] at ht <;>
      simp only [Expr.reads, curlHx, curlHy, curlHz, EX, EY, EZ, HX, HY, HZ, List.mem_append, List.mem_singleton] at hl <;>
      (first
        | (have hx : l = PPr r .ex (S.cfg.fplim r .ex) i j k ∨ l = Pr r .ex (S.cfg.fplim r .ex) i j k ∨ l ∈ (ampere .ex i j k).reads := by
            simp only [ampere, ampereX, Expr.reads, curlHx, curlHy, curlHz, EX, EY, EZ, HX, HY, HZ, List.mem_append, List.mem_singleton]; tauto
           rcases hx with rfl | rfl | hx
           · rw [known_pp]; exact ht
           · rw [known_p]; exact ht
           · exact ampere_known (fc := .ex) rfl ht l hx)
        | (have hx : l = PPr r .ey (S.cfg.fplim r .ey) i j k ∨ l = Pr r .ey (S.cfg.fplim r .ey) i j k ∨ l ∈ (ampere .ey i j k).reads := by
            simp only [ampere, ampereY, Expr.reads, curlHx, curlHy, curlHz, EX, EY, EZ, HX, HY, HZ, List.mem_append, List.mem_singleton]; tauto
           rcases hx with rfl | rfl | hx
           · rw [known_pp]; exact ht
           · rw [known_p]; exact ht
           · exact ampere_known (fc := .ey) rfl ht l hx)
        | (have hx : l = PPr r .ez (S.cfg.fplim r .ez) i j k ∨ l = Pr r .ez (S.cfg.fplim r .ez) i j k ∨ l ∈ (ampere .ez i j k).reads := by
            simp only [ampere, ampereZ, Expr.reads, curlHx, curlHy, curlHz, EX, EY, EZ, HX, HY, HZ, List.mem_append, List.mem_singleton]; tauto
           rcases hx with rfl | rfl | hx
           · rw [known_pp]; exact ht
           · rw [known_p]; exact ht
           · exact ampere_known (fc := .ez) rfl ht l hx))
  · exact Closed.nil

theorem closed_pmlH (hv : ValidCfg S.cfg) (hρ : 2 ≤ ρ) : Closed (Known S B R ρ) (updatePmlHfield S.cfg) := by
  refine Closed.flatMap fun r _ => ?_
  unfold pmlRegionH
  split
  · refine ((Closed.loop ?_).append (Closed.loop ?_)).append (Closed.loop ?_) <;>
    · intro i j k _ a ha ht l hl
      simp only [pmlHxBlock, pmlHyBlock, pmlHzBlock, List.mem_cons, List.not_mem_nil, or_false] at ha
      rcases ha with rfl | rfl <;>
      simp only [known_fld, known_b] at ht <;>
      simp only [Expr.reads, curlEx, curlEy, curlEz, EX, EY, EZ, HX, HY, HZ, List.mem_append, List.mem_singleton] at hl <;>
      (first
        | (have hx : l = Br r .hx (S.cfg.fplim r .hx) i j k ∨ l ∈ (faraday .hx i j k).reads := by
            simp only [faraday, faradayX, Expr.reads, curlEx, curlEy, curlEz, EX, EY, EZ, HX, HY, HZ, List.mem_append, List.mem_singleton]; tauto
           rcases hx with rfl | hx
           · rw [known_b]; exact ht
           · exact faraday_known hv hρ (fc := .hx) rfl ht l hx)
        | (have hx : l = Br r .hy (S.cfg.fplim r .hy) i j k ∨ l ∈ (faraday .hy i j k).reads := by
            simp only [faraday, faradayY, Expr.reads, curlEx, curlEy, curlEz, EX, EY, EZ, HX, HY, HZ, List.mem_append, List.mem_singleton]; tauto
           rcases hx with rfl | hx
           · rw [known_b]; exact ht
           · exact faraday_known hv hρ (fc := .hy) rfl ht l hx)
        | (have hx : l = Br r .hz (S.cfg.fplim r .hz) i j k ∨ l ∈ (faraday .hz i j k).reads := by
            simp only [faraday, faradayZ, Expr.reads, curlEx, curlEy, curlEz, EX, EY, EZ, HX, HY, HZ, List.mem_append, List.mem_singleton]; tauto
           rcases hx with rfl | hx
           · rw [known_b]; exact ht
           · exact faraday_known hv hρ (fc := .hz) rfl ht l hx))
  · exact Closed.nil

/-- The indices of a Mur face sample. -/
theorem mur_lim (hv : ValidCfg S.cfg) (f : Face) (hm : S.cfg.bt f = .mur) (fc : Fc)
    (hfc : fc ∈ murComponents f) {i j k : Int} (hi : InLim (S.cfg.fmlim f fc) i j k) :
    samplePos fc i j k f.axis = 2 * S.cfg.gobox f ∧
    ∀ a : Axis, a ≠ f.axis → ¬ onMur S.cfg a (samplePos fc i j k a) := by
  have hl := hv.other
  have fx := C07.inner_offset S.cfg .x; have fy := C07.inner_offset S.cfg .y; have fz := C07.inner_offset S.cfg .z
  obtain ⟨h1, h2, h3⟩ := hi
  have hmur : ∀ g, S.cfg.bt g = .mur → S.cfg.gibox g = S.cfg.gobox g := by
    intro g hg
    have := hl g (by rw [hg]; decide)
    cases g <;> simp only [Axis.lo, Axis.hi] at fx fy fz <;> omega
  have e0 := hmur f hm
  have ei := fun g => hmur g
  simp only [Cfg.fmlim, setFieldLimits, Cfg.murInclude, C09.bt_beq, C09.ax_bne] at h1 h2 h3
  constructor
  · cases f <;> simp [murComponents] at hfc <;> rcases hfc with rfl | rfl <;>
      simp [Face.isLo, fieldIsInBoundary, getFaceOfBoundingBox, mkBox, Face.axis, samplePos, pos2] at * <;> omega
  · intro a ha
    unfold onMur
    rintro (⟨q, e⟩ | ⟨q, e⟩)
    all_goals
      have e1 := ei _ q
      cases f <;> simp [murComponents] at hfc <;> rcases hfc with rfl | rfl <;>
        cases a <;> first | exact ha rfl | skip
    all_goals
      simp only [Axis.lo, Axis.hi] at *
      simp [Face.isLo, fieldIsInBoundary, getFaceOfBoundingBox, mkBox, Face.axis, samplePos, pos2, q] at * <;> omega

/-- A Mur update reads within two half cells across the face and one along it. -/
theorem closed_murE (hv : ValidCfg S.cfg) : Closed (Known S B R 0) (updateMurEfield S.cfg) := by
  refine Closed.flatMap fun f _ => ?_
  split
  · rename_i hm
    refine Closed.flatMap fun fc hfc => Closed.loop fun i j k hi a ha ht l hl => ?_
    obtain ⟨hp, hq⟩ := mur_lim hv f hm fc hfc hi
    have hfe : fc.isE = true := by cases f <;> simp [murComponents] at hfc <;> rcases hfc with rfl | rfl <;> rfl
    simp only [murE, List.mem_singleton] at ha
    subst ha
    rw [known_fld] at ht
    -- the inner neighbour
    have hmp : onMur S.cfg f.axis (samplePos fc i j k f.axis) := by
      unfold onMur; rw [hp]; cases f <;> simp [Face.axis, Axis.lo, Axis.hi, hm]
    have cf := cfg_facts hv f.axis
    have hn : known S.cfg B R 0 (fc, (inward f i j k).1, (inward f i j k).2.1, (inward f i j k).2.2) := by
      intro a
      have ht' := ht a
      simp only [hfe, if_true, true_implies] at ht' ⊢
      by_cases haf : a = f.axis
      · subst haf
        have h2 := ht'.2 hmp
        have hpos : samplePos fc (inward f i j k).1 (inward f i j k).2.1 (inward f i j k).2.2 f.axis =
            if f.isLo then 2 * S.cfg.gobox f + 2 else 2 * S.cfg.gobox f - 2 := by
          rw [← hp]
          cases f <;> cases fc <;> simp [inward, samplePos, pos2, Face.axis, Face.isLo] <;> omega
        rw [hpos]; rw [hp] at h2
        have hpl := onMur_plain hv hmp
        rw [near_plain hpl] at *
        constructor
        · unfold place at *
          cases f <;> simp only [Face.axis, Axis.lo, Axis.hi, Face.isLo] at * <;> simp only [if_true, if_false, Bool.false_eq_true] <;> omega
        · intro _
          rename_i hon
          unfold onMur at hon
          rw [near_plain hpl]
          unfold place at *
          cases f <;> simp only [Face.axis, Axis.lo, Axis.hi, Face.isLo] at * <;> simp only [if_true, if_false, Bool.false_eq_true] at * <;> omega
      · have hs : samplePos fc (inward f i j k).1 (inward f i j k).2.1 (inward f i j k).2.2 a =
            samplePos fc i j k a := by
          cases f <;> cases a <;> first | exact absurd rfl haf | rfl
        rw [hs]; exact ht'
    have hr : l = .fld fc (inward f i j k).1 (inward f i j k).2.1 (inward f i j k).2.2 ∨
        l ∈ (ampere fc (inward f i j k).1 (inward f i j k).2.1 (inward f i j k).2.2).reads ∨ l = .fld fc i j k := by
      simp only [Expr.reads, List.mem_append, List.mem_singleton] at hl
      tauto
    rcases hr with rfl | hr | rfl
    · rw [known_fld]; exact hn
    · exact ampere_known hfe hn l hr
    · rw [known_fld]; exact ht
  · exact Closed.nil

theorem closed_debye : Closed (Known S B R ρ) (updateDebye S.debye) := by
  refine Closed.flatMap fun x hx => Closed.flatMap fun fc hfc => Closed.loop fun i j k hi a ha ht l hl => ?_
  have hget : S.debye[x.2]? = some x.1 := by
    obtain ⟨h1, h2, h3⟩ := List.mem_zipIdx hx
    rw [h3]; simp only [Nat.sub_zero]; exact List.getElem?_eq_getElem _
  have hdl : Known S B R ρ (.dl x.2 fc (i - x.1.flim fc .xlo) (j - x.1.flim fc .ylo) (k - x.1.flim fc .zlo)) ↔
      known S.cfg B R ρ (fc, i, j, k) := by simp [Known, sampleOf, ofSheet, hget]
  have hdj : ∀ im m, Known S B R ρ (.dj im x.2 m fc (i - x.1.flim fc .xlo) (j - x.1.flim fc .ylo) (k - x.1.flim fc .zlo)) ↔
      known S.cfg B R ρ (fc, i, j, k) := by intro im m; simp [Known, sampleOf, ofSheet, hget]
  have hsum : ∀ (L : List Nat) (e0 : Expr) (g : Nat → Expr), (∀ l ∈ e0.reads, Known S B R ρ l) →
      (∀ m, ∀ l ∈ (g m).reads, Known S B R ρ l) → ∀ l ∈ ((L.map g).foldl Expr.add e0).reads, Known S B R ρ l := by
    intro L
    induction L with
    | nil => intro e0 g h0 _; exact h0
    | cons m L ih =>
      intro e0 g h0 hg
      apply ih _ _ _ hg
      intro l hl
      rcases List.mem_append.1 hl with h | h
      · exact h0 l h
      · exact hg m l h
  have key : known S.cfg B R ρ (fc, i, j, k) → Known S B R ρ l := by
    intro hk
    have hE : ∀ l ∈ (debyeE x.2 x.1.numPoles fc i j k (i - x.1.flim fc .xlo) (j - x.1.flim fc .ylo) (k - x.1.flim fc .zlo)).reads,
        Known S B R ρ l := by
      intro l hl
      simp only [debyeE, Expr.reads, List.mem_append, List.mem_singleton, Expr.sum] at hl
      rcases hl with rfl | hl
      · rw [known_fld]; exact hk
      · refine hsum _ _ _ (by simp [Expr.reads]) ?_ l hl
        intro m l hl
        simp only [Expr.reads, djR, djI, List.mem_append, List.mem_singleton] at hl
        rcases hl with rfl | rfl | rfl <;> exact (hdj _ _).2 hk
    simp only [debyeBlock, List.mem_cons, List.mem_flatMap, List.not_mem_nil, or_false] at ha
    rcases ha with rfl | rfl | ⟨m, _, rfl | rfl⟩
    · exact hE l hl
    · exact hE l hl
    all_goals
      simp only [Expr.reads, djR, djI, List.mem_append, List.mem_singleton] at hl
      rcases hl with (rfl | rfl) | hl | rfl
      · exact (hdj _ _).2 hk
      · exact (hdj _ _).2 hk
      · exact hE l hl
      · exact hdl.2 hk
  simp only [debyeBlock, List.mem_cons, List.mem_flatMap, List.not_mem_nil, or_false] at ha
  apply key
  rcases ha with rfl | rfl | ⟨m, _, rfl | rfl⟩
  · exact (known_fld _ _ _ _).1 ht
  · exact hdl.1 ht
  · exact (hdj _ _).1 ht
  · exact (hdj _ _).1 ht

theorem known_global {l : Loc} (h : sampleOf S l = none) : Known S B R ρ l := by
  intro q hq; rw [h] at hq; cases hq

theorem closed_srcE : Closed (Known S B R ρ) (updateSourcesE S.srcs) := by
  refine Closed.flatMap fun x _ => ?_
  split
  · refine Closed.loop fun i j k hi a ha ht l hl => ?_
    unfold srcEBlock at ha
    split at ha <;> simp only [List.mem_singleton] at ha <;> subst ha <;>
      simp only [Expr.reads, List.mem_append, List.mem_singleton] at hl <;> rcases hl with rfl | rfl <;>
      first | exact ht | exact known_global rfl
  · exact Closed.nil
theorem closed_srcH : Closed (Known S B R ρ) (updateSourcesH S.srcs) := by
  refine Closed.flatMap fun x _ => ?_
  split
  · refine Closed.loop fun i j k hi a ha ht l hl => ?_
    unfold srcHBlock at ha
    split at ha <;> simp only [List.mem_singleton] at ha <;> subst ha <;>
      simp only [Expr.reads, List.mem_append, List.mem_singleton] at hl <;> rcases hl with rfl | rfl <;>
      first | exact ht | exact known_global rfl
  · exact Closed.nil

theorem inc_global {h : Bool} {n : Nat} {w : PW} {fc : Fc} {t : Int × Int × Int} :
    ∀ l ∈ (incField h n w fc t).reads, sampleOf S l = none := by
  intro l hl
  unfold incField at hl
  split at hl
  · simp only [Expr.reads, List.mem_singleton] at hl; subst hl; rfl
  · simp only [Expr.reads, List.mem_append, List.mem_singleton] at hl
    rcases hl with rfl | rfl <;> rfl

theorem closed_pwE : Closed (Known S B R ρ) (updatePlaneWavesE S.cfg S.pws) := by
  refine Closed.flatMap fun x _ => Closed.append ?_ (Closed.flatMap fun r _ => ?_)
  · split
    · intro b hb a ha _ l hl
      apply known_global
      simp only [auxE, List.mem_append, List.mem_map] at hb
      rcases hb with (⟨_, _, rfl⟩ | ⟨_, _, rfl⟩) | hb
      · simp only [List.mem_singleton] at ha; subst ha
        simp only [Expr.reads, List.mem_append, List.mem_singleton] at hl
        rcases hl with rfl | rfl | rfl <;> rfl
      · simp only [List.mem_cons, List.not_mem_nil, or_false] at ha
        rcases ha with rfl | rfl | rfl <;>
          (revert l; simp only [Expr.reads, List.mem_append, List.mem_singleton, or_imp, forall_and,
            forall_eq, sampleOf, and_self])
      · simp only [List.mem_singleton] at hb; subst hb
        simp only [List.mem_singleton] at ha; subst ha
        simp only [Expr.reads, List.mem_singleton] at hl; subst hl; rfl
    · exact Closed.nil
  · split
    · refine Closed.loop fun i j k hi a ha ht l hl => ?_
      simp only [pwEBlock, List.mem_singleton] at ha
      subst ha
      have : l = .fld r.2.1 i j k ∨ sampleOf S l = none := by
        simp only at hl
        split at hl <;> simp only [Expr.reads, List.mem_append, List.mem_singleton] at hl <;>
          (rcases hl with h | h
           · exact Or.inl h
           · exact Or.inr (inc_global l h))
      rcases this with rfl | h
      · exact ht
      · exact known_global h
    · exact Closed.nil

theorem closed_pwH : Closed (Known S B R ρ) (updatePlaneWavesH S.cfg S.pws) := by
  refine Closed.flatMap fun x _ => Closed.append ?_ (Closed.flatMap fun r _ => ?_)
  · split
    · intro b hb a ha _ l hl
      apply known_global
      simp only [auxH, List.mem_append, List.mem_map] at hb
      rcases hb with ⟨_, _, rfl⟩ | ⟨_, _, rfl⟩
      · simp only [List.mem_singleton] at ha; subst ha
        simp only [Expr.reads, List.mem_append, List.mem_singleton] at hl
        rcases hl with rfl | rfl | rfl <;> rfl
      · simp only [List.mem_cons, List.not_mem_nil, or_false] at ha
        rcases ha with rfl | rfl <;>
          (revert l; simp only [Expr.reads, List.mem_append, List.mem_singleton, or_imp, forall_and,
            forall_eq, sampleOf, and_self])
    · exact Closed.nil
  · split
    · refine Closed.loop fun i j k hi a ha ht l hl => ?_
      simp only [pwHBlock, List.mem_singleton] at ha
      subst ha
      have : l = .fld r.2.1 i j k ∨ sampleOf S l = none := by
        simp only at hl
        split at hl <;> simp only [Expr.reads, List.mem_append, List.mem_singleton] at hl <;>
          (rcases hl with h | h
           · exact Or.inl h
           · exact Or.inr (inc_global l h))
      rcases this with rfl | h
      · exact ht
      · exact known_global h
    · exact Closed.nil

/-- Ghost copies: same place. -/
theorem closed_ghost (hv : ValidCfg S.cfg) (comps : Face → List Fc)
    (hcomp : ∀ f, ∀ fc ∈ comps f, fieldIsInBoundary fc f = false) :
    Closed (Known S B R ρ) (Face.all.flatMap fun f => ghostFace S.cfg (comps f) f) := by
  refine Closed.flatMap fun f _ => ?_
  intro b hb a ha ht l hl
  unfold ghostFace at hb
  split at hb
  · cases hb
  · cases hb
  · obtain ⟨q, hq, hb⟩ := List.mem_flatMap.1 hb
    obtain ⟨fc, h', rfl⟩ := List.mem_map.1 hb
    simp only [List.mem_singleton] at ha
    subst ha
    have hn := hcomp f fc h'
    have hl' : l = fldAt fc (setAx f.axis (ghostSource S.cfg f) q) := by
      unfold ghostVal at hl
      split at hl <;> simpa [Expr.reads] using hl
    subst hl'
    simp only [fldAt, known_fld] at ht ⊢
    obtain ⟨q1, q2, q3⟩ := q
    have hq := mem_boxLoop.1 hq
    intro a
    have hta := ht a
    by_cases haf : a = f.axis
    · subst haf
      have e1 : samplePos fc q1 q2 q3 f.axis = 2 * ghostTarget S.cfg f + 1 := by
        cases f <;> cases fc <;> first | (exfalso; revert hn; decide) | (
          simp [ghostFaceLim, Face.axis, Face.isLo] at hq
          simp [samplePos, pos2, Face.axis]; omega)
      have e2 : samplePos fc (setAx f.axis (ghostSource S.cfg f) (q1, q2, q3)).1
          (setAx f.axis (ghostSource S.cfg f) (q1, q2, q3)).2.1
          (setAx f.axis (ghostSource S.cfg f) (q1, q2, q3)).2.2 f.axis = 2 * ghostSource S.cfg f + 1 := by
        cases f <;> cases fc <;> first | (exfalso; revert hn; decide) | rfl
      by_cases hper : S.cfg.bt f.axis.lo = .periodic
      · have hno : ∀ x, ¬ onMur S.cfg f.axis x := fun x h => onMur_plain hv h hper
        simp only [e1] at hta
        simp only [e2]
        refine ⟨?_, fun _ h => absurd h (hno _)⟩
        have hpf : S.cfg.bt f = .periodic := by
          have := hv.paired _ hper
          cases f <;> first | exact hper | exact this
        have e3 : 2 * ghostSource S.cfg f + 1 = 2 * ghostTarget S.cfg f + 1 +
            (if f.isLo then 1 else -1) * (2 * (S.cfg.gobox f.axis.hi - S.cfg.gobox f.axis.lo)) := by
          unfold ghostSource ghostTarget
          rw [hpf]
          cases f <;> simp [Face.isLo, Face.axis, Axis.lo, Axis.hi, Face.opposite] <;> omega
        rw [e3]
        exact near_period hper _ hta.1
      have hnp : S.cfg.bt f ≠ .periodic := by
        intro h
        have := hv.paired f h
        cases f <;> first | exact hper h | exact hper this
      have e3 : ghostSource S.cfg f = if f.isLo then S.cfg.gobox f else S.cfg.gobox f - 1 := by
        unfold ghostSource
        cases hb : S.cfg.bt f <;> first | exact absurd hb hnp | rfl
      have cf := cfg_facts hv f.axis
      simp only [e1] at hta
      simp only [e2]
      rw [e3]
      unfold ghostTarget at hta
      have hno : ¬ onMur S.cfg f.axis (2 * (if f.isLo then S.cfg.gobox f else S.cfg.gobox f - 1) + 1) := by
        unfold onMur; omega
      refine ⟨?_, fun _ h => absurd h hno⟩
      have h1 := hta.1
      generalize (if fc.isE = true then R - 1 else R - ρ) = r at h1 ⊢
      rw [near_plain hper] at *
      unfold place at *
      cases f <;> simp only [Face.axis, Axis.lo, Axis.hi, Face.isLo, if_true, if_false, Bool.false_eq_true] at * <;> omega
    · have hs : samplePos fc (setAx f.axis (ghostSource S.cfg f) (q1, q2, q3)).1
          (setAx f.axis (ghostSource S.cfg f) (q1, q2, q3)).2.1
          (setAx f.axis (ghostSource S.cfg f) (q1, q2, q3)).2.2 a = samplePos fc q1 q2 q3 a := by
        cases f <;> cases a <;> first | exact absurd rfl haf | rfl
      simp only [hs]
      exact hta

/-! ### Impedance sheets -/

theorem zip_get {α : Type*} {l : List α} {x : α × Nat} (hx : x ∈ l.zipIdx) : l[x.2]? = some x.1 := by
  obtain ⟨h1, h2, h3⟩ := List.mem_zipIdx hx
  rw [h3]; simp only [Nat.sub_zero]; exact List.getElem?_eq_getElem _

theorem foldl_reads {P : Loc → Prop} (L : List Expr) (e0 : Expr) (h0 : ∀ l ∈ e0.reads, P l)
    (hL : ∀ e ∈ L, ∀ l ∈ e.reads, P l) : ∀ l ∈ (L.foldl Expr.add e0).reads, P l := by
  induction L generalizing e0 with
  | nil => exact h0
  | cons e L ih =>
    refine ih _ ?_ fun e he => hL e (by simp [he])
    intro l hl
    rcases List.mem_append.1 hl with h | h
    · exact h0 l h
    · exact hL e (by simp) l h

section sheet
variable {n : Nat} {s : SibcSurf} (hn : S.sibc[n]? = some s)
include hn

theorem known_et (m : Nat) (t : Int × Int × Int) : Known S B R ρ (.et n m (sibcRel s t).1 (sibcRel s t).2.1 (sibcRel s t).2.2) ↔
    kn S.cfg B R ρ true (s.normal.h, t) := by simp [Known, sampleOf, ofSheet, hn, sibcRel]
theorem known_ro (p q : Nat) (t : Int × Int × Int) : Known S B R ρ (.ro n p q (sibcRel s t).1 (sibcRel s t).2.1 (sibcRel s t).2.2) ↔
    kn S.cfg B R ρ true (s.normal.h, t) := by simp [Known, sampleOf, ofSheet, hn, sibcRel]
theorem known_rz (im : Bool) (p q m : Nat) (t : Int × Int × Int) :
    Known S B R ρ (.rz im n p q m (sibcRel s t).1 (sibcRel s t).2.1 (sibcRel s t).2.2) ↔
    kn S.cfg B R ρ true (s.normal.h, t) := by simp [Known, sampleOf, ofSheet, hn, sibcRel]

omit hn in
/-- The magnetic samples a face reads are within half a cell of its centre. -/
theorem htan_known {t : Int × Int × Int} (hk : kn S.cfg B R 0 true (s.normal.h, t)) (p : Nat) :
    ∀ l ∈ (sibcHin n s t p).reads, Known S B R 0 l := by
  have key : ∀ q, ∀ l ∈ (sibcHtan n s t q).reads, Known S B R 0 l := by
    intro q l hl
    obtain ⟨i, j, k⟩ := t
    have go : ∀ (a : Axis) (u : Int × Int × Int),
        (∀ b : Axis, samplePos s.normal.h i j k b - samplePos a.h u.1 u.2.1 u.2.2 b ≤ 1 ∧
          samplePos a.h u.1 u.2.1 u.2.2 b - samplePos s.normal.h i j k b ≤ 1) → Known S B R 0 (fldAt a.h u) := by
      intro a u hd
      unfold fldAt
      rw [known_fld]
      intro b
      have h := (hk b).1
      have ha : a.h.isE = false := by cases a <;> rfl
      simp only [ha, if_true, Bool.false_eq_true, if_false, false_implies, and_true] at *
      exact near_mono (by omega) (near_step h (hd b) (by omega))
    obtain ⟨nm, g, np⟩ := s
    unfold sibcHtan at hl
    by_cases h2 : q < 2 <;> by_cases h3 : q % 2 = 0 <;> cases nm <;>
      simp only [h2, h3, if_true, if_false, Expr.reads, List.mem_append, List.mem_singleton, Axis.next] at hl <;>
      rcases hl with rfl | rfl <;> refine go _ _ ?_ <;> intro b <;> cases b <;>
      simp only [Axis.h, samplePos, pos2, shift] <;> omega
  unfold sibcHin Expr.sum
  refine foldl_reads _ _ (by simp [Expr.reads]) ?_
  intro e he l hl
  obtain ⟨q, -, rfl⟩ := List.mem_map.1 he
  exact key q l (by simpa [Expr.reads] using hl)

theorem zeta_known {t : Int × Int × Int} (hk : kn S.cfg B R 0 true (s.normal.h, t)) (im : Bool) (p q m : Nat) :
    ∀ l ∈ (rcZeta im n p q m (sibcRel s t) (sibcHin n s t q)).reads, Known S B R 0 l := by
  intro l hl
  have hh := htan_known (n := n) hk q
  unfold rcZeta at hl
  cases im <;> simp only [Expr.reads, Bool.false_eq_true, if_true, if_false, List.mem_append, List.mem_singleton] at hl <;>
    rcases hl with ((rfl | rfl) | rfl) | hl <;>
    first | exact (known_rz hn _ _ _ _ _).2 hk | exact (known_ro hn _ _ _).2 hk | exact hh l hl

theorem sibcE_block_closed {t : Int × Int × Int} {a : Asg} (ha : a ∈ sibcEBlock n s t) (ht : Known S B R 0 a.tgt) :
    ∀ l ∈ a.rhs.reads, Known S B R 0 l := by
  simp only [sibcEBlock, List.mem_append, List.mem_cons, List.not_mem_nil, or_false, List.mem_map, List.mem_flatMap] at ha
  rcases ha with ((rfl | rfl | rfl | rfl) | ⟨m, -, rfl⟩) | ⟨p, -, q, -, rfl | ⟨m, -, rfl | rfl⟩⟩
  · simp [Expr.reads]
  · simp [Expr.reads]
  · simp [Expr.reads]
  · simp [Expr.reads]
  · have hk := (known_et hn m t).1 ht
    refine foldl_reads _ _ (by simp [Expr.reads]) ?_
    intro e he l hl
    obtain ⟨p, -, rfl⟩ := List.mem_map.1 he
    simp only [Expr.reads] at hl
    revert l
    refine foldl_reads _ _ (by simp [Expr.reads]) ?_
    intro e he
    obtain ⟨q, -, rfl⟩ := List.mem_map.1 he
    unfold rcOut
    refine foldl_reads _ _ (fun l hl => htan_known (n := n) hk q l (by simpa [Expr.reads] using hl)) ?_
    intro e he
    obtain ⟨m', -, rfl⟩ := List.mem_map.1 he
    exact zeta_known hn hk false p q m'
  · exact htan_known (n := n) ((known_ro hn p q t).1 ht) q
  · exact zeta_known hn ((known_rz hn false p q m t).1 ht) false p q m
  · exact zeta_known hn ((known_rz hn true p q m t).1 ht) true p q m

/-- The magnetic corrections of a face reach one cell along the sheet. -/
theorem sibcH_block_closed (hρ : 3 ≤ ρ) {t : Int × Int × Int} {a : Asg} (ha : a ∈ sibcHBlock n s t)
    (ht : Known S B R ρ a.tgt) : ∀ l ∈ a.rhs.reads, Known S B R ρ l := by
  have go : ∀ (d : Axis) (u : Int × Int × Int) (neg : Bool) (w : CRef) (e : Expr),
      (∀ b : Axis, samplePos s.normal.h t.1 t.2.1 t.2.2 b - samplePos d.h u.1 u.2.1 u.2.2 b ≤ 2 ∧
          samplePos d.h u.1 u.2.1 u.2.2 b - samplePos s.normal.h t.1 t.2.1 t.2.2 b ≤ 2) →
      (∀ l ∈ e.reads, ∃ m, l = .et n m (sibcRel s t).1 (sibcRel s t).2.1 (sibcRel s t).2.2) →
      Known S B R ρ (fldAt d.h u) → ∀ l ∈ (sibcCorr neg d.h u w e).rhs.reads, Known S B R ρ l := by
    intro d u neg w e hd he hk l hl
    have hl' : l = fldAt d.h u ∨ l ∈ e.reads := by
      unfold sibcCorr at hl
      cases neg <;> simpa [Expr.reads] using hl
    rcases hl' with rfl | hl'
    · exact hk
    · obtain ⟨m, rfl⟩ := he l hl'
      rw [known_et hn]
      unfold fldAt at hk
      rw [known_fld] at hk
      intro b
      have h := (hk b).1
      have hd' : d.h.isE = false := by cases d <;> rfl
      have hs' : s.normal.h.isE = false := by cases s.normal <;> rfl
      simp only [hd', hs', if_true, Bool.false_eq_true, if_false, false_implies, and_true] at *
      exact near_mono (by omega) (near_step h ⟨(hd b).2, (hd b).1⟩ (by omega))
  have rdD : ∀ m v, ∀ l ∈ (sibcD n s (sibcRel s t) m v).reads,
      ∃ m, l = .et n m (sibcRel s t).1 (sibcRel s t).2.1 (sibcRel s t).2.2 := by
    intro m v l hl
    simp only [sibcD, Expr.reads, List.mem_singleton] at hl
    exact ⟨m, hl⟩
  have rdP : ∀ (w c1 c2 : CRef) m m' v v', ∀ l ∈ (Expr.mul w (.add (.mul c1 (sibcD n s (sibcRel s t) m v))
      (.mul c2 (sibcD n s (sibcRel s t) m' v')))).reads,
      ∃ m, l = .et n m (sibcRel s t).1 (sibcRel s t).2.1 (sibcRel s t).2.2 := by
    intro w c1 c2 m m' v v' l hl
    simp only [Expr.reads, List.mem_append] at hl
    rcases hl with h | h
    · exact rdD _ _ l h
    · exact rdD _ _ l h
  obtain ⟨nm, g, np⟩ := s
  obtain ⟨i, j, k⟩ := t
  simp only [sibcHBlock, List.mem_append, List.mem_cons, List.not_mem_nil, or_false] at ha
  rcases ha with (rfl | rfl | rfl | rfl | rfl | rfl | rfl | rfl | rfl) | ha
  · simp [Expr.reads]
  iterate 8
    · refine go _ _ _ _ _ ?_ (rdD _ _) ht
      intro b
      cases nm <;> cases b <;> simp only [Axis.h, Axis.next, samplePos, pos2, shift] <;> omega
  · cases nm <;> simp only [sibcAdj, List.mem_cons, List.not_mem_nil, or_false] at ha <;>
      rcases ha with rfl | rfl | rfl | rfl <;>
      (refine go _ _ _ _ _ ?_ (rdP _ _ _ _ _ _ _) ht
       intro b
       cases b <;> simp only [Axis.h, Axis.next, samplePos, pos2, shift] <;> omega)

end sheet

theorem closed_sibcE : Closed (Known S B R 0) (updateSibcE S.sibc) := by
  refine Closed.flatMap fun x hx => Closed.loop fun i j k _ a ha ht => ?_
  exact sibcE_block_closed (zip_get hx) ha ht

theorem closed_sibcH (hρ : S.sibc ≠ [] → 3 ≤ ρ) : Closed (Known S B R ρ) (updateSibcH S.sibc) := by
  have ne : ∀ x ∈ S.sibc.zipIdx, S.sibc ≠ [] := by
    intro x hx h; rw [h] at hx; cases hx
  refine Closed.append (Closed.flatMap fun x hx => Closed.loop fun i j k _ a ha ht => ?_)
    (Closed.flatMap fun x hx => Closed.loop fun i j k _ a ha ht l hl => ?_)
  · exact sibcH_block_closed (zip_get hx) (hρ (ne x hx)) ha ht
  · rw [List.mem_singleton] at ha
    subst ha
    simp [Expr.reads] at hl

theorem closed_stepE (hv : ValidCfg S.cfg) : Closed (Known S B R 0) S.stepE := by
  exact (((((((closed_pmlE.append (closed_murE hv)).append closed_gridE).append closed_debye).append closed_sibcE).append
    closed_srcE).append closed_pwE).append (closed_ghost hv ghostEcomps (by decide)))

theorem closed_stepH (hv : ValidCfg S.cfg) (hρ : 2 ≤ ρ) (hρ' : S.sibc ≠ [] → 3 ≤ ρ) : Closed (Known S B R ρ) S.stepH := by
  exact ((((((closed_pmlH hv hρ).append (closed_murH hv hρ)).append (closed_gridH hv hρ)).append (closed_sibcH hρ')).append
    closed_srcH).append closed_pwH).append (closed_ghost hv ghostHcomps (by decide))

/-! ### The property -/

/-- Half cells per step: two, or three when there are impedance sheets. -/
def rate (S : Sim) : Int := if S.sibc = [] then 2 else 3

/-- **C16**, one step: if two memories agree within `r` half cells of a region, then after the same step
(same excitation) they agree within `r - 2` half cells, i.e. one cell less (one and a half with impedance sheets). -/
theorem one_step (hv : ValidCfg S.cfg)
    (C : CRef → K) (B : Face → Int) (r : Int) (s t : Loc → K)
    (h : ∀ l, Within2 S B r l → s l = t l) :
    ∀ l, Within2 S B (r - rate S) l → S.step.run C s l = S.step.run C t l := by
  have hr : 2 ≤ rate S := by unfold rate; split <;> omega
  have hr' : S.sibc ≠ [] → 3 ≤ rate S := by intro h; unfold rate; rw [if_neg h]
  have h0 : Agree (Known S B r 0) s t := by
    intro l hl
    apply h
    intro q hq a
    have := (hl q hq a).1
    exact near_mono (by split <;> omega) this
  have h1 := (closed_stepE hv).run C h0
  have h2 : Agree (Known S B r (rate S)) (S.stepE.run C s) (S.stepE.run C t) := by
    intro l hl
    apply h1
    intro q hq a
    have := hl q hq a
    exact ⟨near_mono (by split <;> omega) this.1, this.2⟩
  have h3 := (closed_stepH hv hr hr').run C h2
  intro l hl
  unfold Sim.step
  rw [run_append, run_append]
  apply h3
  intro q hq a
  have := hl q hq a
  exact ⟨near_mono (by split <;> omega) this, fun _ _ => near_mono (by omega) this⟩

/-- The property with the speed as a parameter of the model. -/
theorem locality_rate (hv : ValidCfg S.cfg) (C : CRef → K) (u : Nat → Loc → K) (B : Face → Int) (n : Nat) (s0 t0 : Loc → K)
    (h : ∀ l, Within2 S B (rate S * n) l → s0 l = t0 l) :
    ∀ l, Within2 S B 0 l → S.state C u s0 n l = S.state C u t0 n l := by
  have key : ∀ m, m ≤ n → ∀ l, Within2 S B (rate S * n - rate S * m) l → S.state C u s0 m l = S.state C u t0 m l := by
    intro m
    induction m with
    | zero => intro _ l hl; exact h l (by simpa using hl)
    | succ m ih =>
      intro hm l hl
      simp only [Sim.state]
      have := one_step hv C B (rate S * n - rate S * m) (setInputs (u m) (S.state C u s0 m))
        (setInputs (u m) (S.state C u t0 m)) (by
          intro l hl
          unfold setInputs
          split
          · rfl
          · exact ih (by omega) l hl)
      apply this
      have e : (rate S * (n : Int) - rate S * m - rate S) = rate S * n - rate S * ((m + 1 : Nat) : Int) := by push_cast; ring
      rw [e]; exact hl
  intro l hl
  exact key n (le_refl n) l (by simpa using hl)

/-- **C16**: for every model without impedance sheets (any boundary types, any media including Debye, any sources and
plane waves), the fields of any region after `n` steps are determined by the excitation and by the initial values within
`n` cells (`2 n` half cells) of the region; along a periodic axis, of the region or one of its periodic copies. -/
theorem locality (hv : ValidCfg S.cfg) (hs : S.sibc = [])
    (C : CRef → K) (u : Nat → Loc → K) (B : Face → Int) (n : Nat) (s0 t0 : Loc → K)
    (h : ∀ l, Within2 S B (2 * n) l → s0 l = t0 l) :
    ∀ l, Within2 S B 0 l → S.state C u s0 n l = S.state C u t0 n l :=
  locality_rate hv C u B n s0 t0 (by rw [show rate S = 2 by unfold rate; rw [if_pos hs]]; exact h)

/-- With impedance sheets: within one and a half cells per step. -/
theorem locality_sheets (hv : ValidCfg S.cfg)
    (C : CRef → K) (u : Nat → Loc → K) (B : Face → Int) (n : Nat) (s0 t0 : Loc → K)
    (h : ∀ l, Within2 S B (3 * n) l → s0 l = t0 l) :
    ∀ l, Within2 S B 0 l → S.state C u s0 n l = S.state C u t0 n l := by
  refine locality_rate hv C u B n s0 t0 fun l hl => h l fun q hq a => near_mono ?_ (hl q hq a)
  unfold rate
  split <;> omega

/-- In the interior the places are the true positions: a field sample `i` cells or more inside the outer
boundary is `Within2 B r` exactly if its position is within `r` half cells of `B` on every axis. -/
theorem within_interior (hper : ∀ f, S.cfg.bt f ≠ .periodic) (B : Face → Int) (r : Int) (fc : Fc) (i j k : Int)
    (hin : ∀ a : Axis, 2 * S.cfg.gobox a.lo + 1 ≤ samplePos fc i j k a ∧
      samplePos fc i j k a ≤ 2 * S.cfg.gobox a.hi - 1) :
    Within2 S B r (.fld fc i j k) ↔ ∀ a : Axis, B a.lo - r ≤ samplePos fc i j k a ∧
      samplePos fc i j k a ≤ B a.hi + r := by
  have e : ∀ a : Axis, place S.cfg a (samplePos fc i j k a) = samplePos fc i j k a := by
    intro a; have := hin a; unfold place; omega
  simp [Within2, sampleOf, near, e, hper]

/-- Non-vacuity and sharpness: a 5x1x1 box; a change of one initial value is felt one cell away after
one step, and (by the theorem) not two cells away. -/
def line5 : Sim :=
  { cfg := ⟨fun a => if a = .x then 5 else 1, fun _ => .pmc, fun _ => 0⟩
    debye := [], sibc := [], pws := [], srcs := [] }
example : line5.state (K := Int) (fun _ => 1) (fun _ _ => 0) (fun l => if l = .fld .hz 3 1 1 then 1 else 0) 1
    (.fld .hz 4 1 1) ≠ 0 := by decide +kernel
example (s0 : Loc → Int) : line5.state (K := Int) (fun _ => 1) (fun _ _ => 0) s0 1 (.fld .hz 3 1 1) =
    line5.state (K := Int) (fun _ => 1) (fun _ _ => 0) (fun l => if l = .fld .hz 5 1 1 then 7 else s0 l) 1 (.fld .hz 3 1 1) := by
  refine locality (S := line5) ⟨by decide, by decide, by decide, by decide⟩ rfl _ _
    (mkBox 7 7 3 3 3 3) 1 _ _ ?_ _ ?_
  · intro l hl
    rw [if_neg]
    rintro rfl
    have := (near_plain (by decide)).1 (hl _ rfl .x)
    revert this
    unfold place
    decide
  · intro q hq a
    simp only [sampleOf, Option.some.injEq] at hq
    subst hq
    rw [near_plain (by cases a <;> decide)]
    cases a <;> (unfold place; decide)

/-- The same box with periodic ends: the first and the last cell are neighbours, and the theorem sees it. -/
def ring5 : Sim := { line5 with cfg := ⟨fun a => if a = .x then 5 else 1, fun f => if f.axis = .x then .periodic else .pmc, fun _ => 0⟩ }
example : ring5.state (K := Int) (fun _ => 1) (fun _ _ => 0) (fun l => if l = .fld .hz 1 1 1 then 1 else 0) 2
    (.fld .hz 5 1 1) ≠ 0 := by decide +kernel
example : near ring5.cfg (mkBox 11 11 3 3 3 3) .x 2 (samplePos .hz 1 1 1 .x) ∧
    ¬ near ring5.cfg (mkBox 11 11 3 3 3 3) .x 2 (samplePos .hz 3 1 1 .x) := by
  have e : ring5.cfg.bt Axis.x.lo = .periodic := by decide
  unfold near
  rw [if_pos e, if_pos e]
  have h1 : ring5.cfg.gobox Axis.x.hi - ring5.cfg.gobox Axis.x.lo = 5 := by decide
  rw [h1]
  refine ⟨⟨1, by decide⟩, ?_⟩
  rintro ⟨m, hm⟩
  simp only [samplePos, pos2, mkBox, Axis.lo, Axis.hi] at hm
  omega

/-- The bound for sheets is sharp: one face of a sheet in a box; the change of one magnetic sample is felt one and a half
cells away after one step, so the bound of one cell per step does not hold with sheets. -/
def sheet1 : Sim :=
  { cfg := ⟨fun a => if a = .z then 1 else 4, fun _ => .pmc, fun _ => 0⟩
    debye := [], pws := [], srcs := [], sibc := [⟨.x, mkBox 3 3 2 3 1 2, fun _ _ => 0⟩] }
theorem sheets_are_faster : ∃ (B : Face → Int) (s0 t0 : Loc → Int) (l : Loc), Within2 sheet1 B 0 l ∧
    (∀ l, Within2 sheet1 B (2 * (1 : Nat)) l → s0 l = t0 l) ∧
    sheet1.state (fun _ => 1) (fun _ _ => 0) s0 1 l ≠ sheet1.state (fun _ => 1) (fun _ _ => 0) t0 1 l := by
  refine ⟨mkBox 6 6 7 7 3 3, fun _ => 0, fun l => if l = .fld .hy 2 2 1 then 1 else 0, .fld .hx 3 3 1, ?_, ?_, ?_⟩
  · intro q hq a
    simp only [sampleOf, Option.some.injEq] at hq
    subst hq
    rw [near_plain (by cases a <;> decide)]
    cases a <;> (unfold place; decide)
  · intro l hl
    refine (if_neg ?_).symm
    rintro rfl
    have := (near_plain (by decide)).1 (hl _ rfl .y)
    revert this
    unfold place
    decide
  · decide +kernel

end Vulture.C16
