import Verif.Lemmas.Zero
import Verif.Lemmas.Sole
import Verif.Lemmas.Inputs
import Verif.Lemmas.Kinds
import Verif.Spec.Huygens
/-
C31. The Huygens surface separates total and scattered field.
-/
set_option linter.unusedSimpArgs false
set_option linter.unusedSectionVars false
namespace Vulture.C31
open Vulture Spec C10

section corrections
variable {K : Type*} [CommRing K] (C : CRef → K)

/-- Right-hand side of an electric correction, as a value. -/
def corrE (s : Loc → K) (n : Nat) (w : PW) (r : Face × Fc × Bool × Fc) (i j k : Int) (v : K) : K :=
  let d := C (.beta r.2.1 i j k) * (C (.idh r.1.axis (coord r.1.axis (i, j, k))) *
    (incField false n w r.2.2.2 (if r.1.isLo then shift r.1.axis (-1) (i, j, k) else (i, j, k))).eval C s)
  if r.2.2.1 then C (.alpha r.2.1 i j k) * v - d else C (.alpha r.2.1 i j k) * v + d

/-- Right-hand side of a magnetic correction. -/
def corrH (s : Loc → K) (n : Nat) (w : PW) (r : Face × Fc × Bool × Fc) (i j k : Int) (v : K) : K :=
  let d := C (.gamma r.2.1 i j k) * (C (.ide r.1.axis (coord r.1.axis (i, j, k))) *
    (incField true n w r.2.2.2 (if r.1.isLo then shift r.1.axis 1 (i, j, k) else (i, j, k))).eval C s)
  if r.2.2.1 then v - d else v + d

theorem inc_reads (h : Bool) (n : Nat) (w : PW) (fc : Fc) (t : Int × Int × Int) :
    ∀ l ∈ (incField h n w fc t).reads, l.kind ≠ .fld := by
  unfold incField
  split <;> simp [Expr.reads, Loc.kind]

theorem inc_congr {s s' : Loc → K} (hs : ∀ l : Loc, l.kind ≠ .fld → s l = s' l) (h : Bool) (n : Nat) (w : PW) (fc : Fc)
    (t : Int × Int × Int) : (incField h n w fc t).eval C s = (incField h n w fc t).eval C s' :=
  eval_congr C _ fun l hl => hs l (inc_reads h n w fc t l hl)

variable {C}

theorem rowE_run (n : Nat) (w : PW) (r : Face × Fc × Bool × Fc) (lim : Face → Int) [∀ i j k, Decidable (InLim lim i j k)]
    (s : Loc → K) (fc : Fc) (i j k : Int) :
    Prog.run C (loopOver lim (pwEBlock n w r.1 r.2.1 r.2.2.1 r.2.2.2)) s (.fld fc i j k) =
      if r.2.1 = fc ∧ InLim lim i j k then corrE C s n w r i j k (s (.fld fc i j k)) else s (.fld fc i j k) := by
  have hw : ∀ i j k, (pwEBlock n w r.1 r.2.1 r.2.2.1 r.2.2.2 i j k).writes = [.fld r.2.1 i j k] := fun _ _ _ => rfl
  split
  · rename_i h
    obtain ⟨rfl, hi⟩ := h
    let T : Set Loc := fun l => l = .fld r.2.1 i j k ∨ l.kind ≠ .fld
    have := run_loop_sole C (lim := lim) (body := pwEBlock n w r.1 r.2.1 r.2.2.1 r.2.2.2) hi (S := T) (by
      intro i' j' k' hne l hl hm
      rw [hw, List.mem_singleton] at hm
      subst hm
      rcases hl with h | h
      · simp only [Loc.fld.injEq, true_and] at h
        exact hne (by rw [h.1, h.2.1, h.2.2])
      · exact h rfl) (by
      intro l hl
      simp only [pwEBlock, Block.reads, List.flatMap_cons, List.flatMap_nil, List.append_nil] at hl
      split at hl <;> simp only [Expr.reads, List.mem_append, List.mem_singleton] at hl <;>
        exact hl.imp id (inc_reads _ _ _ _ _ l)) s _ (Or.inl rfl) (by rw [hw]; simp)
    rw [this]
    simp only [pwEBlock, Block.exec, List.find?, decide_true, corrE]
    split <;> rfl
  · rename_i h
    refine NoWrite.run C (NoWrite.loop fun i' j' k' hi' hm => h ?_) s
    rw [hw, List.mem_singleton, Loc.fld.injEq] at hm
    obtain ⟨h1, rfl, rfl, rfl⟩ := hm
    exact ⟨h1.symm, hi'⟩

theorem rowH_run (n : Nat) (w : PW) (r : Face × Fc × Bool × Fc) (lim : Face → Int) [∀ i j k, Decidable (InLim lim i j k)]
    (s : Loc → K) (fc : Fc) (i j k : Int) :
    Prog.run C (loopOver lim (pwHBlock n w r.1 r.2.1 r.2.2.1 r.2.2.2)) s (.fld fc i j k) =
      if r.2.1 = fc ∧ InLim lim i j k then corrH C s n w r i j k (s (.fld fc i j k)) else s (.fld fc i j k) := by
  have hw : ∀ i j k, (pwHBlock n w r.1 r.2.1 r.2.2.1 r.2.2.2 i j k).writes = [.fld r.2.1 i j k] := fun _ _ _ => rfl
  split
  · rename_i h
    obtain ⟨rfl, hi⟩ := h
    let T : Set Loc := fun l => l = .fld r.2.1 i j k ∨ l.kind ≠ .fld
    have := run_loop_sole C (lim := lim) (body := pwHBlock n w r.1 r.2.1 r.2.2.1 r.2.2.2) hi (S := T) (by
      intro i' j' k' hne l hl hm
      rw [hw, List.mem_singleton] at hm
      subst hm
      rcases hl with h | h
      · simp only [Loc.fld.injEq, true_and] at h
        exact hne (by rw [h.1, h.2.1, h.2.2])
      · exact h rfl) (by
      intro l hl
      simp only [pwHBlock, Block.reads, List.flatMap_cons, List.flatMap_nil, List.append_nil] at hl
      split at hl <;> simp only [Expr.reads, List.mem_append, List.mem_singleton] at hl <;>
        exact hl.imp id (inc_reads _ _ _ _ _ l)) s _ (Or.inl rfl) (by rw [hw]; simp)
    rw [this]
    simp only [pwHBlock, Block.exec, List.find?, decide_true, corrH]
    split <;> rfl
  · rename_i h
    refine NoWrite.run C (NoWrite.loop fun i' j' k' hi' hm => h ?_) s
    rw [hw, List.mem_singleton, Loc.fld.injEq] at hm
    obtain ⟨h1, rfl, rfl, rfl⟩ := hm
    exact ⟨h1.symm, hi'⟩

open Classical in
/-- All electric corrections of one wave, at one sample. -/
theorem tableE_run (c : Cfg) (n : Nat) (w : PW) (hact : ∀ f, w.active f = true) (fc : Fc) (i j k : Int) :
    ∀ (rows : List (Face × Fc × Bool × Fc)) (s : Loc → K),
      Prog.run C (rows.flatMap fun r => if w.active r.1 then
          loopOver (w.flim c r.1 r.2.1) (pwEBlock n w r.1 r.2.1 r.2.2.1 r.2.2.2) else []) s (.fld fc i j k) =
        rows.foldl (fun v r => if r.2.1 = fc ∧ InLim (w.flim c r.1 r.2.1) i j k then corrE C s n w r i j k v else v)
          (s (.fld fc i j k)) := by
  intro rows
  induction rows with
  | nil => intro s; rfl
  | cons r rows ih =>
    intro s
    rw [List.flatMap_cons, run_append, List.foldl_cons, ih, hact, if_pos rfl, rowE_run]
    have hk : ∀ l : Loc, l.kind ≠ .fld →
        Prog.run C (loopOver (w.flim c r.1 r.2.1) (pwEBlock n w r.1 r.2.1 r.2.2.1 r.2.2.2)) s l = s l := fun l hl =>
      NoWrite.run C (NoWrite.loop fun i' j' k' _ hm => hl (by
        have : l = .fld r.2.1 i' j' k' := by simpa [pwEBlock, Block.writes] using hm
        rw [this]; rfl)) s
    congr 1
    funext v r'
    simp only [corrE, inc_congr C hk]

open Classical in
/-- All magnetic corrections of one wave, at one sample. -/
theorem tableH_run (c : Cfg) (n : Nat) (w : PW) (hact : ∀ f, w.active f = true) (fc : Fc) (i j k : Int) :
    ∀ (rows : List (Face × Fc × Bool × Fc)) (s : Loc → K),
      Prog.run C (rows.flatMap fun r => if w.active r.1 then
          loopOver (w.flim c r.1 r.2.1) (pwHBlock n w r.1 r.2.1 r.2.2.1 r.2.2.2) else []) s (.fld fc i j k) =
        rows.foldl (fun v r => if r.2.1 = fc ∧ InLim (w.flim c r.1 r.2.1) i j k then corrH C s n w r i j k v else v)
          (s (.fld fc i j k)) := by
  intro rows
  induction rows with
  | nil => intro s; rfl
  | cons r rows ih =>
    intro s
    rw [List.flatMap_cons, run_append, List.foldl_cons, ih, hact, if_pos rfl, rowH_run]
    have hk : ∀ l : Loc, l.kind ≠ .fld →
        Prog.run C (loopOver (w.flim c r.1 r.2.1) (pwHBlock n w r.1 r.2.1 r.2.2.1 r.2.2.2)) s l = s l := fun l hl =>
      NoWrite.run C (NoWrite.loop fun i' j' k' _ hm => hl (by
        have : l = .fld r.2.1 i' j' k' := by simpa [pwHBlock, Block.writes] using hm
        rw [this]; rfl)) s
    congr 1
    funext v r'
    simp only [corrH, inc_congr C hk]

/-- The electric samples corrected for a face: those of the closed box in the plane of the face. -/
theorem limE (c : Cfg) (w : PW) (hact : ∀ f, w.active f = true)
    (hord : ∀ a : Axis, w.gbbox a.lo ≤ w.gbbox a.hi) : ∀ r ∈ pwTableE, ∀ i j k,
    (InLim (w.flim c r.1 r.2.1) i j k ↔ SampleIn w.gbbox r.2.1 i j k ∧ coord r.1.axis (i, j, k) = w.gbbox r.1) := by
  have he : ∀ f, w.edgeActive c f = true := fun f => by simp [PW.edgeActive, hact]
  have ox := hord .x; have oy := hord .y; have oz := hord .z
  simp only [Axis.lo, Axis.hi] at ox oy oz
  intro r hr i j k
  simp only [pwTableE, List.mem_cons, List.not_mem_nil, or_false] at hr
  rcases hr with rfl | rfl | rfl | rfl | rfl | rfl | rfl | rfl | rfl | rfl | rfl | rfl <;>
    simp [InLim, PW.flim, setFieldLimits, fieldIsInBoundary, PW.faceBox, PW.faceIncl, Face.axis, Face.isLo, he, coord,
      SampleIn, pos2] <;> omega

/-- The magnetic samples corrected for a face: half a cell outside it, next to an electric sample of the closed box in
the plane of the face. -/
theorem limH (c : Cfg) (w : PW) (hact : ∀ f, w.active f = true)
    (hord : ∀ a : Axis, w.gbbox a.lo ≤ w.gbbox a.hi) : ∀ r ∈ pwTableH, ∀ i j k,
    (InLim (w.flim c r.1 r.2.1) i j k ↔
      (let t := if r.1.isLo then shift r.1.axis 1 (i, j, k) else (i, j, k)
       SampleIn w.gbbox r.2.2.2 t.1 t.2.1 t.2.2 ∧ coord r.1.axis t = w.gbbox r.1)) := by
  have he : ∀ f, w.edgeActive c f = true := fun f => by simp [PW.edgeActive, hact]
  have ox := hord .x; have oy := hord .y; have oz := hord .z
  simp only [Axis.lo, Axis.hi] at ox oy oz
  intro r hr i j k
  simp only [pwTableH, List.mem_cons, List.not_mem_nil, or_false] at hr
  rcases hr with rfl | rfl | rfl | rfl | rfl | rfl | rfl | rfl | rfl | rfl | rfl | rfl <;>
    simp [InLim, PW.flim, setFieldLimits, fieldIsInBoundary, PW.faceBox, PW.faceIncl, Face.axis, Face.isLo, he, coord,
      shift, SampleIn, pos2] <;> omega

end corrections

section outside
variable {K : Type*} [CommRing K] {C : CRef → K}

/-- Field samples outside the box and the layer quantities. -/
def Out (b : BBox) : Loc → Prop
  | .fld fc i j k => ¬ SampleIn b fc i j k
  | .pp .. | .p .. | .b .. => True
  | _ => False

/-- The same without the magnetic samples next to an electric sample of the box. -/
def Far (b : BBox) : Loc → Prop
  | .fld .hx i j k => ¬ SampleIn b .hx i j k ∧ ¬ SampleIn b .ey i j (k+1) ∧ ¬ SampleIn b .ey i j k ∧
      ¬ SampleIn b .ez i j k ∧ ¬ SampleIn b .ez i (j+1) k
  | .fld .hy i j k => ¬ SampleIn b .hy i j k ∧ ¬ SampleIn b .ez (i+1) j k ∧ ¬ SampleIn b .ez i j k ∧
      ¬ SampleIn b .ex i j k ∧ ¬ SampleIn b .ex i j (k+1)
  | .fld .hz i j k => ¬ SampleIn b .hz i j k ∧ ¬ SampleIn b .ex i (j+1) k ∧ ¬ SampleIn b .ex i j k ∧
      ¬ SampleIn b .ey i j k ∧ ¬ SampleIn b .ey (i+1) j k
  | .fld fc i j k => ¬ SampleIn b fc i j k
  | .pp .. | .p .. | .b .. => True
  | _ => False

/-- The clearances as inequalities. -/
theorem clear_facts {c : Cfg} {b : BBox} (h : ClearOf c b) :
    (c.gibox .xlo + 1 ≤ b .xlo ∧ b .xlo ≤ b .xhi ∧ b .xhi ≤ c.gibox .xhi - 1) ∧
    (c.gibox .ylo + 1 ≤ b .ylo ∧ b .ylo ≤ b .yhi ∧ b .yhi ≤ c.gibox .yhi - 1) ∧
    (c.gibox .zlo + 1 ≤ b .zlo ∧ b .zlo ≤ b .zhi ∧ b .zhi ≤ c.gibox .zhi - 1) ∧
    (c.bt .xlo = .mur → c.gibox .xlo + 2 ≤ b .xlo) ∧ (c.bt .xhi = .mur → b .xhi ≤ c.gibox .xhi - 2) ∧
    (c.bt .ylo = .mur → c.gibox .ylo + 2 ≤ b .ylo) ∧ (c.bt .yhi = .mur → b .yhi ≤ c.gibox .yhi - 2) ∧
    (c.bt .zlo = .mur → c.gibox .zlo + 2 ≤ b .zlo) ∧ (c.bt .zhi = .mur → b .zhi ≤ c.gibox .zhi - 2) := by
  have hx := h .x; have hy := h .y; have hz := h .z
  simp only [Axis.lo, Axis.hi] at hx hy hz
  refine ⟨?_, ?_, ?_, ?_, ?_, ?_, ?_, ?_, ?_⟩ <;> (try intro hm) <;> (try simp only [hm, if_true] at hx hy hz) <;>
    split_ifs at hx hy hz <;> omega

theorem keeps_pmlE {c : Cfg} {b : BBox} (h : ClearOf c b) : Keeps C (Out b) (updatePmlEfield c) := by
  obtain ⟨⟨x1, x2, x3⟩, ⟨y1, y2, y3⟩, ⟨z1, z2, z3⟩, mx, mx', my, my', mz, mz'⟩ := clear_facts h
  refine Keeps.flatMap fun r _ => ?_
  unfold pmlRegionE
  split
  swap; · exact Keeps.nil
  refine Keeps.append (Keeps.append ?_ ?_) ?_ <;>
  · apply Keeps.loop
    intro i j k hi a ha _
    simp only [pmlExBlock, pmlEyBlock, pmlEzBlock, List.mem_cons, List.not_mem_nil, or_false] at ha
    cases r <;> simp [InLim, Cfg.fplim, setFieldLimits, fieldIsInBoundary, pmlInclude, Cfg.pbox, mkBox, Face.isLo] at hi <;>
    rcases ha with rfl | rfl | rfl <;>
      (simp [Expr.ZeroOn, curlHx, curlHy, curlHz, EX, EY, EZ, HX, HY, HZ, Out, PPr, Pr, SampleIn, pos2]; omega)

theorem keeps_murE {c : Cfg} {b : BBox} (h : ClearOf c b) : Keeps C (Out b) (updateMurEfield c) := by
  obtain ⟨⟨x1, x2, x3⟩, ⟨y1, y2, y3⟩, ⟨z1, z2, z3⟩, mx, mx', my, my', mz, mz'⟩ := clear_facts h
  refine Keeps.flatMap fun f _ => ?_
  split
  swap; · exact Keeps.nil
  rename_i hf
  refine Keeps.flatMap fun fc hfc => ?_
  apply Keeps.loop
  intro i j k hi a ha _
  simp only [murE, List.mem_singleton] at ha
  subst ha
  cases f <;> simp only [murComponents, List.mem_cons, List.not_mem_nil, or_false] at hfc <;>
    simp only [hf, forall_true_left] at mx mx' my my' mz mz' <;>
    rcases hfc with rfl | rfl <;>
    simp [InLim, Cfg.fmlim, setFieldLimits, fieldIsInBoundary, Cfg.murInclude, getFaceOfBoundingBox, mkBox, Face.isLo,
      Face.axis] at hi <;>
    (simp [Expr.ZeroOn, inward, ampere, ampereX, ampereY, ampereZ, curlHx, curlHy, curlHz, EX, EY, EZ, HX, HY, HZ, Out,
      SampleIn, pos2]; omega)

theorem keeps_gridE (c : Cfg) (b : BBox) : Keeps C (Out b) (updateGridEfield c) := by
  refine Keeps.append (Keeps.append ?_ ?_) ?_ <;>
  · apply Keeps.loop
    intro i j k _ a ha hz
    simp only [List.mem_singleton] at ha
    subst ha
    simp only [Out, SampleIn, pos2] at hz
    simp [Expr.ZeroOn, ampereX, ampereY, ampereZ, curlHx, curlHy, curlHz, EX, EY, EZ, HX, HY, HZ, Out, SampleIn, pos2]
    omega

theorem keeps_coreE {c : Cfg} {b : BBox} (h : ClearOf c b) :
    Keeps C (Out b) (updatePmlEfield c ++ updateMurEfield c ++ updateGridEfield c) :=
  ((keeps_pmlE h).append (keeps_murE h)).append (keeps_gridE c b)

theorem keeps_coreH {c : Cfg} {b : BBox} (h : ClearOf c b) :
    Keeps C (Far b) (updatePmlHfield c ++ updateMurHfield c ++ updateGridHfield c) := by
  obtain ⟨⟨x1, x2, x3⟩, ⟨y1, y2, y3⟩, ⟨z1, z2, z3⟩, mx, mx', my, my', mz, mz'⟩ := clear_facts h
  refine Keeps.append (Keeps.append ?_ ?_) ?_
  · refine Keeps.flatMap fun r _ => ?_
    unfold pmlRegionH
    split
    swap; · exact Keeps.nil
    refine Keeps.append (Keeps.append ?_ ?_) ?_ <;>
    · apply Keeps.loop
      intro i j k hi a ha _
      simp only [pmlHxBlock, pmlHyBlock, pmlHzBlock, List.mem_cons, List.not_mem_nil, or_false] at ha
      cases r <;> simp [InLim, Cfg.fplim, setFieldLimits, fieldIsInBoundary, pmlInclude, Cfg.pbox, mkBox, Face.isLo] at hi <;>
      rcases ha with rfl | rfl <;>
        (simp [Expr.ZeroOn, curlEx, curlEy, curlEz, EX, EY, EZ, HX, HY, HZ, Far, Br, SampleIn, pos2]; omega)
  · refine Keeps.flatMap fun f _ => ?_
    split
    swap; · exact Keeps.nil
    apply Keeps.loop
    intro i j k hi a ha hz
    simp only [List.mem_singleton] at ha
    subst ha
    cases f <;> simp only [murNormal, Far] at hz <;> obtain ⟨h0, h1, h2, h3, h4⟩ := hz <;>
      simp [Expr.ZeroOn, murNormal, faraday, faradayX, faradayY, faradayZ, curlEx, curlEy, curlEz, EX, EY, EZ, HX, HY, HZ,
        Far, h0, h1, h2, h3, h4]
  · refine Keeps.append (Keeps.append ?_ ?_) ?_ <;>
    · apply Keeps.loop
      intro i j k _ a ha hz
      simp only [List.mem_singleton] at ha
      subst ha
      simp only [Far] at hz
      obtain ⟨h0, h1, h2, h3, h4⟩ := hz
      simp [Expr.ZeroOn, faradayX, faradayY, faradayZ, curlEx, curlEy, curlEz, EX, EY, EZ, HX, HY, HZ, Far, h0, h1, h2, h3, h4]

theorem keeps_ghost {c : Cfg} (hv : ValidCfg c) {b : BBox} (h : ClearOf c b) (comps : Face → List Fc)
    (hcomp : ∀ f, ∀ fc ∈ comps f, fieldIsInBoundary fc f = false) :
    Keeps C (Out b) (Face.all.flatMap fun f => ghostFace c (comps f) f) := by
  obtain ⟨⟨x1, x2, x3⟩, ⟨y1, y2, y3⟩, ⟨z1, z2, z3⟩, -⟩ := clear_facts h
  refine Keeps.flatMap fun f _ => ?_
  have key : c.bt f ≠ .pml → c.bt f ≠ .mur → ∀ neg : Bool, Keeps C (Out b)
      ((boxLoop (ghostFaceLim c f.axis (ghostTarget c f))).flatMap fun q =>
        (comps f).map fun fc => [⟨fldAt fc q, ghostVal neg (fldAt fc (setAx f.axis (ghostSource c f) q))⟩]) := by
    intro hp hm neg b' hb a ha _
    obtain ⟨⟨i, j, k⟩, hq, hb⟩ := List.mem_flatMap.1 hb
    obtain ⟨fc, hfc, rfl⟩ := List.mem_map.1 hb
    simp only [List.mem_singleton] at ha
    subst ha
    have hfb := hcomp f fc hfc
    have hl := hv.other f hp
    have hl' : c.bt f = .periodic → c.layers f.opposite = 0 := fun e => hv.other _ (by rw [hv.paired f e]; simp)
    have : Out b (fldAt fc (setAx f.axis (ghostSource c f) (i, j, k))) := by
      have hg := clear_facts h
      have e : ghostSource c f = (if f.isLo then c.gibox f else c.gibox f - 1) ∨
          ghostSource c f = (if f.isLo then c.gibox f.opposite - 1 else c.gibox f.opposite) := by
        unfold ghostSource
        cases hbt : c.bt f
        · left; cases f <;> simp [Face.isLo, Cfg.gibox, Cfg.gobox, Cfg.giboxLo, Cfg.giboxHi, Cfg.goboxHi, Cfg.goboxLo, Axis.lo, Axis.hi] at hl ⊢ <;> omega
        · left; cases f <;> simp [Face.isLo, Cfg.gibox, Cfg.gobox, Cfg.giboxLo, Cfg.giboxHi, Cfg.goboxHi, Cfg.goboxLo, Axis.lo, Axis.hi] at hl ⊢ <;> omega
        · right
          have hl' := hl' hbt
          cases f <;> simp [Face.isLo, Cfg.gibox, Cfg.gobox, Cfg.giboxLo, Cfg.giboxHi, Cfg.goboxHi, Cfg.goboxLo, Axis.lo, Axis.hi, Face.opposite] at hl hl' ⊢ <;> omega
        · exact absurd hbt hp
        · exact absurd hbt hm
      rcases e with e | e <;> rw [e] <;> cases f <;> cases fc <;> simp [fieldIsInBoundary] at hfb <;>
        simp [fldAt, setAx, Face.axis, Face.isLo, Face.opposite, Out, SampleIn, pos2] <;> omega
    cases neg <;> simpa [ghostVal, Expr.ZeroOn] using this
  unfold ghostFace
  cases e : c.bt f with
  | pml => exact Keeps.nil
  | mur => exact Keeps.nil
  | pec => exact key (by simp [e]) (by simp [e]) _
  | pmc => exact key (by simp [e]) (by simp [e]) _
  | periodic => exact key (by simp [e]) (by simp [e]) _

end outside
end Vulture.C31
