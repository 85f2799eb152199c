import Verif.Lemmas.Limits
import Mathlib.Tactic.SplitIfs
/-
C09: the grid loop, the PML slabs and the Mur faces advance each sample of the outer grid exactly
once.  The only exception is the set of electric samples on an edge shared by two Mur faces, which
nothing advances (such an edge cannot exist when the outer faces are PML, PEC, PMC or periodic).
-/
set_option linter.unusedSimpArgs false
namespace Vulture
open Spec

/-- How often a program assigns a location. -/
def Spec.timesWritten (p : Prog) (l : Loc) : Nat := p.countP (fun b => decide (l ∈ b.writes))

/-- An electric or magnetic sample that lies on two Mur faces of the inner grid at once. -/
def Spec.OnMurEdge (c : Cfg) (fc : Fc) (i j k : Int) : Prop :=
  SampleIn c.gibox fc i j k ∧
  ∃ f g : Face, f.axis ≠ g.axis ∧ c.bt f = .mur ∧ c.bt g = .mur ∧
    SampleIn (getFaceOfBoundingBox c.gibox f) fc i j k ∧
    SampleIn (getFaceOfBoundingBox c.gibox g) fc i j k

namespace C09

theorem tw_append (p q : Prog) (l : Loc) :
    timesWritten (p ++ q) l = timesWritten p l + timesWritten q l := List.countP_append

theorem tw_nil (l : Loc) : timesWritten [] l = 0 := rfl

theorem tw_faces (g : Face → Prog) (l : Loc) : timesWritten (Face.all.flatMap g) l =
    timesWritten (g .xlo) l + timesWritten (g .xhi) l + timesWritten (g .ylo) l +
    timesWritten (g .yhi) l + timesWritten (g .zlo) l + timesWritten (g .zhi) l := by
  simp only [Face.all, List.flatMap_cons, List.flatMap_nil, List.append_nil, tw_append]
  omega

/-- A loop whose bodies do not write `l`. -/
theorem tw_loop_zero {lim : Face → Int} {body : Int → Int → Int → Block} {l : Loc}
    (h : ∀ i j k, l ∉ (body i j k).writes) : timesWritten (loopOver lim body) l = 0 := by
  unfold timesWritten
  rw [List.countP_eq_zero]
  intro b hb
  obtain ⟨t, _, rfl⟩ := List.mem_map.1 hb
  simp [h]

/-- A loop whose body at `(i,j,k)` writes exactly that sample of the component. -/
theorem tw_loop {lim : Face → Int} {body : Int → Int → Int → Block} {fc : Fc}
    (h : ∀ i j k i' j' k', Loc.fld fc i j k ∈ (body i' j' k').writes ↔ (i', j', k') = (i, j, k))
    (i j k : Int) [Decidable (InLim lim i j k)] :
    timesWritten (loopOver lim body) (.fld fc i j k) = if InLim lim i j k then 1 else 0 := by
  unfold timesWritten loopOver
  rw [List.countP_map]
  have e : ((fun b : Block => decide (Loc.fld fc i j k ∈ b.writes)) ∘
      fun t : Int × Int × Int => body t.1 t.2.1 t.2.2) = fun t => t == (i, j, k) := by
    funext ⟨i', j', k'⟩
    simp only [Function.comp]
    rw [Bool.eq_iff_iff]
    simp only [decide_eq_true_eq, beq_iff_eq]
    exact h i j k i' j' k'
  rw [e]
  change (boxLoop lim).count (i, j, k) = _
  have := (nodup_boxLoop lim).count (a := (i, j, k))
  rw [this]
  have m := @mem_boxLoop lim i j k
  by_cases hh : InLim lim i j k
  · rw [if_pos hh, if_pos (m.2 hh)]
  · rw [if_neg hh, if_neg fun q => hh (m.1 q)]

/-- One axis of the limits. -/
def axisIn (lim : Face → Int) (a : Axis) (i : Int) : Bool := decide (lim a.lo ≤ i ∧ i ≤ lim a.hi)

instance (lim : Face → Int) (i j k : Int) : Decidable (InLim lim i j k) := by
  unfold InLim; infer_instance

theorem inLim_axes (lim : Face → Int) (i j k : Int) :
    InLim lim i j k ↔ (axisIn lim .x i && axisIn lim .y j && axisIn lim .z k) = true := by
  simp only [axisIn, Bool.and_eq_true, decide_eq_true_eq, and_assoc]
  simp only [InLim, Axis.lo, Axis.hi, and_assoc]

/-- Where an index lies along one axis. -/
inductive Slot | out | L | P | M | Q | H
  deriving DecidableEq

/-- Whether samples of the component sit on the node planes of the axis. -/
def nodal (fc : Fc) (a : Axis) : Bool := fieldIsInBoundary fc a.lo

def slot (c : Cfg) (fc : Fc) (a : Axis) (i : Int) : Slot :=
  if nodal fc a then
    if i < c.gobox a.lo ∨ c.gobox a.hi < i then .out
    else if i < c.gibox a.lo then .L else if i = c.gibox a.lo then .P
    else if i < c.gibox a.hi then .M else if i = c.gibox a.hi then .Q else .H
  else
    if i < c.gobox a.lo ∨ c.gobox a.hi ≤ i then .out
    else if i < c.gibox a.lo then .L else if i < c.gibox a.hi then .M else .H

theorem nodal_hi (fc : Fc) (a : Axis) : fieldIsInBoundary fc a.hi = nodal fc a := by
  cases fc <;> cases a <;> rfl

theorem axisIn_lim (b : BBox) (incl : Face → Bool) (fc : Fc) (a : Axis) (i : Int) :
    axisIn (setFieldLimits b incl fc) a i =
      if nodal fc a then decide ((if incl a.lo then b a.lo else b a.lo + 1) ≤ i ∧
        i ≤ (if incl a.hi then b a.hi else b a.hi - 1))
      else decide (b a.lo ≤ i ∧ i < b a.hi) := by
  unfold axisIn setFieldLimits
  have h1 : a.lo.isLo = true := by cases a <;> rfl
  have h2 : a.hi.isLo = false := by cases a <;> rfl
  simp only [h1, h2, nodal_hi, ← show nodal fc a = fieldIsInBoundary fc a.lo from rfl]
  cases nodal fc a
  · simp only [Bool.false_eq_true, if_false, if_true]
    rw [decide_eq_decide]; omega
  · simp only [Bool.false_eq_true, if_false, if_true]

/-- Membership of a slot in a box side by side, for a box that coincides with parts of the grid. -/
inductive Part | outer | inner | low | high | loFace | hiFace

def rawLo (g1 _g2 g3 g4 : Int) : Part → Int
  | .outer => g1 | .inner => g3 | .low => g1 | .high => g4 | .loFace => g3 | .hiFace => g4
def rawHi (_g1 g2 g3 g4 : Int) : Part → Int
  | .outer => g2 | .inner => g4 | .low => g3 | .high => g2 | .loFace => g3 | .hiFace => g4
def partLo (c : Cfg) (a : Axis) (p : Part) : Int :=
  rawLo (c.gobox a.lo) (c.gobox a.hi) (c.gibox a.lo) (c.gibox a.hi) p
def partHi (c : Cfg) (a : Axis) (p : Part) : Int :=
  rawHi (c.gobox a.lo) (c.gobox a.hi) (c.gibox a.lo) (c.gibox a.hi) p

/-- Slot membership: `il`, `ih` = inclusion flags. Only the flag combinations in use. -/
def slotIn (p : Part) (il ih : Bool) : Slot → Bool
  | .out => false
  | .L => match p with | .outer => true | .low => true | _ => false
  | .P => match p with | .outer => true | .inner => il | .loFace => true | _ => false
  | .M => match p with | .outer => true | .inner => true | _ => false
  | .Q => match p with | .outer => true | .inner => ih | .hiFace => true | _ => false
  | .H => match p with | .outer => true | .high => true | _ => false

def okFlags : Part → Bool → Bool → Prop
  | .inner, _, _ => True
  | .outer, a, b => a = true ∧ b = true
  | .loFace, a, b => a = true ∧ b = true
  | .hiFace, a, b => a = true ∧ b = true
  | .low, a, b => a = true ∧ b = false
  | .high, a, b => a = false ∧ b = true

theorem slot_raw (nod il ih : Bool) (g1 g2 g3 g4 i : Int) (p : Part) (f1 : g1 ≤ g3)
    (f3 : g3 + 1 ≤ g4) (f4 : g4 ≤ g2) (lo hi : Int)
    (hlo : lo = rawLo g1 g2 g3 g4 p) (hhi : hi = rawHi g1 g2 g3 g4 p)
    (ok : okFlags p il ih) :
    (if nod then decide ((if il then lo else lo + 1) ≤ i ∧ i ≤ (if ih then hi else hi - 1))
      else decide (lo ≤ i ∧ i < hi)) = slotIn p il ih
    (if nod then
      if i < g1 ∨ g2 < i then .out
      else if i < g3 then .L else if i = g3 then .P
      else if i < g4 then .M else if i = g4 then .Q else .H
    else
      if i < g1 ∨ g2 ≤ i then .out
      else if i < g3 then .L else if i < g4 then .M else .H) := by
  rw [Bool.eq_iff_iff]
  cases nod <;> cases p <;> cases il <;> cases ih <;>
    simp only [okFlags, rawLo, rawHi, Bool.false_eq_true, if_false, if_true, decide_eq_true_eq, Bool.true_eq_false,
        and_true, and_false, false_and, and_self] at ok hlo hhi ⊢ <;> subst hlo hhi <;>
    split_ifs <;> simp only [slotIn, Bool.false_eq_true, iff_false, iff_true] <;> omega

theorem axisIn_slot {c : Cfg} (h : ValidCfg c) (b : BBox) (incl : Face → Bool) (fc : Fc) (a : Axis)
    (i : Int) (p : Part) (hl : b a.lo = partLo c a p) (hh : b a.hi = partHi c a p)
    (ok : okFlags p (incl a.lo) (incl a.hi)) :
    axisIn (setFieldLimits b incl fc) a i = slotIn p (incl a.lo) (incl a.hi) (slot c fc a i) := by
  obtain ⟨f1, f2, f3, f4, -⟩ := cfg_facts h a
  rw [axisIn_lim]
  exact slot_raw _ _ _ _ _ _ _ i p (by omega) f3 f4 _ _ hl hh ok

theorem inLim_slots {c : Cfg} (h : ValidCfg c) (b : BBox) (incl : Face → Bool) (fc : Fc)
    (i j k : Int) (p : Axis → Part) (hl : ∀ a : Axis, b a.lo = partLo c a (p a))
    (hh : ∀ a : Axis, b a.hi = partHi c a (p a))
    (ok : ∀ a : Axis, okFlags (p a) (incl a.lo) (incl a.hi)) :
    InLim (setFieldLimits b incl fc) i j k ↔
      (slotIn (p .x) (incl .xlo) (incl .xhi) (slot c fc .x i) &&
       slotIn (p .y) (incl .ylo) (incl .yhi) (slot c fc .y j) &&
       slotIn (p .z) (incl .zlo) (incl .zhi) (slot c fc .z k)) = true := by
  rw [inLim_axes, axisIn_slot h b incl fc .x i (p .x) (hl _) (hh _) (ok _),
    axisIn_slot h b incl fc .y j (p .y) (hl _) (hh _) (ok _),
    axisIn_slot h b incl fc .z k (p .z) (hl _) (hh _) (ok _)]
  exact Iff.rfl

/-- The limits of a box with all faces included are the samples in the closed box. -/
theorem sampleIn_iff (b : BBox) (fc : Fc) (i j k : Int) :
    SampleIn b fc i j k ↔ InLim (setFieldLimits b (fun _ => true) fc) i j k := by
  cases fc <;> simp [SampleIn, InLim, pos2, setFieldLimits, Face.isLo, fieldIsInBoundary] <;> omega

/-- Parts of the PML slab of a face. -/
def slabPart : Face → Axis → Part
  | .xlo, .x => .low | .xlo, _ => .outer
  | .xhi, .x => .high | .xhi, _ => .outer
  | .ylo, .x => .inner | .ylo, .y => .low | .ylo, .z => .outer
  | .yhi, .x => .inner | .yhi, .y => .high | .yhi, .z => .outer
  | .zlo, .z => .low | .zlo, _ => .inner
  | .zhi, .z => .high | .zhi, _ => .inner

theorem slab_slots {c : Cfg} (h : ValidCfg c) (r : Face) (fc : Fc) (i j k : Int) :
    InLim (c.fplim r fc) i j k ↔
      (slotIn (slabPart r .x) (pmlInclude r .xlo) (pmlInclude r .xhi) (slot c fc .x i) &&
       slotIn (slabPart r .y) (pmlInclude r .ylo) (pmlInclude r .yhi) (slot c fc .y j) &&
       slotIn (slabPart r .z) (pmlInclude r .zlo) (pmlInclude r .zhi) (slot c fc .z k)) = true := by
  refine inLim_slots h (c.pbox r) (pmlInclude r) fc i j k (slabPart r) ?_ ?_ ?_ <;>
    intro a <;> cases r <;> cases a <;> simp [slabPart, okFlags, pmlInclude, Axis.lo, Axis.hi] <;> rfl

/-- Parts of a face of the inner grid. -/
def facePart : Face → Axis → Part
  | .xlo, .x => .loFace | .xhi, .x => .hiFace
  | .ylo, .y => .loFace | .yhi, .y => .hiFace
  | .zlo, .z => .loFace | .zhi, .z => .hiFace
  | _, _ => .inner

theorem face_slots {c : Cfg} (h : ValidCfg c) (r : Face) (incl : Face → Bool)
    (hi : ∀ f : Face, f.axis = r.axis → incl f = true) (fc : Fc) (i j k : Int) :
    InLim (setFieldLimits (getFaceOfBoundingBox c.gibox r) incl fc) i j k ↔
      (slotIn (facePart r .x) (incl .xlo) (incl .xhi) (slot c fc .x i) &&
       slotIn (facePart r .y) (incl .ylo) (incl .yhi) (slot c fc .y j) &&
       slotIn (facePart r .z) (incl .zlo) (incl .zhi) (slot c fc .z k)) = true := by
  refine inLim_slots h _ incl fc i j k (facePart r) ?_ ?_ ?_
  · intro a; cases r <;> cases a <;> rfl
  · intro a; cases r <;> cases a <;> rfl
  · intro a; cases r <;> cases a <;> simp [facePart, okFlags] <;>
      exact ⟨hi _ rfl, hi _ rfl⟩

/-- Components that do not sit on the planes of an axis never occupy a plane slot. -/
theorem slot_cell (c : Cfg) (fc : Fc) (a : Axis) (i : Int) (h : nodal fc a = false) :
    slot c fc a i ≠ .P ∧ slot c fc a i ≠ .Q := by
  unfold slot
  simp only [h, Bool.false_eq_true, if_false]
  constructor <;> (repeat' split) <;> simp


section counts
variable (c : Cfg) (i j k : Int)

macro "tw_simp" : tactic => `(tactic| simp [Block.writes, pmlExBlock, pmlEyBlock, pmlEzBlock,
  pmlHxBlock, pmlHyBlock, pmlHzBlock, PPr, Pr, Br, murE, eq_comm, Prod.ext_iff, and_assoc])

theorem tw_gridE (fc : Fc) (hf : fc = .ex ∨ fc = .ey ∨ fc = .ez) :
    timesWritten (updateGridEfield c) (.fld fc i j k) = if InLim (c.gfilim fc) i j k then 1 else 0 := by
  unfold updateGridEfield
  rw [tw_append, tw_append]
  rcases hf with rfl | rfl | rfl
  · rw [tw_loop (by intros; tw_simp), tw_loop_zero (by intros; tw_simp), tw_loop_zero (by intros; tw_simp)]; rfl
  · rw [tw_loop_zero (by intros; tw_simp), tw_loop (by intros; tw_simp), tw_loop_zero (by intros; tw_simp)]; omega
  · rw [tw_loop_zero (by intros; tw_simp), tw_loop_zero (by intros; tw_simp), tw_loop (by intros; tw_simp)]; omega

theorem tw_gridH (fc : Fc) (hf : fc = .hx ∨ fc = .hy ∨ fc = .hz) :
    timesWritten (updateGridHfield c) (.fld fc i j k) = if InLim (c.gfilim fc) i j k then 1 else 0 := by
  unfold updateGridHfield
  rw [tw_append, tw_append]
  rcases hf with rfl | rfl | rfl
  · rw [tw_loop (by intros; tw_simp), tw_loop_zero (by intros; tw_simp), tw_loop_zero (by intros; tw_simp)]; rfl
  · rw [tw_loop_zero (by intros; tw_simp), tw_loop (by intros; tw_simp), tw_loop_zero (by intros; tw_simp)]; omega
  · rw [tw_loop_zero (by intros; tw_simp), tw_loop_zero (by intros; tw_simp), tw_loop (by intros; tw_simp)]; omega

variable {c} in
theorem tw_pmlE (h : ValidCfg c) (fc : Fc) (hf : fc = .ex ∨ fc = .ey ∨ fc = .ez) (r : Face) :
    timesWritten (pmlRegionE c r) (.fld fc i j k) = if InLim (c.fplim r fc) i j k then 1 else 0 := by
  unfold pmlRegionE
  by_cases hr : c.bt r = .pml
  · rw [if_pos hr, tw_append, tw_append]
    rcases hf with rfl | rfl | rfl
    · rw [tw_loop (by intros; tw_simp), tw_loop_zero (by intros; tw_simp), tw_loop_zero (by intros; tw_simp)]; rfl
    · rw [tw_loop_zero (by intros; tw_simp), tw_loop (by intros; tw_simp), tw_loop_zero (by intros; tw_simp)]; omega
    · rw [tw_loop_zero (by intros; tw_simp), tw_loop_zero (by intros; tw_simp), tw_loop (by intros; tw_simp)]; omega
  · rw [if_neg hr, if_neg (slab_empty h r hr fc i j k), tw_nil]

variable {c} in
theorem tw_pmlH (h : ValidCfg c) (fc : Fc) (hf : fc = .hx ∨ fc = .hy ∨ fc = .hz) (r : Face) :
    timesWritten (pmlRegionH c r) (.fld fc i j k) = if InLim (c.fplim r fc) i j k then 1 else 0 := by
  unfold pmlRegionH
  by_cases hr : c.bt r = .pml
  · rw [if_pos hr, tw_append, tw_append]
    rcases hf with rfl | rfl | rfl
    · rw [tw_loop (by intros; tw_simp), tw_loop_zero (by intros; tw_simp), tw_loop_zero (by intros; tw_simp)]; rfl
    · rw [tw_loop_zero (by intros; tw_simp), tw_loop (by intros; tw_simp), tw_loop_zero (by intros; tw_simp)]; omega
    · rw [tw_loop_zero (by intros; tw_simp), tw_loop_zero (by intros; tw_simp), tw_loop (by intros; tw_simp)]; omega
  · rw [if_neg hr, if_neg (slab_empty h r hr fc i j k), tw_nil]

/-- Writes of one Mur face, electric. -/
theorem tw_murE (fc : Fc) (f : Face) :
    timesWritten (if c.bt f = .mur then
        (murComponents f).flatMap fun fc => loopOver (c.fmlim f fc) (murE f fc) else [])
      (.fld fc i j k) =
      if c.bt f = .mur ∧ fc ∈ murComponents f ∧ InLim (c.fmlim f fc) i j k then 1 else 0 := by
  by_cases hr : c.bt f = .mur
  · rw [if_pos hr]
    have key : ∀ fc' : Fc, timesWritten (loopOver (c.fmlim f fc') (murE f fc')) (.fld fc i j k) =
        if fc' = fc ∧ InLim (c.fmlim f fc) i j k then 1 else 0 := by
      intro fc'
      by_cases e : fc' = fc
      · subst e; rw [tw_loop (by intros; tw_simp)]; simp
      · rw [tw_loop_zero (by intros; simp [Block.writes, murE]; exact fun q => absurd q.symm e)]
        simp [e]
    cases f <;> simp only [murComponents, List.flatMap_cons, List.flatMap_nil, List.append_nil,
      tw_append, key] <;> cases fc <;> simp [hr]
  · rw [if_neg hr, if_neg (fun q => hr q.1), tw_nil]

/-- Writes of one Mur face, magnetic. -/
theorem tw_murH (fc : Fc) (f : Face) :
    timesWritten (if c.bt f = .mur then
      loopOver (c.fmlim f (murNormal f))
        (fun i j k => [⟨.fld (murNormal f) i j k, faraday (murNormal f) i j k⟩]) else [])
      (.fld fc i j k) =
      if c.bt f = .mur ∧ fc = murNormal f ∧ InLim (c.fmlim f fc) i j k then 1 else 0 := by
  by_cases hr : c.bt f = .mur
  · rw [if_pos hr]
    by_cases e : fc = murNormal f
    · subst e; rw [tw_loop (by intros; tw_simp)]; simp [hr]
    · rw [tw_loop_zero (by intros; simp [Block.writes]; exact fun q => absurd q e)]; simp [e]
  · rw [if_neg hr, if_neg (fun q => hr q.1), tw_nil]

end counts


/-- Boolean form of `OnMurEdge` in slots. -/
def murEdgeB (m : Face → Bool) (sx sy sz : Slot) : Bool :=
  let px := (sx = .P && m .xlo) || (sx = .Q && m .xhi)
  let py := (sy = .P && m .ylo) || (sy = .Q && m .yhi)
  let pz := (sz = .P && m .zlo) || (sz = .Q && m .zhi)
  let inn (s : Slot) : Bool := s = .P || s = .M || s = .Q
  inn sx && inn sy && inn sz && ((px && py) || (py && pz) || (px && pz))

theorem onMurEdge_iff {c : Cfg} (h : ValidCfg c) (fc : Fc) (i j k : Int) :
    OnMurEdge c fc i j k ↔ murEdgeB (fun f => c.bt f = .mur) (slot c fc .x i) (slot c fc .y j)
      (slot c fc .z k) = true := by
  unfold OnMurEdge
  have e1 : SampleIn c.gibox fc i j k ↔ _ := (sampleIn_iff _ _ _ _ _).trans
    (inLim_slots h c.gibox (fun _ => true) fc i j k (fun _ => .inner)
      (fun a => by cases a <;> rfl) (fun a => by cases a <;> rfl) (fun _ => trivial))
  have e2 : ∀ f, SampleIn (getFaceOfBoundingBox c.gibox f) fc i j k ↔ _ := fun f =>
    (sampleIn_iff _ _ _ _ _).trans (face_slots h f (fun _ => true) (fun _ _ => rfl) fc i j k)
  simp only [e1, e2]
  generalize slot c fc .x i = sx
  generalize slot c fc .y j = sy
  generalize slot c fc .z k = sz
  constructor
  · rintro ⟨h0, f, g, hne, hf, hg, h1, h2⟩
    cases f <;> cases g <;> simp [Face.axis] at hne <;>
      cases sx <;> simp [slotIn, facePart] at h1 h2 h0 <;>
      cases sy <;> simp [slotIn, facePart] at h1 h2 h0 <;>
      cases sz <;> simp [slotIn, facePart] at h1 h2 h0 <;> simp [murEdgeB, hf, hg]
  · intro hb
    have inn : ∀ q : Slot, (decide (q = .P) || decide (q = .M) || decide (q = .Q)) = true →
        slotIn .inner true true q = true := by intro q; cases q <;> decide
    have pick : ∀ (q : Slot) (f g : Face), ((decide (q = .P) && decide (c.bt f = .mur)) ||
        (decide (q = .Q) && decide (c.bt g = .mur))) = true →
        (q = .P ∧ c.bt f = .mur) ∨ (q = .Q ∧ c.bt g = .mur) := by
      intro q f g; simp
    simp only [murEdgeB] at hb
    rw [Bool.and_eq_true, Bool.and_eq_true, Bool.and_eq_true] at hb
    obtain ⟨⟨⟨hx, hy⟩, hz⟩, hb⟩ := hb
    have hx := inn _ hx; have hy := inn _ hy; have hz := inn _ hz
    refine ⟨by simp [hx, hy, hz], ?_⟩
    rw [Bool.or_eq_true, Bool.or_eq_true] at hb
    rcases hb with (hb | hb) | hb
    · rw [Bool.and_eq_true] at hb
      rcases pick _ _ _ hb.1 with ⟨e1, b1⟩ | ⟨e1, b1⟩ <;>
      rcases pick _ _ _ hb.2 with ⟨e2, b2⟩ | ⟨e2, b2⟩ <;> subst e1 e2 <;>
      exact ⟨_, _, by decide, b1, b2, by simp only [facePart, hz]; rfl, by simp only [facePart, hz]; rfl⟩
    · rw [Bool.and_eq_true] at hb
      rcases pick _ _ _ hb.1 with ⟨e1, b1⟩ | ⟨e1, b1⟩ <;>
      rcases pick _ _ _ hb.2 with ⟨e2, b2⟩ | ⟨e2, b2⟩ <;> subst e1 e2 <;>
      exact ⟨_, _, by decide, b1, b2, by simp only [facePart, hx]; rfl, by simp only [facePart, hx]; rfl⟩
    · rw [Bool.and_eq_true] at hb
      rcases pick _ _ _ hb.1 with ⟨e1, b1⟩ | ⟨e1, b1⟩ <;>
      rcases pick _ _ _ hb.2 with ⟨e2, b2⟩ | ⟨e2, b2⟩ <;> subst e1 e2 <;>
      exact ⟨_, _, by decide, b1, b2, by simp only [facePart, hy]; rfl, by simp only [facePart, hy]; rfl⟩

theorem bt_beq (a b : BType) : (a == b) = decide (a = b) := rfl
theorem ax_bne (a b : Axis) : (a != b) = !decide (a = b) := rfl

theorem grid_slots {c : Cfg} (h : ValidCfg c) (fc : Fc) (i j k : Int) :
    InLim (c.gfilim fc) i j k ↔
      (slotIn .inner (!decide (c.bt .xlo = .mur)) (!decide (c.bt .xhi = .mur)) (slot c fc .x i) &&
       slotIn .inner (!decide (c.bt .ylo = .mur)) (!decide (c.bt .yhi = .mur)) (slot c fc .y j) &&
       slotIn .inner (!decide (c.bt .zlo = .mur)) (!decide (c.bt .zhi = .mur)) (slot c fc .z k)) = true :=
  inLim_slots h c.gibox (fun f => !(c.bt f == .mur)) fc i j k (fun _ => .inner)
    (fun a => by cases a <;> rfl) (fun a => by cases a <;> rfl) (fun _ => trivial)

theorem mur_slots {c : Cfg} (h : ValidCfg c) (r : Face) (fc : Fc) (i j k : Int) :
    InLim (c.fmlim r fc) i j k ↔
      (slotIn (facePart r .x) (c.murInclude r .xlo) (c.murInclude r .xhi) (slot c fc .x i) &&
       slotIn (facePart r .y) (c.murInclude r .ylo) (c.murInclude r .yhi) (slot c fc .y j) &&
       slotIn (facePart r .z) (c.murInclude r .zlo) (c.murInclude r .zhi) (slot c fc .z k)) = true :=
  face_slots h r (c.murInclude r) (fun f hf => by simp [Cfg.murInclude, hf]) fc i j k

/-- Slots of the whole outer grid. -/
theorem outer_slots {c : Cfg} (h : ValidCfg c) (fc : Fc) (i j k : Int) :
    SampleIn c.gobox fc i j k ↔
      (slotIn .outer true true (slot c fc .x i) && slotIn .outer true true (slot c fc .y j) &&
       slotIn .outer true true (slot c fc .z k)) = true :=
  (sampleIn_iff _ _ _ _ _).trans
    (inLim_slots h c.gobox (fun _ => true) fc i j k (fun _ => .outer)
      (fun a => by cases a <;> rfl) (fun a => by cases a <;> rfl) (fun _ => ⟨rfl, rfl⟩))

/-! Everything as Boolean functions of the slots and of the set of Mur faces. -/
def slabB (r : Face) (sx sy sz : Slot) : Bool :=
  slotIn (slabPart r .x) (pmlInclude r .xlo) (pmlInclude r .xhi) sx &&
  slotIn (slabPart r .y) (pmlInclude r .ylo) (pmlInclude r .yhi) sy &&
  slotIn (slabPart r .z) (pmlInclude r .zlo) (pmlInclude r .zhi) sz
def gridB (m : Face → Bool) (sx sy sz : Slot) : Bool :=
  slotIn .inner (!m .xlo) (!m .xhi) sx && slotIn .inner (!m .ylo) (!m .yhi) sy &&
  slotIn .inner (!m .zlo) (!m .zhi) sz
def murInclB (m : Face → Bool) (r f : Face) : Bool := !(f.axis != r.axis && m f)
def murB (m : Face → Bool) (r : Face) (sx sy sz : Slot) : Bool :=
  m r && (slotIn (facePart r .x) (murInclB m r .xlo) (murInclB m r .xhi) sx &&
   slotIn (facePart r .y) (murInclB m r .ylo) (murInclB m r .yhi) sy &&
   slotIn (facePart r .z) (murInclB m r .zlo) (murInclB m r .zhi) sz)
def outerB (sx sy sz : Slot) : Bool :=
  slotIn .outer true true sx && slotIn .outer true true sy && slotIn .outer true true sz

def totalB (m : Face → Bool) (p : Face → Bool) (sx sy sz : Slot) : Nat :=
  (slabB .xlo sx sy sz).toNat + (slabB .xhi sx sy sz).toNat + (slabB .ylo sx sy sz).toNat +
  (slabB .yhi sx sy sz).toNat + (slabB .zlo sx sy sz).toNat + (slabB .zhi sx sy sz).toNat +
  ((p .xlo && murB m .xlo sx sy sz).toNat + (p .xhi && murB m .xhi sx sy sz).toNat +
   (p .ylo && murB m .ylo sx sy sz).toNat + (p .yhi && murB m .yhi sx sy sz).toNat +
   (p .zlo && murB m .zlo sx sy sz).toNat + (p .zhi && murB m .zhi sx sy sz).toNat) +
  (gridB m sx sy sz).toNat

theorem ite_toNat (p : Prop) [Decidable p] (b : Bool) (h : p ↔ b = true) :
    (if p then 1 else 0) = b.toNat := by
  cases b <;> simp_all

/-- The Mur faces as six Booleans. -/
def mk6 (m1 m2 m3 m4 m5 m6 : Bool) : Face → Bool
  | .xlo => m1 | .xhi => m2 | .ylo => m3 | .yhi => m4 | .zlo => m5 | .zhi => m6

theorem mk6_eta (m : Face → Bool) : m = mk6 (m .xlo) (m .xhi) (m .ylo) (m .yhi) (m .zlo) (m .zhi) := by
  funext f; cases f <;> rfl

set_option maxHeartbeats 2000000 in
/-- The finite check behind the electric partition. -/
theorem finite_E (m : Face → Bool) (fc : Fc) (hf : fc = .ex ∨ fc = .ey ∨ fc = .ez) (sx sy sz : Slot)
    (hx : nodal fc .x = false → sx ≠ .P ∧ sx ≠ .Q) (hy : nodal fc .y = false → sy ≠ .P ∧ sy ≠ .Q)
    (hz : nodal fc .z = false → sz ≠ .P ∧ sz ≠ .Q) :
    totalB m (fun f => decide (fc ∈ murComponents f)) sx sy sz =
      (outerB sx sy sz && !murEdgeB m sx sy sz).toNat := by
  rw [mk6_eta m]
  generalize m .xlo = m1; generalize m .xhi = m2; generalize m .ylo = m3
  generalize m .yhi = m4; generalize m .zlo = m5; generalize m .zhi = m6
  rcases hf with rfl | rfl | rfl
  · have hx := hx rfl
    cases sx <;> simp at hx <;> cases sy <;> cases sz <;> first | rfl | (cases m3 <;> cases m4 <;> cases m5 <;> cases m6 <;> rfl)
  · have hy := hy rfl
    cases sy <;> simp at hy <;> cases sx <;> cases sz <;> first | rfl | (cases m1 <;> cases m2 <;> cases m5 <;> cases m6 <;> rfl)
  · have hz := hz rfl
    cases sz <;> simp at hz <;> cases sx <;> cases sy <;> first | rfl | (cases m1 <;> cases m2 <;> cases m3 <;> cases m4 <;> rfl)

/-- The finite check behind the magnetic partition. -/
theorem finite_H (m : Face → Bool) (fc : Fc) (hf : fc = .hx ∨ fc = .hy ∨ fc = .hz) (sx sy sz : Slot)
    (hx : nodal fc .x = false → sx ≠ .P ∧ sx ≠ .Q) (hy : nodal fc .y = false → sy ≠ .P ∧ sy ≠ .Q)
    (hz : nodal fc .z = false → sz ≠ .P ∧ sz ≠ .Q) :
    totalB m (fun f => decide (fc = murNormal f)) sx sy sz = (outerB sx sy sz).toNat := by
  rw [mk6_eta m]
  generalize m .xlo = m1; generalize m .xhi = m2; generalize m .ylo = m3
  generalize m .yhi = m4; generalize m .zlo = m5; generalize m .zhi = m6
  rcases hf with rfl | rfl | rfl
  · have hy := hy rfl; have hz := hz rfl
    cases sy <;> simp at hy <;> cases sz <;> simp at hz <;> cases sx <;>
      first | rfl | (cases m1 <;> cases m2 <;> rfl)
  · have hx := hx rfl; have hz := hz rfl
    cases sx <;> simp at hx <;> cases sz <;> simp at hz <;> cases sy <;>
      first | rfl | (cases m3 <;> cases m4 <;> rfl)
  · have hx := hx rfl; have hy := hy rfl
    cases sy <;> simp at hy <;> cases sx <;> simp at hx <;> cases sz <;>
      first | rfl | (cases m5 <;> cases m6 <;> rfl)

open Classical in
/-- C09 for the electric field, all boundary types: one step's updates (PML slabs, Mur faces, main
grid) write each electric sample of the outer grid exactly once, except the samples on an edge
shared by two Mur faces, and write no other sample. -/
theorem electric_exactly_once {c : Cfg} (h : ValidCfg c) (fc : Fc)
    (hf : fc = .ex ∨ fc = .ey ∨ fc = .ez) (i j k : Int) :
    timesWritten (updatePmlEfield c ++ updateMurEfield c ++ updateGridEfield c) (.fld fc i j k) =
      if SampleIn c.gobox fc i j k ∧ ¬ OnMurEdge c fc i j k then 1 else 0 := by
  rw [ite_toNat _ (outerB (slot c fc .x i) (slot c fc .y j) (slot c fc .z k) &&
    !murEdgeB (fun f => decide (c.bt f = .mur)) (slot c fc .x i) (slot c fc .y j) (slot c fc .z k))
    (by rw [outer_slots h, onMurEdge_iff h]; simp [outerB]),
    ← finite_E _ fc hf _ _ _ (slot_cell c fc .x i) (slot_cell c fc .y j) (slot_cell c fc .z k)]
  rw [tw_append, tw_append, tw_gridE c i j k fc hf]
  unfold updatePmlEfield updateMurEfield
  simp only [tw_faces, tw_pmlE i j k h fc hf, tw_murE]
  have e1 : ∀ r, _ := fun r => ite_toNat (InLim (c.fplim r fc) i j k)
    (slabB r (slot c fc .x i) (slot c fc .y j) (slot c fc .z k)) (slab_slots h r fc i j k)
  have e2 := ite_toNat (InLim (c.gfilim fc) i j k)
    (gridB (fun f => decide (c.bt f = .mur)) (slot c fc .x i) (slot c fc .y j) (slot c fc .z k))
    (grid_slots h fc i j k)
  have e3 : ∀ r, _ := fun r => ite_toNat
    (c.bt r = .mur ∧ fc ∈ murComponents r ∧ InLim (c.fmlim r fc) i j k)
    (decide (fc ∈ murComponents r) && murB (fun f => decide (c.bt f = .mur)) r
      (slot c fc .x i) (slot c fc .y j) (slot c fc .z k))
    (by rw [mur_slots h]; simp only [murB, Bool.and_eq_true, decide_eq_true_eq]
        constructor
        · rintro ⟨a, b, d⟩; exact ⟨b, a, d⟩
        · rintro ⟨b, a, d⟩; exact ⟨a, b, d⟩)
  simp only [e1, e2, e3, totalB]

open Classical in
/-- C09 for the magnetic field, all boundary types: exactly once, no exception. -/
theorem magnetic_exactly_once {c : Cfg} (h : ValidCfg c) (fc : Fc)
    (hf : fc = .hx ∨ fc = .hy ∨ fc = .hz) (i j k : Int) :
    timesWritten (updatePmlHfield c ++ updateMurHfield c ++ updateGridHfield c) (.fld fc i j k) =
      if SampleIn c.gobox fc i j k then 1 else 0 := by
  rw [ite_toNat _ (outerB (slot c fc .x i) (slot c fc .y j) (slot c fc .z k))
    (by rw [outer_slots h]; simp [outerB]),
    ← finite_H (fun f => decide (c.bt f = .mur)) fc hf _ _ _ (slot_cell c fc .x i)
      (slot_cell c fc .y j) (slot_cell c fc .z k)]
  rw [tw_append, tw_append, tw_gridH c i j k fc hf]
  unfold updatePmlHfield updateMurHfield
  simp only [tw_faces, tw_pmlH i j k h fc hf, tw_murH]
  have e1 : ∀ r, _ := fun r => ite_toNat (InLim (c.fplim r fc) i j k)
    (slabB r (slot c fc .x i) (slot c fc .y j) (slot c fc .z k)) (slab_slots h r fc i j k)
  have e2 := ite_toNat (InLim (c.gfilim fc) i j k)
    (gridB (fun f => decide (c.bt f = .mur)) (slot c fc .x i) (slot c fc .y j) (slot c fc .z k))
    (grid_slots h fc i j k)
  have e3 : ∀ r, _ := fun r => ite_toNat
    (c.bt r = .mur ∧ fc = murNormal r ∧ InLim (c.fmlim r fc) i j k)
    (decide (fc = murNormal r) && murB (fun f => decide (c.bt f = .mur)) r
      (slot c fc .x i) (slot c fc .y j) (slot c fc .z k))
    (by rw [mur_slots h]; simp only [murB, Bool.and_eq_true, decide_eq_true_eq]
        constructor
        · rintro ⟨a, b, d⟩; exact ⟨b, a, d⟩
        · rintro ⟨b, a, d⟩; exact ⟨a, b, d⟩)
  simp only [e1, e2, e3, totalB]

/-- Electric programs write no magnetic sample. -/
theorem electric_only (c : Cfg) (fc : Fc) (hf : fc = .hx ∨ fc = .hy ∨ fc = .hz) (i j k : Int) :
    timesWritten (updatePmlEfield c ++ updateMurEfield c ++ updateGridEfield c) (.fld fc i j k) = 0 := by
  have hg : timesWritten (updateGridEfield c) (.fld fc i j k) = 0 := by
    unfold updateGridEfield
    rw [tw_append, tw_append]
    rcases hf with rfl | rfl | rfl <;>
      rw [tw_loop_zero (by intros; tw_simp), tw_loop_zero (by intros; tw_simp), tw_loop_zero (by intros; tw_simp)]
  have hp : ∀ r, timesWritten (pmlRegionE c r) (.fld fc i j k) = 0 := by
    intro r
    unfold pmlRegionE
    split
    · rw [tw_append, tw_append]
      rcases hf with rfl | rfl | rfl <;>
        rw [tw_loop_zero (by intros; tw_simp), tw_loop_zero (by intros; tw_simp), tw_loop_zero (by intros; tw_simp)]
    · rfl
  rw [tw_append, tw_append, hg]
  unfold updatePmlEfield updateMurEfield
  simp only [tw_faces, hp, tw_murE]
  rcases hf with rfl | rfl | rfl <;> simp [murComponents]

/-- Magnetic programs write no electric sample. -/
theorem magnetic_only (c : Cfg) (fc : Fc) (hf : fc = .ex ∨ fc = .ey ∨ fc = .ez) (i j k : Int) :
    timesWritten (updatePmlHfield c ++ updateMurHfield c ++ updateGridHfield c) (.fld fc i j k) = 0 := by
  have hg : timesWritten (updateGridHfield c) (.fld fc i j k) = 0 := by
    unfold updateGridHfield
    rw [tw_append, tw_append]
    rcases hf with rfl | rfl | rfl <;>
      rw [tw_loop_zero (by intros; tw_simp), tw_loop_zero (by intros; tw_simp), tw_loop_zero (by intros; tw_simp)]
  have hp : ∀ r, timesWritten (pmlRegionH c r) (.fld fc i j k) = 0 := by
    intro r
    unfold pmlRegionH
    split
    · rw [tw_append, tw_append]
      rcases hf with rfl | rfl | rfl <;>
        rw [tw_loop_zero (by intros; tw_simp), tw_loop_zero (by intros; tw_simp), tw_loop_zero (by intros; tw_simp)]
    · rfl
  rw [tw_append, tw_append, hg]
  unfold updatePmlHfield updateMurHfield
  simp only [tw_faces, hp, tw_murH]
  rcases hf with rfl | rfl | rfl <;> simp [murNormal]

/-- All field updates of one time step, in the order of the main loop. src/simulation.c:160-200 -/
def stepUpdates (c : Cfg) : Prog :=
  (updatePmlEfield c ++ updateMurEfield c ++ updateGridEfield c) ++
  (updatePmlHfield c ++ updateMurHfield c ++ updateGridHfield c)

open Classical in
/-- C09 for every boundary type: a time step advances each sample of the outer grid exactly once,
apart from electric samples on an edge between two Mur faces, which it never advances; it advances
nothing outside the outer grid. -/
theorem advanced_exactly_once {c : Cfg} (h : ValidCfg c) (fc : Fc) (i j k : Int) :
    timesWritten (stepUpdates c) (.fld fc i j k) =
      if SampleIn c.gobox fc i j k ∧ ¬ OnMurEdge c fc i j k then 1 else 0 := by
  have hH : fc = .hx ∨ fc = .hy ∨ fc = .hz → ¬ OnMurEdge c fc i j k := by
    intro hf
    rw [onMurEdge_iff h]
    have px := slot_cell c fc .x i; have py := slot_cell c fc .y j; have pz := slot_cell c fc .z k
    rcases hf with rfl | rfl | rfl <;> simp [murEdgeB]
    · have := py rfl; have := pz rfl; simp_all
    · have := px rfl; have := pz rfl; simp_all
    · have := px rfl; have := py rfl; simp_all
  unfold stepUpdates
  rw [tw_append]
  have hc : (fc = .ex ∨ fc = .ey ∨ fc = .ez) ∨ (fc = .hx ∨ fc = .hy ∨ fc = .hz) := by
    cases fc <;> simp
  rcases hc with hf | hf
  · rw [electric_exactly_once h fc hf, magnetic_only c fc hf]; rfl
  · rw [magnetic_exactly_once h fc hf, electric_only c fc hf, Nat.zero_add]
    simp [hH hf]

open Classical in
/-- C09 as stated (no Mur face): the main grid and the PML slabs partition the outer grid. -/
theorem partition {c : Cfg} (h : ValidCfg c) (hm : ∀ f, c.bt f ≠ .mur) (fc : Fc) (i j k : Int) :
    timesWritten (updatePmlEfield c ++ updateGridEfield c ++
      (updatePmlHfield c ++ updateGridHfield c)) (.fld fc i j k) =
      if SampleIn c.gobox fc i j k then 1 else 0 := by
  have h1 : updateMurEfield c = [] := by
    unfold updateMurEfield; simp [hm]
  have h2 : updateMurHfield c = [] := by
    unfold updateMurHfield; simp [hm]
  have h3 := advanced_exactly_once h fc i j k
  unfold stepUpdates at h3
  rw [h1, h2, List.append_nil, List.append_nil] at h3
  rw [h3]
  have h4 : ¬ OnMurEdge c fc i j k := by
    rintro ⟨_, f, _, _, hf, _⟩; exact hm f hf
  simp [h4]

/-- The exception is real: in a box with Mur on all six faces there are electric samples of the
outer grid that no update ever advances. -/
theorem mur_edge_never_advanced :
    ∃ c : Cfg, ValidCfg c ∧ ∃ fc i j k, SampleIn c.gobox fc i j k ∧
      timesWritten (stepUpdates c) (.fld fc i j k) = 0 := by
  refine ⟨⟨fun _ => 4, fun _ => .mur, fun _ => 0⟩, ⟨by simp, by simp, by simp, by simp⟩,
    .ez, 1, 1, 2, ?_, ?_⟩
  · simp [SampleIn, pos2, Cfg.gobox, Cfg.goboxLo, Cfg.goboxHi, Cfg.giboxHi, Cfg.giboxLo, Cfg.numLines,
      NUM_GHOST_CELLS]
  · rw [advanced_exactly_once ⟨by simp, by simp, by simp, by simp⟩, if_neg]
    rintro ⟨_, hn⟩
    apply hn
    refine ⟨?_, .xlo, .ylo, by decide, rfl, rfl, ?_, ?_⟩ <;>
    simp [SampleIn, pos2, getFaceOfBoundingBox, mkBox, Cfg.gibox, Cfg.goboxLo, Cfg.giboxHi, Cfg.giboxLo,
      Cfg.numLines, NUM_GHOST_CELLS]

/-- Non-vacuity: a PML corner sample is advanced once. -/
example : timesWritten (stepUpdates C07.sampleCfg) (.fld .ez 2 1 3) = 1 := by
  rw [advanced_exactly_once C07.sampleCfg_valid, if_pos]
  refine ⟨by unfold SampleIn; decide, ?_⟩
  rintro ⟨hin, -⟩
  revert hin
  unfold SampleIn
  decide

end C09
end Vulture
