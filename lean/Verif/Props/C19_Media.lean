import Verif.Model.Media
import Verif.Spec.Media
import Verif.Lemmas.Limits
/-
C19: which medium a sample ends up with.
-/
set_option linter.unusedSimpArgs false
namespace Vulture.C19
open Spec
variable {M : Type*}

instance (b : BBox) (fc : Fc) (i j k : Int) : Decidable (SampleIn b fc i j k) := by
  unfold SampleIn; infer_instance
instance (b : BBox) (f : Face) (fc : Fc) (i j k : Int) : Decidable (OnPlane b f fc i j k) := by
  unfold OnPlane; infer_instance
instance instContains (b : BBox) (mask : Face → Bool) (fc : Fc) (i j k : Int) :
    Decidable (Contains b mask fc i j k) :=
  decidable_of_iff (SampleIn b fc i j k ∧ ∀ f ∈ Face.all, OnPlane b f fc i j k → mask f = true)
    ⟨fun h => ⟨h.1, fun f => h.2 f (by cases f <;> decide)⟩, fun h => ⟨h.1, fun f _ => h.2 f⟩⟩
instance (lim : Face → Int) (i j k : Int) : Decidable (InLim lim i j k) := by
  unfold InLim; infer_instance

theorem axis_nodal (lo hi i : Int) (ml mh : Bool) :
    ((if ml then lo else lo + 1) ≤ i ∧ i ≤ (if mh then hi else hi - 1)) ↔
      (2 * lo ≤ 2 * i ∧ 2 * i ≤ 2 * hi) ∧ (2 * i = 2 * lo → ml = true) ∧ (2 * i = 2 * hi → mh = true) := by
  cases ml <;> cases mh <;> simp <;> omega

theorem axis_half (lo hi i : Int) (ml mh : Bool) :
    (lo ≤ i ∧ i ≤ hi - 1) ↔
      (2 * lo ≤ 2 * i + 1 ∧ 2 * i + 1 ≤ 2 * hi) ∧ (2 * i + 1 = 2 * lo → ml = true) ∧
      (2 * i + 1 = 2 * hi → mh = true) := by
  constructor
  · intro h; exact ⟨by omega, fun e => by omega, fun e => by omega⟩
  · rintro ⟨h, _⟩; omega

/-- The loop limits of a masked box are exactly the samples it contains. -/
theorem inLim_iff_contains (b : BBox) (mask : Face → Bool) (fc : Fc) (i j k : Int) :
    InLim (setFieldLimits b mask fc) i j k ↔ Contains b mask fc i j k := by
  have key : ∀ (P : Face → Prop), (∀ f, P f) ↔
      (P .xlo ∧ P .xhi ∧ P .ylo ∧ P .yhi ∧ P .zlo ∧ P .zhi) := by
    intro P
    constructor
    · intro h; exact ⟨h _, h _, h _, h _, h _, h _⟩
    · rintro ⟨h1, h2, h3, h4, h5, h6⟩ f; cases f <;> assumption
  have nx := axis_nodal (b .xlo) (b .xhi) i (mask .xlo) (mask .xhi)
  have ny := axis_nodal (b .ylo) (b .yhi) j (mask .ylo) (mask .yhi)
  have nz := axis_nodal (b .zlo) (b .zhi) k (mask .zlo) (mask .zhi)
  have hx := axis_half (b .xlo) (b .xhi) i (mask .xlo) (mask .xhi)
  have hy := axis_half (b .ylo) (b .yhi) j (mask .ylo) (mask .yhi)
  have hz := axis_half (b .zlo) (b .zhi) k (mask .zlo) (mask .zhi)
  unfold Contains
  rw [key]
  cases fc <;>
    simp only [InLim, SampleIn, OnPlane, samplePos, pos2, setFieldLimits, Face.isLo, Face.axis,
      fieldIsInBoundary, if_true, Bool.false_eq_true, if_false, reduceCtorEq, beq_iff_eq, Bool.not_eq_true',
      beq_eq_false_iff_ne, ne_eq, not_false_eq_true, Bool.or_false, Bool.or_true, Bool.or_self,
      Bool.not_true, Bool.not_false, Bool.or_eq_true, Bool.or_eq_false_iff, and_true, true_and,
      or_self, or_true, true_or, not_true_eq_false, or_false, and_false, false_and, and_self] <;>
    (first | rw [hx] | rw [nx]) <;> (first | rw [hy] | rw [ny]) <;> (first | rw [hz] | rw [nz]) <;>
    exact ⟨fun ⟨⟨a1, a2⟩, ⟨a3, a4⟩, a5, a6⟩ => ⟨⟨a1, a3, a5⟩, a2.1, a2.2, a4.1, a4.2, a6.1, a6.2⟩,
      fun ⟨⟨a1, a3, a5⟩, b1, b2, b3, b4, b5, b6⟩ => ⟨⟨a1, b1, b2⟩, ⟨a3, b3, b4⟩, a5, b5, b6⟩⟩

theorem foldl_put (l : List (Int × Int × Int)) (fc : Fc) (m : M) (A : MArr M) (fc' : Fc) (i j k : Int) :
    l.foldl (fun A t => A.put fc t m) A fc' i j k =
      if fc' = fc ∧ (i, j, k) ∈ l then m else A fc' i j k := by
  induction l generalizing A with
  | nil => simp
  | cons t l ih =>
    rw [List.foldl_cons, ih]
    unfold MArr.put
    by_cases h1 : fc' = fc <;> by_cases h2 : (i, j, k) ∈ l <;> by_cases h3 : (i, j, k) = t <;>
      simp [h1, h2, h3]

theorem fillBox_apply (lim : Face → Int) (fc : Fc) (m : M) (A : MArr M) (fc' : Fc) (i j k : Int) :
    fillBox lim fc m A fc' i j k = if fc' = fc ∧ InLim lim i j k then m else A fc' i j k := by
  unfold fillBox
  rw [foldl_put]
  exact if_congr (and_congr_right fun _ => mem_boxLoop) rfl rfl

/-- No sample lies in a box that is a single node. -/
theorem point_contains_nothing (b : BBox) (mask : Face → Bool) (h : IsPoint b) (fc : Fc) (i j k : Int) :
    ¬ Contains b mask fc i j k := by
  have hx := h .x; have hy := h .y; have hz := h .z
  simp only [Flat, Axis.lo, Axis.hi] at hx hy hz
  rintro ⟨⟨h1, h2, h3⟩, _⟩
  cases fc <;> simp only [pos2] at h1 h2 h3 <;> omega

theorem bboxType_point (b : BBox) (h : bboxType b = some .point) : IsPoint b := by
  unfold bboxType degenerateMask b2i at h
  intro a
  by_cases h1 : b .xlo = b .xhi <;> by_cases h2 : b .ylo = b .yhi <;> by_cases h3 : b .zlo = b .zhi <;>
    simp [h1, h2, h3, bboxTypeTable] at h
  cases a <;> simp only [Flat, Axis.lo, Axis.hi] <;> assumption

/-- **C19**, one assignment: exactly the samples the box contains (interior, and the faces selected by
the mask) get the medium, all others keep theirs. -/
theorem set_medium (b : BBox) (m : M) (mask : Face → Bool) (A : MArr M) (fc : Fc) (i j k : Int) :
    setMediumOnGrid b m mask A fc i j k = if Contains b mask fc i j k then m else A fc i j k := by
  have hne : (bboxType b) ≠ none := by
    unfold bboxType degenerateMask b2i
    by_cases h1 : b .xlo = b .xhi <;> by_cases h2 : b .ylo = b .yhi <;> by_cases h3 : b .zlo = b .zhi <;>
      simp [h1, h2, h3, bboxTypeTable]
  unfold setMediumOnGrid
  cases h : bboxType b with
  | none => exact absurd h hne
  | some t =>
    cases t with
    | point =>
      simp only
      rw [if_neg (point_contains_nothing b mask (bboxType_point b h) fc i j k)]
    | _ =>
      simp only [Fc.all, List.foldl_cons, List.foldl_nil, fillBox_apply, inLim_iff_contains]
      cases fc <;> simp

/-- What a sequence of assignments leaves, spelled out: the medium of the last one that contains the
sample, or what was there before if none does. -/
def Spec.LastWins (l : List (Fill M)) (old : M) (fc : Fc) (i j k : Int) (result : M) : Prop :=
  (∃ pre f post, l = pre ++ f :: post ∧ Contains f.box f.mask fc i j k ∧ f.med = result ∧
    ∀ g ∈ post, ¬ Contains g.box g.mask fc i j k) ∨
  ((∀ g ∈ l, ¬ Contains g.box g.mask fc i j k) ∧ result = old)

/-- **C19**: after any sequence of assignments every sample has the medium of the last one that
contains it. -/
theorem last_wins (l : List (Fill M)) (A : MArr M) (fc : Fc) (i j k : Int) :
    Spec.LastWins l (A fc i j k) fc i j k (applyFills l A fc i j k) := by
  induction l generalizing A with
  | nil => exact Or.inr ⟨by simp, rfl⟩
  | cons f l ih =>
    have e : applyFills (f :: l) A = applyFills l (f.apply A) := rfl
    rw [e]
    rcases ih (f.apply A) with ⟨pre, g, post, h1, h2, h3, h4⟩ | ⟨h1, h2⟩
    · exact Or.inl ⟨f :: pre, g, post, by rw [h1]; rfl, h2, h3, h4⟩
    · rw [h2]
      unfold Fill.apply
      rw [set_medium]
      by_cases hc : Contains f.box f.mask fc i j k
      · rw [if_pos hc]; exact Or.inl ⟨[], f, l, rfl, hc, rfl, h1⟩
      · rw [if_neg hc]
        exact Or.inr ⟨by intro g hg; rcases List.mem_cons.1 hg with rfl | hg
                         · exact hc
                         · exact h1 g hg, rfl⟩

/-- The result is determined by the statement. -/
theorem lastWins_unique (l : List (Fill M)) (old : M) (fc : Fc) (i j k : Int) (r r' : M)
    (h : Spec.LastWins l old fc i j k r) (h' : Spec.LastWins l old fc i j k r') : r = r' := by
  induction l with
  | nil =>
    rcases h with ⟨pre, f, post, h1, _⟩ | ⟨_, h⟩
    · simp at h1
    · rcases h' with ⟨pre, f, post, h1, _⟩ | ⟨_, h'⟩
      · simp at h1
      · rw [h, h']
  | cons a l ih =>
    have key : ∀ r, Spec.LastWins (a :: l) old fc i j k r → Spec.LastWins l old fc i j k r ∨
        ((∀ g ∈ l, ¬ Contains g.box g.mask fc i j k) ∧ Contains a.box a.mask fc i j k ∧ r = a.med) := by
      rintro r (⟨pre, f, post, h1, h2, h3, h4⟩ | ⟨h1, h2⟩)
      · cases pre with
        | nil =>
          simp only [List.nil_append, List.cons.injEq] at h1
          obtain ⟨rfl, rfl⟩ := h1
          exact Or.inr ⟨h4, h2, h3.symm⟩
        | cons b pre =>
          simp only [List.cons_append, List.cons.injEq] at h1
          exact Or.inl (Or.inl ⟨pre, f, post, h1.2, h2, h3, h4⟩)
      · exact Or.inl (Or.inr ⟨fun g hg => h1 g (by simp [hg]), h2⟩)
    rcases key r h with h1 | ⟨h1, h2, h3⟩ <;> rcases key r' h' with g1 | ⟨g1, g2, g3⟩
    · exact ih h1 g1
    · subst g3
      rcases h1 with ⟨pre, f, post, e, q, _⟩ | ⟨_, rfl⟩
      · exact absurd q (g1 f (by simp [e]))
      · rcases h with ⟨pre, f, post, e, q, e2, e3⟩ | ⟨q, _⟩
        · cases pre with
          | nil => simp only [List.nil_append, List.cons.injEq] at e; rw [← e2, ← e.1]
          | cons b pre =>
            simp only [List.cons_append, List.cons.injEq] at e
            exact absurd q (g1 f (by simp [e.2]))
        · exact absurd g2 (q a (by simp))
    · subst h3
      rcases g1 with ⟨pre, f, post, e, q, _⟩ | ⟨_, rfl⟩
      · exact absurd q (h1 f (by simp [e]))
      · rcases h' with ⟨pre, f, post, e, q, e2, e3⟩ | ⟨q, _⟩
        · cases pre with
          | nil => simp only [List.nil_append, List.cons.injEq] at e; rw [← e2, ← e.1]
          | cons b pre =>
            simp only [List.cons_append, List.cons.injEq] at e
            exact absurd q (h1 f (by simp [e.2]))
        · exact absurd h2 (q a (by simp))
    · rw [h3, g3]


theorem applyFills_append (l l' : List (Fill M)) (A : MArr M) :
    applyFills (l ++ l') A = applyFills l' (applyFills l A) := by
  simp [applyFills]

/-! ### Continuation into the absorbing layers -/

theorem foldl_copy (fc : Fc) (q : Int × Int × Int → Int × Int × Int) (l : List (Int × Int × Int))
    (hq : ∀ t ∈ l, q t ∉ l) (A : MArr M) (fc' : Fc) (i j k : Int) :
    l.foldl (fun A t => A.put fc t (A fc (q t).1 (q t).2.1 (q t).2.2)) A fc' i j k =
      if fc' = fc ∧ (i, j, k) ∈ l then A fc (q (i, j, k)).1 (q (i, j, k)).2.1 (q (i, j, k)).2.2
      else A fc' i j k := by
  suffices H : ∀ l' : List (Int × Int × Int), (∀ t ∈ l', t ∈ l) → ∀ B : MArr M,
      (∀ fc' i j k, (i, j, k) ∉ l → B fc' i j k = A fc' i j k) →
      l'.foldl (fun A t => A.put fc t (A fc (q t).1 (q t).2.1 (q t).2.2)) B fc' i j k =
      if fc' = fc ∧ (i, j, k) ∈ l' then A fc (q (i, j, k)).1 (q (i, j, k)).2.1 (q (i, j, k)).2.2
      else B fc' i j k from H l (fun _ h => h) A (fun _ _ _ _ _ => rfl)
  intro l'
  induction l' with
  | nil => intro _ B _; simp
  | cons t l' ih =>
    intro hsub B hB
    have ht : t ∈ l := hsub t (by simp)
    rw [List.foldl_cons, ih (fun t ht => hsub t (by simp [ht]))]
    · by_cases h2 : fc' = fc ∧ (i, j, k) ∈ l'
      · rw [if_pos h2, if_pos ⟨h2.1, by simp [h2.2]⟩]
      · rw [if_neg h2]
        unfold MArr.put
        by_cases h3 : fc' = fc ∧ (i, j, k) = t
        · rw [if_pos h3, if_pos ⟨h3.1, by simp [h3.2]⟩, ← h3.2]
          exact hB _ _ _ _ (by rw [h3.2]; exact hq t ht)
        · rw [if_neg h3, if_neg]
          rintro ⟨e, hm⟩
          rcases List.mem_cons.1 hm with hm | hm
          · exact h3 ⟨e, hm⟩
          · exact h2 ⟨e, hm⟩
    · intro fc' i j k hn
      unfold MArr.put
      rw [if_neg, hB _ _ _ _ hn]
      rintro ⟨_, e⟩; exact hn (e ▸ ht)

/-- Samples a PML region receives copies for. -/
def copyLim (c : Cfg) (r : Face) (fc : Fc) : Face → Int :=
  setFieldLimits (c.pbox r) (pmlCopyInclude r) fc

theorem pmlCopyField_apply {c : Cfg} (h : ValidCfg c) (r : Face) (fc : Fc) (A : MArr M)
    (fc' : Fc) (i j k : Int) :
    pmlCopyField c r fc A fc' i j k =
      if fc' = fc ∧ InLim (copyLim c r fc) i j k then
        A fc (setAx r.axis (pmlCopyPlane c r fc) (i, j, k)).1
          (setAx r.axis (pmlCopyPlane c r fc) (i, j, k)).2.1
          (setAx r.axis (pmlCopyPlane c r fc) (i, j, k)).2.2
      else A fc' i j k := by
  unfold pmlCopyField
  rw [foldl_copy fc (fun t => setAx r.axis (pmlCopyPlane c r fc) t)]
  · exact if_congr (and_congr_right fun _ => mem_boxLoop) rfl rfl
  · rintro ⟨i, j, k⟩ hm hq
    have fx := cfg_facts h .x; have fy := cfg_facts h .y; have fz := cfg_facts h .z
    simp only [Axis.lo, Axis.hi] at fx fy fz
    cases r <;> simp only [setAx, Face.axis] at hq <;>
      · have := mem_boxLoop.1 hq
        cases fc <;> simp [setFieldLimits, Face.isLo, fieldIsInBoundary, pmlCopyInclude, Face.axis,
          Cfg.pbox, mkBox, pmlCopyPlane] at this <;> omega

/-- Where the copies of one axis come from. -/
def pull (c : Cfg) (fc : Fc) (a : Axis) (t : Int × Int × Int) : Int × Int × Int :=
  if InLim (copyLim c a.lo fc) t.1 t.2.1 t.2.2 then setAx a (pmlCopyPlane c a.lo fc) t
  else if InLim (copyLim c a.hi fc) t.1 t.2.1 t.2.2 then setAx a (pmlCopyPlane c a.hi fc) t
  else t

/-- Both regions of one axis, all components. -/
def copyAxis (c : Cfg) (a : Axis) (A : MArr M) : MArr M :=
  [a.lo, a.hi].foldl (fun A r => Fc.all.foldl (fun A fc => pmlCopyField c r fc A) A) A

theorem copyRegion_apply {c : Cfg} (h : ValidCfg c) (r : Face) (A : MArr M) (fc : Fc) (i j k : Int) :
    Fc.all.foldl (fun A fc => pmlCopyField c r fc A) A fc i j k =
      if InLim (copyLim c r fc) i j k then
        A fc (setAx r.axis (pmlCopyPlane c r fc) (i, j, k)).1
          (setAx r.axis (pmlCopyPlane c r fc) (i, j, k)).2.1
          (setAx r.axis (pmlCopyPlane c r fc) (i, j, k)).2.2
      else A fc i j k := by
  simp only [Fc.all, List.foldl_cons, List.foldl_nil, pmlCopyField_apply h]
  cases fc <;> simp

theorem copyAxis_apply {c : Cfg} (h : ValidCfg c) (a : Axis) (A : MArr M) (fc : Fc)
    (t : Int × Int × Int) :
    copyAxis c a A fc t.1 t.2.1 t.2.2 =
      A fc (pull c fc a t).1 (pull c fc a t).2.1 (pull c fc a t).2.2 := by
  obtain ⟨i, j, k⟩ := t
  have fx := cfg_facts h .x; have fy := cfg_facts h .y; have fz := cfg_facts h .z
  simp only [Axis.lo, Axis.hi] at fx fy fz
  unfold copyAxis pull
  simp only [List.foldl_cons, List.foldl_nil]
  rw [copyRegion_apply h]
  simp only [copyRegion_apply h]
  have ha : a.hi.axis = a := by cases a <;> rfl
  have ha' : a.lo.axis = a := by cases a <;> rfl
  rw [ha, ha']
  by_cases h2 : InLim (copyLim c a.hi fc) i j k
  · have h1 : ¬ InLim (copyLim c a.lo fc) i j k := by
      intro h1
      obtain ⟨p1, p2, p3⟩ := h1
      obtain ⟨q1, q2, q3⟩ := h2
      cases a <;> cases fc <;> simp [copyLim, setFieldLimits, Face.isLo, fieldIsInBoundary,
        pmlCopyInclude, Face.axis, Cfg.pbox, mkBox, Axis.lo, Axis.hi] at p1 p2 p3 q1 q2 q3 <;> omega
    have h3 : ¬ InLim (copyLim c a.lo fc) (setAx a (pmlCopyPlane c a.hi fc) (i, j, k)).1
        (setAx a (pmlCopyPlane c a.hi fc) (i, j, k)).2.1
        (setAx a (pmlCopyPlane c a.hi fc) (i, j, k)).2.2 := by
      rintro ⟨p1, p2, p3⟩
      cases a <;> cases fc <;> simp [copyLim, setFieldLimits, Face.isLo, fieldIsInBoundary,
        pmlCopyInclude, Face.axis, Cfg.pbox, mkBox, Axis.lo, Axis.hi, setAx, pmlCopyPlane]
        at p1 p2 p3 <;> omega
    rw [if_pos h2, if_neg h3, if_neg h1, if_pos h2]
  · rw [if_neg h2]
    by_cases h1 : InLim (copyLim c a.lo fc) i j k
    · rw [if_pos h1, if_pos h1]
    · rw [if_neg h1, if_neg h1, if_neg h2]

/-- The material copy, as one formula. -/
theorem pmlCopy_apply {c : Cfg} (h : ValidCfg c) (A : MArr M) (fc : Fc) (t : Int × Int × Int) :
    pmlCopy c A fc t.1 t.2.1 t.2.2 =
      (let q := pull c fc .z (pull c fc .y (pull c fc .x t)); A fc q.1 q.2.1 q.2.2) := by
  have e : pmlCopy c A = copyAxis c .x (copyAxis c .y (copyAxis c .z A)) := rfl
  rw [e, copyAxis_apply h, copyAxis_apply h, copyAxis_apply h]

/-- The copy leaves the user region alone. -/
theorem pull_inner {c : Cfg} (h : ValidCfg c) (fc : Fc) (a : Axis) (i j k : Int)
    (hi : SampleIn c.gibox fc i j k) : pull c fc a (i, j, k) = (i, j, k) := by
  have fx := cfg_facts h .x; have fy := cfg_facts h .y; have fz := cfg_facts h .z
  simp only [Axis.lo, Axis.hi] at fx fy fz
  unfold pull
  rw [if_neg, if_neg]
  · rintro ⟨p1, p2, p3⟩
    cases a <;> cases fc <;> simp [copyLim, setFieldLimits, Face.isLo, fieldIsInBoundary,
      pmlCopyInclude, Face.axis, Cfg.pbox, mkBox, Axis.lo, Axis.hi, SampleIn, pos2] at p1 p2 p3 hi <;> omega
  · rintro ⟨p1, p2, p3⟩
    cases a <;> cases fc <;> simp [copyLim, setFieldLimits, Face.isLo, fieldIsInBoundary,
      pmlCopyInclude, Face.axis, Cfg.pbox, mkBox, Axis.lo, Axis.hi, SampleIn, pos2] at p1 p2 p3 hi <;> omega

theorem lastWins_append (l l' : List (Fill M)) (o r r' : M) (fc : Fc) (i j k : Int)
    (h : Spec.LastWins l o fc i j k r) (h' : Spec.LastWins l' r fc i j k r') :
    Spec.LastWins (l ++ l') o fc i j k r' := by
  rcases h' with ⟨pre, f, post, e, h1, h2, h3⟩ | ⟨h1, rfl⟩
  · exact Or.inl ⟨l ++ pre, f, post, by rw [e]; simp, h1, h2, h3⟩
  · rcases h with ⟨pre, f, post, e, g1, g2, g3⟩ | ⟨g1, g2⟩
    · refine Or.inl ⟨pre, f, post ++ l', by rw [e]; simp, g1, g2, ?_⟩
      intro g hg
      rcases List.mem_append.1 hg with hg | hg
      · exact g3 g hg
      · exact h1 g hg
    · refine Or.inr ⟨?_, g2⟩
      intro g hg
      rcases List.mem_append.1 hg with hg | hg
      · exact g1 g hg
      · exact h1 g hg

/-- **C19**, whole set-up: a sample of the user region (faces included) has, when the run starts, the
medium of the last item containing it in the order: background, MB blocks, TW lines, TB surfaces,
outer PEC walls, resistive sources. -/
theorem setup_media_partial {c : Cfg} (h : ValidCfg c) (S : MedSetup M) (junk : MArr M) (fc : Fc) (i j k : Int)
    (hi : SampleIn c.gibox fc i j k) :
    Spec.LastWins (initMediaFill c S :: (blockFills c S ++ lineFills c S ++ surfaceFills c S ++
      externalFills c S) ++ resistFills c S) (junk fc i j k) fc i j k
      (mediaArrays c S junk fc i j k) := by
  unfold mediaArrays
  refine lastWins_append _ _ _ _ _ fc i j k (last_wins _ junk fc i j k) ?_
  have e : pmlCopy c (applyFills (initMediaFill c S :: (blockFills c S ++ lineFills c S ++
      surfaceFills c S ++ externalFills c S)) junk) fc i j k =
      applyFills (initMediaFill c S :: (blockFills c S ++ lineFills c S ++
      surfaceFills c S ++ externalFills c S)) junk fc i j k := by
    have := pmlCopy_apply h (applyFills (initMediaFill c S :: (blockFills c S ++ lineFills c S ++
      surfaceFills c S ++ externalFills c S)) junk) fc (i, j, k)
    simp only [pull_inner h fc _ i j k hi] at this
    exact this
  rw [← e]
  exact last_wins _ _ _ _ _ _

/-- Every array element that an update can read has been set: the background fill covers the whole
allocation, ghosts included, so nothing of the uninitialised memory survives. -/
theorem background_covers {c : Cfg} (h : ValidCfg c) (S : MedSetup M) (fc : Fc) (i j k : Int)
    (ha : InGrid c i j k) : Contains (initMediaFill c S).box (initMediaFill c S).mask fc i j k := by
  have fx := cfg_facts h .x; have fy := cfg_facts h .y; have fz := cfg_facts h .z
  simp only [Axis.lo, Axis.hi] at fx fy fz
  rw [← inLim_iff_contains]
  obtain ⟨h1, h2, h3⟩ := ha
  cases fc <;> simp [initMediaFill, InLim, setFieldLimits, Face.isLo, fieldIsInBoundary, Cfg.ggbox] <;>
    omega

/-- The media set-up writes allocated elements only. -/
theorem background_safe {c : Cfg} (h : ValidCfg c) (S : MedSetup M) (fc : Fc) (i j k : Int)
    (hc : Contains (initMediaFill c S).box (initMediaFill c S).mask fc i j k) : InGrid c i j k := by
  have fx := cfg_facts h .x; have fy := cfg_facts h .y; have fz := cfg_facts h .z
  simp only [Axis.lo, Axis.hi] at fx fy fz
  rw [← inLim_iff_contains] at hc
  obtain ⟨h1, h2, h3⟩ := hc
  cases fc <;> simp [initMediaFill, setFieldLimits, Face.isLo, fieldIsInBoundary, Cfg.ggbox] at h1 h2 h3 <;>
    exact ⟨by omega, by omega, by omega⟩

/-- A user box writes allocated elements only. -/
theorem user_fill_safe {c : Cfg} (h : ValidCfg c) (b : BBox) (hb : Within b c.mbox) (mask : Face → Bool)
    (fc : Fc) (i j k : Int) (hc : Contains (offsetBoundingBox b c.gibox) mask fc i j k) :
    InGrid c i j k := by
  rw [← inLim_iff_contains] at hc
  have hw : Within (offsetBoundingBox b c.gibox) c.gobox := by
    intro a
    have h1 := C07.user_box_lands_inside c b hb a
    have h2 := cfg_facts h a
    omega
  have := lim_facts h _ hw _ _ hc
  exact ⟨by omega, by omega, by omega⟩

/-! ### Non-vacuity, and an exception -/

/-- Two overlapping blocks: the shared edge takes the medium of the second. -/
example : mediaArrays (M := Nat) ⟨fun _ => 2, fun _ => .pmc, fun _ => 0⟩
    { free := 0, pec := 1, blocks := [(mkBox 0 2 0 2 0 2, fun _ => true, 5), (mkBox 1 2 1 2 1 2, fun f => f != .ylo, 6)],
      lines := [], surfaces := [], resist := [] } (fun _ _ _ _ => 99) .ex 2 3 3 = 6 ∧
    mediaArrays (M := Nat) ⟨fun _ => 2, fun _ => .pmc, fun _ => 0⟩
    { free := 0, pec := 1, blocks := [(mkBox 0 2 0 2 0 2, fun _ => true, 5), (mkBox 1 2 1 2 1 2, fun f => f != .ylo, 6)],
      lines := [], surfaces := [], resist := [] } (fun _ _ _ _ => 99) .ex 2 2 3 = 5 := by decide +kernel

/-- **C19**, Debye part: the polarisation currents of the run are those of the block cards with a Debye medium, one each and in
order, and each acts on exactly the samples its card's box and mask contain. -/
theorem debye_where_the_card_says (c : Cfg) (S : MedSetup M) (poles : M → Option Nat) :
    List.Forall₂ (fun b d => poles b.2.2 = some d.numPoles ∧ ∀ fc i j k,
        InLim (d.flim fc) i j k ↔ Contains (offsetBoundingBox b.1 c.gibox) b.2.1 fc i j k)
      (S.blocks.filter fun b => (poles b.2.2).isSome) (debyeBlocks c S poles) := by
  unfold debyeBlocks
  induction S.blocks with
  | nil => simp
  | cons b l ih =>
    cases hp : poles b.2.2 with
    | none => simpa [List.filterMap_cons, List.filter_cons, hp] using ih
    | some n =>
      simp only [List.filterMap_cons, List.filter_cons, hp, Option.isSome_some, if_true, Option.map_some]
      exact .cons ⟨hp, fun fc i j k => inLim_iff_contains _ _ _ _ _ _⟩ ih

/-- Coefficients of a Debye medium (one pole) for the exception below. -/
def debyeCoef : Coef ℚ := mediumCoef 1 1 1 2 ⟨.debye, 2, 0, 1, 1⟩
def freeCoef : Coef ℚ := mediumCoef 1 1 1 0 ⟨.simple, 1, 0, 1, 0⟩
/-- A one-cell PMC box filled first with a Debye medium (if `b`), then entirely with free space. -/
def covered (b : Bool) : MedSetup (Coef ℚ) where
  free := freeCoef
  pec := mediumCoef 1 1 1 1 ⟨.pec, 1, 0, 1, 0⟩
  blocks := (if b then [(mkBox 0 1 0 1 0 1, fun _ => true, debyeCoef)] else []) ++
    [(mkBox 0 1 0 1 0 1, fun _ => true, freeCoef)]
  lines := []
  surfaces := []
  resist := []
def coveredSim (b : Bool) : Sim :=
  { cfg := ⟨fun _ => 1, fun _ => .pmc, fun _ => 0⟩
    debye := debyeBlocks ⟨fun _ => 1, fun _ => .pmc, fun _ => 0⟩ (covered b)
      (fun m => if m = debyeCoef then some 1 else none)
    sibc := [], pws := []
    srcs := [⟨.ecurr, .ex, mkBox 1 2 1 1 1 1⟩] }

/-- **C19 fails for the dispersive part of Debye media**: a Debye block that a later block covers
completely leaves the update coefficients of the later block, and yet its polarisation current keeps
acting, so the fields differ from those of the model without the covered block. -/
theorem covered_debye_still_acts :
    (∀ fc ∈ Fc.all, ∀ t ∈ boxLoop (fun f => (mkBox 0 2 0 2 0 2) f),
      mediaArrays (coveredSim true).cfg (covered true) (fun _ _ _ _ => freeCoef) fc t.1 t.2.1 t.2.2 =
      mediaArrays (coveredSim false).cfg (covered false) (fun _ _ _ _ => freeCoef) fc t.1 t.2.1 t.2.2) ∧
    (coveredSim true).state (coefRef (mediaArrays (coveredSim true).cfg (covered true)
        fun _ _ _ _ => freeCoef) fun _ => 1) (fun _ _ => 1) (fun _ => 0) 3 (.fld .ex 1 1 1) ≠
    (coveredSim false).state (coefRef (mediaArrays (coveredSim false).cfg (covered false)
        fun _ _ _ _ => freeCoef) fun _ => 1) (fun _ _ => 1) (fun _ => 0) 3 (.fld .ex 1 1 1) := by
  refine ⟨by decide +kernel, by decide +kernel⟩

end Vulture.C19
