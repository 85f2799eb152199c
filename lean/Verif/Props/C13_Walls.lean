import Verif.Props.C13_Pec
/-
C13: conducting outer walls, and the metal that backs the absorbing layers.
-/
set_option linter.unusedSimpArgs false
namespace Vulture.C13
open Spec C19
variable {M : Type*}

/-- The electric samples in the plane of face `f` of the outer box: those a conducting wall there short-circuits. -/
def OnWall (c : Cfg) (f : Face) (fc : Fc) (i j k : Int) : Prop :=
  (fc = .ex ∨ fc = .ey ∨ fc = .ez) ∧ SampleIn c.gobox fc i j k ∧ OnPlane c.gobox f fc i j k

/-- The plane a copy comes from is a plane of samples of the outer grid. -/
theorem plane_range {c : Cfg} (h : ValidCfg c) (hn : ∀ a, c.bt a.lo = .pml → 2 ≤ c.n a) (r : Face) (hr : c.bt r = .pml) (fc : Fc) :
    2 * c.gobox r.axis.lo ≤ pos2 fc r.axis (pmlCopyPlane c r fc) ∧
      pos2 fc r.axis (pmlCopyPlane c r fc) ≤ 2 * c.gobox r.axis.hi := by
  have f := cfg_facts h r.axis
  have g := C07.inner_offset c r.axis
  have n : r.isLo = true → 2 ≤ c.n r.axis := fun hl => hn r.axis (by cases r <;> first | exact hr | cases hl)
  have n1 := h.cells r.axis
  cases r <;> cases fc <;>
    simp [pmlCopyPlane, fieldIsInBoundary, Face.isLo, pos2, Axis.lo, Axis.hi, Face.axis] at * <;> omega

/-- Moving a sample to another plane of samples of the outer grid along one axis keeps it on the walls of the other axes. -/
theorem wall_setAx {c : Cfg} {f : Face} {fc : Fc} {t : Int × Int × Int} {a : Axis} {m : Int} (ha : a ≠ f.axis)
    (hm : 2 * c.gobox a.lo ≤ pos2 fc a m ∧ pos2 fc a m ≤ 2 * c.gobox a.hi) (ht : OnWall c f fc t.1 t.2.1 t.2.2) :
    OnWall c f fc (setAx a m t).1 (setAx a m t).2.1 (setAx a m t).2.2 := by
  obtain ⟨i, j, k⟩ := t
  obtain ⟨h1, ⟨h2, h3, h4⟩, h5⟩ := ht
  cases a
  · exact ⟨h1, ⟨hm, h3, h4⟩, by cases f <;> first | exact absurd rfl ha | exact h5⟩
  · exact ⟨h1, ⟨h2, hm, h4⟩, by cases f <;> first | exact absurd rfl ha | exact h5⟩
  · exact ⟨h1, ⟨h2, h3, hm⟩, by cases f <;> first | exact absurd rfl ha | exact h5⟩

/-- The layers of an axis do not reach the samples of its own walls. -/
theorem not_copied {c : Cfg} (h : ValidCfg c) {f r : Face} {fc : Fc} {i j k : Int} (hr : r.axis = f.axis)
    (ht : OnWall c f fc i j k) : ¬ InLim (copyLim c r fc) i j k := by
  have fx := cfg_facts h f.axis
  obtain ⟨h1, -, h3⟩ := ht
  unfold OnPlane at h3
  rintro ⟨p1, p2, p3⟩
  cases f <;> cases r <;> first
    | (exact absurd hr (by decide))
    | (rcases h1 with rfl | rfl | rfl <;>
      simp [copyLim, setFieldLimits, Face.isLo, fieldIsInBoundary, pmlCopyInclude, Face.axis, samplePos,
        Cfg.pbox, mkBox, Axis.lo, Axis.hi, pos2] at p1 p2 p3 h3 fx <;> omega)

/-- Material is copied only into layers. -/
theorem copied_into {c : Cfg} (h : ValidCfg c) {r : Face} {fc : Fc} {i j k : Int} (hl : InLim (copyLim c r fc) i j k) : c.bt r = .pml := by
  by_contra hne
  have e := h.other r hne
  have g := C07.inner_offset c r.axis
  obtain ⟨p1, p2, p3⟩ := hl
  cases r <;> cases fc <;>
    simp [copyLim, setFieldLimits, Face.isLo, fieldIsInBoundary, pmlCopyInclude, Face.axis, Cfg.pbox, mkBox, Axis.lo, Axis.hi] at p1 p2 p3 g <;>
    omega

/-- The material copy of one axis leaves the samples of a wall on the wall. -/
theorem pull_wall {c : Cfg} (h : ValidCfg c) (hn : ∀ a, c.bt a.lo = .pml → 2 ≤ c.n a) {f : Face} {fc : Fc} {t : Int × Int × Int} (a : Axis)
    (ht : OnWall c f fc t.1 t.2.1 t.2.2) :
    OnWall c f fc (pull c fc a t).1 (pull c fc a t).2.1 (pull c fc a t).2.2 := by
  have el : a.lo.axis = a := by cases a <;> rfl
  have eh : a.hi.axis = a := by cases a <;> rfl
  unfold pull
  by_cases ha : a = f.axis
  · rw [if_neg (not_copied h (el.trans ha) ht), if_neg (not_copied h (eh.trans ha) ht)]
    exact ht
  · split_ifs with c1 c2
    · have pl := plane_range h hn a.lo (copied_into h c1) fc
      rw [el] at pl
      exact wall_setAx ha pl ht
    · have ph := plane_range h hn a.hi (copied_into h c2) fc
      rw [eh] at ph
      exact wall_setAx ha ph ht
    · exact ht

/-- After the outer walls are laid every electric sample of a conducting or absorbing face is metal, whatever blocks, lines and
surfaces came before. -/
theorem wall_laid (c : Cfg) (S : MedSetup M) {f : Face} (hf : c.bt f = .pec ∨ c.bt f = .pml) (l : List (Fill M))
    (A : MArr M) {fc : Fc} {i j k : Int} (hw : OnWall c f fc i j k) :
    applyFills (l ++ externalFills c S) A fc i j k = S.pec := by
  have hx : (⟨getFaceOfBoundingBox c.gobox f, maskAll, S.pec⟩ : Fill M) ∈ externalFills c S := by
    unfold externalFills
    refine List.mem_map.2 ⟨f, List.mem_filter.2 ⟨by cases f <;> simp [Face.all], ?_⟩, rfl⟩
    rcases hf with e | e <;> simp [e]
  have hc : Contains (getFaceOfBoundingBox c.gobox f) maskAll fc i j k := by
    obtain ⟨h1, ⟨⟨a1, a2⟩, ⟨a3, a4⟩, a5, a6⟩, h3⟩ := hw
    refine ⟨?_, fun _ _ => rfl⟩
    unfold OnPlane at h3
    cases f <;> simp [getFaceOfBoundingBox, SampleIn, samplePos, Face.axis, mkBox, Axis.lo, Axis.hi] at * <;> omega
  rw [applyFills_append]
  rcases last_wins (externalFills c S) (applyFills l A) fc i j k with ⟨l₁, x, l₂, e, _, h2, _⟩ | ⟨h1, _⟩
  · have hm : x ∈ externalFills c S := by rw [e]; simp
    obtain ⟨_, _, rfl⟩ := List.mem_map.1 hm
    exact h2.symm
  · exact absurd hc (h1 _ hx)

/-- When the run starts every electric sample in the plane of a conducting or absorbing outer face is metal, unless a resistive
source was put there. -/
theorem wall_is_metal {c : Cfg} (h : ValidCfg c) (hn : ∀ a, c.bt a.lo = .pml → 2 ≤ c.n a) (S : MedSetup M) (junk : MArr M) {f : Face}
    (hf : c.bt f = .pec ∨ c.bt f = .pml) {fc : Fc} {i j k : Int} (hw : OnWall c f fc i j k)
    (hr : ∀ x ∈ resistFills c S, ¬ Contains x.box x.mask fc i j k) : mediaArrays c S junk fc i j k = S.pec := by
  unfold mediaArrays
  rcases last_wins (resistFills c S) (pmlCopy c (applyFills (initMediaFill c S :: (blockFills c S ++ lineFills c S ++
    surfaceFills c S ++ externalFills c S)) junk)) fc i j k with ⟨l₁, x, l₂, e, h1, _, _⟩ | ⟨_, e⟩
  · exact absurd h1 (hr x (by rw [e]; simp))
  · rw [e]
    have key := pmlCopy_apply h (applyFills (initMediaFill c S :: (blockFills c S ++ lineFills c S ++
      surfaceFills c S ++ externalFills c S)) junk) fc (i, j, k)
    refine key.trans ?_
    rw [← List.cons_append]
    exact wall_laid c S hf _ junk (pull_wall h hn .z (pull_wall h hn .y (pull_wall h hn .x (t := (i, j, k)) hw)))

/-- **C13**, outer walls: in a model of at least two cells per axis the electric samples in the plane of an outer face of type
PEC, and those of the outermost plane of the layers of a face of type PML, are zero at every step of every run, whatever
is inside the model, if no resistive and no field source is put on them. -/
theorem outer_wall_field_free {K : Type*} [Field K] (S : Sim) (hv : ValidCfg S.cfg) (hn : ∀ a, S.cfg.bt a.lo = .pml → 2 ≤ S.cfg.n a)
    (dt eps0 mu0 : K) (pecMed : Medium K) (MS : MedSetup (Coef K)) (hp : MS.pec = mediumCoef dt eps0 mu0 1 pecMed)
    (junk : MArr (Coef K)) (rest : CRef → K) {f : Face} (hf : S.cfg.bt f = .pec ∨ S.cfg.bt f = .pml)
    (hr : ∀ x ∈ resistFills S.cfg MS, ∀ fc i j k, OnWall S.cfg f fc i j k → ¬ Contains x.box x.mask fc i j k)
    (hs : ∀ s ∈ S.srcs, s.kind = .efield → ∀ i j k, InLim (s.flim s.field) i j k → ¬ OnWall S.cfg f s.field i j k)
    (u : Nat → Loc → K) (n : Nat) {fc : Fc} {i j k : Int} (hw : OnWall S.cfg f fc i j k) :
    S.state (coefRef (mediaArrays S.cfg MS junk) rest) u (fun _ => 0) n (.fld fc i j k) = 0 := by
  refine conductor_field_free (Pec := OnWall S.cfg f) ⟨fun _ _ _ _ h => h.1, fun _ _ _ _ h => h.2.1, ?_, ?_, hs⟩
    u n fc i j k hw
  · intro fc i j k hw
    simp only [coefRef]
    rw [wall_is_metal hv hn MS junk hf hw fun x hx => hr x hx fc i j k hw, hp]
    simp [mediumCoef]
  · intro r fc i j k hm hfc hl hw
    have fx := cfg_facts hv r.axis
    have gx := C07.inner_offset S.cfg r.axis
    have nx := hv.cells r.axis
    have gr : S.cfg.gibox r = S.cfg.gobox r := by
      have := hv.other r (by rw [hm]; decide)
      cases r <;> simp only [Face.axis, Axis.lo, Axis.hi] at gx <;> omega
    have hne : f ≠ r := by rintro rfl; rw [hm] at hf; simp at hf
    obtain ⟨l1, l2, l3⟩ := hl
    by_cases ha : r.axis = f.axis
    · exfalso
      have h3 := hw.2.2
      unfold OnPlane at h3
      cases r <;> cases f <;> first
        | exact absurd rfl hne
        | exact absurd ha (by decide)
        | (simp only [murComponents, List.mem_cons, List.not_mem_nil, or_false] at hfc
           rcases hfc with rfl | rfl <;>
             simp [Cfg.fmlim, setFieldLimits, getFaceOfBoundingBox, mkBox, fieldIsInBoundary, Cfg.murInclude, Face.isLo,
               samplePos, pos2, Face.axis, Axis.lo, Axis.hi] at l1 l2 l3 h3 gx fx gr nx <;> omega)
    · have key : ∀ m : Int, 2 * S.cfg.gobox r.axis.lo ≤ pos2 fc r.axis m ∧ pos2 fc r.axis m ≤ 2 * S.cfg.gobox r.axis.hi →
          OnWall S.cfg f fc (setAx r.axis m (i, j, k)).1 (setAx r.axis m (i, j, k)).2.1 (setAx r.axis m (i, j, k)).2.2 :=
        fun m h => wall_setAx (t := (i, j, k)) ha h hw
      cases r
      · refine key (i + 1) ?_
        simp only [murComponents, List.mem_cons, List.not_mem_nil, or_false] at hfc
        rcases hfc with rfl | rfl <;>
             simp [Cfg.fmlim, setFieldLimits, getFaceOfBoundingBox, mkBox, fieldIsInBoundary, Cfg.murInclude, Face.isLo,
               samplePos, pos2, Face.axis, Axis.lo, Axis.hi] at l1 l2 l3 gx fx gr nx ⊢ <;> omega
      · refine key (i - 1) ?_
        simp only [murComponents, List.mem_cons, List.not_mem_nil, or_false] at hfc
        rcases hfc with rfl | rfl <;>
             simp [Cfg.fmlim, setFieldLimits, getFaceOfBoundingBox, mkBox, fieldIsInBoundary, Cfg.murInclude, Face.isLo,
               samplePos, pos2, Face.axis, Axis.lo, Axis.hi] at l1 l2 l3 gx fx gr nx ⊢ <;> omega
      · refine key (j + 1) ?_
        simp only [murComponents, List.mem_cons, List.not_mem_nil, or_false] at hfc
        rcases hfc with rfl | rfl <;>
             simp [Cfg.fmlim, setFieldLimits, getFaceOfBoundingBox, mkBox, fieldIsInBoundary, Cfg.murInclude, Face.isLo,
               samplePos, pos2, Face.axis, Axis.lo, Axis.hi] at l1 l2 l3 gx fx gr nx ⊢ <;> omega
      · refine key (j - 1) ?_
        simp only [murComponents, List.mem_cons, List.not_mem_nil, or_false] at hfc
        rcases hfc with rfl | rfl <;>
             simp [Cfg.fmlim, setFieldLimits, getFaceOfBoundingBox, mkBox, fieldIsInBoundary, Cfg.murInclude, Face.isLo,
               samplePos, pos2, Face.axis, Axis.lo, Axis.hi] at l1 l2 l3 gx fx gr nx ⊢ <;> omega
      · refine key (k + 1) ?_
        simp only [murComponents, List.mem_cons, List.not_mem_nil, or_false] at hfc
        rcases hfc with rfl | rfl <;>
             simp [Cfg.fmlim, setFieldLimits, getFaceOfBoundingBox, mkBox, fieldIsInBoundary, Cfg.murInclude, Face.isLo,
               samplePos, pos2, Face.axis, Axis.lo, Axis.hi] at l1 l2 l3 gx fx gr nx ⊢ <;> omega
      · refine key (k - 1) ?_
        simp only [murComponents, List.mem_cons, List.not_mem_nil, or_false] at hfc
        rcases hfc with rfl | rfl <;>
             simp [Cfg.fmlim, setFieldLimits, getFaceOfBoundingBox, mkBox, fieldIsInBoundary, Cfg.murInclude, Face.isLo,
               samplePos, pos2, Face.axis, Axis.lo, Axis.hi] at l1 l2 l3 gx fx gr nx ⊢ <;> omega

/-- The hypotheses are met: a sample of the metal behind the layers of the sample mesh of `C07`. -/
example : OnWall C07.sampleCfg .xlo .ey 1 1 1 ∧ C07.sampleCfg.bt .xlo = .pml := by
  refine ⟨⟨by decide, ?_, ?_⟩, ?_⟩ <;> first | decide | (unfold SampleIn; decide) | (unfold OnPlane; decide)

end Vulture.C13
