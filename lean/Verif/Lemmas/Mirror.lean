import Verif.Spec.Mirror
import Verif.Lemmas.TurnItems
/-
Reflection: general lemmas for C52.
-/
set_option linter.unusedSimpArgs false
set_option linter.unusedVariables false
set_option linter.unusedSectionVars false
namespace Vulture
open Spec C09 C10

/-! ### Programs that correspond up to place and sign -/

section signed
variable {K : Type*} [CommRing K] {C C' : CRef → K} {V : Loc → Prop} {ρ : Loc → Loc} {ε : Loc → K}

/-- The memory of the second experiment is the signed image of that of the first. -/
def SMatch (V : Loc → Prop) (ρ : Loc → Loc) (ε : Loc → K) (s s' : Loc → K) : Prop :=
  ∀ l, V l → s' (ρ l) = ε l * s l

/-- Two programs do corresponding things. -/
def SPhase (C C' : CRef → K) (V : Loc → Prop) (ρ : Loc → Loc) (ε : Loc → K) (p p' : Prog) : Prop :=
  ∀ s s' : Loc → K, SMatch V ρ ε s s' → SMatch V ρ ε (p.run C s) (p'.run C' s')

/-- The memory of the second experiment seen from the first. -/
def pull (ρ : Loc → Loc) (ε : Loc → K) (s' : Loc → K) : Loc → K := fun l => ε l * s' (ρ l)

/-- Two iterations with corresponding assignments. -/
def Img (C C' : CRef → K) (ρ : Loc → Loc) (ε : Loc → K) (b b' : Block) : Prop :=
  List.Forall₂ (fun x x' : Asg => x'.tgt = ρ x.tgt ∧
    ∀ s' : Loc → K, x'.rhs.eval C' s' = ε x.tgt * x.rhs.eval C (pull ρ ε s')) b b'

theorem Img.writes {b b' : Block} (h : Img C C' ρ ε b b') : b'.writes = b.writes.map ρ := by
  unfold Img at h
  induction h with
  | nil => rfl
  | cons h _ ih => simp only [Block.writes, List.map_cons] at ih ⊢; rw [h.1, ih]

theorem pull_eq (hε : ∀ l, ε l * ε l = 1) {s s' : Loc → K} (h : SMatch V ρ ε s s') {l : Loc} (hl : V l) :
    pull ρ ε s' l = s l := by
  unfold pull; rw [h l hl, ← mul_assoc, hε, one_mul]

theorem Img.exec (hρ : Function.Injective ρ) (hε : ∀ l, ε l * ε l = 1) {b b' : Block}
    (h : Img C C' ρ ε b b') (hb : ∀ l ∈ b.reads, V l) {s s' : Loc → K} (hs : SMatch V ρ ε s s')
    {l : Loc} (hl : V l) : b'.exec C' s' (ρ l) = ε l * b.exec C s l := by
  unfold Img at h
  unfold Block.exec
  induction h with
  | nil => exact hs l hl
  | @cons x x' b b' hx _ ih =>
    have hr : ∀ l ∈ x.rhs.reads, V l := fun l hl => hb l (by simp [Block.reads, hl])
    have ih := ih fun l hl => hb l (by
      simp only [Block.reads, List.flatMap_cons, List.mem_append] at hl ⊢
      exact .inr hl)
    rw [List.find?_cons, List.find?_cons]
    by_cases e : x.tgt = l
    · subst e
      rw [hx.1]
      simp only [decide_true]
      rw [hx.2 s']
      congr 1
      exact eval_congr C _ fun m hm => pull_eq hε hs (hr m hm)
    · have e' : ¬ x'.tgt = ρ l := by rw [hx.1]; exact fun q => e (hρ q)
      simp only [e, e', decide_false]
      exact ih

theorem SPhase.append {p p' q q' : Prog} (h : SPhase C C' V ρ ε p p') (h' : SPhase C C' V ρ ε q q') :
    SPhase C C' V ρ ε (p ++ q) (p' ++ q') := by
  intro s s' hs
  rw [run_append, run_append]
  exact h' _ _ (h _ _ hs)

theorem SPhase.nil : SPhase C C' V ρ ε [] [] := fun _ _ h => h

theorem SPhase.trans {p p' q' : Prog} (h : SPhase C C' V ρ ε p p')
    (h' : ∀ s : Loc → K, q'.run C' s = p'.run C' s) : SPhase C C' V ρ ε p q' := by
  intro s s' hs; rw [h']; exact h _ _ hs

/-- One iteration after the other, in the same order. -/
theorem SPhase.sequence (hρ : Function.Injective ρ) (hε : ∀ l, ε l * ε l = 1) {p p' : Prog}
    (h : List.Forall₂ (Img C C' ρ ε) p p') (hp : ∀ b ∈ p, ∀ l ∈ b.reads, V l) :
    SPhase C C' V ρ ε p p' := by
  induction h with
  | nil => exact SPhase.nil
  | cons h _ ih =>
    intro s s' hs
    rw [run_cons, run_cons]
    refine ih (fun b hb => hp b (List.mem_cons_of_mem _ hb)) _ _ ?_
    intro l hl
    exact h.exec hρ hε (hp _ (List.mem_cons_self ..)) hs hl

/-- A phase of independent iterations. -/
theorem SPhase.independent (hρ : Function.Injective ρ) (hε : ∀ l, ε l * ε l = 1) {p p' : Prog}
    (h1 : p.Pairwise Indep) (h2 : p'.Pairwise Indep)
    (hr : ∀ b ∈ p, (∃ l ∈ b.writes, V l) → ∀ l ∈ b.reads, V l)
    (hf : ∀ b ∈ p, ∃ b' ∈ p', Img C C' ρ ε b b') (hb : ∀ b' ∈ p', ∃ b ∈ p, Img C C' ρ ε b b') :
    SPhase C C' V ρ ε p p' := by
  intro s s' hs l hl
  by_cases hw : ∃ b ∈ p, l ∈ b.writes
  · obtain ⟨b, hbp, hw⟩ := hw
    obtain ⟨b', hb', hi⟩ := hf b hbp
    have hw' : ρ l ∈ b'.writes := by rw [hi.writes]; exact List.mem_map.2 ⟨l, hw, rfl⟩
    rw [run_indep C h1 hbp hw, run_indep C' h2 hb' hw']
    exact hi.exec hρ hε (hr b hbp ⟨l, hw, hl⟩) hs hl
  · push Not at hw
    rw [run_not_written C hw, run_not_written C' ?_]
    · exact hs l hl
    · intro b' hb' hw'
      obtain ⟨b, hbp, hi⟩ := hb b' hb'
      rw [hi.writes] at hw'
      obtain ⟨l0, hl0, e⟩ := List.mem_map.1 hw'
      rw [hρ e] at hl0
      exact hw b hbp hl0

theorem SPhase.flatMap {α : Type*} {L : List α} {f g : α → Prog}
    (h : ∀ x ∈ L, SPhase C C' V ρ ε (f x) (g x)) : SPhase C C' V ρ ε (L.flatMap f) (L.flatMap g) := by
  induction L with
  | nil => exact SPhase.nil
  | cons x L ih =>
    rw [List.flatMap_cons, List.flatMap_cons]
    exact (h x (List.mem_cons_self ..)).append (ih fun y hy => h y (List.mem_cons_of_mem _ hy))

/-- One phase per item of a list. -/
theorem SPhase.items {α β : Type*} {L : List α} {T : α → β}
    {f : α × Nat → Prog} {g : β × Nat → Prog}
    (h : ∀ x n, L[n]? = some x → SPhase C C' V ρ ε (f (x, n)) (g (T x, n))) :
    SPhase C C' V ρ ε (L.zipIdx.flatMap f) ((L.map T).zipIdx.flatMap g) := by
  rw [List.zipIdx_map, List.flatMap_map]
  refine SPhase.flatMap ?_
  rintro ⟨x, n⟩ hx
  exact h x n (List.mem_zipIdx_iff_getElem?.1 hx)

end signed

/-! ### Images of indices, faces and limits -/

@[simp] theorem Face.mirror_mirror (a : Axis) (f : Face) : (f.mirror a).mirror a = f := by
  cases a <;> cases f <;> rfl
theorem Face.mirror_axis (a : Axis) (f : Face) : (f.mirror a).axis = f.axis := by
  cases a <;> cases f <;> rfl

theorem image_image (c : Cfg) (a : Axis) (fc : Fc) (b : Axis) (i : Int) :
    image c a fc b (image c a fc b i) = i := by
  unfold image nodeImage cellImage; split <;> split <;> omega
theorem image_inj (c : Cfg) (a : Axis) (fc : Fc) (b : Axis) {i j : Int}
    (h : image c a fc b i = image c a fc b j) : i = j := by
  have := congrArg (image c a fc b) h; simpa [image_image] using this

theorem mirror_gobox (c : Cfg) (a : Axis) (f : Face) : (c.mirror a).gobox f = c.gobox f := by
  cases a <;> cases f <;> simp [Cfg.mirror, Cfg.gobox, Cfg.goboxHi, Cfg.goboxLo, Cfg.giboxHi, Cfg.giboxLo,
    Cfg.numLines, Face.mirror, Face.axis, Face.opposite, Axis.lo, Axis.hi] <;> omega
theorem mirror_span (c : Cfg) (a b : Axis) : span (c.mirror a) b = span c b := by
  unfold span; rw [mirror_gobox, mirror_gobox]
theorem mirror_gibox (c : Cfg) (a : Axis) : (c.mirror a).gibox = boxImage c a c.gibox := by
  funext f
  cases a <;> cases f <;> simp [Cfg.mirror, boxImage, span, Cfg.gibox, Cfg.gobox, Cfg.goboxHi, Cfg.goboxLo,
    Cfg.giboxHi, Cfg.giboxLo, Cfg.numLines, Face.mirror, Face.axis, Face.opposite, Axis.lo, Axis.hi] <;> omega
theorem mirror_bt (c : Cfg) (a : Axis) (f : Face) : (c.mirror a).bt (f.mirror a) = c.bt f := by
  simp [Cfg.mirror]

theorem mirror_valid {c : Cfg} (h : ValidCfg c) (a : Axis) : ValidCfg (c.mirror a) :=
  ⟨h.cells, fun f hf => h.pml _ hf, fun f hf => h.other _ hf, fun f hf => by
    have := h.paired _ hf
    cases a <;> cases f <;> exact this⟩

theorem mirror_limits (c : Cfg) (a : Axis) (b : BBox) {incl incl' : Face → Bool}
    (hi : ∀ f, incl' (f.mirror a) = incl f) (fc : Fc) :
    setFieldLimits (boxImage c a b) incl' fc = limImage c a fc (setFieldLimits b incl fc) := by
  funext f
  have hm := hi (f.mirror a)
  rw [Face.mirror_mirror] at hm
  unfold setFieldLimits limImage boxImage
  by_cases hf : f.axis = a
  · have e1 : f.mirror a = f.opposite := if_pos hf
    have e2 : f.opposite.isLo = !f.isLo := by cases f <;> rfl
    have e3 : fieldIsInBoundary fc f.opposite = fieldIsInBoundary fc f := by
      cases f <;> cases fc <;> rfl
    have e4 : onNodes fc a = fieldIsInBoundary fc f := by subst hf; cases f <;> cases fc <;> rfl
    rw [e1] at hm
    simp only [hf, if_true, e2, e3, hm, image, e4, nodeImage, cellImage]
    cases f.isLo <;> cases fieldIsInBoundary fc f <;> cases incl f.opposite <;>
      simp <;> omega
  · have e1 : f.mirror a = f := if_neg hf
    rw [e1] at hm
    simp only [hf, if_false, hm]

theorem mirror_gfilim (c : Cfg) (a : Axis) (fc : Fc) :
    (c.mirror a).gfilim fc = limImage c a fc (c.gfilim fc) := by
  unfold Cfg.gfilim
  rw [mirror_gibox]
  exact mirror_limits c a c.gibox (fun f => by rw [mirror_bt]) fc

theorem mirror_pbox (c : Cfg) (a : Axis) (r : Face) :
    (c.mirror a).pbox (r.mirror a) = boxImage c a (c.pbox r) := by
  have e := mirror_gobox c a
  have e' := mirror_gibox c a
  funext f
  cases a <;> cases r <;> cases f <;> simp [Cfg.pbox, Face.mirror, Face.axis, Face.opposite, mkBox, boxImage,
    e, e', span, Axis.lo, Axis.hi]

theorem mirror_fplim (c : Cfg) (a : Axis) (r : Face) (fc : Fc) :
    (c.mirror a).fplim (r.mirror a) fc = limImage c a fc (c.fplim r fc) := by
  unfold Cfg.fplim
  rw [mirror_pbox]
  refine mirror_limits c a _ (fun f => ?_) fc
  revert a r f; decide

theorem mirror_fmlim (c : Cfg) (a : Axis) (r : Face) (fc : Fc) :
    (c.mirror a).fmlim (r.mirror a) fc = limImage c a fc (c.fmlim r fc) := by
  unfold Cfg.fmlim
  have e : getFaceOfBoundingBox (c.mirror a).gibox (r.mirror a) =
      boxImage c a (getFaceOfBoundingBox c.gibox r) := by
    rw [mirror_gibox]
    funext f
    cases a <;> cases r <;> cases f <;> simp [getFaceOfBoundingBox, Face.mirror, Face.axis, Face.opposite,
      mkBox, boxImage]
  rw [e]
  refine mirror_limits c a _ (fun f => ?_) fc
  unfold Cfg.murInclude
  rw [mirror_bt, Face.mirror_axis, Face.mirror_axis]

theorem inLim_image (c : Cfg) (a : Axis) (fc : Fc) (lim : Face → Int) (i j k : Int) :
    InLim (limImage c a fc lim) (image c a fc .x i) (image c a fc .y j) (image c a fc .z k) ↔
      InLim lim i j k := by
  unfold InLim limImage image nodeImage cellImage
  cases a <;> simp only [Face.axis, Face.opposite, reduceCtorEq, if_true, if_false] <;> split <;>
    constructor <;> rintro ⟨⟨h1, h2⟩, ⟨h3, h4⟩, ⟨h5, h6⟩⟩ <;>
    refine ⟨⟨?_, ?_⟩, ⟨?_, ?_⟩, ⟨?_, ?_⟩⟩ <;> (try assumption) <;> omega

/-! ### Places and signs -/

/-- Image of an index counted from the low end of a range of samples. -/
def relImage (a b : Axis) (lim : Face → Int) (i : Int) : Int := if b = a then lim a.hi - lim a.lo - i else i

/-- Limits of a Debye block of a list. -/
def limOf (D : List DebyeBlk) (n : Nat) (fc : Fc) : Face → Int :=
  match D[n]? with | some d => d.flim fc | none => fun _ => 0

/-- Where a value is found in the mirrored experiment. -/
def mLoc (c : Cfg) (a : Axis) (D : List DebyeBlk) : Loc → Loc
  | .fld fc i j k => .fld fc (image c a fc .x i) (image c a fc .y j) (image c a fc .z k)
  | .pp r fc i j k => .pp (r.mirror a) fc (relImage a .x (c.fplim r fc) i) (relImage a .y (c.fplim r fc) j)
      (relImage a .z (c.fplim r fc) k)
  | .p r fc i j k => .p (r.mirror a) fc (relImage a .x (c.fplim r fc) i) (relImage a .y (c.fplim r fc) j)
      (relImage a .z (c.fplim r fc) k)
  | .b r fc i j k => .b (r.mirror a) fc (relImage a .x (c.fplim r fc) i) (relImage a .y (c.fplim r fc) j)
      (relImage a .z (c.fplim r fc) k)
  | .dj im n p fc i j k => .dj im n p fc (relImage a .x (limOf D n fc) i) (relImage a .y (limOf D n fc) j)
      (relImage a .z (limOf D n fc) k)
  | .dl n fc i j k => .dl n fc (relImage a .x (limOf D n fc) i) (relImage a .y (limOf D n fc) j)
      (relImage a .z (limOf D n fc) k)
  | .inc h n fc i j k => .inc h n fc (image c a fc .x i) (image c a fc .y j) (image c a fc .z k)
  | l => l

/-- Sign of a value in the mirrored experiment. -/
def mSign {K : Type*} [CommRing K] (a : Axis) (L : List Src) : Loc → K
  | .fld fc .. | .pp _ fc .. | .p _ fc .. | .b _ fc .. | .dj _ _ _ fc .. | .dl _ fc .. | .inc _ _ fc .. =>
    parity a fc
  | .src _ n => match L[n]? with | some s => parity a s.field | none => 1
  | _ => 1

/-- The index along the axis is one whose image is a place of the arrays in both experiments. -/
def InRange (c : Cfg) (a : Axis) (fc : Fc) (i : Int) : Prop :=
  (if onNodes fc a then c.gobox a.lo else c.gobox a.lo - 1) ≤ i ∧ i ≤ c.gobox a.hi

/-- The values that correspond. -/
def MV (c : Cfg) (a : Axis) (D : List DebyeBlk) : Loc → Prop
  | .fld fc i j k => InRange c a fc (coord a (i, j, k))
  | .dj _ n _ fc i j k | .dl n fc i j k => InRange c a fc (coord a (i, j, k) + limOf D n fc a.lo)
  | _ => True

theorem parity_sq {K : Type*} [CommRing K] (a : Axis) (fc : Fc) : (parity a fc : K) * parity a fc = 1 := by
  unfold parity; split <;> simp

theorem mSign_sq {K : Type*} [CommRing K] (a : Axis) (L : List Src) (l : Loc) :
    (mSign a L l : K) * mSign a L l = 1 := by
  cases l <;> simp [mSign, parity_sq]
  split <;> simp [parity_sq]

theorem relImage_inj {a b : Axis} {lim : Face → Int} {i j : Int}
    (h : relImage a b lim i = relImage a b lim j) : i = j := by
  unfold relImage at h; split at h <;> omega

theorem Face.mirror_inj {a : Axis} {f g : Face} (h : f.mirror a = g.mirror a) : f = g := by
  have := congrArg (Face.mirror a) h; simpa using this

theorem mLoc_inj (c : Cfg) (a : Axis) (D : List DebyeBlk) : Function.Injective (mLoc c a D) := by
  intro l l' e
  cases l <;> cases l' <;> simp only [mLoc, Loc.fld.injEq, Loc.pp.injEq, Loc.p.injEq, Loc.b.injEq,
    Loc.dj.injEq, Loc.dl.injEq, Loc.inc.injEq, reduceCtorEq] at e ⊢ <;>
    first
    | exact e
    | (obtain ⟨rfl, e1, e2, e3⟩ := e
       exact ⟨rfl, image_inj _ _ _ _ e1, image_inj _ _ _ _ e2, image_inj _ _ _ _ e3⟩)
    | (obtain ⟨e0, rfl, e1, e2, e3⟩ := e
       have := Face.mirror_inj e0
       subst this
       exact ⟨rfl, rfl, relImage_inj e1, relImage_inj e2, relImage_inj e3⟩)
    | (obtain ⟨rfl, rfl, rfl, rfl, e1, e2, e3⟩ := e
       exact ⟨rfl, rfl, rfl, rfl, relImage_inj e1, relImage_inj e2, relImage_inj e3⟩)
    | (obtain ⟨rfl, rfl, e1, e2, e3⟩ := e
       exact ⟨rfl, rfl, relImage_inj e1, relImage_inj e2, relImage_inj e3⟩)
    | (obtain ⟨rfl, rfl, rfl, e1, e2, e3⟩ := e
       exact ⟨rfl, rfl, rfl, image_inj _ _ _ _ e1, image_inj _ _ _ _ e2, image_inj _ _ _ _ e3⟩)

end Vulture
