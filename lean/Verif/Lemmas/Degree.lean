import Verif.Lemmas.Pointwise
import Verif.Model.SimAlloc
import Mathlib.Data.Real.Basic
import Mathlib.Algebra.Order.Field.Basic
import Mathlib.Tactic.FieldSimp
/- Powers of the unit of length: every assignment of a time step is homogeneous. -/
set_option linter.unusedSimpArgs false
set_option linter.unusedVariables false
namespace Vulture.Degree
open Spec C10

/-- Power of the unit of length carried by a coefficient, times being measured in lengths. -/
def cdeg : CRef → Int
  | .beta .. | .gamma .. => 1
  | .ide .. | .idh .. | .dbe .. => -1
  | _ => 0

/-- Power carried by an array element; current densities, and what drives them, have -1. -/
def ldeg (S : Sim) : Loc → Int
  | .dj .. => -1
  | .src _ n => match S.srcs[n]? with
    | some x => if x.kind = .ecurr ∨ x.kind = .hcurr then -1 else 0
    | none => 0
  | _ => 0

/-- The expression is homogeneous of the given degree. -/
def Deg (S : Sim) : Expr → Int → Prop
  | .zero, _ => True
  | .rd l, d => ldeg S l = d
  | .add a b, d => Deg S a d ∧ Deg S b d
  | .sub a b, d => Deg S a d ∧ Deg S b d
  | .neg a, d => Deg S a d
  | .mul c e, d => Deg S e (d - cdeg c)

theorem deg_foldl {S : Sim} {d : Int} (l : List Expr) (h : ∀ e ∈ l, Deg S e d) : ∀ z, Deg S z d → Deg S (l.foldl Expr.add z) d := by
  induction l with
  | nil => exact fun z h => h
  | cons a l ih => exact fun z hz => ih (fun e he => h e (by simp [he])) _ ⟨hz, h a (by simp)⟩

theorem deg_sum {S : Sim} {d : Int} {l : List Expr} (h : ∀ e ∈ l, Deg S e d) : Deg S (Expr.sum l) d :=
  deg_foldl l h _ trivial

/-- All assignments of a program are homogeneous. -/
def Hom (S : Sim) (p : Prog) : Prop := ∀ b ∈ p, ∀ a ∈ b, Deg S a.rhs (ldeg S a.tgt)

theorem Hom.append {S : Sim} {p q : Prog} (h : Hom S p) (h' : Hom S q) : Hom S (p ++ q) := by
  intro b hb
  rcases List.mem_append.1 hb with hb | hb
  exacts [h b hb, h' b hb]

theorem Hom.nil {S : Sim} : Hom S [] := by intro b hb; cases hb

theorem Hom.flatMap {S : Sim} {α : Type*} {L : List α} {f : α → Prog} (h : ∀ x ∈ L, Hom S (f x)) : Hom S (L.flatMap f) := by
  intro b hb
  obtain ⟨x, hx, hb⟩ := List.mem_flatMap.1 hb
  exact h x hx b hb

theorem Hom.loop {S : Sim} {lim : Face → Int} {body : Int → Int → Int → Block}
    (h : ∀ i j k, ∀ a ∈ body i j k, Deg S a.rhs (ldeg S a.tgt)) : Hom S (loopOver lim body) :=
  (forall_loopOver (Q := fun b => ∀ a ∈ b, Deg S a.rhs (ldeg S a.tgt))).2 fun i j k _ => h i j k

theorem hom_gridE (S : Sim) (c : Cfg) : Hom S (updateGridEfield c) := by
  unfold updateGridEfield
  refine Hom.append (Hom.append ?_ ?_) ?_ <;> exact Hom.loop fun i j k a ha => by
    simp only [List.mem_singleton] at ha; subst ha
    simp [Deg, ldeg, cdeg, ampereX, ampereY, ampereZ, curlHx, curlHy, curlHz, EX, EY, EZ, HX, HY, HZ]

theorem hom_gridH (S : Sim) (c : Cfg) : Hom S (updateGridHfield c) := by
  unfold updateGridHfield
  refine Hom.append (Hom.append ?_ ?_) ?_ <;> exact Hom.loop fun i j k a ha => by
    simp only [List.mem_singleton] at ha; subst ha
    simp [Deg, ldeg, cdeg, faradayX, faradayY, faradayZ, curlEx, curlEy, curlEz, EX, EY, EZ, HX, HY, HZ]

theorem hom_pmlE (S : Sim) (c : Cfg) : Hom S (updatePmlEfield c) := by
  refine Hom.flatMap fun r _ => ?_
  unfold pmlRegionE
  split
  swap; · exact Hom.nil
  refine Hom.append (Hom.append ?_ ?_) ?_ <;> refine Hom.loop fun i j k a ha => ?_
  · simp only [pmlExBlock, List.mem_cons, List.not_mem_nil, or_false] at ha
    rcases ha with rfl | rfl | rfl <;> simp [Deg, ldeg, cdeg, PPr, Pr, curlHx, EX, EY, EZ, HX, HY, HZ]
  · simp only [pmlEyBlock, List.mem_cons, List.not_mem_nil, or_false] at ha
    rcases ha with rfl | rfl | rfl <;> simp [Deg, ldeg, cdeg, PPr, Pr, curlHy, EX, EY, EZ, HX, HY, HZ]
  · simp only [pmlEzBlock, List.mem_cons, List.not_mem_nil, or_false] at ha
    rcases ha with rfl | rfl | rfl <;> simp [Deg, ldeg, cdeg, PPr, Pr, curlHz, EX, EY, EZ, HX, HY, HZ]

theorem hom_pmlH (S : Sim) (c : Cfg) : Hom S (updatePmlHfield c) := by
  refine Hom.flatMap fun r _ => ?_
  unfold pmlRegionH
  split
  swap; · exact Hom.nil
  refine Hom.append (Hom.append ?_ ?_) ?_ <;> refine Hom.loop fun i j k a ha => ?_
  · simp only [pmlHxBlock, List.mem_cons, List.not_mem_nil, or_false] at ha
    rcases ha with rfl | rfl <;> simp [Deg, ldeg, cdeg, Br, curlEx, EX, EY, EZ, HX, HY, HZ]
  · simp only [pmlHyBlock, List.mem_cons, List.not_mem_nil, or_false] at ha
    rcases ha with rfl | rfl <;> simp [Deg, ldeg, cdeg, Br, curlEy, EX, EY, EZ, HX, HY, HZ]
  · simp only [pmlHzBlock, List.mem_cons, List.not_mem_nil, or_false] at ha
    rcases ha with rfl | rfl <;> simp [Deg, ldeg, cdeg, Br, curlEz, EX, EY, EZ, HX, HY, HZ]

theorem hom_murE (S : Sim) (c : Cfg) : Hom S (updateMurEfield c) := by
  refine Hom.flatMap fun f _ => ?_
  split
  swap; · exact Hom.nil
  refine Hom.flatMap fun fc _ => Hom.loop fun i j k a ha => ?_
  simp only [murE, List.mem_cons, List.not_mem_nil, or_false] at ha
  subst ha
  cases fc <;> simp [Deg, ldeg, cdeg, ampere, ampereX, ampereY, ampereZ, curlHx, curlHy, curlHz, EX, EY, EZ, HX, HY, HZ]

theorem hom_murH (S : Sim) (c : Cfg) : Hom S (updateMurHfield c) := by
  refine Hom.flatMap fun f _ => ?_
  split
  swap; · exact Hom.nil
  refine Hom.loop fun i j k a ha => ?_
  simp only [List.mem_cons, List.not_mem_nil, or_false] at ha
  subst ha
  cases murNormal f <;>
    simp [Deg, ldeg, cdeg, faraday, faradayX, faradayY, faradayZ, curlEx, curlEy, curlEz, EX, EY, EZ, HX, HY, HZ]

theorem hom_ghost (S : Sim) (c : Cfg) (comps : Face → List Fc) :
    Hom S (Face.all.flatMap fun f => ghostFace c (comps f) f) := by
  refine Hom.flatMap fun f _ => ?_
  have key : ∀ t : BType, Hom S ((boxLoop (ghostFaceLim c f.axis (ghostTarget c f))).flatMap fun q => (comps f).map fun fc =>
      ([⟨fldAt fc q, ghostVal (t == .pmc) (fldAt fc (setAx f.axis (ghostSource c f) q))⟩] : Block)) := by
    intro t
    refine Hom.flatMap fun q _ => ?_
    intro b hb
    simp only [List.mem_map] at hb
    obtain ⟨fc, -, rfl⟩ := hb
    intro a ha
    simp only [List.mem_singleton] at ha
    subst ha
    simp only [ghostVal]
    split <;> simp [Deg, ldeg, fldAt]
  unfold ghostFace
  cases c.bt f <;> first | exact Hom.nil | exact key _

theorem hom_debye (S : Sim) (l : List DebyeBlk) : Hom S (updateDebye l) := by
  refine Hom.flatMap fun x _ => Hom.flatMap fun fc _ => Hom.loop fun i j k a ha => ?_
  have hE : ∀ ii jj kk, Deg S (debyeE x.2 x.1.numPoles fc i j k ii jj kk) 0 := by
    intro ii jj kk
    refine ⟨rfl, ?_⟩
    refine deg_sum fun e he => ?_
    simp only [List.mem_map] at he
    obtain ⟨p, -, rfl⟩ := he
    simp [Deg, ldeg, cdeg, djR, djI]
  simp only [debyeBlock, List.mem_cons, List.mem_flatMap, List.mem_range, List.not_mem_nil, or_false] at ha
  rcases ha with rfl | rfl | ⟨p, -, rfl | rfl⟩
  · exact hE _ _ _
  · exact hE _ _ _
  · simp only [Deg, ldeg, cdeg, djR, djI]
    refine ⟨⟨by norm_num, by norm_num⟩, ?_, by norm_num⟩
    simpa using hE _ _ _
  · simp only [Deg, ldeg, cdeg, djR, djI]
    refine ⟨⟨by norm_num, by norm_num⟩, ?_, by norm_num⟩
    simpa using hE _ _ _

theorem deg_hin (S : Sim) (n : Nat) (s : SibcSurf) (t : Int × Int × Int) (p : Nat) : Deg S (sibcHin n s t p) 0 := by
  refine deg_sum fun e he => ?_
  simp only [List.mem_map] at he
  obtain ⟨q, -, rfl⟩ := he
  simp [Deg, ldeg, cdeg, sibcHtan, fldAt]

theorem deg_zeta (S : Sim) (im : Bool) (n p q m : Nat) (r : Int × Int × Int) {x : Expr} (hx : Deg S x 0) :
    Deg S (rcZeta im n p q m r x) 0 := by
  cases im <;> simp [rcZeta, Deg, ldeg, cdeg, hx]

theorem deg_out (S : Sim) (n p q np : Nat) (r : Int × Int × Int) {x : Expr} (hx : Deg S x 0) : Deg S (rcOut n p q np r x) 0 := by
  refine deg_foldl _ ?_ _ (by simpa [Deg, cdeg] using hx)
  intro e he
  simp only [List.mem_map] at he
  obtain ⟨m, -, rfl⟩ := he
  exact deg_zeta S _ _ _ _ _ _ hx

theorem hom_sibcE (S : Sim) (l : List SibcSurf) : Hom S (updateSibcE l) := by
  refine Hom.flatMap fun x _ => Hom.loop fun i j k a ha => ?_
  simp only [sibcEBlock, List.mem_append, List.mem_cons, List.mem_map, List.mem_flatMap, List.mem_range, List.not_mem_nil,
    or_false] at ha
  rcases ha with ((rfl | rfl | rfl | rfl) | ⟨m, -, rfl⟩) | ⟨p, -, q, -, rfl | ⟨m, -, rfl | rfl⟩⟩
  · trivial
  · trivial
  · trivial
  · trivial
  · refine deg_sum fun e he => ?_
    simp only [List.mem_map] at he
    obtain ⟨p, -, rfl⟩ := he
    simp only [Deg, ldeg, cdeg]
    refine deg_sum fun e he => ?_
    simp only [List.mem_map] at he
    obtain ⟨q, -, rfl⟩ := he
    exact deg_out S _ _ _ _ _ (deg_hin S _ _ _ _)
  · exact deg_hin S _ _ _ _
  · exact deg_zeta S _ _ _ _ _ _ (deg_hin S _ _ _ _)
  · exact deg_zeta S _ _ _ _ _ _ (deg_hin S _ _ _ _)

theorem deg_corr (S : Sim) (neg : Bool) (h : Fc) (t : Int × Int × Int) (w : CRef) (hw : cdeg w = 0) (e : Expr)
    (he : Deg S e (-1)) : Deg S (sibcCorr neg h t w e).rhs (ldeg S (sibcCorr neg h t w e).tgt) := by
  cases neg <;>
  · refine ⟨rfl, ?_⟩
    show Deg S e (0 - 1 - cdeg w)
    rw [hw]; exact he

theorem hom_sibcH (S : Sim) (l : List SibcSurf) : Hom S (updateSibcH l) := by
  refine Hom.append (Hom.flatMap fun x _ => Hom.loop fun i j k a ha => ?_) (Hom.flatMap fun x _ => Hom.loop fun i j k a ha => ?_)
  · have hd : ∀ m v, Deg S (sibcD x.2 x.1 (sibcRel x.1 (i, j, k)) m v) (-1) := by
      intro m v; simp [sibcD, Deg, ldeg, cdeg]
    have hp : ∀ w f g m m' v v', Deg S (.mul (.sibW x.2 w i j k) (.add (.mul (.sibN x.2 f i j k) (sibcD x.2 x.1 (sibcRel x.1 (i, j, k)) m v))
        (.mul (.sibN x.2 g i j k) (sibcD x.2 x.1 (sibcRel x.1 (i, j, k)) m' v')))) (-1) := by
      intro w f g m m' v v'
      simp only [Deg, cdeg]
      refine ⟨?_, ?_⟩ <;> simpa using hd _ _
    simp only [sibcHBlock, List.mem_append, List.mem_cons, List.not_mem_nil, or_false] at ha
    rcases ha with (rfl | rfl | rfl | rfl | rfl | rfl | rfl | rfl | rfl) | ha
    · trivial
    all_goals first
      | exact deg_corr S _ _ _ _ rfl _ (hd _ _)
      | skip
    obtain ⟨⟨nrm, g, np⟩, n⟩ := x
    cases nrm <;> simp only [sibcAdj, List.mem_cons, List.not_mem_nil, or_false] at ha <;>
      rcases ha with rfl | rfl | rfl | rfl <;> exact deg_corr S _ _ _ _ rfl _ (hp _ _ _ _ _ _ _)
  · simp only [List.mem_cons, List.not_mem_nil, or_false] at ha
    subst ha; trivial

theorem zipIdx_get {α : Type*} {l : List α} {x : α × Nat} (h : x ∈ l.zipIdx) : l[x.2]? = some x.1 := by
  obtain ⟨a, n⟩ := x
  have := List.mem_zipIdx' h
  simp only at this ⊢
  rw [List.getElem?_eq_getElem this.1]
  exact congrArg some this.2.symm

theorem hom_srcE (S : Sim) : Hom S (updateSourcesE S.srcs) := by
  refine Hom.flatMap fun x hx => ?_
  split
  swap; · exact Hom.nil
  rename_i h
  refine Hom.loop fun i j k a ha => ?_
  have hx' := zipIdx_get hx
  rcases h.1 with hk | hk <;> simp only [srcEBlock, hk, List.mem_cons, List.not_mem_nil, or_false] at ha <;> subst ha <;>
    simp [Deg, ldeg, cdeg, hx', hk]

theorem hom_srcH (S : Sim) : Hom S (updateSourcesH S.srcs) := by
  refine Hom.flatMap fun x hx => ?_
  split
  swap; · exact Hom.nil
  rename_i h
  refine Hom.loop fun i j k a ha => ?_
  have hx' := zipIdx_get hx
  rcases h.1 with hk | hk <;> simp only [srcHBlock, hk, List.mem_cons, List.not_mem_nil, or_false] at ha <;> subst ha <;>
    simp [Deg, ldeg, cdeg, hx', hk]

theorem deg_inc (S : Sim) (h : Bool) (n : Nat) (w : PW) (fc : Fc) (t : Int × Int × Int) : Deg S (incField h n w fc t) 0 := by
  unfold incField
  split <;> simp [Deg, ldeg, cdeg]

theorem hom_auxE (S : Sim) (n : Nat) (g : AuxGrid) : Hom S (auxE n g) := by
  refine Hom.append (Hom.append ?_ ?_) ?_ <;> intro b hb a ha
  · simp only [List.mem_map] at hb
    obtain ⟨i, -, rfl⟩ := hb
    simp only [List.mem_cons, List.not_mem_nil, or_false] at ha
    subst ha; simp [Deg, ldeg, cdeg]
  · simp only [List.mem_map] at hb
    obtain ⟨i, -, rfl⟩ := hb
    simp only [List.mem_cons, List.not_mem_nil, or_false] at ha
    rcases ha with rfl | rfl | rfl <;> simp [Deg, ldeg, cdeg]
  · simp only [List.mem_cons, List.not_mem_nil, or_false] at hb
    subst hb
    simp only [List.mem_cons, List.not_mem_nil, or_false] at ha
    subst ha; simp [Deg, ldeg, cdeg]

theorem hom_auxH (S : Sim) (n : Nat) (g : AuxGrid) : Hom S (auxH n g) := by
  refine Hom.append ?_ ?_ <;> intro b hb a ha
  · simp only [List.mem_map] at hb
    obtain ⟨i, -, rfl⟩ := hb
    simp only [List.mem_cons, List.not_mem_nil, or_false] at ha
    subst ha; simp [Deg, ldeg, cdeg]
  · simp only [List.mem_map] at hb
    obtain ⟨i, -, rfl⟩ := hb
    simp only [List.mem_cons, List.not_mem_nil, or_false] at ha
    rcases ha with rfl | rfl <;> simp [Deg, ldeg, cdeg]

theorem hom_pwE (S : Sim) (c : Cfg) (l : List PW) : Hom S (updatePlaneWavesE c l) := by
  refine Hom.flatMap fun x _ => Hom.append ?_ (Hom.flatMap fun r _ => ?_)
  · split
    exacts [hom_auxE S _ _, Hom.nil]
  · split
    swap; · exact Hom.nil
    refine Hom.loop fun i j k a ha => ?_
    simp only [pwEBlock, List.mem_cons, List.not_mem_nil, or_false] at ha
    subst ha
    have := deg_inc S false x.2 x.1 r.2.2.2 (if r.1.isLo then shift r.1.axis (-1) (i, j, k) else (i, j, k))
    dsimp only
    by_cases hn : r.2.2.1 = true
    · rw [if_pos hn]; simpa [Deg, ldeg, cdeg] using this
    · rw [if_neg hn]; simpa [Deg, ldeg, cdeg] using this

theorem hom_pwH (S : Sim) (c : Cfg) (l : List PW) : Hom S (updatePlaneWavesH c l) := by
  refine Hom.flatMap fun x _ => Hom.append ?_ (Hom.flatMap fun r _ => ?_)
  · split
    exacts [hom_auxH S _ _, Hom.nil]
  · split
    swap; · exact Hom.nil
    refine Hom.loop fun i j k a ha => ?_
    simp only [pwHBlock, List.mem_cons, List.not_mem_nil, or_false] at ha
    subst ha
    have := deg_inc S true x.2 x.1 r.2.2.2 (if r.1.isLo then shift r.1.axis 1 (i, j, k) else (i, j, k))
    dsimp only
    by_cases hn : r.2.2.1 = true
    · rw [if_pos hn]; simpa [Deg, ldeg, cdeg] using this
    · rw [if_neg hn]; simpa [Deg, ldeg, cdeg] using this

/-- Every assignment of a time step is homogeneous. -/
theorem hom_step (S : Sim) : Hom S S.step := by
  unfold Sim.step Sim.stepE Sim.stepH
  refine Hom.append ?_ ?_
  · exact ((((((hom_pmlE S _).append (hom_murE S _)).append (hom_gridE S _)).append (hom_debye S _)).append
      (hom_sibcE S _)).append (hom_srcE S)).append (hom_pwE S _ _) |>.append (hom_ghost S _ _)
  · exact (((((hom_pmlH S _).append (hom_murH S _)).append (hom_gridH S _)).append (hom_sibcH S _)).append
      (hom_srcH S)).append (hom_pwH S _ _) |>.append (hom_ghost S _ _)

/-! ### Runs -/

section
variable {S : Sim} {r : ℝ} (hr : r ≠ 0) {C C' : CRef → ℝ} (hC : ∀ q, SCAllocated S q → C' q = r ^ cdeg q * C q)
include hr hC

theorem eval_scale {s s' : Loc → ℝ} (e : Expr) : ∀ d : Int, Deg S e d → (∀ l ∈ e.reads, s' l = r ^ ldeg S l * s l) →
    (∀ q ∈ e.coefs, SCAllocated S q) → e.eval C' s' = r ^ d * e.eval C s := by
  induction e with
  | zero => intro d _ _ _; simp [Expr.eval]
  | rd l => intro d h hl _; rw [show d = ldeg S l from h.symm]; exact hl l (by simp [Expr.reads])
  | add a b iha ihb =>
    intro d h hl hq
    simp only [Expr.reads, Expr.coefs, List.mem_append] at hl hq
    simp only [Expr.eval]
    rw [iha d h.1 (fun l hm => hl l (.inl hm)) (fun q hm => hq q (.inl hm)),
      ihb d h.2 (fun l hm => hl l (.inr hm)) (fun q hm => hq q (.inr hm))]
    ring
  | sub a b iha ihb =>
    intro d h hl hq
    simp only [Expr.reads, Expr.coefs, List.mem_append] at hl hq
    simp only [Expr.eval]
    rw [iha d h.1 (fun l hm => hl l (.inl hm)) (fun q hm => hq q (.inl hm)),
      ihb d h.2 (fun l hm => hl l (.inr hm)) (fun q hm => hq q (.inr hm))]
    ring
  | neg a iha =>
    intro d h hl hq
    simp only [Expr.eval]
    rw [iha d h hl hq]; ring
  | mul c e ih =>
    intro d h hl hq
    simp only [Expr.coefs, List.mem_cons] at hq
    simp only [Expr.eval]
    rw [ih _ h hl (fun q hm => hq q (.inr hm)), hC c (hq c (.inl rfl))]
    have : r ^ d = r ^ cdeg c * r ^ (d - cdeg c) := by rw [← zpow_add₀ hr]; congr 1; omega
    rw [this]; ring

theorem exec_scale {b : Block} (hb : ∀ a ∈ b, Deg S a.rhs (ldeg S a.tgt))
    (h2 : ∀ l ∈ b.reads, SAllocated S l) (h3 : ∀ q ∈ b.coefs, SCAllocated S q) {s s' : Loc → ℝ}
    (hs : ∀ l, SAllocated S l → s' l = r ^ ldeg S l * s l) :
    ∀ l, SAllocated S l → b.exec C' s' l = r ^ ldeg S l * b.exec C s l := by
  intro l hl
  unfold Block.exec
  cases hf : b.find? (fun a => a.tgt = l) with
  | none => exact hs l hl
  | some a =>
    have ha := List.mem_of_find?_eq_some hf
    have ht : a.tgt = l := by have := List.find?_some hf; simpa using this
    dsimp only
    rw [← ht]
    refine eval_scale hr hC _ _ (hb a ha) (fun m hm => hs m (h2 m ?_)) fun q hq => h3 q ?_
    · exact List.mem_flatMap.2 ⟨a, ha, hm⟩
    · exact List.mem_flatMap.2 ⟨a, ha, hq⟩

theorem run_scale {p : Prog} (hp : Hom S p) (hsafe : SimSafe S p) : ∀ {s s' : Loc → ℝ},
    (∀ l, SAllocated S l → s' l = r ^ ldeg S l * s l) →
    ∀ l, SAllocated S l → p.run C' s' l = r ^ ldeg S l * p.run C s l := by
  induction p with
  | nil => exact fun h => h
  | cons b p ih =>
    intro s s' h
    exact ih (fun x hx => hp x (by simp [hx])) (fun x hx => hsafe x (by simp [hx]))
      (exec_scale hr hC (hp b (by simp)) (hsafe b (by simp)).2.1 (hsafe b (by simp)).2.2 h)

/-- Runs with coefficients and driving values that differ by the powers of a length. -/
theorem state_scale (hsafe : SimSafe S S.step) {u u' : Nat → Loc → ℝ}
    (hu : ∀ n l, SAllocated S l → l.isInput = true → u' n l = r ^ ldeg S l * u n l) (n : Nat) :
    ∀ l, SAllocated S l → S.state C' u' (fun _ => 0) n l = r ^ ldeg S l * S.state C u (fun _ => 0) n l := by
  induction n with
  | zero => intro l _; simp [Sim.state]
  | succ n ih =>
    refine run_scale hr hC (hom_step S) hsafe fun l hl => ?_
    unfold setInputs
    by_cases h : l.isInput = true
    · rw [if_pos h, if_pos h]; exact hu n l hl h
    · rw [if_neg h, if_neg h]; exact ih l hl

end
end Vulture.Degree
