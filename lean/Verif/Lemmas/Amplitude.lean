import Verif.Lemmas.Degree
import Verif.Model.Setup
set_option linter.unusedSimpArgs false
set_option linter.unusedVariables false
/-
How the numbers in a run depend on the amplitudes of sources and waves: the fields and all that is computed from them are
linear in them, the auxiliary grids of the waves do not depend on them, the weights with which the latter act on the fields
are linear.
-/
namespace Vulture.Amplitude
open Expr Setup

/-- Linear in the amplitudes (otherwise independent): weights of the auxiliary grids. -/
def cdeg : CRef → Bool
  | .auxW .. => true
  | _ => false

/-- Linear in the amplitudes (otherwise independent): all but the auxiliary grids and what drives them. -/
def ldeg : Loc → Bool
  | .aux .. | .wav .. => false
  | _ => true

/-- The expression is linear (`true`) in the amplitudes, or independent of them. -/
def Deg : Expr → Bool → Prop
  | .zero, _ => True
  | .rd l, d => ldeg l = d
  | .add a b, d => Deg a d ∧ Deg b d
  | .sub a b, d => Deg a d ∧ Deg b d
  | .neg a, d => Deg a d
  | .mul c e, d => if cdeg c then d = true ∧ Deg e false else Deg e d

theorem deg_foldl  {d : Bool} (l : List Expr) (h : ∀ e ∈ l, Deg e d) : ∀ z, Deg z d → Deg (l.foldl Expr.add z) d := by
  induction l with
  | nil => exact fun z h => h
  | cons a l ih => exact fun z hz => ih (fun e he => h e (by simp [he])) _ ⟨hz, h a (by simp)⟩

theorem deg_sum  {d : Bool} {l : List Expr} (h : ∀ e ∈ l, Deg e d) : Deg (Expr.sum l) d :=
  deg_foldl l h _ trivial

/-- All assignments of a program are homogeneous. -/
def Hom  (p : Prog) : Prop := ∀ b ∈ p, ∀ a ∈ b, Deg a.rhs (ldeg a.tgt)

theorem Hom.append  {p q : Prog} (h : Hom p) (h' : Hom q) : Hom (p ++ q) := by
  intro b hb
  rcases List.mem_append.1 hb with hb | hb
  exacts [h b hb, h' b hb]

theorem Hom.nil  : Hom [] := by intro b hb; cases hb

theorem Hom.flatMap  {α : Type*} {L : List α} {f : α → Prog} (h : ∀ x ∈ L, Hom (f x)) : Hom (L.flatMap f) := by
  intro b hb
  obtain ⟨x, hx, hb⟩ := List.mem_flatMap.1 hb
  exact h x hx b hb

theorem Hom.loop  {lim : Face → Int} {body : Int → Int → Int → Block}
    (h : ∀ i j k, ∀ a ∈ body i j k, Deg a.rhs (ldeg a.tgt)) : Hom (loopOver lim body) :=
  (forall_loopOver (Q := fun b => ∀ a ∈ b, Deg a.rhs (ldeg a.tgt))).2 fun i j k _ => h i j k

theorem hom_gridE  (c : Cfg) : Hom (updateGridEfield c) := by
  unfold updateGridEfield
  refine Hom.append (Hom.append ?_ ?_) ?_ <;> exact Hom.loop fun i j k a ha => by
    simp only [List.mem_singleton] at ha; subst ha
    simp [Deg, ldeg, cdeg, ampereX, ampereY, ampereZ, curlHx, curlHy, curlHz, EX, EY, EZ, HX, HY, HZ]

theorem hom_gridH  (c : Cfg) : Hom (updateGridHfield c) := by
  unfold updateGridHfield
  refine Hom.append (Hom.append ?_ ?_) ?_ <;> exact Hom.loop fun i j k a ha => by
    simp only [List.mem_singleton] at ha; subst ha
    simp [Deg, ldeg, cdeg, faradayX, faradayY, faradayZ, curlEx, curlEy, curlEz, EX, EY, EZ, HX, HY, HZ]

theorem hom_pmlE  (c : Cfg) : Hom (updatePmlEfield c) := by
  refine Hom.flatMap fun r _ => ?_
  unfold pmlRegionE
  split
  swap; · exact Hom.nil
  refine Hom.append (Hom.append ?_ ?_) ?_ <;> refine Hom.loop fun i j k a ha => ?_
  · simp only [pmlExBlock, List.mem_cons, List.not_mem_nil, or_false] at ha
    rcases ha with rfl | rfl | rfl <;> simp [Deg, ldeg, cdeg, PPr, Pr, curlHx, EX, EY, EZ, HX, HY, HZ]
  · simp only [pmlEyBlock, List.mem_cons, List.not_mem_nil, or_false] at ha
    rcases ha with rfl | rfl | rfl <;> simp [Deg, ldeg, cdeg, PPr, Pr, curlHy, EX, EY, EZ, HX, HY, HZ]
  · simp only [pmlEzBlock, List.mem_cons, List.not_mem_nil, or_false] at ha
    rcases ha with rfl | rfl | rfl <;> simp [Deg, ldeg, cdeg, PPr, Pr, curlHz, EX, EY, EZ, HX, HY, HZ]

theorem hom_pmlH  (c : Cfg) : Hom (updatePmlHfield c) := by
  refine Hom.flatMap fun r _ => ?_
  unfold pmlRegionH
  split
  swap; · exact Hom.nil
  refine Hom.append (Hom.append ?_ ?_) ?_ <;> refine Hom.loop fun i j k a ha => ?_
  · simp only [pmlHxBlock, List.mem_cons, List.not_mem_nil, or_false] at ha
    rcases ha with rfl | rfl <;> simp [Deg, ldeg, cdeg, Br, curlEx, EX, EY, EZ, HX, HY, HZ]
  · simp only [pmlHyBlock, List.mem_cons, List.not_mem_nil, or_false] at ha
    rcases ha with rfl | rfl <;> simp [Deg, ldeg, cdeg, Br, curlEy, EX, EY, EZ, HX, HY, HZ]
  · simp only [pmlHzBlock, List.mem_cons, List.not_mem_nil, or_false] at ha
    rcases ha with rfl | rfl <;> simp [Deg, ldeg, cdeg, Br, curlEz, EX, EY, EZ, HX, HY, HZ]

theorem hom_murE  (c : Cfg) : Hom (updateMurEfield c) := by
  refine Hom.flatMap fun f _ => ?_
  split
  swap; · exact Hom.nil
  refine Hom.flatMap fun fc _ => Hom.loop fun i j k a ha => ?_
  simp only [murE, List.mem_cons, List.not_mem_nil, or_false] at ha
  subst ha
  cases fc <;> simp [Deg, ldeg, cdeg, ampere, ampereX, ampereY, ampereZ, curlHx, curlHy, curlHz, EX, EY, EZ, HX, HY, HZ]

theorem hom_murH  (c : Cfg) : Hom (updateMurHfield c) := by
  refine Hom.flatMap fun f _ => ?_
  split
  swap; · exact Hom.nil
  refine Hom.loop fun i j k a ha => ?_
  simp only [List.mem_cons, List.not_mem_nil, or_false] at ha
  subst ha
  cases murNormal f <;>
    simp [Deg, ldeg, cdeg, faraday, faradayX, faradayY, faradayZ, curlEx, curlEy, curlEz, EX, EY, EZ, HX, HY, HZ]

theorem hom_ghost  (c : Cfg) (comps : Face → List Fc) :
    Hom (Face.all.flatMap fun f => ghostFace c (comps f) f) := by
  refine Hom.flatMap fun f _ => ?_
  have key : ∀ t : BType, Hom ((boxLoop (ghostFaceLim c f.axis (ghostTarget c f))).flatMap fun q => (comps f).map fun fc =>
      ([⟨fldAt fc q, ghostVal (t == .pmc) (fldAt fc (setAx f.axis (ghostSource c f) q))⟩] : Block)) := by
    intro t
    refine Hom.flatMap fun q _ => ?_
    intro b hb
    simp only [List.mem_map] at hb
    obtain ⟨fc, -, rfl⟩ := hb
    intro a ha
    simp only [List.mem_singleton] at ha
    subst ha
    simp only [ghostVal]
    split <;> simp [Deg, ldeg, fldAt]
  unfold ghostFace
  cases c.bt f <;> first | exact Hom.nil | exact key _

theorem hom_debye  (l : List DebyeBlk) : Hom (updateDebye l) := by
  refine Hom.flatMap fun x _ => Hom.flatMap fun fc _ => Hom.loop fun i j k a ha => ?_
  have hE : ∀ ii jj kk, Deg (debyeE x.2 x.1.numPoles fc i j k ii jj kk) true := by
    intro ii jj kk
    refine ⟨rfl, ?_⟩
    refine deg_sum fun e he => ?_
    simp only [List.mem_map] at he
    obtain ⟨p, -, rfl⟩ := he
    simp [Deg, ldeg, cdeg, djR, djI]
  simp only [debyeBlock, List.mem_cons, List.mem_flatMap, List.mem_range, List.not_mem_nil, or_false] at ha
  rcases ha with rfl | rfl | ⟨p, -, rfl | rfl⟩
  · exact hE _ _ _
  · exact hE _ _ _
  · simp only [Deg, ldeg, cdeg, djR, djI]
    refine ⟨⟨by norm_num, by norm_num⟩, ?_, by norm_num⟩
    simpa using hE _ _ _
  · simp only [Deg, ldeg, cdeg, djR, djI]
    refine ⟨⟨by norm_num, by norm_num⟩, ?_, by norm_num⟩
    simpa using hE _ _ _

theorem deg_hin  (n : Nat) (s : SibcSurf) (t : Int × Int × Int) (p : Nat) : Deg (sibcHin n s t p) true := by
  refine deg_sum fun e he => ?_
  simp only [List.mem_map] at he
  obtain ⟨q, -, rfl⟩ := he
  simp [Deg, ldeg, cdeg, sibcHtan, fldAt]

theorem deg_zeta  (im : Bool) (n p q m : Nat) (r : Int × Int × Int) {x : Expr} (hx : Deg x true) :
    Deg (rcZeta im n p q m r x) true := by
  cases im <;> simp [rcZeta, Deg, ldeg, cdeg, hx]

theorem deg_out  (n p q np : Nat) (r : Int × Int × Int) {x : Expr} (hx : Deg x true) : Deg (rcOut n p q np r x) true := by
  refine deg_foldl _ ?_ _ (by simpa [Deg, cdeg] using hx)
  intro e he
  simp only [List.mem_map] at he
  obtain ⟨m, -, rfl⟩ := he
  exact deg_zeta _ _ _ _ _ _ hx

theorem hom_sibcE  (l : List SibcSurf) : Hom (updateSibcE l) := by
  refine Hom.flatMap fun x _ => Hom.loop fun i j k a ha => ?_
  simp only [sibcEBlock, List.mem_append, List.mem_cons, List.mem_map, List.mem_flatMap, List.mem_range, List.not_mem_nil,
    or_false] at ha
  rcases ha with ((rfl | rfl | rfl | rfl) | ⟨m, -, rfl⟩) | ⟨p, -, q, -, rfl | ⟨m, -, rfl | rfl⟩⟩
  · trivial
  · trivial
  · trivial
  · trivial
  · refine deg_sum fun e he => ?_
    simp only [List.mem_map] at he
    obtain ⟨p, -, rfl⟩ := he
    simp only [Deg, ldeg, cdeg]
    refine deg_sum fun e he => ?_
    simp only [List.mem_map] at he
    obtain ⟨q, -, rfl⟩ := he
    exact deg_out _ _ _ _ _ (deg_hin _ _ _ _)
  · exact deg_hin _ _ _ _
  · exact deg_zeta _ _ _ _ _ _ (deg_hin _ _ _ _)
  · exact deg_zeta _ _ _ _ _ _ (deg_hin _ _ _ _)

theorem deg_corr  (neg : Bool) (h : Fc) (t : Int × Int × Int) (w : CRef) (hw : cdeg w = false) (e : Expr)
    (he : Deg e true) : Deg (sibcCorr neg h t w e).rhs (ldeg (sibcCorr neg h t w e).tgt) := by
  cases neg <;>
  · refine ⟨rfl, ?_⟩
    have h1 : Deg (.mul w e) true := by
      show (if cdeg w then _ else _)
      rw [hw]; exact he
    exact h1

theorem hom_sibcH  (l : List SibcSurf) : Hom (updateSibcH l) := by
  refine Hom.append (Hom.flatMap fun x _ => Hom.loop fun i j k a ha => ?_) (Hom.flatMap fun x _ => Hom.loop fun i j k a ha => ?_)
  · have hd : ∀ m v, Deg (sibcD x.2 x.1 (sibcRel x.1 (i, j, k)) m v) true := by
      intro m v; simp [sibcD, Deg, ldeg, cdeg]
    have hp : ∀ w f g m m' v v', Deg (.mul (.sibW x.2 w i j k) (.add (.mul (.sibN x.2 f i j k) (sibcD x.2 x.1 (sibcRel x.1 (i, j, k)) m v))
        (.mul (.sibN x.2 g i j k) (sibcD x.2 x.1 (sibcRel x.1 (i, j, k)) m' v')))) true := by
      intro w f g m m' v v'
      simp only [Deg, cdeg]
      refine ⟨?_, ?_⟩ <;> simpa using hd _ _
    simp only [sibcHBlock, List.mem_append, List.mem_cons, List.not_mem_nil, or_false] at ha
    rcases ha with (rfl | rfl | rfl | rfl | rfl | rfl | rfl | rfl | rfl) | ha
    · trivial
    all_goals first
      | exact deg_corr _ _ _ _ rfl _ (hd _ _)
      | skip
    obtain ⟨⟨nrm, g, np⟩, n⟩ := x
    cases nrm <;> simp only [sibcAdj, List.mem_cons, List.not_mem_nil, or_false] at ha <;>
      rcases ha with rfl | rfl | rfl | rfl <;> exact deg_corr _ _ _ _ rfl _ (hp _ _ _ _ _ _ _)
  · simp only [List.mem_cons, List.not_mem_nil, or_false] at ha
    subst ha; trivial

theorem zipIdx_get {α : Type*} {l : List α} {x : α × Nat} (h : x ∈ l.zipIdx) : l[x.2]? = some x.1 := by
  obtain ⟨a, n⟩ := x
  have := List.mem_zipIdx' h
  simp only at this ⊢
  rw [List.getElem?_eq_getElem this.1]
  exact congrArg some this.2.symm

theorem hom_srcE (S : Sim) : Hom (updateSourcesE S.srcs) := by
  refine Hom.flatMap fun x hx => ?_
  split
  swap; · exact Hom.nil
  rename_i h
  refine Hom.loop fun i j k a ha => ?_
  have hx' := zipIdx_get hx
  rcases h.1 with hk | hk <;> simp only [srcEBlock, hk, List.mem_cons, List.not_mem_nil, or_false] at ha <;> subst ha <;>
    simp [Deg, ldeg, cdeg, hx', hk]

theorem hom_srcH (S : Sim) : Hom (updateSourcesH S.srcs) := by
  refine Hom.flatMap fun x hx => ?_
  split
  swap; · exact Hom.nil
  rename_i h
  refine Hom.loop fun i j k a ha => ?_
  have hx' := zipIdx_get hx
  rcases h.1 with hk | hk <;> simp only [srcHBlock, hk, List.mem_cons, List.not_mem_nil, or_false] at ha <;> subst ha <;>
    simp [Deg, ldeg, cdeg, hx', hk]

theorem deg_inc  (h : Bool) (n : Nat) (w : PW) (fc : Fc) (t : Int × Int × Int) : Deg (incField h n w fc t) true := by
  unfold incField
  split <;> simp [Deg, ldeg, cdeg]

theorem hom_auxE  (n : Nat) (g : AuxGrid) : Hom (auxE n g) := by
  refine Hom.append (Hom.append ?_ ?_) ?_ <;> intro b hb a ha
  · simp only [List.mem_map] at hb
    obtain ⟨i, -, rfl⟩ := hb
    simp only [List.mem_cons, List.not_mem_nil, or_false] at ha
    subst ha; simp [Deg, ldeg, cdeg]
  · simp only [List.mem_map] at hb
    obtain ⟨i, -, rfl⟩ := hb
    simp only [List.mem_cons, List.not_mem_nil, or_false] at ha
    rcases ha with rfl | rfl | rfl <;> simp [Deg, ldeg, cdeg]
  · simp only [List.mem_cons, List.not_mem_nil, or_false] at hb
    subst hb
    simp only [List.mem_cons, List.not_mem_nil, or_false] at ha
    subst ha; simp [Deg, ldeg, cdeg]

theorem hom_auxH  (n : Nat) (g : AuxGrid) : Hom (auxH n g) := by
  refine Hom.append ?_ ?_ <;> intro b hb a ha
  · simp only [List.mem_map] at hb
    obtain ⟨i, -, rfl⟩ := hb
    simp only [List.mem_cons, List.not_mem_nil, or_false] at ha
    subst ha; simp [Deg, ldeg, cdeg]
  · simp only [List.mem_map] at hb
    obtain ⟨i, -, rfl⟩ := hb
    simp only [List.mem_cons, List.not_mem_nil, or_false] at ha
    rcases ha with rfl | rfl <;> simp [Deg, ldeg, cdeg]

theorem hom_pwE  (c : Cfg) (l : List PW) : Hom (updatePlaneWavesE c l) := by
  refine Hom.flatMap fun x _ => Hom.append ?_ (Hom.flatMap fun r _ => ?_)
  · split
    exacts [hom_auxE _ _, Hom.nil]
  · split
    swap; · exact Hom.nil
    refine Hom.loop fun i j k a ha => ?_
    simp only [pwEBlock, List.mem_cons, List.not_mem_nil, or_false] at ha
    subst ha
    have := deg_inc false x.2 x.1 r.2.2.2 (if r.1.isLo then shift r.1.axis (-1) (i, j, k) else (i, j, k))
    dsimp only
    by_cases hn : r.2.2.1 = true
    · rw [if_pos hn]; simpa [Deg, ldeg, cdeg] using this
    · rw [if_neg hn]; simpa [Deg, ldeg, cdeg] using this

theorem hom_pwH  (c : Cfg) (l : List PW) : Hom (updatePlaneWavesH c l) := by
  refine Hom.flatMap fun x _ => Hom.append ?_ (Hom.flatMap fun r _ => ?_)
  · split
    exacts [hom_auxH _ _, Hom.nil]
  · split
    swap; · exact Hom.nil
    refine Hom.loop fun i j k a ha => ?_
    simp only [pwHBlock, List.mem_cons, List.not_mem_nil, or_false] at ha
    subst ha
    have := deg_inc true x.2 x.1 r.2.2.2 (if r.1.isLo then shift r.1.axis 1 (i, j, k) else (i, j, k))
    dsimp only
    by_cases hn : r.2.2.1 = true
    · rw [if_pos hn]; simpa [Deg, ldeg, cdeg] using this
    · rw [if_neg hn]; simpa [Deg, ldeg, cdeg] using this

/-- Every assignment of a time step is homogeneous. -/
theorem hom_step (S : Sim) : Hom S.step := by
  unfold Sim.step Sim.stepE Sim.stepH
  refine Hom.append ?_ ?_
  · exact ((((((hom_pmlE _).append (hom_murE _)).append (hom_gridE _)).append (hom_debye _)).append
      (hom_sibcE _)).append (hom_srcE S)).append (hom_pwE _ _) |>.append (hom_ghost _ _)
  · exact (((((hom_pmlH _).append (hom_murH _)).append (hom_gridH _)).append (hom_sibcH _)).append
      (hom_srcH S)).append (hom_pwH _ _) |>.append (hom_ghost _ _)


/-! ### Runs -/

/-- `x` is the combination of `x1` and `x2` if it is linear in the amplitudes, the same otherwise. -/
def Mix (a b : ℝ) (d : Bool) (x x1 x2 : ℝ) : Prop := if d then x = a * x1 + b * x2 else x1 = x ∧ x2 = x

section
variable {a b : ℝ} {C C1 C2 : CRef → ℝ} (hC : ∀ q, Mix a b (cdeg q) (C q) (C1 q) (C2 q))
include hC

theorem eval_mix {s s1 s2 : Loc → ℝ} (hs : ∀ l, Mix a b (ldeg l) (s l) (s1 l) (s2 l)) (e : Expr) :
    ∀ d, Deg e d → Mix a b d (e.eval C s) (e.eval C1 s1) (e.eval C2 s2) := by
  induction e with
  | zero => intro d _; cases d <;> simp [Mix, Expr.eval]
  | rd l => intro d h; rw [show d = ldeg l from h.symm]; exact hs l
  | add e f ih1 ih2 =>
    intro d h
    have h1 := ih1 d h.1; have h2 := ih2 d h.2
    cases d <;> simp only [Mix, Expr.eval, if_true, Bool.false_eq_true, if_false] at h1 h2 ⊢
    · rw [h1.1, h1.2, h2.1, h2.2]; simp
    · rw [h1, h2]; ring
  | sub e f ih1 ih2 =>
    intro d h
    have h1 := ih1 d h.1; have h2 := ih2 d h.2
    cases d <;> simp only [Mix, Expr.eval, if_true, Bool.false_eq_true, if_false] at h1 h2 ⊢
    · rw [h1.1, h1.2, h2.1, h2.2]; simp
    · rw [h1, h2]; ring
  | neg e ih =>
    intro d h
    have h1 := ih d h
    cases d <;> simp only [Mix, Expr.eval, if_true, Bool.false_eq_true, if_false] at h1 ⊢
    · rw [h1.1, h1.2]; simp
    · rw [h1]; ring
  | mul q e ih =>
    intro d h
    have hq := hC q
    simp only [Deg] at h
    cases hd : cdeg q with
    | true =>
      rw [hd, if_pos rfl] at h
      obtain ⟨rfl, h⟩ := h
      have h1 := ih false h
      rw [hd] at hq
      simp only [Mix, Expr.eval, if_true, Bool.false_eq_true, if_false] at h1 hq ⊢
      rw [hq, h1.1, h1.2]; ring
    | false =>
      rw [hd, if_neg (by simp)] at h
      have h1 := ih d h
      rw [hd] at hq
      cases d <;> simp only [Mix, Expr.eval, if_true, Bool.false_eq_true, if_false] at h1 hq ⊢
      · rw [hq.1, hq.2, h1.1, h1.2]; simp
      · rw [hq.1, hq.2, h1]; ring

theorem run_mix {p : Prog} (hp : Hom p) : ∀ {s s1 s2 : Loc → ℝ}, (∀ l, Mix a b (ldeg l) (s l) (s1 l) (s2 l)) →
    ∀ l, Mix a b (ldeg l) (p.run C s l) (p.run C1 s1 l) (p.run C2 s2 l) := by
  induction p with
  | nil => exact fun h => h
  | cons x p ih =>
    intro s s1 s2 h
    refine ih (fun y hy => hp y (by simp [hy])) ?_
    intro l
    show Mix a b (ldeg l) (x.exec C s l) (x.exec C1 s1 l) (x.exec C2 s2 l)
    unfold Block.exec
    cases hf : x.find? (fun a => a.tgt = l) with
    | none => exact h l
    | some y =>
      have hy := List.mem_of_find?_eq_some hf
      have ht : y.tgt = l := by have := List.find?_some hf; simpa using this
      dsimp only
      rw [← ht]
      exact eval_mix hC h _ _ (hp x (by simp) y hy)

/-- Runs whose weights and driving values are combinations. -/
theorem state_mix (S : Sim) {u u1 u2 : Nat → Loc → ℝ}
    (hu : ∀ n l, l.isInput = true → Mix a b (ldeg l) (u n l) (u1 n l) (u2 n l)) (n : Nat) :
    ∀ l, Mix a b (ldeg l) (S.state C u (fun _ => 0) n l) (S.state C1 u1 (fun _ => 0) n l) (S.state C2 u2 (fun _ => 0) n l) := by
  induction n with
  | zero => intro l; cases h : ldeg l <;> simp [Sim.state, Mix]
  | succ n ih =>
    refine run_mix hC (hom_step S) fun l => ?_
    unfold setInputs
    by_cases h : l.isInput = true
    · rw [if_pos h, if_pos h, if_pos h]; exact hu n l h
    · rw [if_neg h, if_neg h, if_neg h]; exact ih l

end
end Vulture.Amplitude
