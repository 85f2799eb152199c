import Verif.Props.C25_Filter
import Verif.Props.C24_Debye
/- C25 inside the simulation: the electric field an impedance surface presents is, at every step of every run, the
matrix of exact convolutions of its pole-residue responses with the history of the magnetic field at the face. -/
set_option linter.unusedSimpArgs false
set_option linter.unusedSectionVars false
namespace Vulture.C25
open Vulture Spec C10 C24

/-- Memory of filter `(p,q)` at a face of surface `n`, read as the state structure of src/filter.h:51-56. -/
def filt (s : Loc → ℝ) (n p q np : Nat) (r : Int × Int × Int) : RecState :=
  ⟨(List.range np).map fun m => ⟨s (.rz false n p q m r.1 r.2.1 r.2.2), s (.rz true n p q m r.1 r.2.1 r.2.2)⟩,
   s (.ro n p q r.1 r.2.1 r.2.2)⟩

/-- Magnetic field at the centre of face `t` of a surface, in the surface's principal axes: the two samples of
each tangential component on each side are averaged with the stored weight, then turned by the orientation
matrix. -/
def faceH (C : CRef → ℝ) (n : Nat) (normal : Axis) (t : Int × Int × Int) (s : Loc → ℝ) (p : Nat) : ℝ :=
  let side (lo : Bool) (a : Axis) : ℝ :=
    let t0 := if lo then shift normal (-1) t else t
    s (fldAt a.h t0) + s (fldAt a.h (shift a 1 t0))
  C (.sibA n p 0) * (C (.sibH n 0 t.1 t.2.1 t.2.2) * side true normal.next) +
  C (.sibA n p 1) * (C (.sibH n 1 t.1 t.2.1 t.2.2) * side false normal.next) +
  C (.sibA n p 2) * (C (.sibH n 2 t.1 t.2.1 t.2.2) * side true normal.next.next) +
  C (.sibA n p 3) * (C (.sibH n 3 t.1 t.2.1 t.2.2) * side false normal.next.next)

/-- Surface `n` of the simulation has the responses `pr`, discretised with time step `T`, and `t` is one of its
faces. -/
structure SibcFace (S : Sim) (C : CRef → ℝ) (T : ℝ) (pr : Nat → Nat → PoleResidue) (n : Nat) (sf : SibcSurf)
    (t : Int × Int × Int) : Prop where
  surf : S.sibc[n]? = some sf
  face : InLim (sibcLim sf) t.1 t.2.1 t.2.2
  num : ∀ p < 4, ∀ q < 4, sf.numPoles p q = (pr p q).terms.length
  rca : ∀ p < 4, ∀ q < 4, C (.rca n p q) = (pr p q).asymp
  rcq : ∀ p < 4, ∀ q < 4, ∀ (m : Nat) (hm : m < (pr p q).terms.length),
    (⟨C (.rcq false 0 n p q m), C (.rcq true 0 n p q m)⟩ : ℂ) = (toRCq T (pr p q).terms[m]).q0 ∧
    (⟨C (.rcq false 1 n p q m), C (.rcq true 1 n p q m)⟩ : ℂ) = (toRCq T (pr p q).terms[m]).q1 ∧
    (⟨C (.rcq false 2 n p q m), C (.rcq true 2 n p q m)⟩ : ℂ) = (toRCq T (pr p q).terms[m]).q2

theorem hin_eval (C : CRef → ℝ) (n : Nat) (sf : SibcSurf) (t : Int × Int × Int) (s : Loc → ℝ) (p : Nat) :
    (sibcHin n sf t p).eval C s = faceH C n sf.normal t s p := by
  simp [sibcHin, eval_sum, List.range_succ, Expr.eval, sibcHtan, faceH]
  ring

/-! ### Which memory a face of a surface uses -/

/-- Filter and surface-field memory of one face, and every magnetic sample. -/
def mineF (n : Nat) (r : Int × Int × Int) : Set Loc := fun l =>
  (∃ m, l = .et n m r.1 r.2.1 r.2.2) ∨ (∃ im p q m, l = .rz im n p q m r.1 r.2.1 r.2.2) ∨
  (∃ p q, l = .ro n p q r.1 r.2.1 r.2.2) ∨ ∃ a : Axis, ∃ x y z, l = .fld a.h x y z

theorem reads_hin (n : Nat) (sf : SibcSurf) (t : Int × Int × Int) (p : Nat) {l : Loc}
    (hl : l ∈ (sibcHin n sf t p).reads) : ∃ a : Axis, ∃ x y z, l = .fld a.h x y z := by
  obtain ⟨e, he, hm⟩ := reads_sum _ hl
  obtain ⟨q, _, rfl⟩ := List.mem_map.1 he
  simp only [sibcHtan, Expr.reads, List.mem_append, List.mem_singleton, List.nil_append, fldAt] at hm
  rcases hm with rfl | rfl <;> exact ⟨_, _, _, _, rfl⟩

theorem reads_zeta (im : Bool) (n p q m : Nat) (r : Int × Int × Int) (x : Expr) {l : Loc}
    (hl : l ∈ (rcZeta im n p q m r x).reads) :
    (∃ im, l = .rz im n p q m r.1 r.2.1 r.2.2) ∨ l = .ro n p q r.1 r.2.1 r.2.2 ∨ l ∈ x.reads := by
  cases im <;> simp [rcZeta, Expr.reads] at hl <;> aesop

theorem reads_out (n p q np : Nat) (r : Int × Int × Int) (x : Expr) {l : Loc} (hl : l ∈ (rcOut n p q np r x).reads) :
    (∃ im m, l = .rz im n p q m r.1 r.2.1 r.2.2) ∨ l = .ro n p q r.1 r.2.1 r.2.2 ∨ l ∈ x.reads := by
  have : ∀ (L : List Expr) (e : Expr), l ∈ (L.foldl Expr.add e).reads → l ∈ e.reads ∨ ∃ e ∈ L, l ∈ e.reads := by
    intro L
    induction L with
    | nil => intro e h; exact Or.inl h
    | cons a L ih =>
      intro e h
      rcases ih _ h with h | ⟨e', h1, h2⟩
      · simp only [Expr.reads, List.mem_append] at h
        rcases h with h | h
        · exact Or.inl h
        · exact Or.inr ⟨a, by simp, h⟩
      · exact Or.inr ⟨e', by simp [h1], h2⟩
  rcases this _ _ hl with h | ⟨e, he, h⟩
  · simp only [Expr.reads] at h
    exact Or.inr (Or.inr h)
  · obtain ⟨m, _, rfl⟩ := List.mem_map.1 he
    rcases reads_zeta _ _ _ _ _ _ _ h with ⟨im, h⟩ | h | h
    · exact Or.inl ⟨im, m, h⟩
    · exact Or.inr (Or.inl h)
    · exact Or.inr (Or.inr h)

theorem reads_sibcE (n : Nat) (sf : SibcSurf) (t : Int × Int × Int) :
    ∀ l ∈ (sibcEBlock n sf t).reads, l ∈ mineF n (sibcRel sf t) := by
  intro l hl
  obtain ⟨a, ha, hl⟩ := List.mem_flatMap.1 hl
  simp only [sibcEBlock, List.mem_append, List.mem_cons, List.mem_flatMap, List.mem_map, List.not_mem_nil, or_false] at ha
  have hx : ∀ p, l ∈ (sibcHin n sf t p).reads → l ∈ mineF n (sibcRel sf t) := fun p h =>
    Or.inr (Or.inr (Or.inr (reads_hin n sf t p h)))
  rcases ha with ((rfl | rfl | rfl | rfl) | ⟨m, _, rfl⟩) | ⟨p, _, q, _, rfl | ⟨m, _, rfl | rfl⟩⟩
  · simp [Expr.reads] at hl
  · simp [Expr.reads] at hl
  · simp [Expr.reads] at hl
  · simp [Expr.reads] at hl
  · obtain ⟨e, he, h⟩ := reads_sum _ hl
    obtain ⟨p, _, rfl⟩ := List.mem_map.1 he
    simp only [Expr.reads] at h
    obtain ⟨e, he, h⟩ := reads_sum _ h
    obtain ⟨q, _, rfl⟩ := List.mem_map.1 he
    rcases reads_out _ _ _ _ _ _ h with ⟨im, m, h⟩ | h | h
    · exact Or.inr (Or.inl ⟨_, _, _, _, h⟩)
    · exact Or.inr (Or.inr (Or.inl ⟨_, _, h⟩))
    · exact hx q h
  · exact hx q hl
  · rcases reads_zeta _ _ _ _ _ _ _ hl with ⟨im, h⟩ | h | h
    · exact Or.inr (Or.inl ⟨_, _, _, _, h⟩)
    · exact Or.inr (Or.inr (Or.inl ⟨_, _, h⟩))
    · exact hx q h
  · rcases reads_zeta _ _ _ _ _ _ _ hl with ⟨im, h⟩ | h | h
    · exact Or.inr (Or.inl ⟨_, _, _, _, h⟩)
    · exact Or.inr (Or.inr (Or.inl ⟨_, _, h⟩))
    · exact hx q h

/-- What a face writes: electric samples and its own memory. -/
theorem writes_sibcE (n : Nat) (sf : SibcSurf) (t : Int × Int × Int) :
    ∀ l ∈ (sibcEBlock n sf t).writes, (∃ a : Axis, ∃ x y z, l = .fld a.e x y z) ∨
      (∃ m, l = .et n m (sibcRel sf t).1 (sibcRel sf t).2.1 (sibcRel sf t).2.2) ∨
      (∃ im p q m, l = .rz im n p q m (sibcRel sf t).1 (sibcRel sf t).2.1 (sibcRel sf t).2.2) ∨
      (∃ p q, l = .ro n p q (sibcRel sf t).1 (sibcRel sf t).2.1 (sibcRel sf t).2.2) := by
  intro l hl
  obtain ⟨a, ha, rfl⟩ := List.mem_map.1 hl
  simp only [sibcEBlock, List.mem_append, List.mem_cons, List.mem_flatMap, List.mem_map, List.not_mem_nil, or_false] at ha
  rcases ha with ((rfl | rfl | rfl | rfl) | ⟨m, _, rfl⟩) | ⟨p, _, q, _, rfl | ⟨m, _, rfl | rfl⟩⟩
  · exact Or.inl ⟨_, _, _, _, rfl⟩
  · exact Or.inl ⟨_, _, _, _, rfl⟩
  · exact Or.inl ⟨_, _, _, _, rfl⟩
  · exact Or.inl ⟨_, _, _, _, rfl⟩
  · exact Or.inr (Or.inl ⟨_, rfl⟩)
  · exact Or.inr (Or.inr (Or.inr ⟨_, _, rfl⟩))
  · exact Or.inr (Or.inr (Or.inl ⟨_, _, _, _, rfl⟩))
  · exact Or.inr (Or.inr (Or.inl ⟨_, _, _, _, rfl⟩))

theorem eh_ne (a b : Axis) (x y z x' y' z' : Int) : Loc.fld a.e x y z ≠ .fld b.h x' y' z' := by
  cases a <;> cases b <;> simp [Axis.e, Axis.h]

theorem other_face {n n' : Nat} {sf sf' : SibcSurf} {t t' : Int × Int × Int} {l : Loc}
    (hl : l ∈ mineF n (sibcRel sf t)) (hne : n' ≠ n ∨ sibcRel sf' t' ≠ sibcRel sf t) :
    l ∉ (sibcEBlock n' sf' t').writes := by
  intro hw
  have key : ∀ {a b c a' b' c' : Int}, n' = n → a = a' → b = b' → c = c' →
      (a, b, c) = sibcRel sf t → (a', b', c') = sibcRel sf' t' → False := by
    intro a b c a' b' c' h1 h2 h3 h4 h5 h6
    subst h2 h3 h4
    rcases hne with h | h
    · exact h h1
    · exact h (h6.symm.trans h5)
  rcases writes_sibcE n' sf' t' l hw with ⟨a, x, y, z, rfl⟩ | ⟨m, rfl⟩ | ⟨im, p, q, m, rfl⟩ | ⟨p, q, rfl⟩
  · rcases hl with ⟨m, h⟩ | ⟨_, _, _, _, h⟩ | ⟨_, _, h⟩ | ⟨b, _, _, _, h⟩
    · simp at h
    · simp at h
    · simp at h
    · exact eh_ne _ _ _ _ _ _ _ _ h
  · rcases hl with ⟨m, h⟩ | ⟨_, _, _, _, h⟩ | ⟨_, _, h⟩ | ⟨b, _, _, _, h⟩
    · simp only [Loc.et.injEq] at h
      exact key h.1 h.2.2.1.symm h.2.2.2.1.symm h.2.2.2.2.symm rfl rfl
    all_goals simp at h
  · rcases hl with ⟨m, h⟩ | ⟨_, _, _, _, h⟩ | ⟨_, _, h⟩ | ⟨b, _, _, _, h⟩
    · simp at h
    · simp only [Loc.rz.injEq] at h
      exact key h.2.1 h.2.2.2.2.2.1.symm h.2.2.2.2.2.2.1.symm h.2.2.2.2.2.2.2.symm rfl rfl
    · simp at h
    · simp at h
  · rcases hl with ⟨m, h⟩ | ⟨_, _, _, _, h⟩ | ⟨_, _, h⟩ | ⟨b, _, _, _, h⟩
    · simp at h
    · simp at h
    · simp only [Loc.ro.injEq] at h
      exact key h.1 h.2.2.2.1.symm h.2.2.2.2.1.symm h.2.2.2.2.2.symm rfl rfl
    · simp at h

theorem sibc_run (C : CRef → ℝ) {l : List SibcSurf} {n : Nat} {sf : SibcSurf} (hs : l[n]? = some sf)
    {t : Int × Int × Int} (ht : InLim (sibcLim sf) t.1 t.2.1 t.2.2) (s : Loc → ℝ) :
    ∀ m ∈ mineF n (sibcRel sf t), m ∈ (sibcEBlock n sf t).writes →
      Prog.run C (updateSibcE l) s m = (sibcEBlock n sf t).exec C s m := by
  intro m hm hw
  have hx : (sf, n) ∈ l.zipIdx := List.mem_zipIdx_iff_getElem?.2 hs
  obtain ⟨s', h1, h2⟩ := run_flatMap_sole C (L := l.zipIdx)
    (f := fun x => loopOver (sibcLim x.1) fun i j k => sibcEBlock x.2 x.1 (i, j, k)) hx (nodup_zipIdx l)
    (S := mineF n (sibcRel sf t)) (by
      intro y hy hne m' hm'
      refine NoWrite.loop fun i j k _ => other_face hm' (Or.inl ?_)
      intro he
      apply hne
      have := List.mem_zipIdx_iff_getElem?.1 hy
      rw [he, hs] at this
      exact Prod.ext (by simpa using this.symm) he) s
  have h3 := run_loop_sole C (lim := sibcLim sf) (body := fun i j k => sibcEBlock n sf (i, j, k)) ht
    (S := mineF n (sibcRel sf t)) (by
      intro i j k hne m' hm'
      refine other_face hm' (Or.inr ?_)
      intro he
      apply hne
      simp only [sibcRel, Prod.mk.injEq] at he
      exact Prod.ext (by simp; omega) (Prod.ext (by simp; omega) (by simp; omega)))
    (reads_sibcE n sf t) s' m hm hw
  unfold updateSibcE
  rw [h2 m hm, h3]
  exact exec_congr C (fun l hl => h1 l (reads_sibcE n sf t l hl)) hw

/-! ### New values -/

theorem tgt_unique (n : Nat) (sf : SibcSurf) (t : Int × Int × Int) (a : Asg) (ha : a ∈ sibcEBlock n sf t)
    (hk : a.tgt.kind ≠ .fld) : ∀ a' ∈ sibcEBlock n sf t, a'.tgt = a.tgt → a' = a := by
  intro a' ha' e
  simp only [sibcEBlock, List.mem_append, List.mem_cons, List.mem_flatMap, List.mem_map, List.not_mem_nil, or_false] at ha ha'
  rcases ha with ((rfl | rfl | rfl | rfl) | ⟨m, _, rfl⟩) | ⟨p, _, q, _, rfl | ⟨m, _, rfl | rfl⟩⟩
  · exact absurd rfl hk
  · exact absurd rfl hk
  · exact absurd rfl hk
  · exact absurd rfl hk
  all_goals
    rcases ha' with ((rfl | rfl | rfl | rfl) | ⟨m', _, rfl⟩) | ⟨p', _, q', _, rfl | ⟨m', _, rfl | rfl⟩⟩ <;>
      simp only [fldAt, Loc.et.injEq, Loc.rz.injEq, Loc.ro.injEq, reduceCtorEq, Bool.false_eq_true, false_and, true_and,
        and_true] at e
    all_goals first
      | (subst e; rfl)
      | (obtain ⟨rfl, rfl, rfl⟩ := e; rfl)

section vals
variable {C : CRef → ℝ} {l : List SibcSurf} {n : Nat} {sf : SibcSurf} (hs : l[n]? = some sf)
    {t : Int × Int × Int} (ht : InLim (sibcLim sf) t.1 t.2.1 t.2.2) (s : Loc → ℝ)
include hs ht

theorem asg_val {a : Asg} (ha : a ∈ sibcEBlock n sf t) (hm : a.tgt ∈ mineF n (sibcRel sf t)) (hk : a.tgt.kind ≠ .fld) :
    Prog.run C (updateSibcE l) s a.tgt = a.rhs.eval C s := by
  rw [sibc_run C hs ht s a.tgt hm (List.mem_map.2 ⟨a, ha, rfl⟩), exec_of_mem C ha (tgt_unique n sf t a ha hk)]

theorem upd_zeta {p q m : Nat} (hp : p < 4) (hq : q < 4) (hm : m < sf.numPoles p q) (im : Bool) :
    Prog.run C (updateSibcE l) s (.rz im n p q m (sibcRel sf t).1 (sibcRel sf t).2.1 (sibcRel sf t).2.2) =
      (rcZeta im n p q m (sibcRel sf t) (sibcHin n sf t q)).eval C s := by
  refine asg_val hs ht s (a := ⟨.rz im n p q m (sibcRel sf t).1 (sibcRel sf t).2.1 (sibcRel sf t).2.2,
    rcZeta im n p q m (sibcRel sf t) (sibcHin n sf t q)⟩) ?_ (Or.inr (Or.inl ⟨_, _, _, _, rfl⟩)) (by simp [Loc.kind])
  simp only [sibcEBlock, List.mem_append, List.mem_cons, List.mem_flatMap, List.mem_map, List.mem_range,
    List.not_mem_nil, or_false]
  refine Or.inr ⟨p, hp, q, hq, Or.inr ⟨m, hm, ?_⟩⟩
  cases im <;> simp

theorem upd_old {p q : Nat} (hp : p < 4) (hq : q < 4) :
    Prog.run C (updateSibcE l) s (.ro n p q (sibcRel sf t).1 (sibcRel sf t).2.1 (sibcRel sf t).2.2) =
      (sibcHin n sf t q).eval C s := by
  refine asg_val hs ht s (a := ⟨.ro n p q (sibcRel sf t).1 (sibcRel sf t).2.1 (sibcRel sf t).2.2, sibcHin n sf t q⟩) ?_
    (Or.inr (Or.inr (Or.inl ⟨_, _, rfl⟩))) (by simp [Loc.kind])
  simp only [sibcEBlock, List.mem_append, List.mem_cons, List.mem_flatMap, List.mem_map, List.mem_range,
    List.not_mem_nil, or_false]
  exact Or.inr ⟨p, hp, q, hq, Or.inl rfl⟩

theorem upd_et {m : Nat} (hm : m < 4) :
    Prog.run C (updateSibcE l) s (.et n m (sibcRel sf t).1 (sibcRel sf t).2.1 (sibcRel sf t).2.2) =
      ((List.range 4).map fun p => C (.sibB n m p) * ((List.range 4).map fun q =>
        (rcOut n p q (sf.numPoles p q) (sibcRel sf t) (sibcHin n sf t q)).eval C s).sum).sum := by
  rw [asg_val hs ht s (a := ⟨.et n m (sibcRel sf t).1 (sibcRel sf t).2.1 (sibcRel sf t).2.2,
    Expr.sum ((List.range 4).map fun p => Expr.mul (.sibB n m p) (Expr.sum ((List.range 4).map fun q =>
      rcOut n p q (sf.numPoles p q) (sibcRel sf t) (sibcHin n sf t q))))⟩) ?_ (Or.inl ⟨_, rfl⟩) (by simp [Loc.kind])]
  · simp only [eval_sum, List.map_map]
    congr 1
    apply List.map_congr_left
    intro p _
    simp only [Function.comp, Expr.eval, eval_sum, List.map_map]
    congr 2
  · simp only [sibcEBlock, List.mem_append, List.mem_cons, List.mem_flatMap, List.mem_map, List.mem_range,
      List.not_mem_nil, or_false]
    exact Or.inl (Or.inr ⟨m, hm, rfl⟩)
end vals

section step
variable {S : Sim} {C : CRef → ℝ} {T : ℝ} {pr : Nat → Nat → PoleResidue} {n : Nat} {sf : SibcSurf}
  {t : Int × Int × Int} (hf : SibcFace S C T pr n sf t)
include hf

/-- The filter part of the memory. -/
theorem filt_update {p q : Nat} (hp : p < 4) (hq : q < 4) (s : Loc → ℝ) :
    filt (Prog.run C (updateSibcE S.sibc) s) n p q (pr p q).terms.length (sibcRel sf t) =
      ((toRecConv (pr p q) T).step (filt s n p q (pr p q).terms.length (sibcRel sf t)) (faceH C n sf.normal t s q)).1 := by
  have h1 := hf.num p hp q hq
  unfold filt RecConv.step
  simp only
  rw [upd_old hf.surf hf.face s hp hq, hin_eval]
  congr 1
  apply List.ext_getElem
  · simp [toRecConv]
  · intro m h2 h3
    have hm : m < (pr p q).terms.length := by simpa using h2
    obtain ⟨e0, e1, e2⟩ := hf.rcq p hp q hq m hm
    simp only [List.getElem_map, List.getElem_range, List.getElem_zipWith, toRecConv, ← e0, ← e1, ← e2]
    rw [upd_zeta hf.surf hf.face s hp hq (by omega) false, upd_zeta hf.surf hf.face s hp hq (by omega) true]
    apply Complex.ext <;> simp [rcZeta, Expr.eval, hin_eval]

/-- The returned value of one filter. -/
theorem out_value {p q : Nat} (hp : p < 4) (hq : q < 4) (s : Loc → ℝ) :
    (rcOut n p q (sf.numPoles p q) (sibcRel sf t) (sibcHin n sf t q)).eval C s =
      ((toRecConv (pr p q) T).step (filt s n p q (pr p q).terms.length (sibcRel sf t)) (faceH C n sf.normal t s q)).2 := by
  have key : ∀ (L : List Expr) (e : Expr), (L.foldl Expr.add e).eval C s = e.eval C s + (L.map fun e => e.eval C s).sum := by
    intro L
    induction L with
    | nil => intro e; simp
    | cons a L ih => intro e; rw [List.foldl_cons, ih]; simp [Expr.eval, add_assoc]
  have hs2 : ∀ (rc : RecConv) (s : RecState) (v : ℝ), (rc.step s v).2 = rc.asymp * v + ((rc.step s v).1.zeta.sum).re := by
    intro rc s v; exact foldl_re _ _
  rw [hs2, ← filt_update hf hp hq, rcOut, key, hf.num p hp q hq]
  simp only [Expr.eval, hf.rca p hp q hq, hin_eval, List.map_map, filt]
  congr 1
  have hre : ∀ L : List ℂ, L.sum.re = (L.map Complex.re).sum := by
    intro L
    induction L with
    | nil => simp
    | cons a L ih => simp [ih]
  rw [hre, List.map_map]
  congr 1
  apply List.map_congr_left
  intro m hm
  have hm' : m < sf.numPoles p q := by rw [hf.num p hp q hq]; simpa using hm
  simp only [Function.comp]
  rw [upd_zeta hf.surf hf.face s hp hq hm' false]

/-- Only the surface update touches the surface memory. -/
theorem step_mem {m : Loc} (hm : m.kind = .et ∨ m.kind = .filt) (s : Loc → ℝ) :
    S.step.run C s m = Prog.run C (updateSibcE S.sibc) (Prog.run C
      (updatePmlEfield S.cfg ++ updateMurEfield S.cfg ++ updateGridEfield S.cfg ++ updateDebye S.debye) s) m := by
  have e : S.step = (updatePmlEfield S.cfg ++ updateMurEfield S.cfg ++ updateGridEfield S.cfg ++ updateDebye S.debye) ++
      (updateSibcE S.sibc ++ (updateSourcesE S.srcs ++ updatePlaneWavesE S.cfg S.pws ++
        updateGhostEfield S.cfg ++ S.stepH)) := by
    simp only [Sim.step, Sim.stepE, List.append_assoc]
  have k : m.kind ∉ [LKind.fld, .pml, .aux, .dj, .dl] := by
    rcases hm with h | h <;> rw [h] <;> decide
  have hn : NoWrite (updateSourcesE S.srcs ++ updatePlaneWavesE S.cfg S.pws ++
        updateGhostEfield S.cfg ++ S.stepH) m := by
    refine NoWrite.append (NoWrite.append (NoWrite.append ?_ ?_) ?_) ?_
    · exact ((wo_srcE S.srcs).mono (by decide)).noWrite k
    · exact ((wo_pwE S.cfg S.pws).mono (by decide)).noWrite k
    · exact ((wo_ghost S.cfg ghostEcomps).mono (by decide)).noWrite k
    · refine NoWrite.append (NoWrite.append (NoWrite.append (NoWrite.append (NoWrite.append (NoWrite.append ?_ ?_) ?_) ?_) ?_) ?_) ?_
      · exact ((wo_pmlH S.cfg).mono (by decide)).noWrite k
      · exact ((wo_murH S.cfg).mono (by decide)).noWrite k
      · exact ((wo_gridH S.cfg).mono (by decide)).noWrite k
      · exact ((wo_sibcH S.sibc).mono (by decide)).noWrite k
      · exact ((wo_srcH S.srcs).mono (by decide)).noWrite k
      · exact ((wo_pwH S.cfg S.pws).mono (by decide)).noWrite k
      · exact ((wo_ghost S.cfg ghostHcomps).mono (by decide)).noWrite k
  rw [e, run_append, run_append, NoWrite.run C hn]

theorem core_same {m : Loc} (hm : m.kind = .filt ∨ ∃ a : Axis, ∃ x y z, m = .fld a.h x y z) (s : Loc → ℝ) :
    Prog.run C (updatePmlEfield S.cfg ++ updateMurEfield S.cfg ++ updateGridEfield S.cfg ++ updateDebye S.debye) s m = s m := by
  rcases hm with h | ⟨a, x, y, z, rfl⟩
  · have k : m.kind ∉ [LKind.fld, .pml, .dj, .dl] := by rw [h]; decide
    exact NoWrite.run C (((((wo_pmlE S.cfg).mono (by decide)).noWrite k).append
      (((wo_murE S.cfg).mono (by decide)).noWrite k) |>.append (((wo_gridE S.cfg).mono (by decide)).noWrite k)).append
      (((wo_debye S.debye).mono (by decide)).noWrite k)) s
  · have ha : (a.h).isE = false := by cases a <;> rfl
    exact NoWrite.run C ((noH_core ha _ _ _ S.cfg).append (noH_debye ha _ _ _ S.debye)) s

theorem faceH_core (s : Loc → ℝ) (q : Nat) :
    faceH C n sf.normal t (Prog.run C (updatePmlEfield S.cfg ++ updateMurEfield S.cfg ++ updateGridEfield S.cfg ++
      updateDebye S.debye) s) q = faceH C n sf.normal t s q := by
  have h : ∀ (a : Axis) (t : Int × Int × Int), Prog.run C (updatePmlEfield S.cfg ++ updateMurEfield S.cfg ++
      updateGridEfield S.cfg ++ updateDebye S.debye) s (fldAt a.h t) = s (fldAt a.h t) :=
    fun a t => core_same hf (Or.inr ⟨a, _, _, _, rfl⟩) s
  simp only [faceH, h]

theorem filt_core (s : Loc → ℝ) (p q np : Nat) (r : Int × Int × Int) :
    filt (Prog.run C (updatePmlEfield S.cfg ++ updateMurEfield S.cfg ++ updateGridEfield S.cfg ++ updateDebye S.debye) s)
      n p q np r = filt s n p q np r := by
  have h1 : ∀ im m x y z, Prog.run C (updatePmlEfield S.cfg ++ updateMurEfield S.cfg ++ updateGridEfield S.cfg ++
      updateDebye S.debye) s (.rz im n p q m x y z) = s (.rz im n p q m x y z) :=
    fun im m x y z => core_same hf (Or.inl rfl) s
  have h2 : ∀ x y z, Prog.run C (updatePmlEfield S.cfg ++ updateMurEfield S.cfg ++ updateGridEfield S.cfg ++
      updateDebye S.debye) s (.ro n p q x y z) = s (.ro n p q x y z) := fun x y z => core_same hf (Or.inl rfl) s
  simp only [filt, h1, h2]

theorem filt_step {p q : Nat} (hp : p < 4) (hq : q < 4) (s : Loc → ℝ) :
    filt (S.step.run C s) n p q (pr p q).terms.length (sibcRel sf t) =
      ((toRecConv (pr p q) T).step (filt s n p q (pr p q).terms.length (sibcRel sf t)) (faceH C n sf.normal t s q)).1 := by
  have h1 : ∀ im m x y z, S.step.run C s (.rz im n p q m x y z) = _ := fun im m x y z => step_mem hf (Or.inr rfl) s
  have h2 : ∀ x y z, S.step.run C s (.ro n p q x y z) = _ := fun x y z => step_mem hf (Or.inr rfl) s
  have h3 := filt_update hf hp hq (Prog.run C (updatePmlEfield S.cfg ++ updateMurEfield S.cfg ++ updateGridEfield S.cfg ++
      updateDebye S.debye) s)
  rw [filt_core hf, faceH_core hf] at h3
  rw [← h3]
  simp only [filt, h1, h2]

theorem et_step {m : Nat} (hm : m < 4) (s : Loc → ℝ) :
    S.step.run C s (.et n m (sibcRel sf t).1 (sibcRel sf t).2.1 (sibcRel sf t).2.2) =
      ((List.range 4).map fun p => C (.sibB n m p) * ((List.range 4).map fun q =>
        ((toRecConv (pr p q) T).step (filt s n p q (pr p q).terms.length (sibcRel sf t)) (faceH C n sf.normal t s q)).2).sum).sum := by
  rw [step_mem hf (Or.inl rfl), upd_et hf.surf hf.face _ hm]
  congr 1
  apply List.map_congr_left
  intro p hp
  congr 2
  apply List.map_congr_left
  intro q hq
  rw [out_value hf (by simpa using hp) (by simpa using hq), filt_core hf, faceH_core hf]

/-- The magnetic field seen by the face in the first `N` steps. -/
noncomputable def history (S : Sim) (C : CRef → ℝ) (u : Nat → Loc → ℝ) (n : Nat) (normal : Axis) (t : Int × Int × Int) (q N : Nat) :
    List ℝ :=
  (List.range N).map fun k => faceH C n normal t (S.state C u (fun _ => 0) k) q

omit hf in
theorem faceH_inputs (C : CRef → ℝ) (n : Nat) (normal : Axis) (t : Int × Int × Int) (w s : Loc → ℝ) (q : Nat) :
    faceH C n normal t (setInputs w s) q = faceH C n normal t s q := rfl

theorem filt_state (u : Nat → Loc → ℝ) {p q : Nat} (hp : p < 4) (hq : q < 4) (M N : Nat) (h : N ≤ M) :
    filt (S.state C u (fun _ => 0) N) n p q (pr p q).terms.length (sibcRel sf t) =
      stateAt (toRecConv (pr p q) T) (history S C u n sf.normal t q M) N := by
  induction N with
  | zero =>
    simp only [filt, Sim.state, stateAt, RecConv.init, toRecConv, List.map_map]
    congr 1
    apply List.ext_getElem
    · simp
    · intro m _ _; simp [Complex.ext_iff]
  | succ N ih =>
    have hi : ∀ w (s : Loc → ℝ) np r, filt (setInputs w s) n p q np r = filt s n p q np r := fun _ _ _ _ => rfl
    simp only [Sim.state, stateAt]
    rw [filt_step hf hp hq, hi, ih (by omega), faceH_inputs]
    congr 2
    simp [history, List.getD_eq_getElem?_getD, List.getElem?_map, List.getElem?_range (show N < M by omega)]

/-- **C25** for whole runs: after every step of a run started from rest, the electric field stored at a face of an
impedance surface is the (turned) matrix of the exact responses of the declared pole-residue functions to the
piecewise-linear interpolants of the magnetic field at the face since the start. -/
theorem surface_convolution (hT : 0 < T) (hp : ∀ p < 4, ∀ q < 4, ∀ a ∈ (pr p q).terms, a.1 ≠ 0)
    (u : Nat → Loc → ℝ) (N : Nat) {m : Nat} (hm : m < 4) :
    S.state C u (fun _ => 0) (N + 1) (.et n m (sibcRel sf t).1 (sibcRel sf t).2.1 (sibcRel sf t).2.2) =
      ∑ p ∈ Finset.range 4, C (.sibB n m p) * ∑ q ∈ Finset.range 4,
        response (pr p q).asymp (pr p q).terms (interp T (history S C u n sf.normal t q (N + 1))) ((N + 1 : ℕ) * T) := by
  have e := et_step hf hm (setInputs (u N) (S.state C u (fun _ => 0) N))
  have hi : ∀ w (s : Loc → ℝ) p q np r, filt (setInputs w s) n p q np r = filt s n p q np r := fun _ _ _ _ _ _ => rfl
  simp only [Sim.state]
  rw [e]
  have hsum : ∀ f : ℕ → ℝ, ((List.range 4).map f).sum = ∑ p ∈ Finset.range 4, f p := by
    intro f; simp [List.range_succ, Finset.sum_range_succ]; ring
  rw [hsum]
  apply Finset.sum_congr rfl
  intro p hp'
  rw [hsum]
  congr 1
  apply Finset.sum_congr rfl
  intro q hq'
  have hp4 : p < 4 := by simpa using hp'
  have hq4 : q < 4 := by simpa using hq'
  have hs2 : ∀ (rc : RecConv) (s : RecState) (v : ℝ), (rc.step s v).2 = rc.asymp * v + ((rc.step s v).1.zeta.sum).re := by
    intro rc s v; exact foldl_re _ _
  rw [hi, faceH_inputs, filt_state hf u hp4 hq4 (N + 1) N (by omega), hs2, response_eq _ _ T hT]
  have hx : (history S C u n sf.normal t q (N + 1)).getD N 0 = faceH C n sf.normal t (S.state C u (fun _ => 0) N) q := by
    simp [history, List.getD_eq_getElem?_getD, List.getElem?_map, List.getElem?_range (show N < N + 1 by omega)]
  have hz := stateAt_zeta (pr p q) T hT (hp p hp4 q hq4) (history S C u n sf.normal t q (N + 1)) (N + 1)
  simp only [stateAt, hx] at hz
  rw [hz]
  simp only [sampleVal, hx]
  rfl
end step

/-! ### A concrete case -/

/-- A 4x4x4 box with a one-face surface in the middle. -/
def exCfgS : Cfg := ⟨fun _ => 4, fun _ => .pmc, fun _ => 0⟩
def exSurf : SibcSurf where
  normal := .x
  gbbox := fun f => match f with
    | .xlo => 2 | .xhi => 3 | .ylo => 2 | .yhi => 3 | .zlo => 2 | .zhi => 3
  numPoles := fun p q => if p = q then 1 else 0
noncomputable def exPr (p q : Nat) : PoleResidue := if p = q then ⟨2, [(-1, 3)]⟩ else ⟨0, []⟩
noncomputable def exCS : CRef → ℝ
  | .rca _ p q => (exPr p q).asymp
  | .rcq im j _ _ _ _ =>
    let z := if j = 0 then (toRCq 1 (-1, 3)).q0 else if j = 1 then (toRCq 1 (-1, 3)).q1 else (toRCq 1 (-1, 3)).q2
    if im then z.im else z.re
  | _ => 1

/-- Non-vacuity: the hypotheses hold for that surface, whose diagonal responses have a pole at -1. -/
theorem ex_face : SibcFace ⟨exCfgS, [], [exSurf], [], []⟩ exCS 1 exPr 0 exSurf (2, 2, 2) where
  surf := rfl
  face := by unfold InLim; decide
  num := by intro p _ q _; simp only [exSurf, exPr]; split <;> rfl
  rca := by intro p _ q _; rfl
  rcq := by
    intro p _ q _ m hm
    by_cases h : p = q
    · have h0 : m = 0 := by simpa [exPr, h] using hm
      subst h0 h
      simp [exCS, exPr, Complex.ext_iff]
    · simp [exPr, h] at hm

example (u : Nat → Loc → ℝ) (N : Nat) :=
  surface_convolution ex_face one_pos (by
    intro p _ q _ a ha
    by_cases h : p = q
    · simp only [exPr, h, if_true, List.mem_singleton] at ha; subst ha; simp
    · simp [exPr, h] at ha) u N (show 1 < 4 by decide)

end Vulture.C25
