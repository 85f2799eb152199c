import Verif.Props.C08_Bounds
import Verif.Props.C31_Aux
import Verif.Spec.Items
/-
C08 for the whole time step: Debye blocks, impedance sheets, sources and plane waves touch only allocated elements.
-/
set_option linter.unusedSimpArgs false
set_option linter.unusedVariables false
namespace Vulture.C08
open Spec PlaneWave

theorem simSafe_append {S : Sim} {p q : Prog} (hp : SimSafe S p) (hq : SimSafe S q) : SimSafe S (p ++ q) := by
  intro b hb
  rcases List.mem_append.1 hb with h | h
  · exact hp b h
  · exact hq b h

theorem simSafe_flatMap {S : Sim} {α : Type*} {l : List α} {g : α → Prog} (h : ∀ x ∈ l, SimSafe S (g x)) :
    SimSafe S (l.flatMap g) := by
  intro b hb
  obtain ⟨f, hf, hb⟩ := List.mem_flatMap.1 hb
  exact h f hf b hb

theorem simSafe_nil {S : Sim} : SimSafe S [] := by intro b hb; cases hb

theorem simSafe_loop {S : Sim} {lim : Face → Int} {body : Int → Int → Int → Block}
    (h : ∀ i j k, InLim lim i j k →
      (∀ l ∈ (body i j k).writes, SAllocated S l) ∧ (∀ l ∈ (body i j k).reads, SAllocated S l) ∧
      (∀ r ∈ (body i j k).coefs, SCAllocated S r)) : SimSafe S (loopOver lim body) := by
  unfold SimSafe; rw [forall_loopOver]; exact h

/-- Elements of the grid arrays. -/
theorem allocated_lift {S : Sim} {l : Loc} (h : Allocated S.cfg l) : SAllocated S l := by
  cases l <;> first | exact h | exact h.elim

theorem callocated_lift {S : Sim} {r : CRef} (h : CAllocated S.cfg r) : SCAllocated S r := by
  cases r <;> first | exact h | exact h.elim

theorem safe_lift {S : Sim} {p : Prog} (h : Safe S.cfg p) : SimSafe S p := fun b hb =>
  ⟨fun l hl => allocated_lift ((h b hb).1 l hl), fun l hl => allocated_lift ((h b hb).2.1 l hl),
    fun r hr => callocated_lift ((h b hb).2.2 r hr)⟩

theorem zipIdx_get {α : Type*} {l : List α} {x : α × Nat} (h : x ∈ l.zipIdx) : l[x.2]? = some x.1 := by
  obtain ⟨a, n⟩ := x
  have := List.mem_zipIdx' h
  simp only at this ⊢
  rw [List.getElem?_eq_getElem this.1]
  exact congrArg some this.2.symm

theorem zipIdx_mem {α : Type*} {l : List α} {x : α × Nat} (h : x ∈ l.zipIdx) : x.1 ∈ l :=
  List.mem_of_getElem? (zipIdx_get h)

theorem zipIdx_lt {α : Type*} {l : List α} {x : α × Nat} (h : x ∈ l.zipIdx) : x.2 < l.length := by
  have := zipIdx_get h
  rw [List.getElem?_eq_some_iff] at this
  exact this.1

theorem within_trans {a b c : BBox} (h : Within a b) (h' : Within b c) : Within a c := fun x =>
  ⟨le_trans (h' x).1 (h x).1, le_trans (h x).2 (h' x).2⟩

/-! ### Expressions as predicates -/

/-- All reads and coefficients of an expression are allocated. -/
def EOk (S : Sim) (e : Expr) : Prop := (∀ l ∈ e.reads, SAllocated S l) ∧ ∀ r ∈ e.coefs, SCAllocated S r

theorem eok_zero {S : Sim} : EOk S .zero := ⟨by simp [Expr.reads], by simp [Expr.coefs]⟩
theorem eok_rd {S : Sim} {l : Loc} (h : SAllocated S l) : EOk S (.rd l) :=
  ⟨by simp [Expr.reads, h], by simp [Expr.coefs]⟩
theorem eok_add {S : Sim} {a b : Expr} (ha : EOk S a) (hb : EOk S b) : EOk S (.add a b) := by
  constructor <;> intro x hx <;> rcases List.mem_append.1 hx with h | h
  exacts [ha.1 x h, hb.1 x h, ha.2 x h, hb.2 x h]
theorem eok_sub {S : Sim} {a b : Expr} (ha : EOk S a) (hb : EOk S b) : EOk S (.sub a b) := by
  constructor <;> intro x hx <;> rcases List.mem_append.1 hx with h | h
  exacts [ha.1 x h, hb.1 x h, ha.2 x h, hb.2 x h]
theorem eok_mul {S : Sim} {c : CRef} {e : Expr} (hc : SCAllocated S c) (h : EOk S e) : EOk S (.mul c e) := by
  constructor
  · exact h.1
  · intro x hx
    rcases List.mem_cons.1 hx with rfl | hx
    exacts [hc, h.2 x hx]
theorem eok_foldl {S : Sim} {l : List Expr} {z : Expr} (hz : EOk S z) (h : ∀ e ∈ l, EOk S e) :
    EOk S (l.foldl Expr.add z) := by
  induction l generalizing z with
  | nil => exact hz
  | cons a l ih => exact ih (eok_add hz (h a (by simp))) (fun e he => h e (by simp [he]))
theorem eok_sum {S : Sim} {l : List Expr} (h : ∀ e ∈ l, EOk S e) : EOk S (Expr.sum l) := eok_foldl eok_zero h

/-- All elements of a block. -/
def BOk (S : Sim) (b : Block) : Prop :=
  (∀ l ∈ b.writes, SAllocated S l) ∧ (∀ l ∈ b.reads, SAllocated S l) ∧ (∀ r ∈ b.coefs, SCAllocated S r)

theorem bok_iff {S : Sim} {b : Block} : BOk S b ↔ ∀ a ∈ b, SAllocated S a.tgt ∧ EOk S a.rhs := by
  simp only [BOk, EOk, Block.writes, Block.reads, Block.coefs, List.mem_map, List.mem_flatMap]
  constructor
  · intro h a ha
    exact ⟨h.1 _ ⟨a, ha, rfl⟩, fun l hl => h.2.1 l ⟨a, ha, hl⟩, fun r hr => h.2.2 r ⟨a, ha, hr⟩⟩
  · intro h
    refine ⟨?_, ?_, ?_⟩
    · rintro l ⟨a, ha, rfl⟩; exact (h a ha).1
    · rintro l ⟨a, ha, hl⟩; exact (h a ha).2.1 l hl
    · rintro r ⟨a, ha, hr⟩; exact (h a ha).2.2 r hr

theorem simSafe_loop' {S : Sim} {lim : Face → Int} {body : Int → Int → Int → Block}
    (h : ∀ i j k, InLim lim i j k → ∀ a ∈ body i j k, SAllocated S a.tgt ∧ EOk S a.rhs) :
    SimSafe S (loopOver lim body) := simSafe_loop fun i j k hi => bok_iff.2 (h i j k hi)

/-- C08, Debye blocks. -/
theorem updateDebye_safe {S : Sim} (h : ValidSim S) : SimSafe S (updateDebye S.debye) := by
  refine simSafe_flatMap fun x hx => simSafe_flatMap fun fc hfc => simSafe_loop' fun i j k hi => ?_
  obtain ⟨b, mask, hb, hf⟩ := h.debye _ (zipIdx_mem hx)
  have hi' := hi
  rw [hf] at hi'
  have L := lim_facts h.cfg b (within_trans hb (gibox_within h.cfg)) _ _ hi'
  have hE : fc.isE = true := by
    simp only [List.mem_cons, List.not_mem_nil, or_false] at hfc
    rcases hfc with rfl | rfl | rfl <;> rfl
  have G : InGrid S.cfg i j k := ⟨⟨by omega, by omega⟩, ⟨by omega, by omega⟩, ⟨by omega, by omega⟩⟩
  have D : InDebye S.debye x.2 fc (i - x.1.flim fc .xlo) (j - x.1.flim fc .ylo) (k - x.1.flim fc .zlo) := by
    refine ⟨x.1, zipIdx_get hx, hE, ?_⟩
    unfold InLim at hi
    omega
  have P : ∀ p ∈ List.range x.1.numPoles, ∃ d, S.debye[x.2]? = some d ∧ p < d.numPoles := fun p hp =>
    ⟨x.1, zipIdx_get hx, List.mem_range.1 hp⟩
  have F : EOk S (.rd (.fld fc i j k)) := eok_rd (show SAllocated S (.fld fc i j k) from G)
  have J : ∀ im p, p ∈ List.range x.1.numPoles → EOk S (.rd (.dj im x.2 p fc (i - x.1.flim fc .xlo)
      (j - x.1.flim fc .ylo) (k - x.1.flim fc .zlo))) := fun im p hp => eok_rd ⟨D, P p hp⟩
  have A : ∀ im p, p ∈ List.range x.1.numPoles → SCAllocated S (.dal im x.2 p) := fun im p hp => P p hp
  have N : EOk S (debyeE x.2 x.1.numPoles fc i j k (i - x.1.flim fc .xlo) (j - x.1.flim fc .ylo) (k - x.1.flim fc .zlo)) := by
    refine eok_sub F (eok_mul (show SCAllocated S (.beta fc i j k) from G) (eok_sum fun e he => ?_))
    obtain ⟨p, hp, rfl⟩ := List.mem_map.1 he
    exact eok_add (J _ p hp) (eok_sub (eok_mul (A _ p hp) (J _ p hp)) (eok_mul (A _ p hp) (J _ p hp)))
  have dE := eok_sub N (eok_rd (S := S) (l := .dl x.2 fc (i - x.1.flim fc .xlo) (j - x.1.flim fc .ylo) (k - x.1.flim fc .zlo)) D)
  intro a ha
  simp only [debyeBlock, List.mem_cons, List.mem_flatMap, List.not_mem_nil, or_false] at ha
  rcases ha with rfl | rfl | ⟨p, hp, rfl | rfl⟩
  · exact ⟨G, N⟩
  · exact ⟨D, N⟩
  · exact ⟨⟨D, P p hp⟩, eok_add (eok_sub (eok_mul (A _ p hp) (J _ p hp)) (eok_mul (A _ p hp) (J _ p hp)))
      (eok_mul (show SCAllocated S (.dbe _ _ _) from P p hp) dE)⟩
  · exact ⟨⟨D, P p hp⟩, eok_add (eok_add (eok_mul (A _ p hp) (J _ p hp)) (eok_mul (A _ p hp) (J _ p hp)))
      (eok_mul (show SCAllocated S (.dbe _ _ _) from P p hp) dE)⟩

/-! ### Sources -/

theorem src_safe {S : Sim} (h : ValidSim S) {x : Src × Nat} (hx : x ∈ S.srcs.zipIdx) (fc : Fc)
    {i j k : Int} (hi : InLim (x.1.flim fc) i j k) : InGrid S.cfg i j k ∧ x.2 < S.srcs.length := by
  have L := lim_facts h.cfg _ (within_trans (h.srcs _ (zipIdx_mem hx)) (gibox_within h.cfg)) _ _ hi
  exact ⟨⟨⟨by omega, by omega⟩, ⟨by omega, by omega⟩, ⟨by omega, by omega⟩⟩, zipIdx_lt hx⟩

/-- C08, sources. -/
theorem updateSourcesE_safe {S : Sim} (h : ValidSim S) : SimSafe S (updateSourcesE S.srcs) := by
  refine simSafe_flatMap fun x hx => ?_
  split
  · refine simSafe_loop' fun i j k hi a ha => ?_
    obtain ⟨G, n⟩ := src_safe h hx _ hi
    have F : EOk S (.mul (.soft x.2) (.rd (.fld x.1.field i j k))) :=
      eok_mul (show SCAllocated S (.soft _) from n) (eok_rd (show SAllocated S (.fld _ i j k) from G))
    have I : EOk S (.rd (.src false x.2)) := eok_rd (show SAllocated S (.src _ _) from n)
    unfold srcEBlock at ha
    dsimp only at ha
    split at ha <;> (rw [List.mem_singleton] at ha; subst ha)
    · exact ⟨G, eok_add F I⟩
    · exact ⟨G, eok_sub F (eok_mul (show SCAllocated S (.beta _ i j k) from G) I)⟩
  · exact simSafe_nil

/-- C08, sources. -/
theorem updateSourcesH_safe {S : Sim} (h : ValidSim S) : SimSafe S (updateSourcesH S.srcs) := by
  refine simSafe_flatMap fun x hx => ?_
  split
  · refine simSafe_loop' fun i j k hi a ha => ?_
    obtain ⟨G, n⟩ := src_safe h hx _ hi
    have F : EOk S (.mul (.soft x.2) (.rd (.fld x.1.field i j k))) :=
      eok_mul (show SCAllocated S (.soft _) from n) (eok_rd (show SAllocated S (.fld _ i j k) from G))
    have I : EOk S (.rd (.src true x.2)) := eok_rd (show SAllocated S (.src _ _) from n)
    unfold srcHBlock at ha
    dsimp only at ha
    split at ha <;> (rw [List.mem_singleton] at ha; subst ha)
    · exact ⟨G, eok_add F I⟩
    · exact ⟨G, eok_sub F (eok_mul (show SCAllocated S (.gamma _ i j k) from G) I)⟩
  · exact simSafe_nil

/-! ### Impedance sheets -/

/-- A grid point of the field arrays. -/
def PIn (S : Sim) (t : Int × Int × Int) : Prop := ∀ a : Axis, 0 ≤ coord a t ∧ coord a t < S.cfg.numCells a

theorem pin_grid {S : Sim} {t : Int × Int × Int} (h : PIn S t) : InGrid S.cfg t.1 t.2.1 t.2.2 := ⟨h .x, h .y, h .z⟩

theorem coord_shift (a b : Axis) (d : Int) (t : Int × Int × Int) :
    coord a (shift b d t) = coord a t + if a = b then d else 0 := by
  cases a <;> cases b <;> simp [coord, shift]

/-- Room around the faces of a sheet. -/
theorem sheet_facts {S : Sim} (h : ValidSim S) {s : SibcSurf} (hs : s ∈ S.sibc) {i j k : Int}
    (hi : InLim (sibcLim s) i j k) (a : Axis) :
    1 ≤ coord a (i, j, k) ∧ coord a (i, j, k) < S.cfg.numCells a ∧
    (a ≠ s.normal → coord a (i, j, k) + 1 < S.cfg.numCells a) ∧
    0 ≤ coord a (i, j, k) - s.gbbox a.lo ∧ coord a (i, j, k) - s.gbbox a.lo < sheetExtent s a := by
  obtain ⟨hw, ho, hn⟩ := h.sibc s hs
  have f := cfg_facts h.cfg a
  have w := hw a
  have n : s.normal = a → s.gbbox a.lo = s.gbbox a.hi := by rintro rfl; exact hn
  unfold InLim sibcLim at hi
  unfold sheetExtent
  by_cases e : a = s.normal
  · have := n e.symm
    rw [if_pos e]
    cases a <;> simp [Face.isLo, Face.axis, ← e, coord, Axis.lo, Axis.hi] at hi this w f ⊢ <;> omega
  · have e' : s.normal ≠ a := fun q => e q.symm
    rw [if_neg e]
    cases a <;> simp [Face.isLo, Face.axis, Ne.symm e', coord, Axis.lo, Axis.hi, e, e'] at hi w f ⊢ <;> omega

theorem next_ne (a : Axis) : a.next ≠ a ∧ a.next.next ≠ a ∧ a.next.next ≠ a.next := by cases a <;> decide

section sheet
variable {S : Sim} (h : ValidSim S) {s : SibcSurf} (hs : s ∈ S.sibc) {i j k : Int} (hi : InLim (sibcLim s) i j k)
include h hs hi

theorem sheet_pin : PIn S (i, j, k) := fun a => by have := sheet_facts h hs hi a; omega
theorem sheet_below (a : Axis) : PIn S (shift a (-1) (i, j, k)) := fun b => by
  have := sheet_facts h hs hi b
  rw [coord_shift]
  split <;> omega
theorem sheet_above {a : Axis} (ha : a ≠ s.normal) : PIn S (shift a 1 (i, j, k)) := fun b => by
  have := sheet_facts h hs hi b
  rw [coord_shift]
  split
  · rename_i e; have := this.2.2.1 (e ▸ ha); omega
  · omega
theorem sheet_below_above {a : Axis} (ha : a ≠ s.normal) (d : Axis) : PIn S (shift a 1 (shift d (-1) (i, j, k))) := fun b => by
  have := sheet_facts h hs hi b
  rw [coord_shift, coord_shift]
  by_cases e : b = a
  · have := this.2.2.1 (e ▸ ha); split_ifs <;> omega
  · rw [if_neg e]; split_ifs <;> omega

theorem sheet_rel {n : Nat} (hn : S.sibc[n]? = some s) :
    InSheet S.sibc n (sibcRel s (i, j, k)).1 (sibcRel s (i, j, k)).2.1 (sibcRel s (i, j, k)).2.2 := by
  have hx := sheet_facts h hs hi .x
  have hy := sheet_facts h hs hi .y
  have hz := sheet_facts h hs hi .z
  simp only [coord, Axis.lo] at hx hy hz
  exact ⟨s, hn, ⟨hx.2.2.2.1, hx.2.2.2.2⟩, ⟨hy.2.2.2.1, hy.2.2.2.2⟩, ⟨hz.2.2.2.1, hz.2.2.2.2⟩⟩

theorem sheet_on {n : Nat} (hn : S.sibc[n]? = some s) : OnSheet S.sibc n i j k :=
  ⟨s, hn, sheet_rel h hs hi hn⟩

end sheet

theorem eok_fld {S : Sim} {t : Int × Int × Int} (h : PIn S t) (fc : Fc) : EOk S (.rd (fldAt fc t)) :=
  eok_rd (show SAllocated S (.fld fc t.1 t.2.1 t.2.2) from pin_grid h)

theorem sall_fld {S : Sim} {t : Int × Int × Int} (h : PIn S t) (fc : Fc) : SAllocated S (fldAt fc t) :=
  show SAllocated S (.fld fc t.1 t.2.1 t.2.2) from pin_grid h

section sheetE
variable {S : Sim} (h : ValidSim S) {s : SibcSurf} (hs : s ∈ S.sibc) {i j k : Int} (hi : InLim (sibcLim s) i j k)
  {n : Nat} (hn : S.sibc[n]? = some s)
include h hs hi hn

theorem sheet_lt : n < S.sibc.length := by
  rw [List.getElem?_eq_some_iff] at hn
  exact hn.1

theorem htan_ok {q : Nat} (hq : q < 4) : EOk S (sibcHtan n s (i, j, k) q) := by
  have N := next_ne s.normal
  unfold sibcHtan
  refine eok_mul ⟨hq, sheet_on h hs hi hn⟩ ?_
  have ha : (if q < 2 then s.normal.next else s.normal.next.next) ≠ s.normal := by split <;> simp [N]
  generalize (if q < 2 then s.normal.next else s.normal.next.next) = a at ha ⊢
  split
  · exact eok_add (eok_fld (sheet_below h hs hi _) _) (eok_fld (sheet_below_above h hs hi ha _) _)
  · exact eok_add (eok_fld (sheet_pin h hs hi) _) (eok_fld (sheet_above h hs hi ha) _)

theorem hin_ok {p : Nat} (hp : p < 4) : EOk S (sibcHin n s (i, j, k) p) := by
  refine eok_sum fun e he => ?_
  obtain ⟨q, hq, rfl⟩ := List.mem_map.1 he
  exact eok_mul ⟨sheet_lt h hs hi hn, hp, List.mem_range.1 hq⟩ (htan_ok h hs hi hn (List.mem_range.1 hq))

theorem zeta_ok {p q m : Nat} (hp : p < 4) (hq : q < 4) (hm : m < s.numPoles p q) (im : Bool) {x : Expr} (hx : EOk S x) :
    EOk S (rcZeta im n p q m (sibcRel s (i, j, k)) x) := by
  have R := sheet_rel h hs hi hn
  have P : ∃ s, S.sibc[n]? = some s ∧ m < s.numPoles p q := ⟨s, hn, hm⟩
  have Z : ∀ im, EOk S (.rd (.rz im n p q m (sibcRel s (i, j, k)).1 (sibcRel s (i, j, k)).2.1 (sibcRel s (i, j, k)).2.2)) :=
    fun im => eok_rd ⟨hp, hq, R, P⟩
  have O : EOk S (.rd (.ro n p q (sibcRel s (i, j, k)).1 (sibcRel s (i, j, k)).2.1 (sibcRel s (i, j, k)).2.2)) :=
    eok_rd ⟨hp, hq, R⟩
  have Q : ∀ im m', m' < 3 → SCAllocated S (.rcq im m' n p q m) := fun im m' hm' => ⟨hm', hp, hq, P⟩
  unfold rcZeta
  refine eok_add (eok_add ?_ (eok_mul (Q _ _ (by omega)) O)) (eok_mul (Q _ _ (by omega)) hx)
  split
  · exact eok_add (eok_mul (Q _ _ (by omega)) (Z _)) (eok_mul (Q _ _ (by omega)) (Z _))
  · exact eok_sub (eok_mul (Q _ _ (by omega)) (Z _)) (eok_mul (Q _ _ (by omega)) (Z _))

theorem out_ok {p q : Nat} (hp : p < 4) (hq : q < 4) {x : Expr} (hx : EOk S x) :
    EOk S (rcOut n p q (s.numPoles p q) (sibcRel s (i, j, k)) x) := by
  refine eok_foldl (eok_mul ⟨sheet_lt h hs hi hn, hp, hq⟩ hx) fun e he => ?_
  obtain ⟨m, hm, rfl⟩ := List.mem_map.1 he
  exact zeta_ok h hs hi hn hp hq (List.mem_range.1 hm) _ hx

theorem sibcE_ok : ∀ a ∈ sibcEBlock n s (i, j, k), SAllocated S a.tgt ∧ EOk S a.rhs := by
  have N := next_ne s.normal
  have R := sheet_rel h hs hi hn
  intro a ha
  simp only [sibcEBlock, List.mem_append, List.mem_cons, List.not_mem_nil, or_false, List.mem_map, List.mem_flatMap,
    List.mem_range] at ha
  rcases ha with ((rfl | rfl | rfl | rfl) | ⟨m, hm, rfl⟩) | ⟨p, hp, q, hq, rfl | ⟨m, hm, rfl | rfl⟩⟩
  · exact ⟨sall_fld (sheet_pin h hs hi) _, eok_zero⟩
  · exact ⟨sall_fld (sheet_above h hs hi N.2.1) _, eok_zero⟩
  · exact ⟨sall_fld (sheet_pin h hs hi) _, eok_zero⟩
  · exact ⟨sall_fld (sheet_above h hs hi N.1) _, eok_zero⟩
  · refine ⟨⟨hm, R⟩, eok_sum fun e he => ?_⟩
    obtain ⟨p, hp, rfl⟩ := List.mem_map.1 he
    refine eok_mul ⟨sheet_lt h hs hi hn, hm, List.mem_range.1 hp⟩ (eok_sum fun e he => ?_)
    obtain ⟨q, hq, rfl⟩ := List.mem_map.1 he
    exact out_ok h hs hi hn (List.mem_range.1 hp) (List.mem_range.1 hq) (hin_ok h hs hi hn (List.mem_range.1 hq))
  · exact ⟨⟨hp, hq, R⟩, hin_ok h hs hi hn hq⟩
  · exact ⟨⟨hp, hq, R, s, hn, hm⟩, zeta_ok h hs hi hn hp hq hm _ (hin_ok h hs hi hn hq)⟩
  · exact ⟨⟨hp, hq, R, s, hn, hm⟩, zeta_ok h hs hi hn hp hq hm _ (hin_ok h hs hi hn hq)⟩

theorem corr_ok {neg : Bool} {fc : Fc} {t : Int × Int × Int} (ht : PIn S t) {w : CRef} (hw : SCAllocated S w) {e : Expr}
    (he : EOk S e) : SAllocated S (sibcCorr neg fc t w e).tgt ∧ EOk S (sibcCorr neg fc t w e).rhs := by
  refine ⟨sall_fld ht _, ?_⟩
  have D := eok_mul (show SCAllocated S (.gamma fc t.1 t.2.1 t.2.2) from pin_grid ht) (eok_mul hw he)
  unfold sibcCorr
  dsimp only
  split
  · exact eok_sub (eok_fld ht _) D
  · exact eok_add (eok_fld ht _) D

theorem d_ok {m : Nat} (hm : m < 4) (lower : Bool) :
    EOk S (sibcD n s (sibcRel s (i, j, k)) m (if lower then coord s.normal (i, j, k) - 1 else coord s.normal (i, j, k))) := by
  have f := sheet_facts h hs hi s.normal
  refine eok_mul ?_ (eok_rd ⟨hm, sheet_rel h hs hi hn⟩)
  show 0 ≤ _ ∧ _ < _
  split <;> omega

theorem adj_ok : ∀ a ∈ sibcAdj n s (i, j, k), SAllocated S a.tgt ∧ EOk S a.rhs := by
  have N := next_ne s.normal
  have O := sheet_on h hs hi hn
  have W : ∀ m, m < 4 → SCAllocated S (.sibW n m i j k) := fun m hm => ⟨hm, O⟩
  have X : ∀ f, f < 8 → SCAllocated S (.sibN n f i j k) := fun f hf => ⟨hf, O⟩
  have D := fun m hm => d_ok h hs hi hn (m := m) hm
  have pr : ∀ f mA mB, f < 4 → mA < 4 → mB < 4 → EOk S (.add (.mul (.sibN n f i j k) (sibcD n s (sibcRel s (i, j, k)) mA
      (coord s.normal (i, j, k) - 1))) (.mul (.sibN n (f + 4) i j k) (sibcD n s (sibcRel s (i, j, k)) mB
      (coord s.normal (i, j, k))))) := fun f mA mB hf hA hB =>
    eok_add (eok_mul (X f (by omega)) (D mA hA true)) (eok_mul (X (f + 4) (by omega)) (D mB hB false))
  have go : ∀ neg u w f mA mB, PIn S u → w < 4 → f < 4 → mA < 4 → mB < 4 → _ := fun neg u w f mA mB hu hw hf hA hB =>
    corr_ok h hs hi hn (neg := neg) (fc := s.normal.h) (t := u) hu (w := .half) trivial
      (eok_mul (W w hw) (pr f mA mB hf hA hB))
  have u1 := sheet_above h hs hi N.1
  have u2 := sheet_below h hs hi s.normal.next
  have u3 := sheet_above h hs hi N.2.1
  have u4 := sheet_below h hs hi s.normal.next.next
  intro a ha
  unfold sibcAdj at ha
  dsimp only at ha
  split at ha <;>
    (simp only [List.mem_cons, List.not_mem_nil, or_false] at ha
     rcases ha with rfl | rfl | rfl | rfl <;> apply go <;> first | assumption | decide)

theorem sibcH_ok : ∀ a ∈ sibcHBlock n s (i, j, k), SAllocated S a.tgt ∧ EOk S a.rhs := by
  have N := next_ne s.normal
  have O := sheet_on h hs hi hn
  have W : ∀ m, m < 4 → SCAllocated S (.sibW n m i j k) := fun m hm => ⟨hm, O⟩
  have D := fun m hm => d_ok h hs hi hn (m := m) hm
  intro a ha
  unfold sibcHBlock at ha
  rcases List.mem_append.1 ha with ha | ha
  · simp only [List.mem_cons, List.not_mem_nil, or_false] at ha
    rcases ha with rfl | rfl | rfl | rfl | rfl | rfl | rfl | rfl | rfl
    · exact ⟨sall_fld (sheet_pin h hs hi) _, eok_zero⟩
    · exact corr_ok h hs hi hn (sheet_below h hs hi _) (W 2 (by omega)) (D 2 (by omega) true)
    · exact corr_ok h hs hi hn (sheet_below_above h hs hi N.1 _) (W 3 (by omega)) (D 2 (by omega) true)
    · exact corr_ok h hs hi hn (sheet_pin h hs hi) (W 2 (by omega)) (D 3 (by omega) false)
    · exact corr_ok h hs hi hn (sheet_above h hs hi N.1) (W 3 (by omega)) (D 3 (by omega) false)
    · exact corr_ok h hs hi hn (sheet_below h hs hi _) (W 0 (by omega)) (D 0 (by omega) true)
    · exact corr_ok h hs hi hn (sheet_below_above h hs hi N.2.1 _) (W 1 (by omega)) (D 0 (by omega) true)
    · exact corr_ok h hs hi hn (sheet_pin h hs hi) (W 0 (by omega)) (D 1 (by omega) false)
    · exact corr_ok h hs hi hn (sheet_above h hs hi N.2.1) (W 1 (by omega)) (D 1 (by omega) false)
  · exact adj_ok h hs hi hn a ha

end sheetE

/-- C08, impedance sheets, electric update. -/
theorem updateSibcE_safe {S : Sim} (h : ValidSim S) : SimSafe S (updateSibcE S.sibc) :=
  simSafe_flatMap fun _ hx => simSafe_loop' fun _ _ _ hi => sibcE_ok h (zipIdx_mem hx) hi (zipIdx_get hx)

/-- C08, impedance sheets, magnetic update. -/
theorem updateSibcH_safe {S : Sim} (h : ValidSim S) : SimSafe S (updateSibcH S.sibc) := by
  refine simSafe_append (simSafe_flatMap fun _ hx => simSafe_loop' fun _ _ _ hi =>
    sibcH_ok h (zipIdx_mem hx) hi (zipIdx_get hx)) (simSafe_flatMap fun x hx => simSafe_loop' fun i j k hi a ha => ?_)
  rw [List.mem_singleton] at ha
  subst ha
  exact ⟨sall_fld (sheet_pin h (zipIdx_mem hx) hi) _, eok_zero⟩

/-! ### Plane waves -/

/-- Where the electric corrections are applied: inside the box of the wave. -/
theorem pwE_places (c : Cfg) (w : PW) (ho : Ordered w.gbbox) {r : Face × Fc × Bool × Fc} (hr : r ∈ pwTableE) {i j k : Int}
    (hi : InLim (w.flim c r.1 r.2.1) i j k) (a : Axis) :
    w.gbbox a.lo ≤ coord a (i, j, k) ∧ coord a (i, j, k) ≤ w.gbbox a.hi ∧
    (a = r.1.axis → coord a (i, j, k) = w.gbbox r.1) := by
  have ox := ho .x; have oy := ho .y; have oz := ho .z
  simp only [Axis.lo, Axis.hi] at ox oy oz
  simp only [pwTableE, List.mem_cons, List.not_mem_nil, or_false] at hr
  rcases hr with rfl | rfl | rfl | rfl | rfl | rfl | rfl | rfl | rfl | rfl | rfl | rfl <;>
    simp [InLim, PW.flim, setFieldLimits, fieldIsInBoundary, PW.faceBox, PW.faceIncl, Face.axis, Face.isLo] at hi <;>
    (split_ifs at hi <;> cases a <;> simp [coord, Face.axis, Axis.lo, Axis.hi] <;> omega)

/-- Where the magnetic corrections are applied: one cell below a low face, at the index of a high face. -/
theorem pwH_places (c : Cfg) (w : PW) (ho : Ordered w.gbbox) {r : Face × Fc × Bool × Fc} (hr : r ∈ pwTableH) {i j k : Int}
    (hi : InLim (w.flim c r.1 r.2.1) i j k) (a : Axis) :
    w.gbbox a.lo - 1 ≤ coord a (i, j, k) ∧ coord a (i, j, k) ≤ w.gbbox a.hi ∧
    (a ≠ r.1.axis → w.gbbox a.lo ≤ coord a (i, j, k)) ∧
    (a = r.1.axis → coord a (i, j, k) = w.gbbox r.1 - if r.1.isLo then 1 else 0) := by
  have ox := ho .x; have oy := ho .y; have oz := ho .z
  simp only [Axis.lo, Axis.hi] at ox oy oz
  simp only [pwTableH, List.mem_cons, List.not_mem_nil, or_false] at hr
  rcases hr with rfl | rfl | rfl | rfl | rfl | rfl | rfl | rfl | rfl | rfl | rfl | rfl <;>
    simp [InLim, PW.flim, setFieldLimits, fieldIsInBoundary, PW.faceBox, PW.faceIncl, Face.axis, Face.isLo] at hi <;>
    (split_ifs at hi <;> cases a <;> simp [coord, Face.axis, Face.isLo, Axis.lo, Axis.hi] <;> omega)

theorem face_lo_or (f : Face) : f = if f.isLo then f.axis.lo else f.axis.hi := by cases f <;> rfl

section pw
variable {S : Sim} (h : ValidSim S) {w : PW} (hw : w ∈ S.pws)
include h hw

/-- Box of the wave against the grid and the mesh lines. -/
theorem pw_room (a : Axis) : 1 ≤ S.cfg.giboxLo a ∧ S.cfg.giboxLo a ≤ w.gbbox a.lo ∧ w.gbbox a.lo ≤ w.gbbox a.hi ∧
    w.gbbox a.hi < S.cfg.numCells a ∧ w.gbbox a.hi - S.cfg.giboxLo a < S.cfg.numLines a := by
  obtain ⟨hb, ho⟩ := h.pws w hw
  have b := hb a
  have o := ho a
  have f := cfg_facts h.cfg a
  have e : S.cfg.gibox a.lo = S.cfg.giboxLo a := by cases a <;> rfl
  have e' : S.cfg.gibox a.hi = S.cfg.giboxLo a + S.cfg.numLines a - 1 := by cases a <;> rfl
  omega

theorem inc_ok {n : Nat} (hn : S.pws[n]? = some w) {hh : Bool} {fc : Fc} {t : Int × Int × Int}
    (hidx : ∀ g, w.aux = some g → 0 ≤ g.idx fc t.1 t.2.1 t.2.2 ∧ g.idx fc t.1 t.2.1 t.2.2 + 1 < g.nx + 1)
    (hin : w.aux = none → ∀ a, S.cfg.giboxLo a ≤ coord a t ∧ coord a t ≤ w.gbbox a.hi) :
    EOk S (incField hh n w fc t) := by
  have hl : n < S.pws.length := by rw [List.getElem?_eq_some_iff] at hn; exact hn.1
  unfold incField
  cases e : w.aux with
  | none =>
    dsimp only
    have I := hin e
    have R := pw_room h hw
    have q : ∀ a, (0 ≤ coord a t ∧ coord a t < S.cfg.numCells a) ∧
        (0 ≤ coord a t - S.cfg.giboxLo a ∧ coord a t - S.cfg.giboxLo a < S.cfg.numLines a) := fun a => by
      have := I a; have := R a; omega
    exact eok_rd ⟨hl, ⟨(q .x).1, (q .y).1, (q .z).1⟩, (q .x).2, (q .y).2, (q .z).2⟩
  | some g =>
    dsimp only
    have I := hidx g e
    cases hE : fc.isE
    all_goals
      refine eok_add (eok_mul hl (eok_rd ?_)) (eok_mul hl (eok_rd ?_)) <;>
        exact ⟨w, g, hn, e, by omega, by omega⟩

theorem auxE_safe {n : Nat} (hn : S.pws[n]? = some w) {g : AuxGrid} (hg : w.aux = some g) : SimSafe S (auxE n g) := by
  have hl : n < S.pws.length := by rw [List.getElem?_eq_some_iff] at hn; exact hn.1
  obtain ⟨theta, phi, eta, q0, -, -, hq⟩ := h.aux w hw g hg
  have hb : g.nx = g.xb + 10 := by rw [hq]; simp [auxGridOf]
  have hx : 5 ≤ g.xb := by
    have : (16 : ℤ) ≤ g.nx := by
      rw [hq]
      refine Int.le_floor.2 ?_
      have : 0 ≤ diagonal w.gbbox := Real.sqrt_nonneg _
      push_cast
      linarith
    omega
  have E : ∀ i, 0 ≤ i → i < g.nx + 1 → SAllocated S (.aux n .ey i) := fun i h0 h1 => ⟨w, g, hn, hg, h0, h1⟩
  have Z : ∀ i, 0 ≤ i → i < g.nx + 1 → SAllocated S (.aux n .hz i) := fun i h0 h1 => ⟨w, g, hn, hg, h0, h1⟩
  have P : ∀ i, 0 ≤ i → i < npml → SAllocated S (.aux n .py i) := fun i h0 h1 => ⟨w, g, hn, hg, h0, h1⟩
  have PP : ∀ i, 0 ≤ i → i < npml → SAllocated S (.aux n .ppy i) := fun i h0 h1 => ⟨w, g, hn, hg, h0, h1⟩
  have np : npml = 10 := rfl
  intro b hb'
  refine bok_iff.2 ?_
  simp only [auxE, List.mem_append, List.mem_map, mem_intRange, List.mem_singleton] at hb'
  rcases hb' with (⟨i, hi, rfl⟩ | ⟨i, hi, rfl⟩) | rfl
  · intro a ha
    rw [List.mem_singleton] at ha
    subst ha
    exact ⟨E i (by omega) (by omega), eok_add (eok_rd (E i (by omega) (by omega)))
      (eok_mul hl (eok_sub (eok_rd (Z _ (by omega) (by omega))) (eok_rd (Z _ (by omega) (by omega)))))⟩
  · have l0 : 0 ≤ i - g.xb := by omega
    have l1 : i - g.xb < npml := by omega
    have nPP := eok_add (eok_rd (PP _ l0 l1)) (eok_mul (S := S) (c := .auxBeta n) hl (eok_sub
      (eok_rd (Z (i - 1) (by omega) (by omega))) (eok_rd (Z i (by omega) (by omega)))))
    have nP := eok_add (eok_rd (P _ l0 l1)) (eok_sub nPP (eok_rd (PP _ l0 l1)))
    intro a ha
    simp only [List.mem_cons, List.not_mem_nil, or_false] at ha
    rcases ha with rfl | rfl | rfl
    · exact ⟨PP _ l0 l1, nPP⟩
    · exact ⟨P _ l0 l1, nP⟩
    · exact ⟨E i (by omega) (by omega), eok_add (eok_mul ⟨hl, l0, l1⟩ (eok_rd (E i (by omega) (by omega))))
        (eok_mul ⟨hl, l0, l1⟩ (eok_sub nP (eok_rd (P _ l0 l1))))⟩
  · intro a ha
    rw [List.mem_singleton] at ha
    subst ha
    exact ⟨E 0 (by omega) (by omega), eok_rd hl⟩

theorem auxH_safe {n : Nat} (hn : S.pws[n]? = some w) {g : AuxGrid} (hg : w.aux = some g) : SimSafe S (auxH n g) := by
  have hl : n < S.pws.length := by rw [List.getElem?_eq_some_iff] at hn; exact hn.1
  obtain ⟨theta, phi, eta, q0, -, -, hq⟩ := h.aux w hw g hg
  have hb : g.nx = g.xb + 10 := by rw [hq]; simp [auxGridOf]
  have hx : 5 ≤ g.xb := by
    have : (16 : ℤ) ≤ g.nx := by
      rw [hq]
      refine Int.le_floor.2 ?_
      have : 0 ≤ diagonal w.gbbox := Real.sqrt_nonneg _
      push_cast
      linarith
    omega
  have E : ∀ i, 0 ≤ i → i < g.nx + 1 → SAllocated S (.aux n .ey i) := fun i h0 h1 => ⟨w, g, hn, hg, h0, h1⟩
  have Z : ∀ i, 0 ≤ i → i < g.nx + 1 → SAllocated S (.aux n .hz i) := fun i h0 h1 => ⟨w, g, hn, hg, h0, h1⟩
  have B : ∀ i, 0 ≤ i → i < npml → SAllocated S (.aux n .bz i) := fun i h0 h1 => ⟨w, g, hn, hg, h0, h1⟩
  have np : npml = 10 := rfl
  intro b hb'
  refine bok_iff.2 ?_
  simp only [auxH, List.mem_append, List.mem_map, mem_intRange] at hb'
  rcases hb' with ⟨i, hi, rfl⟩ | ⟨i, hi, rfl⟩
  · intro a ha
    rw [List.mem_singleton] at ha
    subst ha
    exact ⟨Z i (by omega) (by omega), eok_add (eok_rd (Z i (by omega) (by omega)))
      (eok_mul hl (eok_sub (eok_rd (E _ (by omega) (by omega))) (eok_rd (E _ (by omega) (by omega)))))⟩
  · have l0 : 0 ≤ i - g.xb := by omega
    have l1 : i - g.xb < npml := by omega
    have nB := eok_add (eok_mul (S := S) (c := .auxAh n (i - g.xb)) ⟨hl, l0, l1⟩ (eok_rd (B _ l0 l1)))
      (eok_mul (S := S) (c := .auxGamma n) hl (eok_mul (S := S) (c := .auxBh n (i - g.xb)) ⟨hl, l0, l1⟩
        (eok_sub (eok_rd (E i (by omega) (by omega))) (eok_rd (E (i + 1) (by omega) (by omega))))))
    intro a ha
    simp only [List.mem_cons, List.not_mem_nil, or_false] at ha
    rcases ha with rfl | rfl
    · exact ⟨B _ l0 l1, nB⟩
    · exact ⟨Z i (by omega) (by omega), eok_add (eok_rd (Z i (by omega) (by omega))) (eok_sub nB (eok_rd (B _ l0 l1)))⟩

end pw

/-- C08, plane waves, electric update. -/
theorem updatePlaneWavesE_safe {S : Sim} (h : ValidSim S) (ha : AnalyticInside S) :
    SimSafe S (updatePlaneWavesE S.cfg S.pws) := by
  refine simSafe_flatMap fun x hx => simSafe_append ?_ (simSafe_flatMap fun r hr => ?_)
  · split
    · exact auxE_safe h (zipIdx_mem hx) (zipIdx_get hx) (by assumption)
    · exact simSafe_nil
  · split
    swap
    · exact simSafe_nil
    rename_i hact
    refine simSafe_loop' fun i j k hi a hm => ?_
    have ho := (h.pws _ (zipIdx_mem hx)).2
    have P := pwE_places S.cfg x.1 ho hr hi
    have R := pw_room h (zipIdx_mem hx)
    have G : InGrid S.cfg i j k := by
      have px := P .x; have py := P .y; have pz := P .z
      have rx := R .x; have ry := R .y; have rz := R .z
      simp only [coord] at px py pz
      exact ⟨⟨by omega, by omega⟩, ⟨by omega, by omega⟩, ⟨by omega, by omega⟩⟩
    have I : EOk S (incField false x.2 x.1 r.2.2.2 (if r.1.isLo then shift r.1.axis (-1) (i, j, k) else (i, j, k))) := by
      refine inc_ok h (zipIdx_mem hx) (zipIdx_get hx) (fun g hg => ?_) (fun hn b => ?_)
      · obtain ⟨theta, phi, eta, q0, h1, h2, rfl⟩ := h.aux x.1 (zipIdx_mem hx) g hg
        have := C31.lookups_electric S.cfg x.1 ho h1 h2 hr hi
        dsimp only at this
        omega
      · have p := P b; have q := R b
        split
        · rename_i hlo
          rw [coord_shift]
          have := ha x.1 (zipIdx_mem hx) hn r.1 hlo hact
          by_cases e : b = r.1.axis
          · have e1 : S.cfg.gibox r.1 = S.cfg.giboxLo b := by
              rw [face_lo_or r.1, if_pos hlo, ← e]; cases b <;> rfl
            rw [if_pos e]
            have := p.2.2 e
            omega
          · rw [if_neg e]; omega
        · omega
    unfold pwEBlock at hm
    rw [List.mem_singleton] at hm
    subst hm
    have F : EOk S (.mul (.alpha r.2.1 i j k) (.rd (.fld r.2.1 i j k))) :=
      eok_mul (show SCAllocated S (.alpha _ i j k) from G) (eok_rd (show SAllocated S (.fld _ i j k) from G))
    have T : SCAllocated S (.idh r.1.axis (coord r.1.axis (i, j, k))) := by
      have p := P r.1.axis; have q := R r.1.axis
      show 0 ≤ _ ∧ _ < _
      omega
    have D := eok_mul (show SCAllocated S (.beta r.2.1 i j k) from G) (eok_mul T I)
    refine ⟨G, ?_⟩
    dsimp only
    split
    · exact eok_sub F D
    · exact eok_add F D

/-- C08, plane waves, magnetic update. -/
theorem updatePlaneWavesH_safe {S : Sim} (h : ValidSim S) : SimSafe S (updatePlaneWavesH S.cfg S.pws) := by
  refine simSafe_flatMap fun x hx => simSafe_append ?_ (simSafe_flatMap fun r hr => ?_)
  · split
    · exact auxH_safe h (zipIdx_mem hx) (zipIdx_get hx) (by assumption)
    · exact simSafe_nil
  · split
    swap
    · exact simSafe_nil
    rename_i hact
    refine simSafe_loop' fun i j k hi a hm => ?_
    have ho := (h.pws _ (zipIdx_mem hx)).2
    have P := pwH_places S.cfg x.1 ho hr hi
    have R := pw_room h (zipIdx_mem hx)
    have G : InGrid S.cfg i j k := by
      have px := P .x; have py := P .y; have pz := P .z
      have rx := R .x; have ry := R .y; have rz := R .z
      simp only [coord] at px py pz
      exact ⟨⟨by omega, by omega⟩, ⟨by omega, by omega⟩, ⟨by omega, by omega⟩⟩
    have I : EOk S (incField true x.2 x.1 r.2.2.2 (if r.1.isLo then shift r.1.axis 1 (i, j, k) else (i, j, k))) := by
      refine inc_ok h (zipIdx_mem hx) (zipIdx_get hx) (fun g hg => ?_) (fun hn b => ?_)
      · obtain ⟨theta, phi, eta, q0, h1, h2, rfl⟩ := h.aux x.1 (zipIdx_mem hx) g hg
        have := C31.lookups_magnetic S.cfg x.1 ho h1 h2 hr hi
        dsimp only at this
        omega
      · have p := P b; have q := R b
        have fl := face_lo_or r.1
        by_cases e : b = r.1.axis
        · have p4 := p.2.2.2 e
          split
          · rename_i hlo
            rw [coord_shift, if_pos e]
            rw [if_pos hlo] at fl p4
            rw [fl, ← e] at p4
            omega
          · rename_i hlo
            rw [if_neg hlo] at fl p4
            rw [fl, ← e] at p4
            omega
        · have p3 := p.2.2.1 e
          split
          · rw [coord_shift, if_neg e]; omega
          · omega
    unfold pwHBlock at hm
    rw [List.mem_singleton] at hm
    subst hm
    have F : EOk S (.rd (.fld r.2.1 i j k)) := eok_rd (show SAllocated S (.fld _ i j k) from G)
    have T : SCAllocated S (.ide r.1.axis (coord r.1.axis (i, j, k))) := by
      have p := P r.1.axis; have q := R r.1.axis
      show 0 ≤ _ ∧ _ < _
      omega
    have D := eok_mul (show SCAllocated S (.gamma r.2.1 i j k) from G) (eok_mul T I)
    refine ⟨G, ?_⟩
    dsimp only
    split
    · exact eok_sub F D
    · exact eok_add F D

/-- C08: every element read or written in a time step, by any part of it, is an allocated one. -/
theorem step_safe {S : Sim} (h : ValidSim S) (ha : AnalyticInside S) : SimSafe S S.step := by
  have g := updateGhost_safe h.cfg
  refine simSafe_append ?_ ?_
  · exact simSafe_append (simSafe_append (simSafe_append (simSafe_append (simSafe_append (simSafe_append (simSafe_append
      (safe_lift (updatePmlEfield_safe h.cfg)) (safe_lift (updateMurEfield_safe h.cfg)))
      (safe_lift (updateGridEfield_safe h.cfg))) (updateDebye_safe h)) (updateSibcE_safe h)) (updateSourcesE_safe h))
      (updatePlaneWavesE_safe h ha)) (safe_lift g.1)
  · exact simSafe_append (simSafe_append (simSafe_append (simSafe_append (simSafe_append (simSafe_append
      (safe_lift (updatePmlHfield_safe h.cfg)) (safe_lift (updateMurHfield_safe h.cfg)))
      (safe_lift (updateGridHfield_safe h.cfg))) (updateSibcH_safe h)) (updateSourcesH_safe h))
      (updatePlaneWavesH_safe h)) (safe_lift g.2)

/-- The condition on analytic plane waves is needed: an active low face on the low side of the mesh makes the step read
the mesh line before the first one. -/
theorem low_face_reads_line_before_first {S : Sim} (w : PW) (hw : w ∈ S.pws) (hn : w.aux = none)
    (hbig : ∀ a : Axis, w.gbbox a.lo + 2 ≤ w.gbbox a.hi) (f : Face) (hl : f.isLo = true) (ha : w.active f = true)
    (hf : w.gbbox f = S.cfg.gibox f) : ¬ SimSafe S S.step := by
  intro h
  obtain ⟨n, hlt, hg⟩ := List.getElem_of_mem hw
  have hx : (w, n) ∈ S.pws.zipIdx := by
    rw [List.mk_mem_zipIdx_iff_getElem?, List.getElem?_eq_getElem hlt, hg]
  have key : ∀ r ∈ pwTableE, r.1 = f → ∀ i j k, InLim (w.flim S.cfg r.1 r.2.1) i j k →
      SAllocated S (.inc false n r.2.2.2 (shift f.axis (-1) (i, j, k)).1 (shift f.axis (-1) (i, j, k)).2.1
        (shift f.axis (-1) (i, j, k)).2.2) := by
    intro r hr hrf i j k hi
    have hm : pwEBlock n w r.1 r.2.1 r.2.2.1 r.2.2.2 i j k ∈ S.step := by
      refine List.mem_append.2 (.inl (List.mem_append.2 (.inl (List.mem_append.2 (.inr ?_)))))
      refine List.mem_flatMap.2 ⟨(w, n), hx, List.mem_append.2 (.inr (List.mem_flatMap.2 ⟨r, hr, ?_⟩))⟩
      rw [if_pos (by rw [hrf]; exact ha)]
      exact List.mem_map.2 ⟨(i, j, k), mem_boxLoop.2 hi, rfl⟩
    have R := (h _ hm).2.1
    refine R _ ?_
    simp only [pwEBlock, hrf, hl, if_true, incField, hn]
    rcases r.2.2.1 <;> simp [Block.reads, Expr.reads]
  have bx := hbig .x; have by' := hbig .y; have bz := hbig .z
  simp only [Axis.lo, Axis.hi] at bx by' bz
  cases f <;> simp only [Face.isLo, Bool.false_eq_true] at hl
  · have := key (.xlo, .ey, false, .hz) (by decide) rfl (w.gbbox .xlo) (w.gbbox .ylo + 1) (w.gbbox .zlo + 1) (by
      simp [InLim, PW.flim, setFieldLimits, fieldIsInBoundary, PW.faceBox, PW.faceIncl, Face.axis, Face.isLo]
      split_ifs <;> omega)
    have := this.2.2.1.1
    simp only [shift, Face.axis] at this
    have e : S.cfg.gibox .xlo = S.cfg.giboxLo .x := rfl
    omega
  · have := key (.ylo, .ex, true, .hz) (by decide) rfl (w.gbbox .xlo + 1) (w.gbbox .ylo) (w.gbbox .zlo + 1) (by
      simp [InLim, PW.flim, setFieldLimits, fieldIsInBoundary, PW.faceBox, PW.faceIncl, Face.axis, Face.isLo]
      split_ifs <;> omega)
    have := this.2.2.2.1.1
    simp only [shift, Face.axis] at this
    have e : S.cfg.gibox .ylo = S.cfg.giboxLo .y := rfl
    omega
  · have := key (.zlo, .ex, false, .hy) (by decide) rfl (w.gbbox .xlo + 1) (w.gbbox .ylo + 1) (w.gbbox .zlo) (by
      simp [InLim, PW.flim, setFieldLimits, fieldIsInBoundary, PW.faceBox, PW.faceIncl, Face.axis, Face.isLo]
      split_ifs <;> omega)
    have := this.2.2.2.2.1
    simp only [shift, Face.axis] at this
    have e : S.cfg.gibox .zlo = S.cfg.giboxLo .z := rfl
    omega

/-! A run with one item of each kind, in the sample mesh (inner box 4..8, 1..6, 1..7). -/

def itemBox : BBox | .xlo => 5 | .xhi => 7 | .ylo => 2 | .yhi => 4 | .zlo => 2 | .zhi => 5
def sheetBox : BBox | .xlo => 5 | .xhi => 7 | .ylo => 3 | .yhi => 3 | .zlo => 2 | .zhi => 5

noncomputable def sampleWave : PW :=
  ⟨itemBox, fun _ => true, some (auxGridOf 120 200 itemBox fun a => itemBox (C30corner a))⟩
where C30corner (a : Axis) : Face := a.hi

noncomputable def sampleItems : Sim :=
  ⟨C07.sampleCfg, [⟨setFieldLimits itemBox fun _ => true, 2⟩], [⟨.y, sheetBox, fun _ _ => 1⟩],
   [⟨.efield, .ez, itemBox⟩], [⟨itemBox, fun _ => true, none⟩, sampleWave]⟩

theorem sampleItems_valid : ValidSim sampleItems ∧ AnalyticInside sampleItems := by
  have wi : Within itemBox C07.sampleCfg.gibox := by intro a; cases a <;> decide
  have ws : Within sheetBox C07.sampleCfg.gibox := by intro a; cases a <;> decide
  have oi : Ordered itemBox := by intro a; cases a <;> decide
  have os : Ordered sheetBox := by intro a; cases a <;> decide
  refine ⟨⟨C07.sampleCfg_valid, ?_, ?_, ?_, ?_, ?_⟩, ?_⟩
  · intro d hd
    simp only [sampleItems, List.mem_singleton] at hd
    subst hd
    exact ⟨itemBox, _, wi, rfl⟩
  · intro d hd
    simp only [sampleItems, List.mem_singleton] at hd
    subst hd
    exact ⟨ws, os, rfl⟩
  · intro d hd
    simp only [sampleItems, List.mem_singleton] at hd
    subst hd
    exact wi
  · intro w hw
    simp only [sampleItems, sampleWave, List.mem_cons, List.not_mem_nil, or_false] at hw
    rcases hw with rfl | rfl <;> exact ⟨wi, oi⟩
  · intro w hw g hg
    simp only [sampleItems, sampleWave, List.mem_cons, List.not_mem_nil, or_false] at hw
    rcases hw with rfl | rfl
    · simp at hg
    · simp only [Option.some.injEq] at hg
      refine ⟨120, 200, 30, _, ⟨by norm_num, by norm_num, by norm_num⟩, ?_, hg.symm⟩
      have : originCorner 120 200 = some (corner .xhi .yhi .zhi) := by norm_num [originCorner]
      rw [ijk0, this]
      simp only [Option.map_some, Option.some.injEq]
      funext a; cases a <;> rfl
  · intro w hw hn f hf _
    simp only [sampleItems, sampleWave, List.mem_cons, List.not_mem_nil, or_false] at hw
    rcases hw with rfl | rfl
    · show C07.sampleCfg.gibox f < itemBox f
      cases f <;> first | decide | (simp [Face.isLo] at hf)
    · simp at hn

example : SimSafe sampleItems sampleItems.step := step_safe sampleItems_valid.1 sampleItems_valid.2

/-- A Debye block whose z sides are given in the wrong order asks for arrays of negative size. src/debye.c:122-186 -/
theorem swapped_block_negative_size (b : BBox) (mask : Face → Bool) (h : b .zhi + 2 ≤ b .zlo) (fc : Fc) :
    setFieldLimits b mask fc .zhi - setFieldLimits b mask fc .zlo + 1 < 0 := by
  cases fc <;> simp [setFieldLimits, fieldIsInBoundary, Face.isLo] <;> (try split_ifs) <;> omega

end Vulture.C08
