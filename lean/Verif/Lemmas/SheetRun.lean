import Verif.Lemmas.Sole
import Verif.Lemmas.Pointwise
import Mathlib.Tactic.LinearCombination
set_option linter.unusedSimpArgs false
set_option linter.unusedVariables false
/-
What the corrections of an impedance sheet add to the magnetic fields beside it.
-/
namespace Vulture.SheetRun
open Spec C10
variable {K : Type*} [CommRing K] (C : CRef → K)

/-- Iterations that add something to a location. -/
theorem run_adds {ι : Type*} (f : ι → Block) (L : Loc) (A : Loc → Prop) (d : ι → (Loc → K) → K) : ∀ (ts : List ι) (s : Loc → K),
    (∀ t ∈ ts, ∀ s, (f t).exec C s L = s L + d t s) →
    (∀ t ∈ ts, ∀ s s', (∀ l, A l → s l = s' l) → d t s = d t s') →
    (∀ t ∈ ts, ∀ l, A l → l ∉ (f t).writes) →
    Prog.run C (ts.map f) s L = s L + (ts.map fun t => d t s).sum
  | [], s, _, _, _ => by simp [run_nil]
  | t :: ts, s, h1, h2, h3 => by
    rw [List.map_cons, run_cons, run_adds f L A d ts _ (fun t ht => h1 t (by simp [ht])) (fun t ht => h2 t (by simp [ht]))
      (fun t ht => h3 t (by simp [ht])), h1 t (by simp), List.map_cons, List.sum_cons]
    have : (ts.map fun t' => d t' ((f t).exec C s)) = ts.map fun t' => d t' s :=
      List.map_congr_left fun t' ht' => h2 t' (by simp [ht']) _ _ fun l hl => exec_not_written C (h3 t (by simp) l hl)
    rw [this]
    ring

theorem sum_one {α : Type*} [DecidableEq α] (x : K) (t1 : α) : ∀ (L : List α), L.Nodup →
    (L.map fun t => if t = t1 then x else 0).sum = if t1 ∈ L then x else 0
  | [], _ => by simp
  | a :: L, h => by
    have h' := List.nodup_cons.1 h
    rw [List.map_cons, List.sum_cons, sum_one x t1 L h'.2]
    by_cases e : a = t1
    · subst e; simp [h'.1]
    · rw [if_neg e]; simp [Ne.symm e]

theorem sum_two {α : Type*} [DecidableEq α] (x y : K) {t1 t2 : α} (hne : t1 ≠ t2) (L : List α) (h : L.Nodup) :
    (L.map fun t => if t = t1 then x else if t = t2 then y else 0).sum =
      (if t1 ∈ L then x else 0) + if t2 ∈ L then y else 0 := by
  have : (L.map fun t => if t = t1 then x else if t = t2 then y else 0) =
      L.map fun t => (if t = t1 then x else 0) + if t = t2 then y else 0 := by
    refine List.map_congr_left fun t _ => ?_
    by_cases e : t = t1
    · subst e; simp [hne]
    · simp [e]
  rw [this]
  have : ∀ (f g : α → K) (L : List α), (L.map fun t => f t + g t).sum = (L.map f).sum + (L.map g).sum := by
    intro f g L
    induction L with
    | nil => simp
    | cons a L ih => simp only [List.map_cons, List.sum_cons, ih]; ring
  rw [this, sum_one _ _ _ h, sum_one _ _ _ h]

/-- Which tangential magnetic component: the first or second axis after the normal; which side. -/
def dirOf (a : Axis) (first : Bool) : Axis := if first then a.next else a.next.next
/-- Index of the electric field of the sheet that drives it. -/
def eIdx (first low : Bool) : Nat := (if first then 2 else 0) + if low then 0 else 1
/-- Indices of the edge weights. -/
def wIdx (first high : Bool) : Nat := (if first then 2 else 0) + if high then 1 else 0
/-- The face whose low edge lies beside the sample. -/
def lowFace (a : Axis) (low : Bool) (q : Int × Int × Int) : Int × Int × Int := if low then shift a 1 q else q

/-- The correction a face contributes. -/
def corr (n : Nat) (w : SibcSurf) (first low high : Bool) (t q : Int × Int × Int) (s : Loc → K) : K :=
  let x := C (.gamma (dirOf w.normal first).h q.1 q.2.1 q.2.2) * (C (.sibW n (wIdx first high) t.1 t.2.1 t.2.2) *
    (C (.ide w.normal (coord w.normal q)) * s (.et n (eIdx first low) (sibcRel w t).1 (sibcRel w t).2.1 (sibcRel w t).2.2)))
  if first = low then x else -x

/-- What the block of one face adds to a tangential magnetic sample beside the sheet. -/
theorem hblock_adds (n : Nat) (w : SibcSurf) (first low : Bool) (q t : Int × Int × Int) (v : Int)
    (ht : coord w.normal t = v) (hq : coord w.normal q = if low then v - 1 else v) (s : Loc → K) :
    (sibcHBlock n w t).exec C s (fldAt (dirOf w.normal first).h q) = s (fldAt (dirOf w.normal first).h q) +
      if t = lowFace w.normal low q then corr C n w first low false t q s
      else if t = shift (dirOf w.normal first) (-1) (lowFace w.normal low q) then corr C n w first low true t q s else 0 := by
  obtain ⟨a, g, np⟩ := w
  obtain ⟨i, j, k⟩ := t
  obtain ⟨x, y, z⟩ := q
  have hex : ∀ (b : Block) (as : Asg) (L : Loc), as.tgt = L → as ∈ b → (∀ a' ∈ b, a'.tgt = L → a' = as) →
      b.exec C s L = as.rhs.eval C s := by
    intro b as L e h1 h2
    subst e
    exact exec_of_mem C h1 h2 s
  by_cases e1 : ((i, j, k) : Int × Int × Int) = lowFace a low (x, y, z)
  · rw [if_pos e1]
    rw [hex _ (sibcCorr (first != low) (dirOf a first).h (x, y, z) (.sibW n (wIdx first false) i j k)
      (sibcD n ⟨a, g, np⟩ (sibcRel ⟨a, g, np⟩ (i, j, k)) (eIdx first low) (coord a (x, y, z)))) (fldAt (dirOf a first).h (x, y, z)) rfl]
    · cases first <;> cases low <;> simp [sibcCorr, sibcD, corr, Expr.eval, fldAt] <;> ring
    · cases a <;> cases first <;> cases low <;> simp [lowFace, shift, coord, dirOf, Axis.next] at e1 ht hq <;> obtain ⟨rfl, rfl, rfl⟩ := e1 <;>
        simp [sibcHBlock, dirOf, Axis.next, shift, coord, wIdx, eIdx]
    · cases a <;> cases first <;> cases low <;> simp [lowFace, shift, coord, dirOf, Axis.next] at e1 ht hq <;> obtain ⟨rfl, rfl, rfl⟩ := e1 <;>
        simp [sibcHBlock, sibcAdj, sibcCorr, dirOf, Axis.next, shift, coord, wIdx, eIdx, fldAt, Axis.h] <;> omega
  · rw [if_neg e1]
    by_cases e2 : ((i, j, k) : Int × Int × Int) = shift (dirOf a first) (-1) (lowFace a low (x, y, z))
    · rw [if_pos e2]
      rw [hex _ (sibcCorr (first != low) (dirOf a first).h (x, y, z) (.sibW n (wIdx first true) i j k)
        (sibcD n ⟨a, g, np⟩ (sibcRel ⟨a, g, np⟩ (i, j, k)) (eIdx first low) (coord a (x, y, z)))) (fldAt (dirOf a first).h (x, y, z)) rfl]
      · cases first <;> cases low <;> simp [sibcCorr, sibcD, corr, Expr.eval, fldAt] <;> ring
      · cases a <;> cases first <;> cases low <;> simp [lowFace, shift, coord, dirOf, Axis.next] at e2 ht hq <;> obtain ⟨rfl, rfl, rfl⟩ := e2 <;>
          simp [sibcHBlock, dirOf, Axis.next, shift, coord, wIdx, eIdx]
      · cases a <;> cases first <;> cases low <;> simp [lowFace, shift, coord, dirOf, Axis.next] at e2 ht hq <;> obtain ⟨rfl, rfl, rfl⟩ := e2 <;>
          simp [sibcHBlock, sibcAdj, sibcCorr, dirOf, Axis.next, shift, coord, wIdx, eIdx, fldAt, Axis.h] <;> omega
    · rw [if_neg e2, add_zero]
      refine exec_not_written C ?_
      cases a <;> cases first <;> cases low <;> simp [lowFace, shift, coord, dirOf, Axis.next] at e1 e2 ht hq <;>
        simp [Block.writes, sibcHBlock, sibcAdj, sibcCorr, dirOf, Axis.next, shift, coord, wIdx, eIdx, fldAt, Axis.h] <;> omega

end Vulture.SheetRun
