import Verif.Model.Sim
import Verif.Lemmas.Limits
/- Sets of memory locations that a program keeps at zero. -/
namespace Vulture
variable {K : Type*} [CommRing K] (C : CRef → K)

/-- The expression is zero whenever memory is zero on `Z`, seen from its syntax. -/
def Expr.ZeroOn (Z : Loc → Prop) : Expr → Prop
  | .zero => True
  | .rd l => Z l
  | .add a b => a.ZeroOn Z ∧ b.ZeroOn Z
  | .sub a b => a.ZeroOn Z ∧ b.ZeroOn Z
  | .neg a => a.ZeroOn Z
  | .mul c e => C c = 0 ∨ e.ZeroOn Z

theorem Expr.ZeroOn.eval {C : CRef → K} {Z : Loc → Prop} {s : Loc → K} (hs : ∀ l, Z l → s l = 0) :
    ∀ {e : Expr}, e.ZeroOn C Z → e.eval C s = 0
  | .zero, _ => rfl
  | .rd l, h => hs l h
  | .add _ _, h => by simp [Expr.eval, ZeroOn.eval hs h.1, ZeroOn.eval hs h.2]
  | .sub _ _, h => by simp [Expr.eval, ZeroOn.eval hs h.1, ZeroOn.eval hs h.2]
  | .neg a, h => by
      have := ZeroOn.eval hs (e := a) h
      simp only [Expr.eval, this, neg_zero]
  | .mul _ _, h => by
      rcases h with h | h
      · simp [Expr.eval, h]
      · simp [Expr.eval, ZeroOn.eval hs h]

/-- Every assignment to an element of `Z` has a right-hand side that is zero on `Z`. -/
def Keeps (Z : Loc → Prop) (p : Prog) : Prop :=
  ∀ b ∈ p, ∀ a ∈ b, Z a.tgt → a.rhs.ZeroOn C Z

theorem Keeps.run {C : CRef → K} {Z : Loc → Prop} {p : Prog} (h : Keeps C Z p) {s : Loc → K}
    (hs : ∀ l, Z l → s l = 0) : ∀ l, Z l → p.run C s l = 0 := by
  induction p generalizing s with
  | nil => exact hs
  | cons b p ih =>
    rw [run_cons]
    apply ih (fun b hb => h b (by simp [hb]))
    intro l hl
    unfold Block.exec
    cases e : b.find? (fun a => a.tgt = l) with
    | none => exact hs l hl
    | some a =>
      have ha : a ∈ b := List.mem_of_find?_eq_some e
      have ht : a.tgt = l := by simpa using List.find?_some e
      exact (h b (by simp) a ha (ht ▸ hl)).eval hs

variable {C}

theorem Keeps.append {Z : Loc → Prop} {p q : Prog} (hp : Keeps C Z p) (hq : Keeps C Z q) :
    Keeps C Z (p ++ q) := by
  intro b hb
  rcases List.mem_append.1 hb with h | h
  · exact hp b h
  · exact hq b h

theorem Keeps.nil {Z : Loc → Prop} : Keeps C Z [] := by intro b hb; cases hb

theorem Keeps.flatMap {α : Type*} {Z : Loc → Prop} {l : List α} {g : α → Prog}
    (h : ∀ x ∈ l, Keeps C Z (g x)) : Keeps C Z (l.flatMap g) := by
  intro b hb
  obtain ⟨x, hx, hb⟩ := List.mem_flatMap.1 hb
  exact h x hx b hb

theorem Keeps.loop {Z : Loc → Prop} {lim : Face → Int} {body : Int → Int → Int → Block}
    (h : ∀ i j k, Spec.InLim lim i j k → ∀ a ∈ body i j k, Z a.tgt → a.rhs.ZeroOn C Z) :
    Keeps C Z (loopOver lim body) := by
  unfold Keeps
  rw [forall_loopOver (Q := fun b => ∀ a ∈ b, Z a.tgt → a.rhs.ZeroOn C Z)]
  exact h

/-- A program that writes nothing in `Z`. -/
theorem Keeps.of_writes {Z : Loc → Prop} {p : Prog} (h : ∀ b ∈ p, ∀ a ∈ b, ¬ Z a.tgt) : Keeps C Z p :=
  fun b hb a ha hz => absurd hz (h b hb a ha)

end Vulture
