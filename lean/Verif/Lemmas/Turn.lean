import Verif.Spec.Turn
import Verif.Props.C10_Order
import Verif.Lemmas.Limits
import Mathlib.Tactic.Tauto
/-
Renaming of the axes: lemmas for C39.
-/
set_option linter.unusedSimpArgs false
set_option linter.unusedVariables false
set_option linter.unusedSectionVars false
namespace Vulture
open Spec C09 C10

@[simp] theorem Face.prev_next (f : Face) : f.next.prev = f := by cases f <;> rfl
@[simp] theorem Face.next_prev (f : Face) : f.prev.next = f := by cases f <;> rfl
@[simp] theorem Axis.prev_next (f : Axis) : f.next.prev = f := by cases f <;> rfl
@[simp] theorem Axis.next_prev (f : Axis) : f.prev.next = f := by cases f <;> rfl
@[simp] theorem Fc.prev_next (f : Fc) : f.next.prev = f := by cases f <;> rfl
@[simp] theorem Fc.next_prev (f : Fc) : f.prev.next = f := by cases f <;> rfl
theorem Face.next_inj {f g : Face} (h : f.next = g.next) : f = g := by
  have := congrArg Face.prev h; simpa using this
theorem Fc.next_inj {f g : Fc} (h : f.next = g.next) : f = g := by
  have := congrArg Fc.prev h; simpa using this

/-! ### Renaming in programs -/

def Expr.rename (ρ : Loc → Loc) (σ : CRef → CRef) : Expr → Expr
  | .zero => .zero
  | .rd l => .rd (ρ l)
  | .add a b => .add (a.rename ρ σ) (b.rename ρ σ)
  | .sub a b => .sub (a.rename ρ σ) (b.rename ρ σ)
  | .neg a => .neg (a.rename ρ σ)
  | .mul c e => .mul (σ c) (e.rename ρ σ)

def Block.rename (ρ : Loc → Loc) (σ : CRef → CRef) (b : Block) : Block :=
  b.map fun a => ⟨ρ a.tgt, a.rhs.rename ρ σ⟩

section run
variable {K : Type*} [CommRing K] {C C' : CRef → K} {ρ : Loc → Loc} {σ : CRef → CRef}
  {V : Loc → Prop}

/-- The memory of the renamed experiment corresponds to that of the original. -/
def Match (V : Loc → Prop) (ρ : Loc → Loc) (s s' : Loc → K) : Prop := ∀ l, V l → s' (ρ l) = s l

def InjV (V : Loc → Prop) (ρ : Loc → Loc) : Prop := ∀ l l', V l → V l' → ρ l = ρ l' → l = l'

/-- The block touches only locations of `V`. -/
def Block.In (V : Loc → Prop) (b : Block) : Prop := (∀ l ∈ b.writes, V l) ∧ ∀ l ∈ b.reads, V l

theorem eval_rename (hC : ∀ r, C' (σ r) = C r) {s s' : Loc → K} (h : Match V ρ s s') (e : Expr)
    (he : ∀ l ∈ e.reads, V l) : (e.rename ρ σ).eval C' s' = e.eval C s := by
  induction e with
  | zero => rfl
  | rd l => exact h l (he l (by simp [Expr.reads]))
  | add a b iha ihb =>
    simp only [Expr.rename, Expr.eval]
    rw [iha fun l hl => he l (by simp [Expr.reads, hl]), ihb fun l hl => he l (by simp [Expr.reads, hl])]
  | sub a b iha ihb =>
    simp only [Expr.rename, Expr.eval]
    rw [iha fun l hl => he l (by simp [Expr.reads, hl]), ihb fun l hl => he l (by simp [Expr.reads, hl])]
  | neg a iha =>
    simp only [Expr.rename, Expr.eval]
    rw [iha fun l hl => he l (by simpa [Expr.reads] using hl)]
  | mul c e ih =>
    simp only [Expr.rename, Expr.eval]
    rw [ih fun l hl => he l (by simpa [Expr.reads] using hl), hC]

theorem writes_rename (b : Block) : (b.rename ρ σ).writes = b.writes.map ρ := by
  simp [Block.writes, Block.rename, Function.comp_def]

theorem exec_rename (hC : ∀ r, C' (σ r) = C r) (hi : InjV V ρ) {s s' : Loc → K} (h : Match V ρ s s')
    (b : Block) (hb : b.In V) (l : Loc) (hl : V l) :
    (b.rename ρ σ).exec C' s' (ρ l) = b.exec C s l := by
  unfold Block.exec Block.rename
  rw [List.find?_map]
  have e : b.find? ((fun a : Asg => decide (a.tgt = ρ l)) ∘ fun a : Asg => ⟨ρ a.tgt, a.rhs.rename ρ σ⟩) =
      b.find? (fun a => decide (a.tgt = l)) := by
    have key : ∀ (L : List Asg) (f g : Asg → Bool), (∀ a ∈ L, f a = g a) → L.find? f = L.find? g := by
      intro L f g hL
      induction L with
      | nil => rfl
      | cons x L ih =>
        rw [List.find?_cons, List.find?_cons, hL x (List.mem_cons_self ..),
          ih fun a ha => hL a (List.mem_cons_of_mem _ ha)]
    apply key
    intro a ha
    simp only [Function.comp]
    congr 1
    apply propext
    exact ⟨fun q => hi _ _ (hb.1 _ (List.mem_map.2 ⟨a, ha, rfl⟩)) hl q, fun q => by rw [q]⟩
  rw [e]
  cases hf : b.find? (fun a => decide (a.tgt = l)) with
  | none => simpa using h l hl
  | some a =>
    simp only [Option.map_some]
    refine eval_rename hC h _ fun l' hl' => hb.2 l' ?_
    exact List.mem_flatMap.2 ⟨a, List.mem_of_find?_eq_some hf, hl'⟩

/-- Two programs do corresponding things. -/
def Phase (C C' : CRef → K) (V : Loc → Prop) (ρ : Loc → Loc) (p p' : Prog) : Prop :=
  ∀ s s' : Loc → K, Match V ρ s s' → Match V ρ (p.run C s) (p'.run C' s')

theorem Phase.append {p p' q q' : Prog} (h : Phase C C' V ρ p p') (h' : Phase C C' V ρ q q') :
    Phase C C' V ρ (p ++ q) (p' ++ q') := by
  intro s s' hs
  rw [run_append, run_append]
  exact h' _ _ (h _ _ hs)

theorem Phase.nil : Phase C C' V ρ [] [] := fun _ _ h => h

/-- The renamed program itself. -/
theorem Phase.rename (hC : ∀ r, C' (σ r) = C r) (hi : InjV V ρ) {p : Prog} (hp : ∀ b ∈ p, b.In V) :
    Phase C C' V ρ p (p.map (Block.rename ρ σ)) := by
  induction p with
  | nil => exact Phase.nil
  | cons b p ih =>
    intro s s' hs
    rw [List.map_cons, run_cons, run_cons]
    refine ih (fun b' hb' => hp b' (List.mem_cons_of_mem _ hb')) _ _ ?_
    intro l hl
    exact exec_rename hC hi hs b (hp b (List.mem_cons_self ..)) l hl

/-- A change of the second program that changes nothing. -/
theorem Phase.trans {p p' q' : Prog} (h : Phase C C' V ρ p p')
    (h' : ∀ s : Loc → K, q'.run C' s = p'.run C' s) : Phase C C' V ρ p q' := by
  intro s s' hs; rw [h']; exact h _ _ hs

theorem rename_indep (hi : InjV V ρ) {p : Prog} (hp : ∀ b ∈ p, b.In V) (h : p.Pairwise Indep) :
    (p.map (Block.rename ρ σ)).Pairwise Indep := by
  rw [List.pairwise_map]
  refine h.imp_of_mem ?_
  have reads_rename : ∀ e : Expr, (e.rename ρ σ).reads = e.reads.map ρ := by
    intro e
    induction e with
    | zero => rfl
    | rd l => rfl
    | add a b iha ihb => simp [Expr.rename, Expr.reads, iha, ihb]
    | sub a b iha ihb => simp [Expr.rename, Expr.reads, iha, ihb]
    | neg a iha => simp [Expr.rename, Expr.reads, iha]
    | mul c e ih => simp [Expr.rename, Expr.reads, ih]
  have rr : ∀ b : Block, (b.rename ρ σ).reads = b.reads.map ρ := by
    intro b
    simp only [Block.reads, Block.rename, List.flatMap_map, List.map_flatMap, reads_rename]
  intro a b ha hb hab
  unfold Indep
  simp only [writes_rename, rr, List.mem_map]
  constructor
  · rintro l ⟨l0, hl0, rfl⟩
    refine ⟨?_, ?_⟩
    · rintro ⟨l1, hl1, e⟩
      have := hi _ _ ((hp b hb).1 _ hl1) ((hp a ha).1 _ hl0) e
      subst this; exact (hab.1 _ hl0).1 hl1
    · rintro ⟨l1, hl1, e⟩
      have := hi _ _ ((hp b hb).2 _ hl1) ((hp a ha).1 _ hl0) e
      subst this; exact (hab.1 _ hl0).2 hl1
  · rintro l ⟨l0, hl0, rfl⟩
    refine ⟨?_, ?_⟩
    · rintro ⟨l1, hl1, e⟩
      have := hi _ _ ((hp a ha).1 _ hl1) ((hp b hb).1 _ hl0) e
      subst this; exact (hab.2 _ hl0).1 hl1
    · rintro ⟨l1, hl1, e⟩
      have := hi _ _ ((hp a ha).2 _ hl1) ((hp b hb).1 _ hl0) e
      subst this; exact (hab.2 _ hl0).2 hl1

/-- Independent iterations: only which iterations there are matters. -/
theorem run_same {p q : Prog} (hp : p.Pairwise Indep) (hq : q.Pairwise Indep)
    (h : ∀ b, b ∈ p ↔ b ∈ q) (s : Loc → K) : p.run C s = q.run C s := by
  funext l
  by_cases hl : ∃ b ∈ p, l ∈ b.writes
  · obtain ⟨b, hb, hw⟩ := hl
    rw [run_indep C hp hb hw, run_indep C hq ((h b).1 hb) hw]
  · push Not at hl
    rw [run_not_written C hl, run_not_written C fun b hb => hl b ((h b).2 hb)]

/-- A phase of independent iterations. -/
theorem Phase.independent (hC : ∀ r, C' (σ r) = C r) (hi : InjV V ρ) {p p' : Prog}
    (hp : ∀ b ∈ p, b.In V) (h1 : p.Pairwise Indep) (h2 : p'.Pairwise Indep)
    (h : ∀ b, b ∈ p.map (Block.rename ρ σ) ↔ b ∈ p') : Phase C C' V ρ p p' :=
  (Phase.rename hC hi hp).trans fun s =>
    (run_same (rename_indep hi hp h1) h2 h s).symm

end run

/-! ### Limits of the turned mesh -/

theorem turn_gobox (c : Cfg) (f : Face) : c.turn.gobox f.next = c.gobox f := by
  cases f <;> rfl
theorem turn_gibox (c : Cfg) (f : Face) : c.turn.gibox f.next = c.gibox f := by
  cases f <;> rfl
theorem turn_bt (c : Cfg) (f : Face) : c.turn.bt f.next = c.bt f := by
  simp [Cfg.turn]

theorem turn_valid {c : Cfg} (h : ValidCfg c) : ValidCfg c.turn :=
  ⟨fun a => h.cells _, fun f hf => h.pml _ hf, fun f hf => h.other _ hf, fun f hf => by
    have := h.paired _ hf
    cases f <;> exact this⟩

theorem next_inBoundary (fc : Fc) (f : Face) :
    fieldIsInBoundary fc.next f.next = fieldIsInBoundary fc f := by
  cases fc <;> cases f <;> rfl
theorem next_isLo (f : Face) : f.next.isLo = f.isLo := by cases f <;> rfl
theorem next_axis (f : Face) : f.next.axis = f.axis.next := by cases f <;> rfl

theorem turn_limits {b b' : BBox} {incl incl' : Face → Bool} (hb : ∀ f, b' f.next = b f)
    (hi : ∀ f, incl' f.next = incl f) (fc : Fc) (f : Face) :
    setFieldLimits b' incl' fc.next f.next = setFieldLimits b incl fc f := by
  unfold setFieldLimits
  rw [next_isLo, next_inBoundary, hb, hi]

theorem turn_inLim {lim lim' : Face → Int} (h : ∀ f, lim' f.next = lim f) (i j k : Int) :
    InLim lim' k i j ↔ InLim lim i j k := by
  have e1 := h .xlo; have e2 := h .xhi; have e3 := h .ylo; have e4 := h .yhi
  have e5 := h .zlo; have e6 := h .zhi
  simp only [Face.next] at e1 e2 e3 e4 e5 e6
  unfold InLim
  rw [e1, e2, e3, e4, e5, e6]
  tauto

theorem turn_gfilim (c : Cfg) (fc : Fc) (f : Face) : c.turn.gfilim fc.next f.next = c.gfilim fc f :=
  turn_limits (turn_gibox c) (fun f => by rw [turn_bt]) fc f

theorem turn_face (c : Cfg) (f g : Face) :
    getFaceOfBoundingBox c.turn.gibox f.next g.next = getFaceOfBoundingBox c.gibox f g := by
  have e := turn_gibox c
  cases f <;> cases g <;> rfl

theorem turn_fmlim (c : Cfg) (f : Face) (fc : Fc) (g : Face) :
    c.turn.fmlim f.next fc.next g.next = c.fmlim f fc g :=
  turn_limits (turn_face c f) (fun g => by
    unfold Cfg.murInclude
    rw [turn_bt]
    cases f <;> cases g <;> rfl) fc g

theorem turn_slot (c : Cfg) (fc : Fc) (a : Axis) (i : Int) :
    slot c.turn fc.next a.next i = slot c fc a i := by
  have h1 : nodal fc.next a.next = nodal fc a := by cases fc <;> cases a <;> rfl
  have e1 : c.turn.gobox a.next.lo = c.gobox a.lo := by cases a <;> rfl
  have e2 : c.turn.gobox a.next.hi = c.gobox a.hi := by cases a <;> rfl
  have e3 : c.turn.gibox a.next.lo = c.gibox a.lo := by cases a <;> rfl
  have e4 : c.turn.gibox a.next.hi = c.gibox a.hi := by cases a <;> rfl
  unfold slot
  rw [h1, e1, e2, e3, e4]

/-- The sample belongs to some absorbing slab. -/
def InSomeSlab (c : Cfg) (fc : Fc) (i j k : Int) : Prop :=
  ∃ r, c.bt r = .pml ∧ InLim (c.fplim r fc) i j k

/-- Slabs in terms of slots, the same for all axes. -/
def slabB (a b c : Slot) : Bool :=
  (a != .out && b != .out && c != .out) &&
  ((a == .L || a == .H) || (b == .L || b == .H) || (c == .L || c == .H))

def slabOf (r : Face) (a b c : Slot) : Bool :=
  slotIn (slabPart r .x) (pmlInclude r .xlo) (pmlInclude r .xhi) a &&
  slotIn (slabPart r .y) (pmlInclude r .ylo) (pmlInclude r .yhi) b &&
  slotIn (slabPart r .z) (pmlInclude r .zlo) (pmlInclude r .zhi) c

theorem slab_table (a b c : Slot) :
    ((∃ r, slabOf r a b c = true) ↔ slabB a b c = true) ∧
    ∀ r r', slabOf r a b c = true → slabOf r' a b c = true → r = r' := by
  have hex : ∀ P : Face → Prop, (∃ a, P a) ↔ P .xlo ∨ P .xhi ∨ P .ylo ∨ P .yhi ∨ P .zlo ∨ P .zhi :=
    fun P => ⟨fun ⟨a, h⟩ => by cases a <;> simp [h], fun h => by
      rcases h with h | h | h | h | h | h <;> exact ⟨_, h⟩⟩
  rw [hex]
  cases a <;> cases b <;> cases c <;> decide

theorem inSomeSlab_iff {c : Cfg} (h : ValidCfg c) (fc : Fc) (i j k : Int) :
    InSomeSlab c fc i j k ↔ slabB (slot c fc .x i) (slot c fc .y j) (slot c fc .z k) = true := by
  rw [← (slab_table _ _ _).1]
  constructor
  · rintro ⟨r, -, hr⟩
    exact ⟨r, (slab_slots h r fc i j k).1 hr⟩
  · rintro ⟨r, hr⟩
    have := (slab_slots h r fc i j k).2 hr
    refine ⟨r, ?_, this⟩
    by_contra hn
    exact slab_empty h r hn fc i j k this

theorem slab_unique {c : Cfg} (h : ValidCfg c) {fc : Fc} {i j k : Int} {r r' : Face}
    (h1 : InLim (c.fplim r fc) i j k) (h2 : InLim (c.fplim r' fc) i j k) : r = r' :=
  (slab_table _ _ _).2 r r' ((slab_slots h r fc i j k).1 h1) ((slab_slots h r' fc i j k).1 h2)

theorem inSomeSlab_turn {c : Cfg} (h : ValidCfg c) (fc : Fc) (i j k : Int) :
    InSomeSlab c.turn fc.next k i j ↔ InSomeSlab c fc i j k := by
  rw [inSomeSlab_iff h, inSomeSlab_iff (turn_valid h)]
  have e1 := turn_slot c fc .x i
  have e2 := turn_slot c fc .y j
  have e3 := turn_slot c fc .z k
  simp only [Axis.next] at e1 e2 e3
  rw [e1, e2, e3]
  generalize slot c fc .x i = a; generalize slot c fc .y j = b; generalize slot c fc .z k = d
  cases a <;> cases b <;> cases d <;> decide

end Vulture
