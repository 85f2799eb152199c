import Verif.Lemmas.TurnMur
import Verif.Props.C21_Ghosts
/-
Renaming of the axes: ghosts, Debye blocks, sources, plane waves. Lemmas for C39.
-/
set_option linter.unusedSimpArgs false
set_option linter.unusedVariables false
set_option linter.unusedSectionVars false
namespace Vulture
open Spec C09 C10

section ghost
variable {K : Type*} [CommRing K] {C C' : CRef → K}

local notation "T3" => Int × Int × Int

theorem ghost_not_fld {c : Cfg} {comps : List Fc} {f : Face} (s : Loc → K) (l : Loc)
    (hl : ∀ fc t, l ≠ fldAt fc t) : (ghostFace c comps f).run C s l = s l := by
  refine run_not_written C fun b hb => ?_
  unfold ghostFace at hb
  split at hb
  · cases hb
  · cases hb
  · obtain ⟨q, -, hb⟩ := List.mem_flatMap.1 hb
    obtain ⟨g, -, rfl⟩ := List.mem_map.1 hb
    simp only [Block.writes, List.map_cons, List.map_nil, List.mem_singleton]
    exact hl _ _

theorem ghost_inactive {c : Cfg} {comps : List Fc} {f : Face} (h : ¬ C21.Active c f) :
    ghostFace c comps f = [] := by
  unfold C21.Active at h
  unfold ghostFace
  cases hb : c.bt f <;> simp [hb] at h ⊢

theorem turn_coord (a : Axis) (i j k : Int) : coord a.next (k, i, j) = coord a (i, j, k) := by
  cases a <;> rfl

theorem turn_target (c : Cfg) (f : Face) : ghostTarget c.turn f.next = ghostTarget c f := by
  unfold ghostTarget; rw [next_isLo, turn_gobox]
theorem turn_source (c : Cfg) (f : Face) : ghostSource c.turn f.next = ghostSource c f := by
  have e : f.next.opposite = f.opposite.next := by cases f <;> rfl
  unfold ghostSource; rw [next_isLo, turn_gobox, turn_bt, e, turn_gobox]

theorem turn_onFace (c : Cfg) (f : Face) (i j k : Int) :
    C21.OnFace c.turn f.next (k, i, j) ↔ C21.OnFace c f (i, j, k) := by
  have h3 : ∀ p : Axis → Prop, (∀ a, p a) ↔ p .x ∧ p .y ∧ p .z :=
    fun p => ⟨fun h => ⟨h _, h _, h _⟩, fun h a => by cases a <;> simp [h]⟩
  have e1 := turn_gobox c .xlo; have e2 := turn_gobox c .xhi; have e3 := turn_gobox c .ylo
  have e4 := turn_gobox c .yhi; have e5 := turn_gobox c .zlo; have e6 := turn_gobox c .zhi
  simp only [Face.next] at e1 e2 e3 e4 e5 e6
  unfold C21.OnFace
  rw [turn_target, h3, h3]
  cases f <;> simp [Face.next, Face.axis, coord, Axis.lo, Axis.hi, e1, e2, e3, e4, e5, e6] <;> tauto

theorem phase_ghostFace {c : Cfg} (h : ValidCfg c) {comps comps' : List Fc} (hn : comps.Nodup)
    (hn' : comps'.Nodup) (hc : ∀ fc : Fc, fc.next ∈ comps' ↔ fc ∈ comps) (f : Face) :
    Turned c C C' (ghostFace c comps f) (ghostFace c.turn comps' f.next) := by
  intro s s' hs l hl
  by_cases ha : C21.Active c f
  · have ha' : C21.Active c.turn f.next := by unfold C21.Active; rw [turn_bt]; exact ha
    by_cases hf : ∃ fc i j k, l = .fld fc i j k
    · obtain ⟨fc, i, j, k, rfl⟩ := hf
      have r1 := C21.run_face C h ha hn s fc (i, j, k)
      have r2 := C21.run_face C' (turn_valid h) ha' hn' s' fc.next (k, i, j)
      have hiff : (fc.next ∈ comps' ∧ C21.OnFace c.turn f.next (k, i, j)) ↔
          (fc ∈ comps ∧ C21.OnFace c f (i, j, k)) := by rw [hc, turn_onFace]
      have e : turnLoc c (.fld fc i j k) = fldAt fc.next (k, i, j) := rfl
      have e' : Loc.fld fc i j k = fldAt fc (i, j, k) := rfl
      rw [e, e']
      by_cases hq : fc ∈ comps ∧ C21.OnFace c f (i, j, k)
      · rw [r1.1 hq, r2.1 (hiff.2 hq)]
        have hsg : C21.sgn (K := K) c.turn f.next = C21.sgn c f := by unfold C21.sgn; rw [turn_bt]
        rw [hsg, turn_source]
        congr 1
        have hm : ∀ (i j k : Int), s' (fldAt fc.next (k, i, j)) = s (fldAt fc (i, j, k)) :=
          fun i j k => hs (.fld fc i j k) trivial
        cases f <;> simp only [Face.next, Face.axis, setAx] <;> exact hm _ _ _
      · rw [r1.2 hq, r2.2 (fun q => hq (hiff.1 q))]
        exact hs (.fld fc i j k) trivial
    · have n1 : ∀ fc t, l ≠ fldAt fc t := fun fc t e => hf ⟨fc, t.1, t.2.1, t.2.2, e⟩
      have n2 : ∀ fc t, turnLoc c l ≠ fldAt fc t := by
        intro fc t e
        cases l <;> simp [turnLoc, fldAt, PPr, Pr, Br] at e
        exact n1 _ (_, _, _) rfl
      rw [ghost_not_fld (C := C) s l n1, ghost_not_fld (C := C') s' _ n2]
      exact hs l hl
  · have ha' : ¬ C21.Active c.turn f.next := by unfold C21.Active at ha ⊢; rw [turn_bt]; exact ha
    rw [ghost_inactive ha, ghost_inactive ha']
    exact hs l hl

/-- Ghost faces of different axes may be filled in any order. -/
theorem ghost_swap {c : Cfg} (h : ValidCfg c) {cf cg : List Fc} (hn : cf.Nodup) (hn' : cg.Nodup)
    {f g : Face} (hfg : f.axis ≠ g.axis) (s : Loc → K) :
    (ghostFace c cg g).run C ((ghostFace c cf f).run C s) =
      (ghostFace c cf f).run C ((ghostFace c cg g).run C s) := by
  by_cases hf : C21.Active c f
  · by_cases hg : C21.Active c g
    · funext l
      by_cases hl : ∃ fc t, l = fldAt fc t
      · obtain ⟨fc, t, rfl⟩ := hl
        have F := fun s t => C21.run_face C h hf hn s fc t
        have G := fun s t => C21.run_face C h hg hn' s fc t
        have move : ∀ (a b : Face), a.axis ≠ b.axis → ∀ t, C21.OnFace c b t →
            (C21.OnFace c a (setAx b.axis (ghostSource c b) t) ↔ C21.OnFace c a t) := by
          intro a b hab t ht
          have hr := C21.source_range h b
          have ht' := C21.target_range h b
          unfold C21.OnFace
          constructor
          · rintro ⟨h1, h2⟩
            rw [C21.coord_setAx, if_neg hab] at h1
            refine ⟨h1, fun d hd => ?_⟩
            by_cases hdb : d = b.axis
            · subst hdb; rw [ht.1]; exact ht'
            · have := h2 d hd; rwa [C21.coord_setAx, if_neg hdb] at this
          · rintro ⟨h1, h2⟩
            refine ⟨by rw [C21.coord_setAx, if_neg hab]; exact h1, fun d hd => ?_⟩
            by_cases hdb : d = b.axis
            · subst hdb; rw [C21.coord_setAx, if_pos rfl]; omega
            · rw [C21.coord_setAx, if_neg hdb]; exact h2 d hd
        by_cases hA : fc ∈ cf ∧ C21.OnFace c f t
        · by_cases hB : fc ∈ cg ∧ C21.OnFace c g t
          · rw [(G _ t).1 hB, (F _ t).1 hA]
            have h1 := (F s (setAx g.axis (ghostSource c g) t)).1 ⟨hA.1, (move f g hfg t hB.2).2 hA.2⟩
            have h2 := (G s (setAx f.axis (ghostSource c f) t)).1
              ⟨hB.1, (move g f (Ne.symm hfg) t hA.2).2 hB.2⟩
            rw [h1, h2, C21.setAx_comm hfg]
            ring
          · rw [(G _ t).2 hB, (F _ t).1 hA, (F _ t).1 hA]
            have h2 := (G s (setAx f.axis (ghostSource c f) t)).2
              (fun q => hB ⟨q.1, (move g f (Ne.symm hfg) t hA.2).1 q.2⟩)
            rw [h2]
        · by_cases hB : fc ∈ cg ∧ C21.OnFace c g t
          · rw [(G _ t).1 hB, (F _ t).2 hA, (G _ t).1 hB]
            have h1 := (F s (setAx g.axis (ghostSource c g) t)).2
              (fun q => hA ⟨q.1, (move f g hfg t hB.2).1 q.2⟩)
            rw [h1]
          · rw [(G _ t).2 hB, (F _ t).2 hA, (F _ t).2 hA, (G _ t).2 hB]
      · have n : ∀ fc t, l ≠ fldAt fc t := fun fc t e => hl ⟨fc, t, e⟩
        rw [ghost_not_fld _ _ n, ghost_not_fld _ _ n, ghost_not_fld _ _ n, ghost_not_fld _ _ n]
    · rw [ghost_inactive hg]; rfl
  · rw [ghost_inactive hf]; rfl

/-- Two programs may be exchanged. -/
def PComm (C : CRef → K) (p q : Prog) : Prop :=
  ∀ s : Loc → K, q.run C (p.run C s) = p.run C (q.run C s)

theorem PComm.left {p q r : Prog} (h1 : PComm C p r) (h2 : PComm C q r) : PComm C (p ++ q) r := by
  intro s; rw [run_append, run_append, h2, h1]
theorem PComm.right {p q r : Prog} (h1 : PComm C p q) (h2 : PComm C p r) : PComm C p (q ++ r) := by
  intro s; rw [run_append, run_append, h1, h2]

theorem phase_ghosts {c : Cfg} (h : ValidCfg c) {comps : Face → List Fc} (hn : ∀ f, (comps f).Nodup)
    (hc : ∀ (f : Face) (fc : Fc), fc.next ∈ comps f.next ↔ fc ∈ comps f) :
    Turned c C C' (Face.all.flatMap fun f => ghostFace c (comps f) f)
      (Face.all.flatMap fun f => ghostFace c.turn (comps f) f) := by
  have e : ∀ c : Cfg, (Face.all.flatMap fun f => ghostFace c (comps f) f) =
      (ghostFace c (comps .xlo) .xlo ++ ghostFace c (comps .xhi) .xhi) ++
      ((ghostFace c (comps .ylo) .ylo ++ ghostFace c (comps .yhi) .yhi) ++
       (ghostFace c (comps .zlo) .zlo ++ ghostFace c (comps .zhi) .zhi)) := by
    intro c
    simp only [Face.all, List.flatMap_cons, List.flatMap_nil, List.append_nil, List.append_assoc]
  have P := fun f => phase_ghostFace (C := C) (C' := C') h (hn f) (hn f.next) (hc f) f
  have hp := ((P .xlo).append (P .xhi)).append
    (((P .ylo).append (P .yhi)).append ((P .zlo).append (P .zhi)))
  rw [← e] at hp
  refine hp.trans fun s => ?_
  rw [e c.turn]
  simp only [Face.next]
  have Q : ∀ f g : Face, f.axis ≠ g.axis →
      PComm C' (ghostFace c.turn (comps f) f) (ghostFace c.turn (comps g) g) :=
    fun f g hfg s => ghost_swap (turn_valid h) (hn f) (hn g) hfg s
  have R : PComm C' (ghostFace c.turn (comps .xlo) .xlo ++ ghostFace c.turn (comps .xhi) .xhi)
      ((ghostFace c.turn (comps .ylo) .ylo ++ ghostFace c.turn (comps .yhi) .yhi) ++
       (ghostFace c.turn (comps .zlo) .zlo ++ ghostFace c.turn (comps .zhi) .zhi)) := by
    refine PComm.left ?_ ?_ <;> refine PComm.right (PComm.right ?_ ?_) (PComm.right ?_ ?_) <;>
      exact Q _ _ (by decide)
  rw [run_append, R s, ← run_append, List.append_assoc]

theorem phase_ghostE {c : Cfg} (h : ValidCfg c) :
    Turned c C C' (updateGhostEfield c) (updateGhostEfield c.turn) :=
  phase_ghosts h C21.nodupE (by intro f fc; cases f <;> cases fc <;> decide)

theorem phase_ghostH {c : Cfg} (h : ValidCfg c) :
    Turned c C C' (updateGhostHfield c) (updateGhostHfield c.turn) :=
  phase_ghosts h C21.nodupH (by intro f fc; cases f <;> cases fc <;> decide)

end ghost

/-! ### Items -/

section items
variable {K : Type*} [CommRing K] {C C' : CRef → K}

theorem Phase.flatMap {V : Loc → Prop} {ρ : Loc → Loc} {α : Type*} {L : List α} {f g : α → Prog}
    (h : ∀ x ∈ L, Phase C C' V ρ (f x) (g x)) : Phase C C' V ρ (L.flatMap f) (L.flatMap g) := by
  induction L with
  | nil => exact Phase.nil
  | cons x L ih =>
    rw [List.flatMap_cons, List.flatMap_cons]
    exact (h x (List.mem_cons_self ..)).append (ih fun y hy => h y (List.mem_cons_of_mem _ hy))

/-- One phase per item of a list. -/
theorem Phase.items {V : Loc → Prop} {ρ : Loc → Loc} {α β : Type*} {L : List α} {T : α → β}
    {f : α × Nat → Prog} {g : β × Nat → Prog}
    (h : ∀ x ∈ L, ∀ n, Phase C C' V ρ (f (x, n)) (g (T x, n))) :
    Phase C C' V ρ (L.zipIdx.flatMap f) ((L.map T).zipIdx.flatMap g) := by
  rw [List.zipIdx_map, List.flatMap_map]
  refine Phase.flatMap ?_
  rintro ⟨x, n⟩ hx
  exact h x (by
    have := List.mem_zipIdx_iff_getElem?.1 hx
    exact List.mem_of_getElem? this) n

theorem rename_sum (ρ : Loc → Loc) (σ : CRef → CRef) (l : List Expr) :
    (Expr.sum l).rename ρ σ = Expr.sum (l.map (Expr.rename ρ σ)) := by
  unfold Expr.sum
  have key : ∀ (l : List Expr) (a : Expr), (l.foldl Expr.add a).rename ρ σ =
      (l.map (Expr.rename ρ σ)).foldl Expr.add (a.rename ρ σ) := by
    intro l
    induction l with
    | nil => intro a; rfl
    | cons x l ih => intro a; simp only [List.foldl_cons, List.map_cons, ih]; rfl
  exact key l .zero

theorem turn_debyeBlock (c : Cfg) (n : Nat) (d : DebyeBlk) (fc : Fc) (i j k : Int) :
    (debyeBlock n d fc i j k).rename (turnLoc c) turnRef = debyeBlock n d.turn fc.next k i j := by
  have e1 : d.turn.flim fc.next .xlo = d.flim fc .zlo := by simp [DebyeBlk.turn, Face.prev]
  have e2 : d.turn.flim fc.next .ylo = d.flim fc .xlo := by simp [DebyeBlk.turn, Face.prev]
  have e3 : d.turn.flim fc.next .zlo = d.flim fc .ylo := by simp [DebyeBlk.turn, Face.prev]
  have e4 : d.turn.numPoles = d.numPoles := rfl
  unfold debyeBlock
  simp only [e1, e2, e3, e4, Block.rename, List.map_cons, List.map_flatMap, List.map_nil, Expr.rename,
    debyeE, rename_sum, List.map_map, Function.comp_def, djR, djI, turnLoc, turnRef]

theorem mem_debye_reads {b np : Nat} {fc : Fc} {i j k ii jj kk : Int} {l : Loc}
    (h : l ∈ (debyeE b np fc i j k ii jj kk).reads) :
    l = .fld fc i j k ∨ ∃ im p, l = .dj im b p fc ii jj kk := by
  have key : ∀ (L : List Expr) (a : Expr), (∀ l ∈ a.reads, ∃ im p, l = Loc.dj im b p fc ii jj kk) →
      (∀ e ∈ L, ∀ l ∈ e.reads, ∃ im p, l = Loc.dj im b p fc ii jj kk) →
      ∀ l ∈ (L.foldl Expr.add a).reads, ∃ im p, l = Loc.dj im b p fc ii jj kk := by
    intro L
    induction L with
    | nil => intro a ha _; exact ha
    | cons x L ih =>
      intro a ha hL
      refine ih _ ?_ fun e he => hL e (List.mem_cons_of_mem _ he)
      intro l hl
      simp only [Expr.reads, List.mem_append] at hl
      rcases hl with hl | hl
      · exact ha l hl
      · exact hL x (List.mem_cons_self ..) l hl
  simp only [debyeE, Expr.reads, List.mem_append, List.mem_singleton] at h
  rcases h with h | h
  · exact .inl h
  · refine .inr (key _ .zero (by simp [Expr.reads]) ?_ l h)
    intro e he l hl
    obtain ⟨p, -, rfl⟩ := List.mem_map.1 he
    simp only [Expr.reads, djR, djI, List.mem_append, List.mem_singleton] at hl
    rcases hl with h | h | h <;> exact ⟨_, _, h⟩

/-- What a Debye iteration touches. -/
def OwnD (d : DebyeBlk) (n : Nat) (fc : Fc) (i j k : Int) (l : Loc) : Prop :=
  l = .fld fc i j k ∨
  l = .dl n fc (i - d.flim fc .xlo) (j - d.flim fc .ylo) (k - d.flim fc .zlo) ∨
  ∃ im p, l = .dj im n p fc (i - d.flim fc .xlo) (j - d.flim fc .ylo) (k - d.flim fc .zlo)

theorem debye_own (d : DebyeBlk) (n : Nat) (fc : Fc) (i j k : Int) :
    (∀ l ∈ (debyeBlock n d fc i j k).writes, OwnD d n fc i j k l) ∧
    (∀ l ∈ (debyeBlock n d fc i j k).reads, OwnD d n fc i j k l) := by
  constructor
  · intro l hl
    simp only [debyeBlock, Block.writes, List.map_cons, List.map_flatMap, List.map_nil, List.mem_cons,
      List.mem_flatMap, List.not_mem_nil, or_false] at hl
    rcases hl with rfl | rfl | ⟨p, -, rfl | rfl⟩
    · exact .inl rfl
    · exact .inr (.inl rfl)
    · exact .inr (.inr ⟨_, _, rfl⟩)
    · exact .inr (.inr ⟨_, _, rfl⟩)
  · intro l hl
    have hE : ∀ l ∈ (debyeE n d.numPoles fc i j k (i - d.flim fc .xlo) (j - d.flim fc .ylo)
        (k - d.flim fc .zlo)).reads, OwnD d n fc i j k l := by
      intro l hl
      rcases mem_debye_reads hl with h | h
      · exact .inl h
      · exact .inr (.inr h)
    simp only [debyeBlock, Block.reads, List.flatMap_cons, List.mem_append, List.mem_flatMap] at hl
    rcases hl with hl | hl | ⟨a, ⟨p, -, ha⟩, hl⟩
    · exact hE l hl
    · exact hE l hl
    · simp only [List.mem_cons, List.not_mem_nil, or_false] at ha
      rcases ha with rfl | rfl <;>
        simp only [Expr.reads, djR, djI, List.mem_append, List.mem_singleton] at hl <;>
        rcases hl with (h | h) | h | h <;>
        first | exact .inr (.inr ⟨_, _, h⟩) | exact hE l h | exact .inr (.inl h)

theorem debye_indep (d : DebyeBlk) (n : Nat) {fc fc' : Fc} {i j k i' j' k' : Int}
    (hne : ¬ (fc = fc' ∧ i = i' ∧ j = j' ∧ k = k')) :
    Indep (debyeBlock n d fc i j k) (debyeBlock n d fc' i' j' k') := by
  have hd : ∀ l, OwnD d n fc i j k l → OwnD d n fc' i' j' k' l → False := by
    intro l h1 h2
    apply hne
    rcases h1 with rfl | rfl | ⟨_, _, rfl⟩ <;> rcases h2 with h2 | h2 | ⟨_, _, h2⟩ <;>
      simp only [Loc.fld.injEq, Loc.dl.injEq, Loc.dj.injEq, reduceCtorEq] at h2
    · exact h2
    · obtain ⟨-, rfl, h3⟩ := h2; exact ⟨rfl, by omega, by omega, by omega⟩
    · obtain ⟨-, -, -, rfl, h3⟩ := h2; exact ⟨rfl, by omega, by omega, by omega⟩
  have h1 := debye_own d n fc i j k
  have h2 := debye_own d n fc' i' j' k'
  exact ⟨fun l hl => ⟨fun q => hd l (h1.1 l hl) (h2.1 l q), fun q => hd l (h1.1 l hl) (h2.2 l q)⟩,
    fun l hl => ⟨fun q => hd l (h1.1 l q) (h2.1 l hl), fun q => hd l (h1.2 l q) (h2.1 l hl)⟩⟩

/-- Iterations of one Debye block. -/
def debyeItem (d : DebyeBlk) (n : Nat) : Prog :=
  [Fc.ex, .ey, .ez].flatMap fun fc => loopOver (d.flim fc) (debyeBlock n d fc)

theorem mem_debyeItem (d : DebyeBlk) (n : Nat) (b : Block) :
    b ∈ debyeItem d n ↔ ∃ (fc : Fc) (i j k : Int), fc.isE = true ∧ InLim (d.flim fc) i j k ∧
      b = debyeBlock n d fc i j k := by
  unfold debyeItem
  simp only [List.mem_flatMap, loopOver, List.mem_map]
  constructor
  · rintro ⟨fc, hfc, ⟨i, j, k⟩, ht, rfl⟩
    refine ⟨fc, i, j, k, ?_, mem_boxLoop.1 ht, rfl⟩
    simp at hfc; rcases hfc with rfl | rfl | rfl <;> rfl
  · rintro ⟨fc, i, j, k, hf, hl, rfl⟩
    exact ⟨fc, by cases fc <;> simp [Fc.isE] at hf ⊢, (i, j, k), mem_boxLoop.2 hl, rfl⟩

theorem debyeItem_indep (d : DebyeBlk) (n : Nat) : (debyeItem d n).Pairwise Indep := by
  unfold debyeItem
  rw [List.pairwise_flatMap]
  refine ⟨fun fc _ => ?_, ?_⟩
  · unfold loopOver
    rw [List.pairwise_map]
    refine List.Pairwise.imp_of_mem ?_ (nodup_boxLoop (d.flim fc))
    rintro ⟨i, j, k⟩ ⟨i', j', k'⟩ _ _ hne
    exact debye_indep d n (by rintro ⟨-, rfl, rfl, rfl⟩; exact hne rfl)
  · have hnd : [Fc.ex, .ey, .ez].Nodup := by decide
    refine List.Pairwise.imp ?_ hnd
    intro fc fc' hne x hx y hy
    simp only [loopOver, List.mem_map] at hx hy
    obtain ⟨t, -, rfl⟩ := hx
    obtain ⟨t', -, rfl⟩ := hy
    exact debye_indep d n (fun q => hne q.1)

theorem phase_debye {c : Cfg} (h : ValidCfg c) (hC : ∀ r, C' (turnRef r) = C r) (l : List DebyeBlk) :
    Turned c C C' (updateDebye l) (updateDebye (l.map DebyeBlk.turn)) := by
  refine Phase.items (f := fun x => debyeItem x.1 x.2) (g := fun x => debyeItem x.1 x.2) ?_
  intro d _ n
  have tl : ∀ fc f, d.turn.flim fc.next f.next = d.flim fc f := by
    intro fc f; simp [DebyeBlk.turn]
  refine Phase.independent (σ := turnRef) hC (turnLoc_inj h) ?_ (debyeItem_indep d n)
    (debyeItem_indep d.turn n) ?_
  · intro b hb
    obtain ⟨fc, i, j, k, _, _, rfl⟩ := (mem_debyeItem d n b).1 hb
    have := debye_own d n fc i j k
    have hx : ∀ l, OwnD d n fc i j k l → Exists c l := by
      rintro l (rfl | rfl | ⟨_, _, rfl⟩) <;> trivial
    exact ⟨fun l hl => hx l (this.1 l hl), fun l hl => hx l (this.2 l hl)⟩
  · intro b
    simp only [List.mem_map, mem_debyeItem]
    constructor
    · rintro ⟨b0, ⟨fc, i, j, k, hf, hl, rfl⟩, rfl⟩
      exact ⟨fc.next, k, i, j, by rw [next_isE, hf], (turn_inLim (tl fc) i j k).2 hl,
        turn_debyeBlock c n d fc i j k⟩
    · rintro ⟨fc', k, i, j, hf, hl, rfl⟩
      obtain ⟨fc, rfl⟩ : ∃ fc : Fc, fc' = fc.next := ⟨fc'.prev, by simp⟩
      exact ⟨_, ⟨fc, i, j, k, by rw [← next_isE, hf], (turn_inLim (tl fc) i j k).1 hl, rfl⟩,
        turn_debyeBlock c n d fc i j k⟩

/-! ### Sources -/

theorem turn_srcFlim (s : Src) (fc : Fc) (f : Face) : s.turn.flim fc.next f.next = s.flim fc f :=
  turn_limits (fun f => by simp [Src.turn]) (fun _ => rfl) fc f

theorem turn_srcE (c : Cfg) (n : Nat) (s : Src) (i j k : Int) :
    (srcEBlock n s i j k).rename (turnLoc c) turnRef = srcEBlock n s.turn k i j := by
  unfold srcEBlock
  simp only [Src.turn]
  cases s.kind <;> simp [Block.rename, Expr.rename, turnLoc, turnRef]
theorem turn_srcH (c : Cfg) (n : Nat) (s : Src) (i j k : Int) :
    (srcHBlock n s i j k).rename (turnLoc c) turnRef = srcHBlock n s.turn k i j := by
  unfold srcHBlock
  simp only [Src.turn]
  cases s.kind <;> simp [Block.rename, Expr.rename, turnLoc, turnRef]

/-- A loop over samples whose iterations touch their own sample only, in both experiments. -/
theorem phase_loop {c : Cfg} (h : ValidCfg c) (hC : ∀ r, C' (turnRef r) = C r) {lim lim' : Face → Int}
    (hl : ∀ f, lim' f.next = lim f) {body body' : Int → Int → Int → Block}
    (hb : ∀ i j k, (body i j k).rename (turnLoc c) turnRef = body' k i j)
    (hin : ∀ i j k, (body i j k).In (Exists c))
    (hi : ∀ i j k i' j' k', (i, j, k) ≠ (i', j', k') → Indep (body i j k) (body i' j' k'))
    (hi' : ∀ i j k i' j' k', (i, j, k) ≠ (i', j', k') → Indep (body' i j k) (body' i' j' k')) :
    Turned c C C' (loopOver lim body) (loopOver lim' body') := by
  have pw : ∀ (lim : Face → Int) (body : Int → Int → Int → Block),
      (∀ i j k i' j' k', (i, j, k) ≠ (i', j', k') → Indep (body i j k) (body i' j' k')) →
      (loopOver lim body).Pairwise Indep := by
    intro lim body hi
    unfold loopOver
    rw [List.pairwise_map]
    refine List.Pairwise.imp_of_mem ?_ (nodup_boxLoop lim)
    rintro ⟨i, j, k⟩ ⟨i', j', k'⟩ _ _ hne
    exact hi _ _ _ _ _ _ hne
  refine Phase.independent (σ := turnRef) hC (turnLoc_inj h) ?_ (pw _ _ hi) (pw _ _ hi') ?_
  · exact forall_loopOver.2 fun i j k _ => hin i j k
  · intro b
    simp only [loopOver, List.mem_map]
    constructor
    · rintro ⟨b0, ⟨⟨i, j, k⟩, ht, rfl⟩, rfl⟩
      exact ⟨(k, i, j), mem_boxLoop.2 ((turn_inLim hl i j k).2 (mem_boxLoop.1 ht)), (hb i j k).symm⟩
    · rintro ⟨⟨k, i, j⟩, ht, rfl⟩
      exact ⟨_, ⟨(i, j, k), mem_boxLoop.2 ((turn_inLim hl i j k).1 (mem_boxLoop.1 ht)), rfl⟩, hb i j k⟩

theorem srcE_indep (n : Nat) (s : Src) (i j k i' j' k' : Int) (hne : (i, j, k) ≠ (i', j', k')) :
    Indep (srcEBlock n s i j k) (srcEBlock n s i' j' k') := by
  have hne' : ¬ (i = i' ∧ j = j' ∧ k = k') := by rintro ⟨rfl, rfl, rfl⟩; exact hne rfl
  unfold srcEBlock
  cases s.kind <;> simp [Indep, Block.writes, Block.reads, Expr.reads] <;> omega
theorem srcH_indep (n : Nat) (s : Src) (i j k i' j' k' : Int) (hne : (i, j, k) ≠ (i', j', k')) :
    Indep (srcHBlock n s i j k) (srcHBlock n s i' j' k') := by
  have hne' : ¬ (i = i' ∧ j = j' ∧ k = k') := by rintro ⟨rfl, rfl, rfl⟩; exact hne rfl
  unfold srcHBlock
  cases s.kind <;> simp [Indep, Block.writes, Block.reads, Expr.reads] <;> omega

theorem phase_srcE {c : Cfg} (h : ValidCfg c) (hC : ∀ r, C' (turnRef r) = C r) (l : List Src) :
    Turned c C C' (updateSourcesE l) (updateSourcesE (l.map Src.turn)) := by
  refine Phase.items ?_
  intro s _ n
  have e : ((s.turn.kind = .efield ∨ s.turn.kind = .ecurr) ∧ s.turn.field.isE = true) ↔
      ((s.kind = .efield ∨ s.kind = .ecurr) ∧ s.field.isE = true) := by
    simp [Src.turn, next_isE]
  dsimp only
  by_cases hc : (s.kind = .efield ∨ s.kind = .ecurr) ∧ s.field.isE = true
  · rw [if_pos hc, if_pos (e.2 hc)]
    refine phase_loop h hC (turn_srcFlim s s.field) (turn_srcE c n s) ?_ (srcE_indep n s)
      (srcE_indep n s.turn)
    intro i j k
    unfold srcEBlock
    cases s.kind <;> constructor <;> simp [Block.writes, Block.reads, Expr.reads, Exists]
  · rw [if_neg hc, if_neg fun q => hc (e.1 q)]; exact Phase.nil

theorem phase_srcH {c : Cfg} (h : ValidCfg c) (hC : ∀ r, C' (turnRef r) = C r) (l : List Src) :
    Turned c C C' (updateSourcesH l) (updateSourcesH (l.map Src.turn)) := by
  refine Phase.items ?_
  intro s _ n
  have e : ((s.turn.kind = .hfield ∨ s.turn.kind = .hcurr) ∧ s.turn.field.isE = false) ↔
      ((s.kind = .hfield ∨ s.kind = .hcurr) ∧ s.field.isE = false) := by
    simp [Src.turn, next_isE]
  dsimp only
  by_cases hc : (s.kind = .hfield ∨ s.kind = .hcurr) ∧ s.field.isE = false
  · rw [if_pos hc, if_pos (e.2 hc)]
    refine phase_loop h hC (turn_srcFlim s s.field) (turn_srcH c n s) ?_ (srcH_indep n s)
      (srcH_indep n s.turn)
    intro i j k
    unfold srcHBlock
    cases s.kind <;> constructor <;> simp [Block.writes, Block.reads, Expr.reads, Exists]
  · rw [if_neg hc, if_neg fun q => hc (e.1 q)]; exact Phase.nil

end items

end Vulture
