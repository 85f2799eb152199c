import Verif.Lemmas.TurnItems
/-
Renaming of the axes: plane waves. Lemmas for C39.
-/
set_option linter.unusedSimpArgs false
set_option linter.unusedVariables false
set_option linter.unusedSectionVars false
namespace Vulture
open Spec C09 C10

section waves
variable {K : Type*} [CommRing K] {C C' : CRef → K}

/-- Not a field sample. -/
def Loc.outside : Loc → Prop
  | .fld .. => False
  | _ => True

/-- An iteration that adds to one field sample a quantity that no field sample enters. -/
def Adds (C : CRef → K) (b : Block) : Prop :=
  ∃ (fc : Fc) (i j k : Int) (e : Expr) (D : (Loc → K) → K), b = [⟨.fld fc i j k, e⟩] ∧
    (∀ s, e.eval C s = s (.fld fc i j k) + D s) ∧
    ∀ s s', (∀ l : Loc, l.outside → s l = s' l) → D s = D s'

theorem Adds.comm {a b : Block} (ha : Adds C a) (hb : Adds C b) : Comm C a b := by
  obtain ⟨fc, i, j, k, e, D, rfl, he, hD⟩ := ha
  obtain ⟨fc', i', j', k', e', D', rfl, he', hD'⟩ := hb
  intro s
  have ex : ∀ (fc : Fc) (i j k : Int) (e : Expr) (s : Loc → K) (l : Loc),
      Block.exec C [⟨.fld fc i j k, e⟩] s l = if Loc.fld fc i j k = l then e.eval C s else s l := by
    intro fc i j k e s l
    unfold Block.exec
    by_cases h : Loc.fld fc i j k = l <;> simp [List.find?_cons, h]
  have out : ∀ (fc : Fc) (i j k : Int) (e : Expr) (s : Loc → K) (l : Loc), l.outside →
      Block.exec C [⟨.fld fc i j k, e⟩] s l = s l := by
    intro fc i j k e s l hl
    rw [ex, if_neg]
    rintro rfl; exact hl
  have d1 := hD _ s (fun l hl => out fc' i' j' k' e' s l hl)
  have d2 := hD' _ s (fun l hl => out fc i j k e s l hl)
  funext l
  rw [ex fc i j k e (Block.exec C _ s) l, ex fc' i' j' k' e' (Block.exec C _ s) l, he, he', d1, d2]
  simp only [ex]
  by_cases h1 : Loc.fld fc i j k = l
  · by_cases h2 : Loc.fld fc' i' j' k' = l
    · rw [if_pos h1, if_pos h2, if_pos (h2.trans h1.symm), if_pos (h1.trans h2.symm), he, he',
        h1, h2]
      ring
    · rw [if_pos h1, if_neg h2, if_neg (fun q => h2 (q.trans h1)), if_pos h1, he]
  · by_cases h2 : Loc.fld fc' i' j' k' = l
    · rw [if_neg h1, if_pos h2, if_pos h2, if_neg (fun q => h1 (q.trans h2)), he']
    · rw [if_neg h1, if_neg h2, if_neg h2, if_neg h1]

theorem turnPt_perm {lim lim' : Face → Int} (hl : ∀ f, lim' f.next = lim f) :
    ((boxLoop lim).map fun t => (t.2.2, t.1, t.2.1)).Perm (boxLoop lim') := by
  refine (List.perm_ext_iff_of_nodup ?_ (nodup_boxLoop lim')).2 ?_
  · refine (nodup_boxLoop lim).map ?_
    rintro ⟨i, j, k⟩ ⟨i', j', k'⟩ h
    simp only [Prod.mk.injEq] at h ⊢
    tauto
  · rintro ⟨k, i, j⟩
    rw [List.mem_map]
    constructor
    · rintro ⟨⟨i', j', k'⟩, ht, he⟩
      simp only [Prod.mk.injEq] at he
      obtain ⟨rfl, rfl, rfl⟩ := he
      exact mem_boxLoop.2 ((turn_inLim hl _ _ _).2 (mem_boxLoop.1 ht))
    · intro ht
      exact ⟨(i, j, k), mem_boxLoop.2 ((turn_inLim hl i j k).1 (mem_boxLoop.1 ht)), rfl⟩

/-- A turned row of the tables of corrections. -/
def turnRow (r : Face × Fc × Bool × Fc) : Face × Fc × Bool × Fc :=
  (r.1.next, r.2.1.next, r.2.2.1, r.2.2.2.next)

theorem tableE_turn : (pwTableE.map turnRow).Perm pwTableE := by decide
theorem tableH_turn : (pwTableH.map turnRow).Perm pwTableH := by decide

theorem turn_edgeActive (c : Cfg) (w : PW) (f : Face) :
    w.turn.edgeActive c.turn f.next = w.edgeActive c f := by
  unfold PW.edgeActive
  rw [turn_bt, turn_gibox]
  simp [PW.turn]

theorem turn_pwFlim (c : Cfg) (w : PW) (f : Face) (fc : Fc) (g : Face) :
    w.turn.flim c.turn f.next fc.next g.next = w.flim c f fc g := by
  unfold PW.flim
  have ax : ∀ f g : Face, (g.next.axis = f.next.axis) = (g.axis = f.axis) := by
    intro f g; cases f <;> cases g <;> decide
  refine turn_limits (b := w.faceBox f) (incl := w.faceIncl c f) ?_ ?_ fc g
  · intro g
    unfold PW.faceBox
    simp only [next_isLo, ax, PW.turn, Face.prev_next]
  · intro g
    unfold PW.faceIncl
    simp only [next_isLo, ax, turn_edgeActive]

theorem turn_shift (a : Axis) (d i j k : Int) :
    shift a.next d (k, i, j) =
      ((shift a d (i, j, k)).2.2, (shift a d (i, j, k)).1, (shift a d (i, j, k)).2.1) := by
  cases a <;> rfl

theorem turn_incField (c : Cfg) (h : Bool) (n : Nat) (w : PW) (fc : Fc) (t : Int × Int × Int) :
    (incField h n w fc t).rename (turnLoc c) turnRef =
      incField h n w.turn fc.next (t.2.2, t.1, t.2.1) := by
  unfold incField PW.turn
  cases w.aux with
  | none => simp [Expr.rename, turnLoc]
  | some g => simp [Expr.rename, turnLoc, turnRef, next_isE]

theorem turn_pwE (c : Cfg) (n : Nat) (w : PW) (f : Face) (fc : Fc) (neg : Bool) (ic : Fc) (i j k : Int) :
    (pwEBlock n w f fc neg ic i j k).rename (turnLoc c) turnRef =
      pwEBlock n w.turn f.next fc.next neg ic.next k i j := by
  have e1 := turn_coord f.axis i j k
  have e2 := turn_shift f.axis (-1) i j k
  unfold pwEBlock
  dsimp only
  rw [next_isLo, next_axis, e1, e2]
  simp only [Block.rename, List.map_cons, List.map_nil]
  have key := turn_incField c false n w ic (if f.isLo then shift f.axis (-1) (i, j, k) else (i, j, k))
  have e3 : ((if f.isLo = true then shift f.axis (-1) (i, j, k) else (i, j, k)).2.2,
      (if f.isLo = true then shift f.axis (-1) (i, j, k) else (i, j, k)).1,
      (if f.isLo = true then shift f.axis (-1) (i, j, k) else (i, j, k)).2.1) =
      if f.isLo = true then ((shift f.axis (-1) (i, j, k)).2.2, (shift f.axis (-1) (i, j, k)).1,
        (shift f.axis (-1) (i, j, k)).2.1) else (k, i, j) := by
    split <;> rfl
  rw [e3] at key
  cases neg <;> simp [Expr.rename, turnLoc, turnRef, key]

theorem turn_pwH (c : Cfg) (n : Nat) (w : PW) (f : Face) (fc : Fc) (neg : Bool) (ic : Fc) (i j k : Int) :
    (pwHBlock n w f fc neg ic i j k).rename (turnLoc c) turnRef =
      pwHBlock n w.turn f.next fc.next neg ic.next k i j := by
  have e1 := turn_coord f.axis i j k
  have e2 := turn_shift f.axis 1 i j k
  unfold pwHBlock
  dsimp only
  rw [next_isLo, next_axis, e1, e2]
  simp only [Block.rename, List.map_cons, List.map_nil]
  have key := turn_incField c true n w ic (if f.isLo then shift f.axis 1 (i, j, k) else (i, j, k))
  have e3 : ((if f.isLo = true then shift f.axis 1 (i, j, k) else (i, j, k)).2.2,
      (if f.isLo = true then shift f.axis 1 (i, j, k) else (i, j, k)).1,
      (if f.isLo = true then shift f.axis 1 (i, j, k) else (i, j, k)).2.1) =
      if f.isLo = true then ((shift f.axis 1 (i, j, k)).2.2, (shift f.axis 1 (i, j, k)).1,
        (shift f.axis 1 (i, j, k)).2.1) else (k, i, j) := by
    split <;> rfl
  rw [e3] at key
  cases neg <;> simp [Expr.rename, turnLoc, turnRef, key]

theorem incField_outside (h : Bool) (n : Nat) (w : PW) (fc : Fc) (t : Int × Int × Int) {s s' : Loc → K}
    (hs : ∀ l : Loc, l.outside → s l = s' l) :
    (incField h n w fc t).eval C s = (incField h n w fc t).eval C s' := by
  unfold incField
  cases w.aux with
  | none => exact hs _ trivial
  | some g =>
    simp only [Expr.eval]
    rw [hs (.aux ..) trivial, hs (.aux ..) trivial]

theorem pwE_adds {n : Nat} {w : PW} {f : Face} {fc : Fc} {neg : Bool} {ic : Fc} {i j k : Int}
    (ha : C (.alpha fc i j k) = 1) : Adds C (pwEBlock n w f fc neg ic i j k) := by
  unfold pwEBlock
  refine ⟨fc, i, j, k, _, fun s => (if neg then -1 else 1) * (Expr.mul (.beta fc i j k)
    (.mul (.idh f.axis (coord f.axis (i, j, k))) (incField false n w ic
      (if f.isLo then shift f.axis (-1) (i, j, k) else (i, j, k))))).eval C s, rfl, ?_, ?_⟩
  · intro s
    cases neg <;> simp [Expr.eval, ha, sub_eq_add_neg]
  · intro s s' hs
    simp only [Expr.eval]
    rw [incField_outside false n w ic _ hs]

theorem pwH_adds {n : Nat} {w : PW} {f : Face} {fc : Fc} {neg : Bool} {ic : Fc} {i j k : Int} :
    Adds C (pwHBlock n w f fc neg ic i j k) := by
  unfold pwHBlock
  refine ⟨fc, i, j, k, _, fun s => (if neg then -1 else 1) * (Expr.mul (.gamma fc i j k)
    (.mul (.ide f.axis (coord f.axis (i, j, k))) (incField true n w ic
      (if f.isLo then shift f.axis 1 (i, j, k) else (i, j, k))))).eval C s, rfl, ?_, ?_⟩
  · intro s
    cases neg <;> simp [Expr.eval, sub_eq_add_neg]
  · intro s s' hs
    simp only [Expr.eval]
    rw [incField_outside true n w ic _ hs]

theorem incField_in (c : Cfg) (h : Bool) (n : Nat) (w : PW) (fc : Fc) (t : Int × Int × Int) :
    ∀ l ∈ (incField h n w fc t).reads, Exists c l := by
  unfold incField
  cases w.aux <;> simp [Expr.reads, Exists]

theorem pwE_in (c : Cfg) (n : Nat) (w : PW) (f : Face) (fc : Fc) (neg : Bool) (ic : Fc) (i j k : Int) :
    (pwEBlock n w f fc neg ic i j k).In (Exists c) := by
  unfold pwEBlock
  refine ⟨by simp [Block.writes, Exists], ?_⟩
  intro l hl
  simp only [Block.reads, List.flatMap_cons, List.flatMap_nil, List.append_nil] at hl
  cases neg <;> simp only [Bool.false_eq_true, if_true, if_false, Expr.reads, List.mem_append,
    List.mem_singleton] at hl <;> rcases hl with rfl | hl <;> first | trivial | exact incField_in c _ _ _ _ _ l hl

theorem pwH_in (c : Cfg) (n : Nat) (w : PW) (f : Face) (fc : Fc) (neg : Bool) (ic : Fc) (i j k : Int) :
    (pwHBlock n w f fc neg ic i j k).In (Exists c) := by
  unfold pwHBlock
  refine ⟨by simp [Block.writes, Exists], ?_⟩
  intro l hl
  simp only [Block.reads, List.flatMap_cons, List.flatMap_nil, List.append_nil] at hl
  cases neg <;> simp only [Bool.false_eq_true, if_true, if_false, Expr.reads, List.mem_append,
    List.mem_singleton] at hl <;> rcases hl with rfl | hl <;> first | trivial | exact incField_in c _ _ _ _ _ l hl

/-- The corrections of one table. -/
def pwRows (c : Cfg) (w : PW) (T : List (Face × Fc × Bool × Fc))
    (body : Face → Fc → Bool → Fc → Int → Int → Int → Block) : Prog :=
  T.flatMap fun r => if w.active r.1 then loopOver (w.flim c r.1 r.2.1) (body r.1 r.2.1 r.2.2.1 r.2.2.2) else []

theorem pwRows_perm (c : Cfg) (w : PW) {T : List (Face × Fc × Bool × Fc)} (hT : (T.map turnRow).Perm T)
    {body body' : Face → Fc → Bool → Fc → Int → Int → Int → Block}
    (hb : ∀ f fc neg ic i j k, (body f fc neg ic i j k).rename (turnLoc c) turnRef =
      body' f.next fc.next neg ic.next k i j) :
    ((pwRows c w T body).map (Block.rename (turnLoc c) turnRef)).Perm (pwRows c.turn w.turn T body') := by
  have h1 : (pwRows c.turn w.turn (T.map turnRow) body').Perm (pwRows c.turn w.turn T body') :=
    hT.flatMap_right _
  refine List.Perm.trans ?_ h1
  unfold pwRows
  rw [List.map_flatMap, List.flatMap_map]
  refine List.Perm.flatMap_left _ fun r _ => ?_
  obtain ⟨f, fc, neg, ic⟩ := r
  have e : w.turn.active f.next = w.active f := by simp [PW.turn]
  simp only [turnRow, e]
  by_cases ha : w.active f = true
  · rw [if_pos ha, if_pos ha]
    unfold loopOver
    rw [List.map_map]
    have hp := (turnPt_perm (turn_pwFlim c w f fc)).map
      (fun t : Int × Int × Int => body' f.next fc.next neg ic.next t.1 t.2.1 t.2.2)
    rw [List.map_map] at hp
    refine List.Perm.trans (List.Perm.of_eq ?_) hp
    refine List.map_congr_left fun t _ => ?_
    exact hb f fc neg ic _ _ _
  · rw [if_neg ha, if_neg ha]; rfl

theorem phase_rows {c : Cfg} (h : ValidCfg c) (hC : ∀ r, C' (turnRef r) = C r) (w : PW)
    {T : List (Face × Fc × Bool × Fc)} (hT : (T.map turnRow).Perm T)
    {body body' : Face → Fc → Bool → Fc → Int → Int → Int → Block}
    (hb : ∀ f fc neg ic i j k, (body f fc neg ic i j k).rename (turnLoc c) turnRef =
      body' f.next fc.next neg ic.next k i j)
    (hin : ∀ f fc neg ic i j k, (body f fc neg ic i j k).In (Exists c))
    (had : ∀ r ∈ T, w.active r.1 = true → ∀ i j k, InLim (w.flim c r.1 r.2.1) i j k →
      Adds C' (body' r.1.next r.2.1.next r.2.2.1 r.2.2.2.next k i j)) :
    Turned c C C' (pwRows c w T body) (pwRows c.turn w.turn T body') := by
  have hp := pwRows_perm c w hT hb
  have mem : ∀ b ∈ pwRows c w T body, ∃ r ∈ T, w.active r.1 = true ∧ ∃ i j k,
      InLim (w.flim c r.1 r.2.1) i j k ∧ b = body r.1 r.2.1 r.2.2.1 r.2.2.2 i j k := by
    intro b hb
    obtain ⟨r, hr, hb⟩ := List.mem_flatMap.1 hb
    by_cases ha : w.active r.1 = true
    · rw [if_pos ha] at hb
      obtain ⟨⟨i, j, k⟩, ht, rfl⟩ := List.mem_map.1 hb
      exact ⟨r, hr, ha, i, j, k, mem_boxLoop.1 ht, rfl⟩
    · rw [if_neg ha] at hb; cases hb
  refine (Phase.rename (σ := turnRef) hC (turnLoc_inj h) ?_).trans fun s =>
    (run_perm_comm C' ?_ hp s).symm
  · intro b hb'
    obtain ⟨r, _, _, i, j, k, _, rfl⟩ := mem b hb'
    exact hin ..
  · have ads : ∀ b ∈ (pwRows c w T body).map (Block.rename (turnLoc c) turnRef), Adds C' b := by
      intro b hb'
      obtain ⟨b0, hb0, rfl⟩ := List.mem_map.1 hb'
      obtain ⟨r, hr, ha, i, j, k, hl, rfl⟩ := mem b0 hb0
      rw [hb]
      exact had r hr ha i j k hl
    intro a ha b hb'
    exact (ads a ha).comm (ads b hb')

theorem map_rename_id {ρ : Loc → Loc} {σ : CRef → CRef} {p : Prog} (h : ∀ b ∈ p, b.rename ρ σ = b) :
    p.map (Block.rename ρ σ) = p := by
  conv_rhs => rw [← List.map_id p]
  exact List.map_congr_left h

theorem phase_auxE {c : Cfg} (h : ValidCfg c) (hC : ∀ r, C' (turnRef r) = C r) (n : Nat) (g : AuxGrid)
    (idx : Fc → Int → Int → Int → Int) : Turned c C C' (auxE n g) (auxE n ⟨g.nx, g.xb, idx⟩) := by
  have hp := Phase.rename (σ := turnRef) hC (turnLoc_inj h) (p := auxE n g) ?_
  · rw [map_rename_id] at hp
    · exact hp
    · intro b hb
      unfold auxE at hb
      simp only [List.mem_append, List.mem_map, List.mem_singleton] at hb
      rcases hb with (⟨i, -, rfl⟩ | ⟨i, -, rfl⟩) | rfl <;>
        simp [Block.rename, Expr.rename, turnLoc, turnRef]
  · intro b hb
    unfold auxE at hb
    simp only [List.mem_append, List.mem_map, List.mem_singleton] at hb
    rcases hb with (⟨i, -, rfl⟩ | ⟨i, -, rfl⟩) | rfl <;> constructor <;>
      simp [Block.writes, Block.reads, Expr.reads, Exists, or_imp, forall_and]

theorem phase_auxH {c : Cfg} (h : ValidCfg c) (hC : ∀ r, C' (turnRef r) = C r) (n : Nat) (g : AuxGrid)
    (idx : Fc → Int → Int → Int → Int) : Turned c C C' (auxH n g) (auxH n ⟨g.nx, g.xb, idx⟩) := by
  have hp := Phase.rename (σ := turnRef) hC (turnLoc_inj h) (p := auxH n g) ?_
  · rw [map_rename_id] at hp
    · exact hp
    · intro b hb
      unfold auxH at hb
      simp only [List.mem_append, List.mem_map, List.mem_singleton] at hb
      rcases hb with ⟨i, -, rfl⟩ | ⟨i, -, rfl⟩ <;>
        simp [Block.rename, Expr.rename, turnLoc, turnRef]
  · intro b hb
    unfold auxH at hb
    simp only [List.mem_append, List.mem_map, List.mem_singleton] at hb
    rcases hb with ⟨i, -, rfl⟩ | ⟨i, -, rfl⟩ <;> constructor <;>
      simp [Block.writes, Block.reads, Expr.reads, Exists, or_imp, forall_and]

theorem phase_pwE {c : Cfg} (h : ValidCfg c) (hC : ∀ r, C' (turnRef r) = C r) (l : List PW)
    (hα : ∀ w ∈ l, ∀ (f : Face) (fc : Fc) (i j k : Int), w.active f = true →
      InLim (w.flim c f fc) i j k → C (.alpha fc i j k) = 1) :
    Turned c C C' (updatePlaneWavesE c l) (updatePlaneWavesE c.turn (l.map PW.turn)) := by
  refine Phase.items ?_
  intro w hw n
  dsimp only
  refine Phase.append ?_ ?_
  · simp only [PW.turn]
    cases w.aux with
    | none => exact Phase.nil
    | some g => exact phase_auxE h hC n g _
  · refine phase_rows h hC w tableE_turn (body := pwEBlock n w) (body' := pwEBlock n w.turn)
      (turn_pwE c n w) (pwE_in c n w) ?_
    intro r _ ha i j k hl
    refine pwE_adds ?_
    have := hC (.alpha r.2.1 i j k)
    simp only [turnRef] at this
    rw [this]
    exact hα w hw _ _ _ _ _ ha hl

theorem phase_pwH {c : Cfg} (h : ValidCfg c) (hC : ∀ r, C' (turnRef r) = C r) (l : List PW) :
    Turned c C C' (updatePlaneWavesH c l) (updatePlaneWavesH c.turn (l.map PW.turn)) := by
  refine Phase.items ?_
  intro w hw n
  dsimp only
  refine Phase.append ?_ ?_
  · simp only [PW.turn]
    cases w.aux with
    | none => exact Phase.nil
    | some g => exact phase_auxH h hC n g _
  · refine phase_rows h hC w tableH_turn (body := pwHBlock n w) (body' := pwHBlock n w.turn)
      (turn_pwH c n w) (pwH_in c n w) ?_
    intro r _ ha i j k hl
    exact pwH_adds

end waves

end Vulture
