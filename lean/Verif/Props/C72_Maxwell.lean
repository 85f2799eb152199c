import Verif.Props.C72_Sources
/- C72: the fields of a run satisfy Maxwell's difference equations with the lengths, materials and currents of its mesh file. -/
set_option linter.unusedSimpArgs false
set_option linter.unusedVariables false
set_option linter.unusedSectionVars false
namespace Vulture.C72
open Vulture Spec Setup Deck CavityLemmas Scaling

variable {k : Consts} {J : Junk} {X : Experiment} {R : Setup.Run} {a : Axis} {q : Axis → Int}

theorem grid_back (c : Cfg) (q : Axis → Int) (b : Axis) : back (grid c q) b = grid c (back q b) := by
  funext d
  unfold back grid
  dsimp only
  split_ifs <;> ring
theorem grid_ahead (c : Cfg) (q : Axis → Int) (b : Axis) : ahead (grid c q) b = grid c (ahead q b) := by
  funext d
  unfold ahead grid
  dsimp only
  split_ifs <;> ring

theorem value_eq (n : ℕ) (fc : Fc) (q : Axis → Int) : value R n fc q = at3 (R.fields n) fc (grid R.cfg q) := rfl

theorem fields_succ (n : ℕ) : R.fields (n + 1) = R.sim.step.run R.coefs (setInputs (R.drive n) (R.fields n)) := rfl

theorem node_range (hi : SampleIn (meshBox X) a.e (q .x) (q .y) (q .z)) (b : Axis) (hb : b ≠ a) : 0 ≤ q b ∧ q b ≤ cellsOf X.file b := by
  obtain ⟨h1, h2, h3⟩ := hi
  cases a <;> cases b <;> first | exact absurd rfl hb | skip
  all_goals simp [Axis.e, pos2, meshBox, mkBox] at h1 h2 h3 <;> simp [cellsOf] <;> omega

theorem cell_range (hi : SampleIn (meshBox X) a.h (q .x) (q .y) (q .z)) (b : Axis) (hb : b ≠ a) : 0 ≤ q b ∧ q b ≤ cellsOf X.file b := by
  obtain ⟨h1, h2, h3⟩ := hi
  cases a <;> cases b <;> first | exact absurd rfl hb | skip
  all_goals simp [Axis.h, pos2, meshBox, mkBox] at h1 h2 h3 <;> simp [cellsOf] <;> omega

theorem next_ne (a : Axis) : a.next ≠ a ∧ a.next.next ≠ a := by cases a <;> decide

theorem rotH_eq (h : setup k J X = some R) (hi : SampleIn (meshBox X) a.e (q .x) (q .y) (q .z)) (n : ℕ) (u : Loc → ℝ) :
    curlOfH (fun c n => (R.coefs (.idh c n))⁻¹) (setInputs u (R.fields n)) a (grid R.cfg q) = rotH X (value R n) a q := by
  obtain ⟨b0, b1⟩ := node_range hi a.next (next_ne a).1
  obtain ⟨c0, c1⟩ := node_range hi a.next.next (next_ne a).2
  have e1 := (lengths h a.next (q a.next) b0 b1).1
  have e2 := (lengths h a.next.next (q a.next.next) c0 c1).1
  unfold curlOfH rotH
  dsimp only
  rw [grid_back, grid_back]
  show (_ - _) / (R.coefs (.idh a.next (q a.next + R.cfg.gibox a.next.lo)))⁻¹ -
    (_ - _) / (R.coefs (.idh a.next.next (q a.next.next + R.cfg.gibox a.next.next.lo)))⁻¹ = _
  rw [e1, e2, one_div, one_div, inv_inv, inv_inv]
  rfl

theorem rotE_eq (h : setup k J X = some R) (hi : SampleIn (meshBox X) a.h (q .x) (q .y) (q .z)) (n : ℕ) :
    curlOfE (fun c n => (R.coefs (.ide c n))⁻¹) (R.fields n) a (grid R.cfg q) = rotE X (value R n) a q := by
  obtain ⟨b0, b1⟩ := cell_range hi a.next (next_ne a).1
  obtain ⟨c0, c1⟩ := cell_range hi a.next.next (next_ne a).2
  have e1 := (lengths h a.next (q a.next) b0 b1).2
  have e2 := (lengths h a.next.next (q a.next.next) c0 c1).2
  unfold curlOfE rotE
  dsimp only
  rw [grid_ahead, grid_ahead]
  show (_ - _) / (R.coefs (.ide a.next (q a.next + R.cfg.gibox a.next.lo)))⁻¹ -
    (_ - _) / (R.coefs (.ide a.next.next (q a.next.next + R.cfg.gibox a.next.next.lo)))⁻¹ = _
  rw [e1, e2, one_div, one_div, inv_inv, inv_inv]
  rfl

/-- One step of an electric sample in terms of the mesh file. -/
theorem electric_step (h : setup k J X = some R) (ho : OrdinaryBlocks X.file.cards)
    (hi : SampleIn (meshBox X) a.e (q .x) (q .y) (q .z)) (hm : ¬ OnMurSide X a.e q)
    (hd : ∀ x ∈ X.file.cards, ∀ e s u poles, ¬ DebyeCard X a.e q x e s u poles)
    (hs : ClearOfSheets X a.e q) (hw : ClearOfWaves X a.e q) (hc : OnlyCurrents X a.e q) (n : ℕ) :
    value R (n + 1) a.e q = R.coefs (.alpha a.e (grid R.cfg q .x) (grid R.cfg q .y) (grid R.cfg q .z)) * value R n a.e q +
      R.coefs (.beta a.e (grid R.cfg q .x) (grid R.cfg q .y) (grid R.cfg q .z)) *
        (rotH X (value R n) a q - totalCurrent X R.dt (n * R.dt) a.e q) := by
  obtain ⟨hv, -, -, -, -, -, -, pws, -, eS⟩ := run_parts h
  have ecfg : R.sim.cfg = R.cfg := by rw [eS]
  have st := stepE_value R.coefs (S := R.sim) (a := a) (q := grid R.cfg q) (by rw [ecfg]; exact hv) (by rw [ecfg]; exact in_limits h hi hm)
    (by rw [ecfg]; exact in_mesh h hi) (clear_debye h ho hd) (clear_sheets h hs).1 (clear_waves h hw).1 ((only_currents h ho a).1 hc)
    (setInputs (R.drive n) (R.fields n))
  rw [rotH_eq h hi n, (driven h ho a n (R.fields n)).1 hc] at st
  rw [value_eq, fields_succ]
  exact st

theorem magnetic_step (h : setup k J X = some R) (ho : OrdinaryBlocks X.file.cards)
    (hi : SampleIn (meshBox X) a.h (q .x) (q .y) (q .z))
    (hs : ClearOfSheets X a.h q) (hw : ClearOfWaves X a.h q) (hc : OnlyCurrents X a.h q) (n : ℕ) :
    value R (n + 1) a.h q = value R n a.h q - R.coefs (.gamma a.h (grid R.cfg q .x) (grid R.cfg q .y) (grid R.cfg q .z)) *
        (rotE X (value R (n + 1)) a q + totalCurrent X R.dt ((n + 1 / 2) * R.dt) a.h q) := by
  obtain ⟨hv, -, -, -, -, -, -, pws, -, eS⟩ := run_parts h
  have ecfg : R.sim.cfg = R.cfg := by rw [eS]
  have st := stepH_value R.coefs (S := R.sim) (a := a) (q := grid R.cfg q) (by rw [ecfg]; exact hv)
    (by rw [ecfg]; exact in_mesh h hi) (clear_sheets h hs).2 (clear_waves h hw).2 ((only_currents h ho a).2 hc)
    (setInputs (R.drive n) (R.fields n))
  rw [(driven h ho a n (R.fields n)).2 hc, ← fields_succ, rotE_eq h hi (n + 1)] at st
  exact st

/-- C72: Ampere's law. -/
theorem ampere (hk : Physical k) (h : setup k J X = some R) (ho : OrdinaryBlocks X.file.cards) (hT : 0 < R.dt)
    (hi : SampleIn (meshBox X) a.e (q .x) (q .y) (q .z)) (hm : ¬ OnMurSide X a.e q)
    (hd : ∀ x ∈ X.file.cards, ∀ e s u poles, ¬ DebyeCard X a.e q x e s u poles)
    (hs : ClearOfSheets X a.e q) (hw : ClearOfWaves X a.e q) (hc : OnlyCurrents X a.e q)
    {stuff : Stuff} (hst : MadeOf X a.e (q .x) (q .y) (q .z) stuff) (n : ℕ) :
    AmpereIn k R.dt (value R n a.e q) (value R (n + 1) a.e q) (rotH X (value R n) a q)
      (totalCurrent X R.dt (n * R.dt) a.e q) stuff := by
  have hb := (C64.every_sample hk h ho hT hi).2 stuff hst
  have st := electric_step h ho hi hm hd hs hw hc
  have hT' := hT.ne'
  cases stuff with
  | vacuum =>
    have := hb.1 (value R n a.e q) (rotH X (value R n) a q - totalCurrent X R.dt (n * R.dt) a.e q)
    dsimp only at this
    unfold AmpereIn AmpereWithCurrent
    have st' := st n
    unfold grid at st'
    simp only [Axis.lo] at st'
    rw [← st'] at this
    linear_combination this
  | metal =>
    obtain ⟨hb, -⟩ := hb
    have z : ∀ n, value R n a.e q = 0 := by
      intro n
      induction n with
      | zero => rfl
      | succ n ih =>
        have st' := st n
        unfold grid at st'
        simp only [Axis.lo] at st'
        rw [st', ih]
        exact hb _
    exact z (n + 1)
  | matter e s u =>
    intro h1 h2 h3
    have := (hb h1 h2 h3).1 (value R n a.e q) (rotH X (value R n) a q - totalCurrent X R.dt (n * R.dt) a.e q)
    dsimp only at this
    unfold AmpereWithCurrent
    have st' := st n
    unfold grid at st'
    simp only [Axis.lo] at st'
    rw [← st'] at this
    linear_combination this
  | dispersive e s u poles => trivial

/-- C72: Faraday's law. -/
theorem faraday (hk : Physical k) (h : setup k J X = some R) (ho : OrdinaryBlocks X.file.cards) (hT : 0 < R.dt)
    (hi : SampleIn (meshBox X) a.h (q .x) (q .y) (q .z))
    (hs : ClearOfSheets X a.h q) (hw : ClearOfWaves X a.h q) (hc : OnlyCurrents X a.h q)
    {stuff : Stuff} (hst : MadeOf X a.h (q .x) (q .y) (q .z) stuff) (hr : InRange k R.dt stuff) (n : ℕ) :
    FaradayWithCurrent R.dt (relPermeability stuff * k.mu0) (value R n a.h q) (value R (n + 1) a.h q) (rotE X (value R (n + 1)) a q)
      (totalCurrent X R.dt ((n + 1 / 2) * R.dt) a.h q) := by
  have hb := (C64.every_sample hk h ho hT hi).2 stuff hst
  have st := magnetic_step h ho hi hs hw hc n
  unfold grid at st
  simp only [Axis.lo] at st
  obtain ⟨x, hx⟩ : ∃ x, x = rotE X (value R (n + 1)) a q + totalCurrent X R.dt ((n + 1 / 2) * R.dt) a.h q := ⟨_, rfl⟩
  rw [← hx] at st
  have key : relPermeability stuff * k.mu0 * (R.coefs (.gamma a.h (q .x + R.cfg.gibox .xlo) (q .y + R.cfg.gibox .ylo) (q .z + R.cfg.gibox .zlo)) * x) / R.dt = x := by
    cases stuff with
    | vacuum => exact hb.2 x
    | metal =>
      have := hb.2 x
      unfold relPermeability
      rw [one_mul]
      exact this
    | matter e s u => exact (hb hr.1 hr.2.1 hr.2.2).2 x
    | dispersive e s u poles => exact (hb hr.1 hr.2.1 hr.2.2.1 hr.2.2.2).2 x
  unfold FaradayWithCurrent
  rw [st]
  have : relPermeability stuff * k.mu0 * ((value R n a.h q - R.coefs (.gamma a.h (q .x + R.cfg.gibox .xlo) (q .y + R.cfg.gibox .ylo) (q .z + R.cfg.gibox .zlo)) * x -
      value R n a.h q) / R.dt) = -(relPermeability stuff * k.mu0 * (R.coefs (.gamma a.h (q .x + R.cfg.gibox .xlo) (q .y + R.cfg.gibox .ylo) (q .z + R.cfg.gibox .zlo)) * x) / R.dt) := by
    ring
  rw [this, key, hx]
  ring

/-! ### Dispersive matter -/

/-- What a card contributes to the lists of dispersive blocks. -/
def debOf (media : List (String × Med)) : Deck.Card → Option (Blk × List DPole)
  | .mb c => match find media c.medium with
    | some (.debye e s u p) => some (⟨c.bbox, .debye e s u p, mbMask c⟩, p)
    | _ => none
  | _ => none

theorem deb_lists (cards : List Deck.Card) (media : List (String × Med)) (c : Cfg) :
    debyeItems c (cards.filterMap (C64.mbItem media)) = (cards.filterMap (debOf media)).map fun y =>
      ⟨setFieldLimits (place c y.1.mbbox) (faceMask2boolArray y.1.mask), y.2.length⟩ := by
  unfold debyeItems
  rw [List.filterMap_filterMap, List.map_filterMap]
  congr 1
  funext x
  cases x with
  | mb c =>
    simp only [C64.mbItem, debOf]
    cases find media c.medium with
    | none => rfl
    | some m => cases m <;> rfl
  | _ => rfl

theorem deb_poles {s : Deck.State} {cards : List Deck.Card} (hs : s.blocks = cards.filterMap (C64.mbItem s.media)) :
    blockPoles s = (cards.filterMap (debOf s.media)).map fun y => y.2 := by
  unfold blockPoles
  rw [hs, List.filterMap_filterMap, List.map_filterMap]
  congr 1
  funext x
  cases x with
  | mb c =>
    simp only [C64.mbItem, debOf]
    cases find s.media c.medium with
    | none => rfl
    | some m => cases m <;> rfl
  | _ => rfl

/-- No source writes the sample. -/
theorem no_source (h : setup k J X = some R) (ho : OrdinaryBlocks X.file.cards) (hn : NoSource X a.e q) :
    NoWrite (updateSourcesE R.sim.srcs) (.fld a.e (grid R.cfg q .x) (grid R.cfg q .y) (grid R.cfg q .z)) := by
  obtain ⟨hv, hnn, hb, hdt, hC, hd, hst, pws, hpw, eS⟩ := run_parts h
  refine NoWrite.flatMap fun y hy => ?_
  split
  · rename_i hact
    refine NoWrite.loop fun i j l hl hw => ?_
    rw [C27.writes_srcE, List.mem_singleton] at hw
    simp only [Loc.fld.injEq] at hw
    obtain ⟨e0, e1, e2, e3⟩ := hw
    have hmem : y.1 ∈ R.sim.srcs := by
      have := List.mem_zipIdx' hy
      rw [this.2]; exact List.getElem_mem _
    rw [eS] at hmem
    simp only [List.map_map, List.mem_map] at hmem
    obtain ⟨it, hit, hit2⟩ := hmem
    rw [srcs_stored h ho, List.mem_filterMap] at hit
    obtain ⟨x, hx, hit⟩ := hit
    cases x with
    | ex m b nm tag w size delay r =>
      obtain ⟨⟨t, ht, rfl, hlk⟩, hbox⟩ := source_card h hx
      simp only [C64.exItem, hlk, Option.map_some, Option.some.injEq] at hit
      subst hit
      have hh : HitsE y.1 a.e (grid R.cfg q .x) (grid R.cfg q .y) (grid R.cfg q .z) := by
        refine ⟨hact, e0.symm, ?_⟩
        rw [e0, e1, e2, e3]
        exact hl
      rw [← hit2] at hh
      have hc := (hits_iff (q := q) R.cfg _ _ a).1.1 hh
      exact hn _ _ _ _ _ _ _ _ hx t ht rfl hc.1 hc.2
    | _ => simp [C64.exItem] at hit
  · exact NoWrite.nil

/-- C72: Ampere's law in dispersive matter. -/
theorem dispersive_ampere (hk : Physical k) (h : setup k J X = some R) (ho : OrdinaryBlocks X.file.cards) (hT : 0 < R.dt)
    (hi : SampleIn (meshBox X) a.e (q .x) (q .y) (q .z)) (hm : ¬ OnMurSide X a.e q) (hone : OneDebyeCard X a.e q)
    (hs : ClearOfSheets X a.e q) (hw : ClearOfWaves X a.e q) (hns : NoSource X a.e q) {e s u : ℝ} {poles : List DPole}
    (hst : MadeOf X a.e (q .x) (q .y) (q .z) (.dispersive e s u poles)) (hr : InRange k R.dt (.dispersive e s u poles))
    (hp : ∀ p ∈ poles, p.pole.re ≤ 0) :
    ∃ P : ℕ → ℕ → ℂ, (∀ p, P 0 p = 0) ∧ ∀ n,
      (∀ (p : ℕ) (hp : p < poles.length), PoleEquation R.dt k.eps0 ⟨poles[p].res, poles[p].pole⟩ (P n p) (P (n + 1) p)
        (value R n a.e q) (value R (n + 1) a.e q)) ∧
      DispersiveAmpere R.dt k.eps0 e s (value R n a.e q) (value R (n + 1) a.e q) (rotH X (value R n) a q)
        ((List.range poles.length).map (P n)) ((List.range poles.length).map (P (n + 1))) := by
  obtain ⟨hv, hn, hbt, hdt, hC, hd, hstored, pws, hpw, eS⟩ := run_parts h
  have ecfg : R.sim.cfg = R.cfg := by rw [eS]
  have he0 : 0 < k.eps0 := by rw [hk.eps0]; have := hk.c0; have := hk.mu0; positivity
  obtain ⟨l1, -⟩ := C64.read_lists _ (C47.stored_parts hstored).2 fun c hc => (ho c hc).2
  simp only [State.init, List.nil_append] at l1
  obtain ⟨pre, x, post, ecards, ⟨e', s', u', poles', hx⟩, hothers⟩ := hone
  have hxm : x ∈ X.file.cards := by rw [ecards]; simp
  -- the one card is the one the sample is made of
  have same : Med.debye e' s' u' poles' = .debye e s u poles := by
    have key : ∃ y ∈ X.file.cards, DebyeCard X a.e q y e s u poles := by
      cases hst with
      | resistor b1 b2 =>
        obtain ⟨_, _, _, _, _, _, _, _, _, _, _, _, e0⟩ := b2
        split at e0 <;> cases e0
      | plate _ _ b1 b2 =>
        obtain ⟨_, _, _, _, _, ⟨_, e0⟩ | ⟨_, e0⟩⟩ := b2 <;> cases e0
      | wire _ _ _ b1 b2 =>
        obtain ⟨_, _, _, e0⟩ := b2
        split at e0 <;> cases e0
      | block _ _ _ _ b1 b2 =>
        obtain ⟨c, mask, m, e1, e2, e3, e4, e5⟩ := b2
        refine ⟨_, (C64.last_mem b1).1, c, mask, e1, e2, e3, ?_⟩
        cases m <;> cases e5
        exact e4
    obtain ⟨y, hy, hyd⟩ := key
    have hyx : y = x := by
      rw [ecards, List.mem_append, List.mem_cons] at hy
      rcases hy with hy | rfl | hy
      · exact absurd hyd (hothers y (Or.inl hy) _ _ _ _)
      · rfl
      · exact absurd hyd (hothers y (Or.inr hy) _ _ _ _)
    obtain ⟨c, mask, e1, e2, e3, e4⟩ := hx
    obtain ⟨c2, mask2, f1, f2, f3, f4⟩ := hyd
    rw [hyx, e1] at f1
    cases f1
    rw [e1] at hxm
    have a1 := (C64.medium_found hstored (ho c hxm).2 _).2 e4
    have a2 := (C64.medium_found hstored (ho c hxm).2 _).2 f4
    rw [a1] at a2
    exact Option.some.inj a2
  obtain ⟨rfl, rfl, rfl, rfl⟩ : e' = e ∧ s' = s ∧ u' = u ∧ poles' = poles := by
    simpa using same
  obtain ⟨c, mask, rfl, hmask, hcont, hmed⟩ := hx
  have hfind := (C64.medium_found hstored (ho c hxm).2 _).2 hmed
  have accm : ∀ c, Deck.Card.mb c ∈ X.file.cards → Includes c (faceMask2boolArray (mbMask c)) := by
    intro c hx
    refine C64.mask_value (ho c hx).1 ?_
    obtain ⟨u', v', huv, -⟩ := C64.accepted hstored hx
    simp only [State.card] at huv
    split at huv
    · simp at huv
    · split at huv <;> simp at huv
      rename_i hq
      unfold parseMB at hq
      simp only [Bool.and_eq_true, Bool.or_eq_true, decide_eq_true_eq] at hq
      rcases hq.2 with h | h
      · have := (ho c hx).1; omega
      · exact h
  have hdeb : debOf R.state.media (.mb c) = some (⟨c.bbox, .debye e' s' u' poles', mbMask c⟩, poles') := by
    simp only [debOf, hfind]
  have hlist : X.file.cards.filterMap (debOf R.state.media) = pre.filterMap (debOf R.state.media) ++
      (⟨c.bbox, .debye e' s' u' poles', mbMask c⟩, poles') :: post.filterMap (debOf R.state.media) := by
    rw [ecards, List.filterMap_append, List.filterMap_cons_some hdeb]
  obtain ⟨b, hb⟩ : ∃ b, b = (pre.filterMap (debOf R.state.media)).length := ⟨_, rfl⟩
  have hget : (X.file.cards.filterMap (debOf R.state.media))[b]? = some (⟨c.bbox, .debye e' s' u' poles', mbMask c⟩, poles') := by
    rw [hlist, hb]; simp
  have hsd : R.sim.debye = (X.file.cards.filterMap (debOf R.state.media)).map fun y =>
      ⟨setFieldLimits (place R.cfg y.1.mbbox) (faceMask2boolArray y.1.mask), y.2.length⟩ := by
    rw [eS]
    show debyeItems R.cfg R.state.blocks = _
    rw [l1, deb_lists]
  have hpl : ∀ (p : ℕ) (hp : p < poles'.length), poleAt R.state b p = some poles'[p] := by
    intro p hp
    unfold poleAt
    rw [deb_poles l1, List.getElem?_map, hget]
    simp [hp]
  obtain ⟨st, hst1, hst2⟩ := C64.coefficients h ho hi
  rw [C64.made_unique h ho hst1 hst] at hst2
  have hsum : debyeSum R.dt k.eps0 poles' = (poles'.map fun q => (k.eps0 * q.res / (1 - R.dt / 2 * q.pole) : ℂ).re).sum := by
    unfold debyeSum
    rw [C64.foldl_sum, zero_add]
  obtain ⟨r1, r2, r3, r4⟩ := hr
  have D : C24.DebyeSample R.sim R.coefs R.dt k.eps0 k.mu0 e' s' u' (fun c n => (R.coefs (.idh c n))⁻¹) poles' b
      ⟨setFieldLimits (place R.cfg c.bbox) (faceMask2boolArray (mbMask c)), poles'.length⟩ a (grid R.cfg q) := by
    refine ⟨by rw [ecfg]; exact hv, by rw [hsd, List.getElem?_map, hget]; rfl, rfl, ?_, by rw [ecfg]; exact in_limits h hi hm,
      by rw [ecfg]; exact in_mesh h hi, ?_, (clear_sheets h hs).1, no_source h ho hns, (clear_waves h hw).1, ?_, ?_, ?_, ?_, ?_, hT.ne', ?_, ?_⟩
    · show InLim (setFieldLimits _ _ _) _ _ _
      rw [C19.inLim_iff_contains]
      rw [C64.includes_unique hmask (accm c hxm)] at hcont
      exact (C64.contains_place R.cfg c.bbox _).2 hcont
    · intro b' d' hbd hl
      rw [hsd, List.getElem?_map, Option.map_eq_some_iff] at hbd
      obtain ⟨y, hy, rfl⟩ := hbd
      rw [hlist] at hy
      by_contra hne
      have hmem : y ∈ pre.filterMap (debOf R.state.media) ∨ y ∈ post.filterMap (debOf R.state.media) := by
        rcases Nat.lt_trichotomy b' b with hlt | heq | hgt
        · left
          rw [List.getElem?_append_left (by omega)] at hy
          exact List.mem_of_getElem? hy
        · exact absurd heq hne
        · right
          rw [List.getElem?_append_right (by omega)] at hy
          obtain ⟨m, hm⟩ : ∃ m, b' - (pre.filterMap (debOf R.state.media)).length = m + 1 := ⟨b' - b - 1, by omega⟩
          rw [hm, List.getElem?_cons_succ] at hy
          exact List.mem_of_getElem? hy
      have fin : ∀ z, (z ∈ pre ∨ z ∈ post) → debOf R.state.media z = some y → False := by
        intro z hz hzy
        have hzc : z ∈ X.file.cards := by
          rw [ecards]; simp only [List.mem_append, List.mem_cons]; tauto
        cases z with
        | mb c2 =>
          simp only [debOf] at hzy
          split at hzy
          · rename_i e2 s2 u2 p2 hf2
            simp only [Option.some.injEq] at hzy
            subst hzy
            dsimp only at hl
            rw [C19.inLim_iff_contains] at hl
            exact hothers _ hz e2 s2 u2 p2 ⟨c2, _, rfl, accm c2 hzc, (C64.contains_place R.cfg c2.bbox _).1 hl,
              (C64.medium_found hstored (ho c2 hzc).2 _).1 hf2⟩
          · simp at hzy
        | _ => simp [debOf] at hzy
      rcases hmem with hmem | hmem
      · obtain ⟨z, hz, hzy⟩ := List.mem_filterMap.1 hmem
        exact fin z (Or.inl hz) hzy
      · obtain ⟨z, hz, hzy⟩ := List.mem_filterMap.1 hmem
        exact fin z (Or.inr hz) hzy
    · rw [hC]
      show (mediaArrays R.cfg (medSetup k J X R.cfg R.state) J.med a.e _ _ _).alpha = _
      exact congrArg Coef.alpha hst2
    · rw [hC]
      show (mediaArrays R.cfg (medSetup k J X R.cfg R.state) J.med a.e _ _ _).beta = _
      exact congrArg Coef.beta hst2
    · intro p hp
      rw [hC, hdt]
      show (⟨otherCoef k J X R.cfg R.state (.dal false b p), otherCoef k J X R.cfg R.state (.dal true b p)⟩ : ℂ) = _
      simp only [otherCoef, hpl p hp, part]
      rfl
    · intro p hp
      rw [hC, hdt]
      show (⟨otherCoef k J X R.cfg R.state (.dbe false b p), otherCoef k J X R.cfg R.state (.dbe true b p)⟩ : ℂ) = _
      simp only [otherCoef, hpl p hp, part]
      rfl
    · intro c n
      rw [one_div, inv_inv]
    · rw [hsum]
      refine ne_of_gt ?_
      have : 0 < 2 * e' * k.eps0 := by positivity
      have : 0 ≤ R.dt * s' := by positivity
      linarith
    · intro p hp' h0
      have := congrArg Complex.re h0
      simp at this
      have h2 := hp p hp'
      have : R.dt * p.pole.re ≤ 0 := mul_nonpos_of_nonneg_of_nonpos hT.le h2
      linarith
  have law := C24.debye_run_law D R.drive
  refine ⟨fun n p => C24.cur (R.fields n) b ⟨setFieldLimits (place R.cfg c.bbox) (faceMask2boolArray (mbMask c)), poles'.length⟩ a.e (grid R.cfg q .x) (grid R.cfg q .y) (grid R.cfg q .z) p, fun p => ?_, fun n => ?_⟩
  · rfl
  · obtain ⟨w1, w2⟩ := law n
    refine ⟨fun p hp => w1 p hp, ?_⟩
    have := rotH_eq h hi n (R.drive n)
    rw [← this]
    exact w2

end Vulture.C72
