import Verif.Props.C73_Rooms
import Verif.Spec.Held
/- C76: sources that hold or add fields. -/
set_option linter.unusedSimpArgs false
set_option linter.unusedVariables false
set_option linter.unusedSectionVars false
namespace Vulture.C76
open Vulture Spec Setup Deck CavityLemmas Scaling C72

/-! ### The sources of one step, one after another -/

section fold
variable (C : CRef → ℝ) {fc : Fc} {i j l : Int}

open Classical in
/-- What one source does to a value. -/
noncomputable def actE (fc : Fc) (i j l : Int) (s : Loc → ℝ) (v : ℝ) (y : Src × Nat) : ℝ :=
  if HitsE y.1 fc i j l then C (.soft y.2) * v + (if y.1.kind = .efield then s (.src false y.2) else -(C (.beta fc i j l) * s (.src false y.2))) else v
open Classical in
noncomputable def actH (fc : Fc) (i j l : Int) (s : Loc → ℝ) (v : ℝ) (y : Src × Nat) : ℝ :=
  if HitsH y.1 fc i j l then C (.soft y.2) * v + (if y.1.kind = .hfield then s (.src true y.2) else -(C (.gamma fc i j l) * s (.src true y.2))) else v

theorem oneE (y : Src × Nat) (s : Loc → ℝ) :
    Prog.run C (srcProgE y) s (.fld fc i j l) = actE C fc i j l s (s (.fld fc i j l)) y := by
  unfold actE
  by_cases hh : HitsE y.1 fc i j l
  · rw [if_pos hh]
    obtain ⟨ha, rfl, hi⟩ := hh
    have ha' := ha
    unfold C27.ActsE at ha'
    unfold srcProgE
    rw [if_pos ha']
    let T : Set Loc := fun m => m = .fld y.1.field i j l ∨ m = .src false y.2
    have hr : ∀ m ∈ (srcEBlock y.2 y.1 i j l).reads, m ∈ T := by
      intro m hm
      rw [C27.reads_srcE] at hm
      simp only [List.mem_cons, List.not_mem_nil, or_false] at hm
      exact hm
    rw [run_loop_sole C hi (S := T) ?_ hr s _ (Or.inl rfl) (by rw [C27.writes_srcE]; simp)]
    · rcases ha'.1 with hk | hk
      · simp only [srcEBlock, hk, Block.exec, Expr.eval, List.find?_cons, decide_true, if_true]
      · simp only [srcEBlock, hk, Block.exec, Expr.eval, List.find?_cons, decide_true, reduceCtorEq, if_false]
        ring
    · intro i' j' k' hne m hm hw
      rw [C27.writes_srcE, List.mem_singleton] at hw
      subst hw
      rcases hm with h | h
      · simp only [Loc.fld.injEq] at h
        obtain ⟨_, rfl, rfl, rfl⟩ := h
        exact hne rfl
      · cases h
  · rw [if_neg hh]
    refine NoWrite.run C ?_ s
    unfold srcProgE
    split
    · rename_i ha
      refine NoWrite.loop fun i' j' k' hi' hw => hh ?_
      rw [C27.writes_srcE, List.mem_singleton] at hw
      simp only [Loc.fld.injEq] at hw
      obtain ⟨h1, rfl, rfl, rfl⟩ := hw
      exact ⟨ha, h1.symm, by rw [h1]; exact hi'⟩
    · exact NoWrite.nil

theorem oneH (y : Src × Nat) (s : Loc → ℝ) :
    Prog.run C (srcProgH y) s (.fld fc i j l) = actH C fc i j l s (s (.fld fc i j l)) y := by
  unfold actH
  by_cases hh : HitsH y.1 fc i j l
  · rw [if_pos hh]
    obtain ⟨ha, rfl, hi⟩ := hh
    have ha' := ha
    unfold C27.ActsH at ha'
    unfold srcProgH
    rw [if_pos ha']
    let T : Set Loc := fun m => m = .fld y.1.field i j l ∨ m = .src true y.2
    have hr : ∀ m ∈ (srcHBlock y.2 y.1 i j l).reads, m ∈ T := by
      intro m hm
      rw [C27.reads_srcH] at hm
      simp only [List.mem_cons, List.not_mem_nil, or_false] at hm
      exact hm
    rw [run_loop_sole C hi (S := T) ?_ hr s _ (Or.inl rfl) (by rw [C27.writes_srcH]; simp)]
    · rcases ha'.1 with hk | hk
      · simp only [srcHBlock, hk, Block.exec, Expr.eval, List.find?_cons, decide_true, if_true]
      · simp only [srcHBlock, hk, Block.exec, Expr.eval, List.find?_cons, decide_true, reduceCtorEq, if_false]
        ring
    · intro i' j' k' hne m hm hw
      rw [C27.writes_srcH, List.mem_singleton] at hw
      subst hw
      rcases hm with h | h
      · simp only [Loc.fld.injEq] at h
        obtain ⟨_, rfl, rfl, rfl⟩ := h
        exact hne rfl
      · cases h
  · rw [if_neg hh]
    refine NoWrite.run C ?_ s
    unfold srcProgH
    split
    · rename_i ha
      refine NoWrite.loop fun i' j' k' hi' hw => hh ?_
      rw [C27.writes_srcH, List.mem_singleton] at hw
      simp only [Loc.fld.injEq] at hw
      obtain ⟨h1, rfl, rfl, rfl⟩ := hw
      exact ⟨ha, h1.symm, by rw [h1]; exact hi'⟩
    · exact NoWrite.nil

theorem foldE : ∀ (r : List (Src × Nat)) (s : Loc → ℝ),
    Prog.run C (r.flatMap srcProgE) s (.fld fc i j l) = r.foldl (actE C fc i j l s) (s (.fld fc i j l))
  | [], s => by simp [Prog.run]
  | y :: r, s => by
    rw [List.flatMap_cons, run_append, foldE r, oneE, List.foldl_cons]
    have : actE C fc i j l (Prog.run C (srcProgE y) s) = actE C fc i j l s := by
      funext v z
      unfold actE
      rw [NoWrite.run C (srcProgE_input y _ _)]
    rw [this]

theorem foldH : ∀ (r : List (Src × Nat)) (s : Loc → ℝ),
    Prog.run C (r.flatMap srcProgH) s (.fld fc i j l) = r.foldl (actH C fc i j l s) (s (.fld fc i j l))
  | [], s => by simp [Prog.run]
  | y :: r, s => by
    rw [List.flatMap_cons, run_append, foldH r, oneH, List.foldl_cons]
    have : actH C fc i j l (Prog.run C (srcProgH y) s) = actH C fc i j l s := by
      funext v z
      unfold actH
      rw [NoWrite.run C (srcProgH_input y _ _)]
    rw [this]

end fold

section step
variable (C : CRef → ℝ) {S : Sim} {a : Axis} {q : Axis → Int}

/-- The electric field after a step: the value left by everything before the sources, changed by the sources in turn. -/
theorem stepE_fold (hv : ValidCfg S.cfg) (hi : SampleIn S.cfg.gibox a.e (q .x) (q .y) (q .z))
    (np : NoWrite (updatePlaneWavesE S.cfg S.pws) (.fld a.e (q .x) (q .y) (q .z))) (s : Loc → ℝ) :
    at3 (S.step.run C s) a.e q = S.srcs.zipIdx.foldl (actE C a.e (q .x) (q .y) (q .z) s)
      (Prog.run C (updatePmlEfield S.cfg ++ updateMurEfield S.cfg ++ updateGridEfield S.cfg ++ updateDebye S.debye ++ updateSibcE S.sibc) s
        (.fld a.e (q .x) (q .y) (q .z))) := by
  have e : S.step = (updatePmlEfield S.cfg ++ updateMurEfield S.cfg ++ updateGridEfield S.cfg ++ updateDebye S.debye ++ updateSibcE S.sibc) ++
      (S.srcs.zipIdx.flatMap srcProgE ++ (updatePlaneWavesE S.cfg S.pws ++ updateGhostEfield S.cfg ++ S.stepH)) := by
    have e0 : updateSourcesE S.srcs = S.srcs.zipIdx.flatMap srcProgE := rfl
    simp only [Sim.step, Sim.stepE, List.append_assoc, e0]
  have h1 : NoWrite (updatePlaneWavesE S.cfg S.pws ++ updateGhostEfield S.cfg ++ S.stepH)
      (.fld a.e (q .x) (q .y) (q .z)) := (np.append
        (noWrite_ghostE hv (sampleIn_mono (gibox_within hv) hi))).append
        (noE_stepH (axis_e_isE a) _ _ _ S)
  have ki : ∀ n, (Loc.src false n).kind ∉ [LKind.fld, .pml, .et, .filt, .dj, .dl] := fun n => by
    change LKind.input ∉ _; decide
  have h3 : ∀ n, NoWrite (updatePmlEfield S.cfg ++ updateMurEfield S.cfg ++ updateGridEfield S.cfg ++ updateDebye S.debye ++ updateSibcE S.sibc) (.src false n) := fun n =>
    (((((((wo_pmlE S.cfg).mono (by decide)).noWrite (ki n)).append
    (((wo_murE S.cfg).mono (by decide)).noWrite (ki n))).append (((wo_gridE S.cfg).mono (by decide)).noWrite (ki n))).append
    (((wo_debye S.debye).mono (by decide)).noWrite (ki n))).append (((wo_sibcE S.sibc).mono (by decide)).noWrite (ki n)))
  unfold at3
  rw [e, run_append, run_append, NoWrite.run C h1, foldE]
  congr 1
  funext v y
  unfold actE
  rw [NoWrite.run C (h3 _)]

theorem stepH_fold (hv : ValidCfg S.cfg) (hi : SampleIn S.cfg.gibox a.h (q .x) (q .y) (q .z))
    (np : NoWrite (updatePlaneWavesH S.cfg S.pws) (.fld a.h (q .x) (q .y) (q .z))) (s : Loc → ℝ) :
    at3 (S.step.run C s) a.h q = S.srcs.zipIdx.foldl (actH C a.h (q .x) (q .y) (q .z) s)
      (Prog.run C (S.stepE ++ (updatePmlHfield S.cfg ++ updateMurHfield S.cfg ++ updateGridHfield S.cfg ++ updateSibcH S.sibc)) s
        (.fld a.h (q .x) (q .y) (q .z))) := by
  have e : S.step = (S.stepE ++ (updatePmlHfield S.cfg ++ updateMurHfield S.cfg ++ updateGridHfield S.cfg ++ updateSibcH S.sibc)) ++
      (S.srcs.zipIdx.flatMap srcProgH ++ (updatePlaneWavesH S.cfg S.pws ++ updateGhostHfield S.cfg)) := by
    have e0 : updateSourcesH S.srcs = S.srcs.zipIdx.flatMap srcProgH := rfl
    simp only [Sim.step, Sim.stepH, List.append_assoc, e0]
  have h1 : NoWrite (updatePlaneWavesH S.cfg S.pws ++ updateGhostHfield S.cfg)
      (.fld a.h (q .x) (q .y) (q .z)) := np.append (noWrite_ghostH hv (sampleIn_mono (gibox_within hv) hi))
  have ki : ∀ n, (Loc.src true n).kind ∉ [LKind.fld, .pml] := fun n => by change LKind.input ∉ _; decide
  have h3 : ∀ n, NoWrite (S.stepE ++ (updatePmlHfield S.cfg ++ updateMurHfield S.cfg ++ updateGridHfield S.cfg ++ updateSibcH S.sibc)) (.src true n) := fun n =>
    (C27.stepE_keeps_input S (l := .src true n) rfl).append ((((((wo_pmlH S.cfg).mono (by decide)).noWrite (ki n)).append
    (((wo_murH S.cfg).mono (by decide)).noWrite (ki n))).append (((wo_gridH S.cfg).mono (by decide)).noWrite (ki n))).append
    (((wo_sibcH S.sibc).mono (by decide)).noWrite (ki n)))
  unfold at3
  rw [e, run_append, run_append, NoWrite.run C h1, foldH]
  congr 1
  funext v y
  unfold actH
  rw [NoWrite.run C (h3 _)]

end step

/-! ### In terms of the cards -/

section cards
variable {k : Consts} {J : Junk} {X : Experiment} {R : Setup.Run} {a : Axis} {q : Axis → Int}

open Classical in
/-- What a card does to a value; `c`: coefficient of the currents. -/
noncomputable def actCard (X : Experiment) (T time c : ℝ) (fc : Fc) (q : Axis → Int) (v : ℝ) (x : Deck.Card) : ℝ :=
  (if Overwrites x fc q then 0 else v) + addedField X T time fc q x - c * addedCurrent X T time fc q x

theorem foldl_same {α β : Type*} {f g : β → α → β} : ∀ (l : List α), (∀ y ∈ l, ∀ v, f v y = g v y) → ∀ v, l.foldl f v = l.foldl g v
  | [], _, _ => rfl
  | y :: l, h, v => by rw [List.foldl_cons, List.foldl_cons, h y (by simp), foldl_same l fun z hz => h z (List.mem_cons_of_mem _ hz)]

theorem foldl_zipIdx {α : Type*} (l : List α) (F : ℝ → α → ℕ → ℝ) (G : ℝ → α → ℝ) (hF : ∀ x i v, l[i]? = some x → F v x i = G v x) (v : ℝ) :
    l.zipIdx.foldl (fun v y => F v y.1 y.2) v = l.foldl G v := by
  rw [foldl_same (g := fun v y => G v y.1) l.zipIdx]
  · have : (l.zipIdx.map Prod.fst).foldl G v = l.foldl G v := by rw [List.zipIdx_map_fst]
    rw [← this, List.foldl_map]
  · intro y hy v
    refine hF _ _ _ ?_
    obtain ⟨h1, h2⟩ := List.mem_zipIdx' hy
    rw [h2]; simp

theorem soft_valid {t : Tag} (ht : t.Valid) : ({t with hard := false} : Tag).Valid := ⟨fun h => (by cases h), ht.2⟩

/-- What a source becomes. -/
theorem source_kind (h : setup k J X = some R) {b : BBox} (hb : ∀ a : Axis, 0 ≤ b a.lo ∧ b a.lo ≤ b a.hi ∧ b a.hi ≤ cellsOf X.file a)
    (t : Tag) (ht : t.Valid) (size r : ℝ) :
    let y := Source.initSource (Setup.de k J X R.cfg) (Setup.dh k J X R.cfg) (place R.cfg b) (C27.typeOf t.qty) t.pol (t.norm.getD .x) size r
    (t.prescribes r → y.kind = (if t.qty.electric then .efield else .hfield) ∧ y.size = heldField X t b size r) ∧
    (¬ t.prescribes r → y.kind = (if t.qty.electric then .ecurr else .hcurr) ∧ y.size = density X t b size r) := by
  obtain ⟨hl, ha⟩ := C64.sizes h t.pol hb
  have h2 : ¬ t.prescribes r → ({t with hard := false} : Tag).current r := by
    intro hn
    refine ⟨rfl, ?_⟩
    unfold Tag.prescribes at hn
    cases e : t.qty <;> simp [e] at hn ⊢ <;> linarith
  refine ⟨fun hp => ?_, fun hn => ?_⟩
  · unfold Tag.prescribes at hp
    obtain ⟨hard, qty, pol, norm⟩ := t
    dsimp only at *
    cases qty <;> simp only at hp
    case E => simp [C27.typeOf, Source.initSource, heldField, Quantity.electric]
    case H => simp [C27.typeOf, Source.initSource, heldField, Quantity.electric]
    case V => simp [C27.typeOf, Source.initSource, heldField, Quantity.electric, hl]
    case VR =>
      have hr : ¬ r > Source.minResistance := by unfold Source.minResistance; linarith
      simp only [C27.typeOf, Source.initSource, Source.initThevenin, if_neg hr, heldField, Quantity.electric, hl, if_true, and_self]
    case IG =>
      have hr : ¬ r > Source.minResistance := by unfold Source.minResistance; linarith
      simp only [C27.typeOf, Source.initSource, Source.initThevenin, if_neg hr, heldField, Quantity.electric, hl, if_true, and_self]
  · have := current_source h (b := b) hb {t with hard := false} (soft_valid ht) size r (h2 hn)
    dsimp only at this
    refine ⟨this.1, ?_⟩
    rw [this.2]
    rfl

theorem overwrites_iff {t : Tag} (ht : t.Valid) {m b n w size delay r} {fc : Fc} :
    Overwrites (.ex m b n t.spell w size delay r) fc q ↔ t.component = fc ∧ SampleIn b fc (q .x) (q .y) (q .z) ∧ t.hard = true := by
  constructor
  · rintro ⟨m', b', n', w', size', delay', r', t', e, ht', h1, h2, h3⟩
    injection e with _ e1 _ e2
    have := C27.spell_injective ht ht' e2
    subst this; subst e1
    exact ⟨h1, h2, h3⟩
  · rintro ⟨h1, h2, h3⟩
    exact ⟨m, b, n, w, size, delay, r, t, rfl, ht, h1, h2, h3⟩

theorem not_ex {x : Deck.Card} (hx : C64.exItem x = none) (h : setup k J X = some R) (hm : x ∈ X.file.cards) (T time c : ℝ) (fc : Fc) (v : ℝ) :
    actCard X T time c fc q v x = v := by
  cases x with
  | ex m b n tag w size delay r =>
    obtain ⟨⟨t, ht, rfl, hl⟩, -⟩ := source_card h hm
    simp [C64.exItem, hl] at hx
  | _ =>
    unfold actCard
    rw [if_neg (by rintro ⟨_, _, _, _, _, _, _, _, e, _⟩; cases e)]
    simp [addedField, addedCurrent]

theorem soft_coef (h : setup k J X = some R) {i : ℕ} {x : SrcItem} (hx : R.state.srcs[i]? = some x) : R.coefs (.soft i) = bit x.info.soft := by
  obtain ⟨-, -, -, -, hC, -⟩ := run_parts h
  rw [hC]
  show otherCoef k J X R.cfg R.state (.soft i) = _
  simp only [otherCoef, hx]

open Classical in
/-- What a stored source does to a value of an electric sample. -/
noncomputable def itemE (k : Consts) (J : Junk) (X : Experiment) (R : Setup.Run) (a : Axis) (q : Axis → Int) (n : ℕ) (v : ℝ) (x : SrcItem) : ℝ :=
  let y := srcItem (Setup.de k J X R.cfg) (Setup.dh k J X R.cfg) R.cfg x
  let f := y.2 * waveValue R.dt (X.waves x.wave) (Deck.time R.dt false n - x.delay)
  if HitsE y.1 a.e (grid R.cfg q .x) (grid R.cfg q .y) (grid R.cfg q .z) then
    bit x.info.soft * v + (if y.1.kind = .efield then f else -(R.coefs (.beta a.e (grid R.cfg q .x) (grid R.cfg q .y) (grid R.cfg q .z)) * f)) else v
open Classical in
noncomputable def itemH (k : Consts) (J : Junk) (X : Experiment) (R : Setup.Run) (a : Axis) (q : Axis → Int) (n : ℕ) (v : ℝ) (x : SrcItem) : ℝ :=
  let y := srcItem (Setup.de k J X R.cfg) (Setup.dh k J X R.cfg) R.cfg x
  let f := y.2 * waveValue R.dt (X.waves x.wave) (Deck.time R.dt true n - x.delay)
  if HitsH y.1 a.h (grid R.cfg q .x) (grid R.cfg q .y) (grid R.cfg q .z) then
    bit x.info.soft * v + (if y.1.kind = .hfield then f else -(R.coefs (.gamma a.h (grid R.cfg q .x) (grid R.cfg q .y) (grid R.cfg q .z)) * f)) else v

theorem card_item_e (h : setup k J X = some R) {x : Deck.Card} (hx : x ∈ X.file.cards) {y : SrcItem} (hy : C64.exItem x = some y) (n : ℕ) (v : ℝ) :
    itemE k J X R a q n v y = actCard X R.dt (n * R.dt) (R.coefs (.beta a.e (grid R.cfg q .x) (grid R.cfg q .y) (grid R.cfg q .z))) a.e q v x := by
  cases x with
  | ex m b nm tag w size delay r =>
    obtain ⟨⟨t, ht, rfl, hl⟩, hbox⟩ := source_card h hx
    simp only [C64.exItem, hl, Option.map_some, Option.some.injEq] at hy
    subst hy
    have hh := (hits_iff (q := q) (t := t) (b := b) (n := nm) (w := w) (size := size) (delay := delay) (r := r) R.cfg
        (Setup.de k J X R.cfg) (Setup.dh k J X R.cfg) a).1
    unfold itemE actCard
    simp only [addedField, addedCurrent, tagOf_spell ht, overwrites_iff ht]
    have et : Deck.time R.dt false n = n * R.dt := rfl
    by_cases hc : t.component = a.e ∧ SampleIn b a.e (q .x) (q .y) (q .z)
    · rw [if_pos (hh.2 hc)]
      have hor : ∀ a : Axis, b a.lo ≤ b a.hi := fun a' => C64.contained_ordered (mask := wholeBox) ⟨hc.2, fun _ _ => rfl⟩ a'
      have sk := source_kind h (b := b) (fun a' => ⟨(hbox a').1, hor a', (hbox a').2⟩) t ht size r
      dsimp only at sk
      have hel := component_electric hc.1
      simp only [hel, if_true, if_false, Bool.false_eq_true, reduceIte] at sk
      by_cases hp : t.prescribes r
      · obtain ⟨s1, s2⟩ := sk.1 hp
        rw [if_pos (show t.component = _ ∧ _ ∧ _ from ⟨hc.1, hc.2, hp⟩), if_neg (fun h' : t.component = _ ∧ _ ∧ ¬ t.prescribes r => h'.2.2 hp)]
        simp only [srcItem, s1, s2, et]
        cases eh : t.hard
        · rw [if_neg (fun h' : t.component = _ ∧ _ ∧ _ => absurd h'.2.2 (by decide))]; simp [bit]
        · rw [if_pos (show t.component = a.e ∧ SampleIn b a.e (q .x) (q .y) (q .z) ∧ true = true from ⟨hc.1, hc.2, rfl⟩)]; simp [bit]
      · obtain ⟨s1, s2⟩ := sk.2 hp
        rw [if_neg (fun h' : t.component = _ ∧ _ ∧ t.prescribes r => hp h'.2.2), if_pos (show t.component = _ ∧ _ ∧ ¬ t.prescribes r from ⟨hc.1, hc.2, hp⟩)]
        simp only [srcItem, s1, s2, et, reduceCtorEq, if_false]
        cases eh : t.hard
        · rw [if_neg (fun h' : t.component = _ ∧ _ ∧ _ => absurd h'.2.2 (by decide))]; simp [bit]; ring
        · rw [if_pos (show t.component = a.e ∧ SampleIn b a.e (q .x) (q .y) (q .z) ∧ true = true from ⟨hc.1, hc.2, rfl⟩)]; simp [bit]
    · rw [if_neg fun h' => hc (hh.1 h'), if_neg (fun h' => hc ⟨h'.1, h'.2.1⟩), if_neg (fun h' => hc ⟨h'.1, h'.2.1⟩), if_neg (fun h' => hc ⟨h'.1, h'.2.1⟩)]
      ring
  | _ => simp [C64.exItem] at hy

theorem card_item_h (h : setup k J X = some R) {x : Deck.Card} (hx : x ∈ X.file.cards) {y : SrcItem} (hy : C64.exItem x = some y) (n : ℕ) (v : ℝ) :
    itemH k J X R a q n v y = actCard X R.dt ((n + 1 / 2) * R.dt) (R.coefs (.gamma a.h (grid R.cfg q .x) (grid R.cfg q .y) (grid R.cfg q .z))) a.h q v x := by
  cases x with
  | ex m b nm tag w size delay r =>
    obtain ⟨⟨t, ht, rfl, hl⟩, hbox⟩ := source_card h hx
    simp only [C64.exItem, hl, Option.map_some, Option.some.injEq] at hy
    subst hy
    have hh := (hits_iff (q := q) (t := t) (b := b) (n := nm) (w := w) (size := size) (delay := delay) (r := r) R.cfg
        (Setup.de k J X R.cfg) (Setup.dh k J X R.cfg) a).2
    unfold itemH actCard
    simp only [addedField, addedCurrent, tagOf_spell ht, overwrites_iff ht]
    have et : Deck.time R.dt true n = (n + 1 / 2) * R.dt := rfl
    by_cases hc : t.component = a.h ∧ SampleIn b a.h (q .x) (q .y) (q .z)
    · rw [if_pos (hh.2 hc)]
      have hor : ∀ a : Axis, b a.lo ≤ b a.hi := fun a' => C64.contained_ordered (mask := wholeBox) ⟨hc.2, fun _ _ => rfl⟩ a'
      have sk := source_kind h (b := b) (fun a' => ⟨(hbox a').1, hor a', (hbox a').2⟩) t ht size r
      dsimp only at sk
      have hel := component_magnetic hc.1
      simp only [hel, if_true, if_false, Bool.false_eq_true, reduceIte] at sk
      by_cases hp : t.prescribes r
      · obtain ⟨s1, s2⟩ := sk.1 hp
        rw [if_pos (show t.component = _ ∧ _ ∧ _ from ⟨hc.1, hc.2, hp⟩), if_neg (fun h' : t.component = _ ∧ _ ∧ ¬ t.prescribes r => h'.2.2 hp)]
        simp only [srcItem, s1, s2, et]
        cases eh : t.hard
        · rw [if_neg (fun h' : t.component = _ ∧ _ ∧ _ => absurd h'.2.2 (by decide))]; simp [bit]
        · rw [if_pos (show t.component = a.h ∧ SampleIn b a.h (q .x) (q .y) (q .z) ∧ true = true from ⟨hc.1, hc.2, rfl⟩)]; simp [bit]
      · obtain ⟨s1, s2⟩ := sk.2 hp
        rw [if_neg (fun h' : t.component = _ ∧ _ ∧ t.prescribes r => hp h'.2.2), if_pos (show t.component = _ ∧ _ ∧ ¬ t.prescribes r from ⟨hc.1, hc.2, hp⟩)]
        simp only [srcItem, s1, s2, et, reduceCtorEq, if_false]
        cases eh : t.hard
        · rw [if_neg (fun h' : t.component = _ ∧ _ ∧ _ => absurd h'.2.2 (by decide))]; simp [bit]; ring
        · rw [if_pos (show t.component = a.h ∧ SampleIn b a.h (q .x) (q .y) (q .z) ∧ true = true from ⟨hc.1, hc.2, rfl⟩)]; simp [bit]
    · rw [if_neg fun h' => hc (hh.1 h'), if_neg (fun h' => hc ⟨h'.1, h'.2.1⟩), if_neg (fun h' => hc ⟨h'.1, h'.2.1⟩), if_neg (fun h' => hc ⟨h'.1, h'.2.1⟩)]
      ring
  | _ => simp [C64.exItem] at hy

theorem zip_map {α β : Type*} (l : List α) (g : α → β) : (l.map g).zipIdx = l.zipIdx.map fun y => (g y.1, y.2) := by
  rw [List.zipIdx_map]
  rfl

theorem cards_fold {f : ℝ → SrcItem → ℝ} {g : ℝ → Deck.Card → ℝ} (h : setup k J X = some R) (ho : OrdinaryBlocks X.file.cards)
    (h1 : ∀ x ∈ X.file.cards, ∀ y, C64.exItem x = some y → ∀ v, f v y = g v x) (h0 : ∀ x ∈ X.file.cards, C64.exItem x = none → ∀ v, g v x = v) (v : ℝ) :
    R.state.srcs.foldl f v = X.file.cards.foldl g v := by
  rw [srcs_stored h ho, List.foldl_filterMap]
  refine foldl_same _ (fun x hx v => ?_) v
  cases e : C64.exItem x with
  | none => exact (h0 x hx e v).symm
  | some y => exact h1 x hx y e v

/-- The electric field after a step, in terms of the cards. -/
theorem electric_fold (h : setup k J X = some R) (ho : OrdinaryBlocks X.file.cards)
    (hi : SampleIn (meshBox X) a.e (q .x) (q .y) (q .z)) (hw : ClearOfWaves X a.e q) (n : ℕ) :
    value R (n + 1) a.e q = X.file.cards.foldl
      (actCard X R.dt (n * R.dt) (R.coefs (.beta a.e (grid R.cfg q .x) (grid R.cfg q .y) (grid R.cfg q .z))) a.e q)
      (Prog.run R.coefs (updatePmlEfield R.sim.cfg ++ updateMurEfield R.sim.cfg ++ updateGridEfield R.sim.cfg ++ updateDebye R.sim.debye ++ updateSibcE R.sim.sibc)
        (setInputs (R.drive n) (R.fields n)) (.fld a.e (grid R.cfg q .x) (grid R.cfg q .y) (grid R.cfg q .z))) := by
  obtain ⟨hv, -, -, -, -, -, -, pws, -, eS⟩ := run_parts h
  have ecfg : R.sim.cfg = R.cfg := by rw [eS]
  have st := stepE_fold R.coefs (S := R.sim) (a := a) (q := grid R.cfg q) (by rw [ecfg]; exact hv)
    (by rw [ecfg]; exact in_mesh h hi) (clear_waves h hw).1 (setInputs (R.drive n) (R.fields n))
  rw [value_eq, fields_succ]
  refine st.trans ?_
  have esrc : R.sim.srcs = R.state.srcs.map fun x => (srcItem (Setup.de k J X R.cfg) (Setup.dh k J X R.cfg) R.cfg x).1 := by
    rw [eS]; simp only [List.map_map]; rfl
  rw [esrc, zip_map, List.foldl_map]
  refine (foldl_zipIdx R.state.srcs (fun v x i => actE R.coefs a.e (grid R.cfg q .x) (grid R.cfg q .y) (grid R.cfg q .z) (setInputs (R.drive n) (R.fields n)) v
    ((srcItem (Setup.de k J X R.cfg) (Setup.dh k J X R.cfg) R.cfg x).1, i)) (itemE k J X R a q n) (fun x i v hx => ?_) _).trans ?_
  · unfold actE itemE
    dsimp only
    rw [drive_value h false n _ hx, soft_coef h hx]
  · exact cards_fold h ho (fun x hx y hy v => card_item_e h hx hy n v) (fun x hx hy v => not_ex hy h hx _ _ _ _ v) _

theorem magnetic_fold (h : setup k J X = some R) (ho : OrdinaryBlocks X.file.cards)
    (hi : SampleIn (meshBox X) a.h (q .x) (q .y) (q .z)) (hw : ClearOfWaves X a.h q) (n : ℕ) :
    value R (n + 1) a.h q = X.file.cards.foldl
      (actCard X R.dt ((n + 1 / 2) * R.dt) (R.coefs (.gamma a.h (grid R.cfg q .x) (grid R.cfg q .y) (grid R.cfg q .z))) a.h q)
      (Prog.run R.coefs (R.sim.stepE ++ (updatePmlHfield R.sim.cfg ++ updateMurHfield R.sim.cfg ++ updateGridHfield R.sim.cfg ++ updateSibcH R.sim.sibc))
        (setInputs (R.drive n) (R.fields n)) (.fld a.h (grid R.cfg q .x) (grid R.cfg q .y) (grid R.cfg q .z))) := by
  obtain ⟨hv, -, -, -, -, -, -, pws, -, eS⟩ := run_parts h
  have ecfg : R.sim.cfg = R.cfg := by rw [eS]
  have st := stepH_fold R.coefs (S := R.sim) (a := a) (q := grid R.cfg q) (by rw [ecfg]; exact hv)
    (by rw [ecfg]; exact in_mesh h hi) (clear_waves h hw).2 (setInputs (R.drive n) (R.fields n))
  rw [value_eq, fields_succ]
  refine st.trans ?_
  have esrc : R.sim.srcs = R.state.srcs.map fun x => (srcItem (Setup.de k J X R.cfg) (Setup.dh k J X R.cfg) R.cfg x).1 := by
    rw [eS]; simp only [List.map_map]; rfl
  rw [esrc, zip_map, List.foldl_map]
  refine (foldl_zipIdx R.state.srcs (fun v x i => actH R.coefs a.h (grid R.cfg q .x) (grid R.cfg q .y) (grid R.cfg q .z) (setInputs (R.drive n) (R.fields n)) v
    ((srcItem (Setup.de k J X R.cfg) (Setup.dh k J X R.cfg) R.cfg x).1, i)) (itemH k J X R a q n) (fun x i v hx => ?_) _).trans ?_
  · unfold actH itemH
    dsimp only
    rw [drive_value h true n _ hx, soft_coef h hx]
  · exact cards_fold h ho (fun x hx y hy v => card_item_h h hx hy n v) (fun x hx hy v => not_ex hy h hx _ _ _ _ v) _

theorem not_acting {x : Deck.Card} {fc : Fc} (hx : ¬ ActsOn x fc q) (T time c v : ℝ) : actCard X T time c fc q v x = v := by
  unfold actCard
  rw [if_neg (by rintro ⟨m, b, n, w, size, delay, r, t, e, h1, h2, h3, -⟩; exact hx ⟨m, b, n, w, size, delay, r, t, e, h1, h2, h3⟩)]
  cases x with
  | ex m b n tag w size delay r =>
    simp only [addedField, addedCurrent]
    cases e : tagOf tag with
    | none => simp
    | some t =>
      have ht : t.Valid ∧ t.spell = tag := by
        unfold tagOf at e
        split_ifs at e with hex
        injection e with e
        rw [← e]
        exact hex.choose_spec
      obtain ⟨ht, rfl⟩ := ht
      dsimp only
      rw [if_neg (fun h' => hx ⟨m, b, n, w, size, delay, r, t, rfl, ht, h'.1, h'.2.1⟩),
        if_neg (fun h' => hx ⟨m, b, n, w, size, delay, r, t, rfl, ht, h'.1, h'.2.1⟩)]
      ring
  | _ => simp [addedField, addedCurrent]

theorem fold_inert {T time c : ℝ} {fc : Fc} : ∀ (l : List Deck.Card), (∀ x ∈ l, ¬ ActsOn x fc q) → ∀ v, l.foldl (actCard X T time c fc q) v = v
  | [], _, _ => rfl
  | x :: l, h, v => by
    rw [List.foldl_cons, not_acting (h x (by simp)), fold_inert l fun y hy => h y (List.mem_cons_of_mem _ hy)]

theorem fold_soft {T time c : ℝ} {fc : Fc} : ∀ (l : List Deck.Card), (∀ x ∈ l, ¬ Overwrites x fc q) → ∀ v, l.foldl (actCard X T time c fc q) v =
    v + (l.map (addedField X T time fc q)).sum - c * (l.map (addedCurrent X T time fc q)).sum
  | [], _, _ => by simp
  | x :: l, h, v => by
    rw [List.foldl_cons, fold_soft l fun y hy => h y (List.mem_cons_of_mem _ hy)]
    unfold actCard
    rw [if_neg (h x (by simp))]
    simp only [List.map_cons, List.sum_cons]
    ring

theorem fold_held {T time c v : ℝ} {fc : Fc} {m b nm w size delay r} {t : Tag} (ht : t.Valid) (hh : t.hard = true) (hp : t.prescribes r)
    (hc : t.component = fc) (hb : SampleIn b fc (q .x) (q .y) (q .z)) :
    actCard X T time c fc q v (.ex m b nm t.spell w size delay r) = heldField X t b size r * waveValue T (X.waves w) (time - delay) := by
  unfold actCard
  rw [if_pos ((overwrites_iff ht).2 ⟨hc, hb, hh⟩)]
  simp only [addedField, addedCurrent, tagOf_spell ht]
  rw [if_pos ⟨hc, hb, hp⟩, if_neg fun h' => h'.2.2 hp]
  ring

theorem box_in_mesh (h : setup k J X = some R) {m b n tag w size delay r} (hx : Deck.Card.ex m b n tag w size delay r ∈ X.file.cards) {fc : Fc}
    (hb : SampleIn b fc (q .x) (q .y) (q .z)) : SampleIn (meshBox X) fc (q .x) (q .y) (q .z) := by
  obtain ⟨-, hbox⟩ := source_card h hx
  have h1 := hbox .x; have h2 := hbox .y; have h3 := hbox .z
  obtain ⟨b1, b2, b3⟩ := hb
  simp only [Axis.lo, Axis.hi, cellsOf] at h1 h2 h3
  refine ⟨?_, ?_, ?_⟩ <;> simp only [meshBox, mkBox] <;> omega

/-- C76: a hard source that prescribes a field or voltage holds its samples, whatever they are made of. -/
theorem held (h : setup k J X = some R) (ho : OrdinaryBlocks X.file.cards) {pre post m b nm w size delay r} {t : Tag} (ht : t.Valid)
    (hx : X.file.cards = pre ++ Deck.Card.ex m b nm t.spell w size delay r :: post) (hh : t.hard = true) (hp : t.prescribes r)
    (hb : SampleIn b t.component (q .x) (q .y) (q .z)) (hpost : ∀ y ∈ post, ¬ ActsOn y t.component q) (hw : ClearOfWaves X t.component q) (n : ℕ) :
    value R (n + 1) t.component q = heldField X t b size r * waveValue R.dt (X.waves w) (sampleTime R.dt t.component n - delay) := by
  have hi := box_in_mesh h (show Deck.Card.ex m b nm t.spell w size delay r ∈ X.file.cards by rw [hx]; simp) hb
  have key : ∀ T time c v, X.file.cards.foldl (actCard X T time c t.component q) v = heldField X t b size r * waveValue T (X.waves w) (time - delay) := by
    intro T time c v
    rw [hx, List.foldl_append, List.foldl_cons, fold_held ht hh hp rfl hb, fold_inert _ hpost]
  have e : (∃ a : Axis, t.component = a.e) ∨ ∃ a : Axis, t.component = a.h := by
    unfold Tag.component; split_ifs
    · exact Or.inl ⟨_, rfl⟩
    · exact Or.inr ⟨_, rfl⟩
  rcases e with ⟨a, ha⟩ | ⟨a, ha⟩
  · rw [ha] at hi hw key ⊢
    rw [electric_fold h ho hi hw n, key]
    unfold sampleTime
    rw [if_pos (axis_e_isE a)]
  · rw [ha] at hi hw key ⊢
    rw [magnetic_fold h ho hi hw n, key]
    unfold sampleTime
    rw [if_neg (by rw [axis_h_isE a]; decide)]

/-- C76: a hard voltage source holds the voltage between the ends of its box, along every line of the box. -/
theorem held_voltage (h : setup k J X = some R) (ho : OrdinaryBlocks X.file.cards) {pre post m b nm w size delay r} {a : Axis}
    (hx : X.file.cards = pre ++ Deck.Card.ex m b nm (Tag.spell ⟨true, .V, a, none⟩) w size delay r :: post)
    (hlen : boxLength X b a ≠ 0) (hor : b a.lo ≤ b a.hi)
    (hq : ∀ c, c ≠ a → b c.lo ≤ q c ∧ q c ≤ b c.hi)
    (hpost : ∀ y ∈ post, ∀ i, b a.lo ≤ i → i < b a.hi → ¬ ActsOn y a.e (fun c => if c = a then i else q c))
    (hw : ∀ i, b a.lo ≤ i → i < b a.hi → ClearOfWaves X a.e (fun c => if c = a then i else q c)) (n : ℕ) :
    -∑ i ∈ Finset.Ico (b a.lo) (b a.hi), value R (n + 1) a.e (fun c => if c = a then i else q c) * (X.lines a (i + 1) - X.lines a i) =
      size * waveValue R.dt (X.waves w) (n * R.dt - delay) := by
  have ht : (⟨true, .V, a, none⟩ : Tag).Valid := by cases a <;> decide
  have hv : ∀ i ∈ Finset.Ico (b a.lo) (b a.hi), value R (n + 1) a.e (fun c => if c = a then i else q c) * (X.lines a (i + 1) - X.lines a i) =
      -size / boxLength X b a * waveValue R.dt (X.waves w) (n * R.dt - delay) * (X.lines a (i + 1) - X.lines a i) := by
    intro i hi
    rw [Finset.mem_Ico] at hi
    have hb : SampleIn b a.e ((fun c => if c = a then i else q c) .x) ((fun c => if c = a then i else q c) .y) ((fun c => if c = a then i else q c) .z) := by
      have q1 := hq .x; have q2 := hq .y; have q3 := hq .z
      cases a <;> simp [SampleIn, pos2, Axis.e, Axis.lo, Axis.hi] at hi q1 q2 q3 ⊢ <;> omega
    have := held h ho ht hx rfl trivial (q := fun c => if c = a then i else q c) hb (fun y hy => hpost y hy i hi.1 hi.2) (hw i hi.1 hi.2) n
    have e : (⟨true, .V, a, none⟩ : Tag).component = a.e := rfl
    rw [e] at this
    rw [this]
    unfold sampleTime heldField
    rw [if_pos (axis_e_isE a)]
  rw [Finset.sum_congr rfl hv, ← Finset.mul_sum]
  have tel : ∑ i ∈ Finset.Ico (b a.lo) (b a.hi), (X.lines a (i + 1) - X.lines a i) = boxLength X b a := by
    unfold boxLength
    obtain ⟨m, hm⟩ := Int.eq_ofNat_of_zero_le (show 0 ≤ b a.hi - b a.lo by omega)
    have e : b a.hi = b a.lo + m := by omega
    rw [e]
    generalize b a.lo = l
    clear e hm
    induction m with
    | zero => simp
    | succ m ih =>
      have : Finset.Ico l (l + (m + 1 : ℕ)) = insert (l + m) (Finset.Ico l (l + m)) := by
        ext x; simp only [Finset.mem_Ico, Finset.mem_insert]; push_cast; omega
      rw [this, Finset.sum_insert (by simp), ih]
      have e : l + ((m + 1 : ℕ) : Int) = l + m + 1 := by push_cast; ring
      rw [e]; ring
  rw [tel]
  field_simp

/-- C76: soft sources: the field of a step is that of Ampere's law with the impressed currents, plus the prescribed fields. -/
theorem added_electric (hk : Physical k) (h : setup k J X = some R) (ho : OrdinaryBlocks X.file.cards) (hT : 0 < R.dt)
    (hi : SampleIn (meshBox X) a.e (q .x) (q .y) (q .z)) (hm : ¬ OnMurSide X a.e q)
    (hd : ∀ x ∈ X.file.cards, ∀ e s u poles, ¬ DebyeCard X a.e q x e s u poles)
    (hs : ClearOfSheets X a.e q) (hw : ClearOfWaves X a.e q) (hov : ∀ x ∈ X.file.cards, ¬ Overwrites x a.e q)
    {stuff : Stuff} (hst : MadeOf X a.e (q .x) (q .y) (q .z) stuff) (n : ℕ) :
    ∃ E, value R (n + 1) a.e q = E + (X.file.cards.map (addedField X R.dt (n * R.dt) a.e q)).sum ∧
      match stuff with
      | .metal => E = -value R n a.e q
      | _ => AmpereIn k R.dt (value R n a.e q) E (rotH X (value R n) a q) (X.file.cards.map (addedCurrent X R.dt (n * R.dt) a.e q)).sum stuff := by
  obtain ⟨hv, -, -, -, -, -, -, pws, -, eS⟩ := run_parts h
  have ecfg : R.sim.cfg = R.cfg := by rw [eS]
  have hE := electric_value R.coefs (c := R.sim.cfg) (by rw [ecfg]; exact hv) (axis_e_isE a) (i := grid R.cfg q .x) (j := grid R.cfg q .y) (k := grid R.cfg q .z)
    (by rw [ecfg]; exact in_limits h hi hm) (setInputs (R.drive n) (R.fields n))
  have e2 : (Vulture.ampere a.e (grid R.cfg q .x) (grid R.cfg q .y) (grid R.cfg q .z)).eval R.coefs (setInputs (R.drive n) (R.fields n)) =
      R.coefs (.alpha a.e (grid R.cfg q .x) (grid R.cfg q .y) (grid R.cfg q .z)) * at3 (setInputs (R.drive n) (R.fields n)) a.e (grid R.cfg q) +
      R.coefs (.beta a.e (grid R.cfg q .x) (grid R.cfg q .y) (grid R.cfg q .z)) * curlOfH (fun c n => (R.coefs (.idh c n))⁻¹) (setInputs (R.drive n) (R.fields n)) a (grid R.cfg q) := by
    cases a <;> simp [Vulture.ampere, ampereX, ampereY, ampereZ, Axis.e, Expr.eval, curlOfH, at3, back, Axis.next, Axis.h,
      curlHx, curlHy, curlHz, EX, EY, EZ, HX, HY, HZ] <;> (left; ring)
  have base : Prog.run R.coefs (updatePmlEfield R.sim.cfg ++ updateMurEfield R.sim.cfg ++ updateGridEfield R.sim.cfg ++ updateDebye R.sim.debye ++ updateSibcE R.sim.sibc)
        (setInputs (R.drive n) (R.fields n)) (.fld a.e (grid R.cfg q .x) (grid R.cfg q .y) (grid R.cfg q .z)) =
      R.coefs (.alpha a.e (grid R.cfg q .x) (grid R.cfg q .y) (grid R.cfg q .z)) * value R n a.e q +
      R.coefs (.beta a.e (grid R.cfg q .x) (grid R.cfg q .y) (grid R.cfg q .z)) * rotH X (value R n) a q := by
    rw [List.append_assoc, run_append, NoWrite.run R.coefs ((clear_debye h ho hd).append (clear_sheets h hs).1), hE, e2, rotH_eq h hi n]
    rfl
  refine ⟨R.coefs (.alpha a.e (grid R.cfg q .x) (grid R.cfg q .y) (grid R.cfg q .z)) * value R n a.e q +
      R.coefs (.beta a.e (grid R.cfg q .x) (grid R.cfg q .y) (grid R.cfg q .z)) * (rotH X (value R n) a q - (X.file.cards.map (addedCurrent X R.dt (n * R.dt) a.e q)).sum), ?_, ?_⟩
  · rw [electric_fold h ho hi hw n, fold_soft _ hov, base]
    ring
  · have hb := (C64.every_sample hk h ho hT hi).2 stuff hst
    obtain ⟨s, hs', e1, e2, -⟩ := C73.made_exists h ho hi
    rw [C64.made_unique h ho hs' hst] at e1 e2
    unfold grid at e1 e2 ⊢
    cases stuff with
    | vacuum =>
      have := hb.1 (value R n a.e q) (rotH X (value R n) a q - (X.file.cards.map (addedCurrent X R.dt (n * R.dt) a.e q)).sum)
      dsimp only
      unfold AmpereIn AmpereWithCurrent
      dsimp only [Axis.lo] at this ⊢
      linear_combination this
    | metal =>
      dsimp only
      rw [e1, e2]
      show (-1 : ℝ) * _ + (0 : ℝ) * _ = _
      ring
    | matter e s u =>
      intro r1 r2 r3
      have := (hb r1 r2 r3).1 (value R n a.e q) (rotH X (value R n) a q - (X.file.cards.map (addedCurrent X R.dt (n * R.dt) a.e q)).sum)
      unfold AmpereWithCurrent
      dsimp only [Axis.lo] at this ⊢
      linear_combination this
    | dispersive e s u poles => trivial

/-- C76: soft sources on a magnetic sample. -/
theorem added_magnetic (hk : Physical k) (h : setup k J X = some R) (ho : OrdinaryBlocks X.file.cards) (hT : 0 < R.dt)
    (hi : SampleIn (meshBox X) a.h (q .x) (q .y) (q .z))
    (hs : ClearOfSheets X a.h q) (hw : ClearOfWaves X a.h q) (hov : ∀ x ∈ X.file.cards, ¬ Overwrites x a.h q)
    {stuff : Stuff} (hst : MadeOf X a.h (q .x) (q .y) (q .z) stuff) (hr : InRange k R.dt stuff) (n : ℕ) :
    ∃ H, value R (n + 1) a.h q = H + (X.file.cards.map (addedField X R.dt ((n + 1 / 2) * R.dt) a.h q)).sum ∧
      FaradayWithCurrent R.dt (relPermeability stuff * k.mu0) (value R n a.h q) H (rotE X (value R (n + 1)) a q)
        (X.file.cards.map (addedCurrent X R.dt ((n + 1 / 2) * R.dt) a.h q)).sum := by
  obtain ⟨hv, -, -, -, -, -, -, pws, -, eS⟩ := run_parts h
  have ecfg : R.sim.cfg = R.cfg := by rw [eS]
  have hE : ∀ fc i j k, fc.isE = true → R.sim.step.run R.coefs (setInputs (R.drive n) (R.fields n)) (.fld fc i j k) =
      R.sim.stepE.run R.coefs (setInputs (R.drive n) (R.fields n)) (.fld fc i j k) := by
    intro fc i j k hf
    rw [Sim.step, run_append, NoWrite.run R.coefs (noE_stepH hf i j k R.sim)]
  have hF := magnetic_value R.coefs (c := R.sim.cfg) (by rw [ecfg]; exact hv) (axis_h_isE a) (i := grid R.cfg q .x) (j := grid R.cfg q .y) (k := grid R.cfg q .z)
    (by rw [ecfg]; exact in_mesh h hi) (R.sim.stepE.run R.coefs (setInputs (R.drive n) (R.fields n)))
  have hH := NoWrite.run R.coefs (noH_stepE (axis_h_isE a) (grid R.cfg q .x) (grid R.cfg q .y) (grid R.cfg q .z) R.sim) (setInputs (R.drive n) (R.fields n))
  have ee : curlOfE (fun c n => (R.coefs (.ide c n))⁻¹) (R.sim.step.run R.coefs (setInputs (R.drive n) (R.fields n))) a (grid R.cfg q) =
      curlOfE (fun c n => (R.coefs (.ide c n))⁻¹) (R.sim.stepE.run R.coefs (setInputs (R.drive n) (R.fields n))) a (grid R.cfg q) := by
    unfold curlOfE at3
    dsimp only
    rw [hE _ _ _ _ (axis_e_isE _), hE _ _ _ _ (axis_e_isE _), hE _ _ _ _ (axis_e_isE _), hE _ _ _ _ (axis_e_isE _)]
  have e2 : (Vulture.faraday a.h (grid R.cfg q .x) (grid R.cfg q .y) (grid R.cfg q .z)).eval R.coefs (R.sim.stepE.run R.coefs (setInputs (R.drive n) (R.fields n))) =
      at3 (setInputs (R.drive n) (R.fields n)) a.h (grid R.cfg q) - R.coefs (.gamma a.h (grid R.cfg q .x) (grid R.cfg q .y) (grid R.cfg q .z)) *
        curlOfE (fun c n => (R.coefs (.ide c n))⁻¹) (R.sim.stepE.run R.coefs (setInputs (R.drive n) (R.fields n))) a (grid R.cfg q) := by
    unfold at3 at *
    generalize Prog.run R.coefs R.sim.stepE (setInputs (R.drive n) (R.fields n)) = s' at *
    generalize setInputs (R.drive n) (R.fields n) = s'' at *
    generalize grid R.cfg q = g at *
    cases a <;> simp [Axis.h] at hH <;> simp [Vulture.faraday, faradayX, faradayY, faradayZ, Axis.h, Expr.eval, curlOfE, at3, ahead, Axis.next,
      Axis.e, curlEx, curlEy, curlEz, EX, EY, EZ, HX, HY, HZ, hH] <;> ring
  have base : Prog.run R.coefs (R.sim.stepE ++ (updatePmlHfield R.sim.cfg ++ updateMurHfield R.sim.cfg ++ updateGridHfield R.sim.cfg ++ updateSibcH R.sim.sibc))
        (setInputs (R.drive n) (R.fields n)) (.fld a.h (grid R.cfg q .x) (grid R.cfg q .y) (grid R.cfg q .z)) =
      value R n a.h q - R.coefs (.gamma a.h (grid R.cfg q .x) (grid R.cfg q .y) (grid R.cfg q .z)) * rotE X (value R (n + 1)) a q := by
    rw [run_append, run_append, NoWrite.run R.coefs (clear_sheets h hs).2, hF, e2, ← rotE_eq h hi (n + 1), fields_succ, ee]
    rfl
  obtain ⟨g, hg⟩ : ∃ g, g = R.coefs (.gamma a.h (grid R.cfg q .x) (grid R.cfg q .y) (grid R.cfg q .z)) := ⟨_, rfl⟩
  refine ⟨value R n a.h q - g * (rotE X (value R (n + 1)) a q + (X.file.cards.map (addedCurrent X R.dt ((n + 1 / 2) * R.dt) a.h q)).sum), ?_, ?_⟩
  · rw [magnetic_fold h ho hi hw n, fold_soft _ hov, base, ← hg]
    ring
  · have hb := (C64.every_sample hk h ho hT hi).2 stuff hst
    obtain ⟨x, hx⟩ : ∃ x, x = rotE X (value R (n + 1)) a q + (X.file.cards.map (addedCurrent X R.dt ((n + 1 / 2) * R.dt) a.h q)).sum := ⟨_, rfl⟩
    have key : relPermeability stuff * k.mu0 * (g * x) / R.dt = x := by
      rw [hg]
      unfold grid
      cases stuff with
      | vacuum => exact hb.2 x
      | metal =>
        have := hb.2 x
        unfold relPermeability
        rw [one_mul]
        exact this
      | matter e s u => exact (hb hr.1 hr.2.1 hr.2.2).2 x
      | dispersive e s u poles => exact (hb hr.1 hr.2.1 hr.2.2.1 hr.2.2.2).2 x
    unfold FaradayWithCurrent
    rw [← hx]
    have : relPermeability stuff * k.mu0 * ((value R n a.h q - g * x - value R n a.h q) / R.dt) = -(relPermeability stuff * k.mu0 * (g * x) / R.dt) := by
      ring
    rw [this, key, hx]
    ring

/-- C76: a hard current source forgets the field of its samples: each step is Ampere's law from nothing, with no curl. -/
theorem hard_current (hk : Physical k) (h : setup k J X = some R) (ho : OrdinaryBlocks X.file.cards) (hT : 0 < R.dt)
    {pre post m b nm w size delay r} {t : Tag} (ht : t.Valid)
    (hx : X.file.cards = pre ++ Deck.Card.ex m b nm t.spell w size delay r :: post) (hh : t.hard = true) (hp : ¬ t.prescribes r)
    (hc : t.component = a.e) (hb : SampleIn b a.e (q .x) (q .y) (q .z)) (hpost : ∀ y ∈ post, ¬ ActsOn y a.e q) (hw : ClearOfWaves X a.e q)
    {stuff : Stuff} (hst : MadeOf X a.e (q .x) (q .y) (q .z) stuff) (n : ℕ) :
    match stuff with
    | .metal => value R (n + 1) a.e q = 0
    | _ => AmpereIn k R.dt 0 (value R (n + 1) a.e q) 0 (density X t b size r * waveValue R.dt (X.waves w) (n * R.dt - delay)) stuff := by
  have hi := box_in_mesh h (show Deck.Card.ex m b nm t.spell w size delay r ∈ X.file.cards by rw [hx]; simp) hb
  have key : ∀ T time c v, X.file.cards.foldl (actCard X T time c a.e q) v = -(c * (density X t b size r * waveValue T (X.waves w) (time - delay))) := by
    intro T time c v
    rw [hx, List.foldl_append, List.foldl_cons, fold_inert _ hpost]
    unfold actCard
    rw [if_pos ((overwrites_iff ht).2 ⟨hc, hb, hh⟩)]
    simp only [addedField, addedCurrent, tagOf_spell ht]
    rw [if_neg fun h' => hp h'.2.2, if_pos ⟨hc, hb, hp⟩]
    ring
  have hv := electric_fold h ho hi hw n
  rw [key] at hv
  have hb := (C64.every_sample hk h ho hT hi).2 stuff hst
  obtain ⟨s, hs', e1, e2, -⟩ := C73.made_exists h ho hi
  rw [C64.made_unique h ho hs' hst] at e1 e2
  obtain ⟨j, hj⟩ : ∃ j, j = density X t b size r * waveValue R.dt (X.waves w) (n * R.dt - delay) := ⟨_, rfl⟩
  rw [← hj] at hv ⊢
  rw [hv]
  unfold grid at e1 e2 ⊢
  cases stuff with
  | vacuum =>
    have := hb.1 0 (-j)
    dsimp only
    unfold AmpereIn AmpereWithCurrent
    dsimp only [Axis.lo] at this ⊢
    rw [mul_zero, zero_add, mul_neg] at this
    linear_combination this
  | metal =>
    dsimp only
    rw [e2]
    show -((0 : ℝ) * _) = _
    ring
  | matter e s u =>
    intro r1 r2 r3
    have := (hb r1 r2 r3).1 0 (-j)
    unfold AmpereWithCurrent
    dsimp only [Axis.lo] at this ⊢
    rw [mul_zero, zero_add, mul_neg] at this
    linear_combination this
  | dispersive e s u poles => trivial

end cards

/-! ### A gap held at one volt -/

def gapCards : List Deck.Card := [.wf "pulse", .ex 10 (mkBox 4 4 4 4 3 5) "feed" ['=', 'V', 'Z'] "pulse" 1 0 0]
noncomputable def gap : Experiment :=
  ⟨⟨8, 8, 8, fun _ => .pec, fun _ => 6, gapCards, false⟩, fun _ i => (i : ℝ), 0.5,
    fun _ => ⟨4, 1, -1, 1⟩, fun _ => .builtin ⟨.gaussian, 1, -1, -1, -1⟩⟩

theorem gap_setup (k : Consts) (J : Junk) : ∃ R, setup k J gap = some R := by
  have hl : (Source.lookup ['=', 'V', 'Z']).isSome = true := by decide +kernel
  obtain ⟨info, hl⟩ := Option.isSome_iff_exists.1 hl
  obtain ⟨s, hs, hp⟩ : ∃ s, gap.file.stored = some s ∧ s.pws = [] := by
    have e : gap.file.stored = Deck.read (State.init (mkBox 0 8 0 8 0 8)) gapCards := rfl
    rw [e, gapCards]
    rw [C47.read_cons, C47.card_wf (by rfl), Option.bind_some]
    rw [C47.read_cons]
    simp only [State.card, hl]
    rw [if_pos (by decide +kernel)]; exact ⟨_, rfl, rfl⟩
  obtain ⟨cf, hc⟩ : ∃ cf, initExternalSurfaceParameters gap.file.cells gap.file.bt gap.file.layers = some cf :=
    Option.isSome_iff_exists.1 (by
      show (initExternalSurfaceParameters (fun a => match a with | .x => 8 | .y => 8 | .z => 8) (fun _ => BType.pec) (fun _ => 6)).isSome = true
      decide +kernel)
  have hS : ∃ S, (fileOf k J gap cf).sim (Setup.de k J gap cf) (Setup.dh k J gap cf) = some S := by
    unfold File.sim
    have a1 : (fileOf k J gap cf).stored = some s := hs
    have a2 : initExternalSurfaceParameters (fileOf k J gap cf).cells (fileOf k J gap cf).bt (fileOf k J gap cf).layers = some cf := hc
    rw [a1, Option.bind_some, a2, Option.bind_some, hp]
    exact ⟨_, rfl⟩
  obtain ⟨S, hS⟩ := hS
  exact ⟨_, Scaling.setup_of hc hs hS⟩

theorem gap_cards {x : Deck.Card} (h : x ∈ gap.file.cards) : x = .wf "pulse" ∨ x = .ex 10 (mkBox 4 4 4 4 3 5) "feed" ['=', 'V', 'Z'] "pulse" 1 0 0 := by
  have : x ∈ gapCards := h
  simpa [gapCards] using this

/-- Both edges of the gap together carry the pulse, in every step. -/
example (k : Consts) (J : Junk) : ∃ R, setup k J gap = some R ∧ ∀ n : ℕ,
    -(value R (n + 1) .ez (fun c => if c = .z then 3 else 4) + value R (n + 1) .ez (fun c => if c = .z then 4 else 4)) =
      waveValue R.dt (.builtin ⟨.gaussian, 1, -1, -1, -1⟩) (n * R.dt) := by
  obtain ⟨R, hR⟩ := gap_setup k J
  refine ⟨R, hR, fun n => ?_⟩
  have ho : OrdinaryBlocks gap.file.cards := by
    intro b hb; rcases gap_cards hb with h | h <;> cases h
  have hw : ∀ q, ClearOfWaves gap (Axis.e .z) q := by
    intro q b pr hb; rcases gap_cards hb with h | h <;> cases h
  have := held_voltage (X := gap) (q := fun _ => 4) (pre := [.wf "pulse"]) (post := []) (m := 10) (b := mkBox 4 4 4 4 3 5) (nm := "feed") (w := "pulse")
    (size := 1) (delay := 0) (r := 0) (a := .z) hR ho rfl (by simp [boxLength, gap, mkBox, Axis.lo, Axis.hi]; norm_num) (by decide)
    (fun c hc => by cases c <;> simp [mkBox, Axis.lo, Axis.hi] at hc ⊢) (by simp) (fun i _ _ => hw _) n
  have e : Finset.Ico ((mkBox 4 4 4 4 3 5) (Axis.lo .z)) ((mkBox 4 4 4 4 3 5) (Axis.hi .z)) = {3, 4} := by decide
  rw [e, Finset.sum_pair (by decide)] at this
  have l : gap.lines = fun (_ : Axis) (i : Int) => (i : ℝ) := rfl
  rw [l] at this
  simp only [one_mul, sub_zero] at this
  norm_num at this ⊢
  exact this

end Vulture.C76
