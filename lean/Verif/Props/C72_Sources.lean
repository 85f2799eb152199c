import Verif.Props.C72_Clear
/- C72, sources: the current densities that drive the update loops are those of the cards. -/
set_option linter.unusedSimpArgs false
set_option linter.unusedVariables false
set_option linter.unusedSectionVars false
namespace Vulture.C72
open Vulture Spec Setup Deck CavityLemmas Scaling

variable {k : Consts} {J : Junk} {X : Experiment} {R : Setup.Run} {q : Axis → Int}

section sizes
variable (h : setup k J X = some R) {b : BBox} (ho : ∀ a : Axis, 0 ≤ b a.lo ∧ b a.lo ≤ b a.hi ∧ b a.hi ≤ cellsOf X.file a)
include h ho

theorem sum_width (a : Axis) : ∑ i ∈ Finset.Icc (place R.cfg b a.lo) (place R.cfg b a.hi), Setup.dh k J X R.cfg a i = boxWidth X b a := by
  obtain ⟨h0, h1, h2⟩ := ho a
  have := C64.sizes h (b := b) a.next.next ho
  obtain ⟨hv, hn, -⟩ := run_parts h
  rw [(C71.placed R.cfg b a).1, (C71.placed R.cfg b a).2, C64.sum_shift]
  unfold boxWidth
  refine Finset.sum_congr rfl fun m hm => ?_
  rw [Finset.mem_Icc] at hm
  have sp := C71.span R.cfg hv a
  rw [hn] at sp
  have d := C18.dual_edges R.cfg hv a (X.lines a) k.big (J.edges a) (m + R.cfg.gibox a.lo) (by omega) (by omega)
  have e1 := C18.edge_lengths R.cfg hv a (X.lines a) k.big (J.edges a) (m + R.cfg.gibox a.lo) (by omega) (by omega)
  have e2 := C18.edge_lengths R.cfg hv a (X.lines a) k.big (J.edges a) (m + R.cfg.gibox a.lo - 1) (by omega) (by omega)
  rw [add_sub_cancel_right, hn] at e1
  rw [show m + R.cfg.gibox a.lo - 1 - R.cfg.gibox a.lo = m - 1 by ring, hn] at e2
  unfold Setup.dh edges
  rw [d, e1, e2]
  rfl

theorem sum_length (a : Axis) : ∑ i ∈ Finset.Icc (place R.cfg b a.lo) (place R.cfg b a.hi - 1), Setup.de k J X R.cfg a i = boxLength X b a :=
  (C64.sizes h a ho).1

theorem side_e (a d : Axis) (hd : a ≠ d) :
    (Source.electricSize (Setup.de k J X R.cfg) (Setup.dh k J X R.cfg) (place R.cfg b) d).side a = boxWidth X b a := by
  simp only [Source.electricSize, if_neg hd]
  exact sum_width h ho a
theorem side_m (a d : Axis) (hd : a ≠ d) :
    (Source.magneticSize (Setup.de k J X R.cfg) (Setup.dh k J X R.cfg) (place R.cfg b) d).side a = boxLength X b a := by
  simp only [Source.magneticSize, if_neg hd]
  exact sum_length h ho a
theorem sizes_m (d : Axis) :
    (Source.magneticSize (Setup.de k J X R.cfg) (Setup.dh k J X R.cfg) (place R.cfg b) d).length = boxWidth X b d ∧
    (Source.magneticSize (Setup.de k J X R.cfg) (Setup.dh k J X R.cfg) (place R.cfg b) d).area =
      boxLength X b d.next * boxLength X b d.next.next := by
  refine ⟨sum_width h ho d, ?_⟩
  rw [← side_m h ho d.next d (by cases d <;> decide), ← side_m h ho d.next.next d (by cases d <;> decide)]
  rfl

/-- What `initSources` makes of a current source. -/
theorem current_source (t : Tag) (ht : t.Valid) (size r : ℝ) (hc : t.current r) :
    let y := Source.initSource (Setup.de k J X R.cfg) (Setup.dh k J X R.cfg) (place R.cfg b) (C27.typeOf t.qty) t.pol (t.norm.getD .x) size r
    y.kind = (if t.qty.electric then .ecurr else .hcurr) ∧ y.size = density X t b size r := by
  obtain ⟨hl, ha⟩ := C64.sizes h t.pol ho
  obtain ⟨ml, ma⟩ := sizes_m h ho t.pol
  obtain ⟨hard, qty, pol, norm⟩ := t
  dsimp only at *
  have hnorm : ∀ n, norm = some n → n ≠ pol := by
    rintro n rfl
    exact ht.2.2
  have hsome : qty = .JS ∨ qty = .JMS → ∃ n, norm = some n := by
    intro hq
    cases norm with
    | none => exact absurd hq (by have := ht.2; simp only at this; tauto)
    | some n => exact ⟨n, rfl⟩
  cases qty
  case E => exact absurd hc.2 id
  case H => exact absurd hc.2 id
  case V => exact absurd hc.2 id
  case JS =>
    obtain ⟨n, rfl⟩ := hsome (Or.inl rfl)
    simp [C27.typeOf, Source.initSource, density, Quantity.electric, side_e h ho n pol (hnorm n rfl)]
  case JMS =>
    obtain ⟨n, rfl⟩ := hsome (Or.inr rfl)
    simp [C27.typeOf, Source.initSource, density, Quantity.electric, side_m h ho n pol (hnorm n rfl)]
  case VR =>
    have hr : r > Source.minResistance := by unfold Source.minResistance; exact hc.2
    simp only [C27.typeOf, Source.initSource, Source.initThevenin, if_pos hr, density, Quantity.electric, ha, if_true, and_self]
  case IG =>
    have hr : r > Source.minResistance := by unfold Source.minResistance; exact hc.2
    have h0 : r ≠ 0 := by have : (1 : ℝ) / 100 < r := hc.2; intro e; rw [e] at this; norm_num at this
    simp only [C27.typeOf, Source.initSource, Source.initThevenin, if_pos hr, density, Quantity.electric, ha, if_true, true_and]
    field_simp
  all_goals simp [C27.typeOf, Source.initSource, density, Quantity.electric, ha, hl, ma, ml]

end sizes

/-- The box of an accepted source lies in the mesh, and its tag is one of the table. -/
theorem source_card (h : setup k J X = some R) {m b n tag w size delay r} (hx : Deck.Card.ex m b n tag w size delay r ∈ X.file.cards) :
    (∃ t : Tag, t.Valid ∧ t.spell = tag ∧ Source.lookup tag = some ⟨C27.typeOf t.qty, t.pol, t.norm, t.component, !t.hard⟩) ∧
    ∀ a : Axis, 0 ≤ b a.lo ∧ b a.hi ≤ cellsOf X.file a := by
  obtain ⟨-, -, -, -, -, -, hst, -⟩ := run_parts h
  obtain ⟨u, v, huv, hm⟩ := C64.accepted hst hx
  simp only [State.card] at huv
  split at huv
  · simp at huv
  · rename_i t ht
    split at huv <;> simp at huv
    rename_i hq
    obtain ⟨t', h1, h2, h3⟩ := C27.tag_only ht
    refine ⟨⟨t', h1, h2, by rw [ht, h3]; rfl⟩, ?_⟩
    unfold parseEX at hq
    simp only [Bool.and_eq_true] at hq
    have hw : bboxIsWithin b u.mbox = true := hq.1.1.2
    rw [hm] at hw
    simp only [bboxIsWithin, Bool.and_eq_true, decide_eq_true_eq] at hw
    have hw2 : ((((b .xlo ≥ 0 ∧ b .xhi ≤ X.file.nx) ∧ b .ylo ≥ 0) ∧ b .yhi ≤ X.file.ny) ∧ b .zlo ≥ 0) ∧ b .zhi ≤ X.file.nz := hw
    intro a
    cases a <;> simp only [Axis.lo, Axis.hi, cellsOf] <;> omega

theorem tagOf_spell {t : Tag} (ht : t.Valid) : tagOf t.spell = some t := by
  have hex : ∃ t' : Tag, t'.Valid ∧ t'.spell = t.spell := ⟨t, ht, rfl⟩
  unfold tagOf
  rw [dif_pos hex]
  rw [C27.spell_injective hex.choose_spec.1 ht hex.choose_spec.2]

theorem sum_zipIdx {α : Type*} (l : List α) (F : α → ℕ → ℝ) (G : α → ℝ) (hF : ∀ x i, l[i]? = some x → F x i = G x) :
    (l.zipIdx.map fun y => F y.1 y.2).sum = (l.map G).sum := by
  have e : (l.zipIdx.map fun y => F y.1 y.2) = l.zipIdx.map fun y => G y.1 := by
    refine List.map_congr_left fun y hy => hF _ _ ?_
    obtain ⟨h1, h2⟩ := List.mem_zipIdx' hy
    rw [h2]; simp
  rw [e, show (fun y : α × ℕ => G y.1) = G ∘ Prod.fst from rfl, ← List.map_map]
  simp

theorem sum_filterMap {α β : Type*} (g : α → Option β) (G : β → ℝ) : ∀ l : List α,
    ((l.filterMap g).map G).sum = (l.map fun x => match g x with | some y => G y | none => 0).sum
  | [] => rfl
  | x :: l => by
    rw [List.map_cons, List.sum_cons, ← sum_filterMap g G l, List.filterMap_cons]
    cases g x <;> simp

theorem kind_of (de dh : Axis → Int → ℝ) (b : BBox) (qty : Quantity) (pol norm : Axis) (size r : ℝ) :
    let y := (Source.initSource de dh b (C27.typeOf qty) pol norm size r).kind
    if qty.electric = true then y = .efield ∨ y = .ecurr else y = .hfield ∨ y = .hcurr := by
  cases qty <;> simp [Quantity.electric, C27.typeOf, Source.initSource, Source.initThevenin] <;> split_ifs <;> simp

theorem component_electric {t : Tag} {a : Axis} (h : t.component = a.e) : t.qty.electric = true := by
  unfold Tag.component at h
  by_contra hn
  rw [if_neg hn] at h
  revert h
  cases t.pol <;> cases a <;> decide
theorem component_magnetic {t : Tag} {a : Axis} (h : t.component = a.h) : ¬ t.qty.electric = true := by
  unfold Tag.component at h
  intro hn
  rw [if_pos hn] at h
  revert h
  cases t.pol <;> cases a <;> decide

/-- A source of the run hits the sample exactly if its card has this component and its box contains it. -/
theorem hits_iff {t : Tag} {b : BBox} {n w : String} {size delay r : ℝ} (c : Cfg) (de dh : Axis → Int → ℝ) (a : Axis) :
    (HitsE (srcItem de dh c ⟨b, n, ⟨C27.typeOf t.qty, t.pol, t.norm, t.component, !t.hard⟩, w, size, delay, r⟩).1 a.e (grid c q .x) (grid c q .y) (grid c q .z) ↔
      t.component = a.e ∧ SampleIn b a.e (q .x) (q .y) (q .z)) ∧
    (HitsH (srcItem de dh c ⟨b, n, ⟨C27.typeOf t.qty, t.pol, t.norm, t.component, !t.hard⟩, w, size, delay, r⟩).1 a.h (grid c q .x) (grid c q .y) (grid c q .z) ↔
      t.component = a.h ∧ SampleIn b a.h (q .x) (q .y) (q .z)) := by
  have geo : ∀ fc, InLim (setFieldLimits (place c b) (fun _ => true) fc) (grid c q .x) (grid c q .y) (grid c q .z) ↔
      SampleIn b fc (q .x) (q .y) (q .z) := by
    intro fc
    rw [C19.inLim_iff_contains]
    refine (C64.contains_place c b _).trans ⟨fun h => h.1, fun h => ⟨h, fun _ _ => rfl⟩⟩
  have hk := kind_of de dh (place c b) t.qty t.pol (t.norm.getD .x) size r
  dsimp only at hk
  refine ⟨⟨fun ⟨h1, h2, h3⟩ => ⟨h2, (geo _).1 h3⟩, fun ⟨h1, h3⟩ => ⟨⟨?_, ?_⟩, h1, (geo _).2 h3⟩⟩,
    ⟨fun ⟨h1, h2, h3⟩ => ⟨h2, (geo _).1 h3⟩, fun ⟨h1, h3⟩ => ⟨⟨?_, ?_⟩, h1, (geo _).2 h3⟩⟩⟩
  · rw [if_pos (component_electric h1)] at hk
    exact hk
  · show t.component.isE = true
    rw [h1]
    cases a <;> rfl
  · rw [if_neg (component_magnetic h1)] at hk
    exact hk
  · show t.component.isE = false
    rw [h1]
    cases a <;> rfl

/-- The driving value of a source. -/
theorem drive_value (h : setup k J X = some R) (mag : Bool) (n : ℕ) (s : Loc → ℝ) {i : ℕ} {x : SrcItem} (hx : R.state.srcs[i]? = some x) :
    setInputs (R.drive n) s (.src mag i) =
      (srcItem (Setup.de k J X R.cfg) (Setup.dh k J X R.cfg) R.cfg x).2 * waveValue R.dt (X.waves x.wave) (Deck.time R.dt mag n - x.delay) := by
  obtain ⟨hv, hn, hb, hdt, hC, hd, hst, pws, hpw, eS⟩ := run_parts h
  rw [hdt, hd]
  simp only [setInputs, Loc.isInput, if_true, Deck.drive, hx, env]

theorem srcs_stored (h : setup k J X = some R) (ho : OrdinaryBlocks X.file.cards) : R.state.srcs = X.file.cards.filterMap C64.exItem := by
  obtain ⟨hv, hn, hb, hdt, hC, hd, hst, pws, hpw, eS⟩ := run_parts h
  obtain ⟨-, -, -, l4⟩ := C64.read_lists _ (C47.stored_parts hst).2 fun c hc => (ho c hc).2
  simpa [State.init] using l4

open Classical in
/-- The sources of a run drive each sample with the currents of the cards. -/
theorem driven (h : setup k J X = some R) (ho : OrdinaryBlocks X.file.cards) (a : Axis) (n : ℕ) (s : Loc → ℝ) :
    (OnlyCurrents X a.e q → drivenE R.sim a.e (grid R.cfg q) (setInputs (R.drive n) s) = totalCurrent X R.dt (n * R.dt) a.e q) ∧
    (OnlyCurrents X a.h q → drivenH R.sim a.h (grid R.cfg q) (setInputs (R.drive n) s) = totalCurrent X R.dt ((n + 1 / 2) * R.dt) a.h q) := by
  obtain ⟨hv, hn, hb, hdt, hC, hd, hst, pws, hpw, eS⟩ := run_parts h
  have esrc : R.sim.srcs = R.state.srcs.map fun x => (srcItem (Setup.de k J X R.cfg) (Setup.dh k J X R.cfg) R.cfg x).1 := by
    rw [eS]; simp only [List.map_map]; rfl
  have zip : ∀ (l : List SrcItem) (g : SrcItem → Src), (l.map g).zipIdx = l.zipIdx.map fun y => (g y.1, y.2) := by
    intro l g
    rw [List.zipIdx_map]
    rfl
  refine ⟨fun hoc => ?_, fun hoc => ?_⟩
  · unfold drivenE
    rw [esrc, zip, List.map_map]
    refine Eq.trans (sum_zipIdx R.state.srcs
      (fun (x : SrcItem) (i : ℕ) => if HitsE (srcItem (Setup.de k J X R.cfg) (Setup.dh k J X R.cfg) R.cfg x).1 a.e (grid R.cfg q .x) (grid R.cfg q .y) (grid R.cfg q .z) then
          setInputs (R.drive n) s (.src false i) else 0)
      (fun x => if HitsE (srcItem (Setup.de k J X R.cfg) (Setup.dh k J X R.cfg) R.cfg x).1 a.e (grid R.cfg q .x) (grid R.cfg q .y) (grid R.cfg q .z) then
          (srcItem (Setup.de k J X R.cfg) (Setup.dh k J X R.cfg) R.cfg x).2 * waveValue R.dt (X.waves x.wave) (Deck.time R.dt false n - x.delay) else 0)
      fun x i hx => by rw [drive_value h false n s hx]) ?_
    rw [srcs_stored h ho, sum_filterMap]
    unfold totalCurrent
    refine congrArg List.sum (List.map_congr_left fun x hx => ?_)
    cases x with
    | ex m b nm tag w size delay r =>
      obtain ⟨⟨t, ht, rfl, hl⟩, hbox⟩ := source_card h hx
      simp only [C64.exItem, hl, Option.map_some, impressed, tagOf_spell ht]
      have hh := (hits_iff (q := q) (t := t) (b := b) (n := nm) (w := w) (size := size) (delay := delay) (r := r) R.cfg
        (Setup.de k J X R.cfg) (Setup.dh k J X R.cfg) a).1
      by_cases hc : t.component = a.e ∧ SampleIn b a.e (q .x) (q .y) (q .z)
      · rw [if_pos hc, if_pos (hh.2 hc)]
        have hor : ∀ a : Axis, b a.lo ≤ b a.hi := fun a' => C64.contained_ordered (mask := wholeBox) ⟨hc.2, fun _ _ => rfl⟩ a'
        have := (current_source h (b := b) (fun a' => ⟨(hbox a').1, hor a', (hbox a').2⟩) t ht size r
          (hoc _ _ _ _ _ _ _ _ hx t ht rfl hc.1 hc.2)).2
        simp only [srcItem]
        rw [this]
        rfl
      · rw [if_neg hc, if_neg (fun h' => hc (hh.1 h'))]
    | _ => rfl
  · unfold drivenH
    rw [esrc, zip, List.map_map]
    refine Eq.trans (sum_zipIdx R.state.srcs
      (fun (x : SrcItem) (i : ℕ) => if HitsH (srcItem (Setup.de k J X R.cfg) (Setup.dh k J X R.cfg) R.cfg x).1 a.h (grid R.cfg q .x) (grid R.cfg q .y) (grid R.cfg q .z) then
          setInputs (R.drive n) s (.src true i) else 0)
      (fun x => if HitsH (srcItem (Setup.de k J X R.cfg) (Setup.dh k J X R.cfg) R.cfg x).1 a.h (grid R.cfg q .x) (grid R.cfg q .y) (grid R.cfg q .z) then
          (srcItem (Setup.de k J X R.cfg) (Setup.dh k J X R.cfg) R.cfg x).2 * waveValue R.dt (X.waves x.wave) (Deck.time R.dt true n - x.delay) else 0)
      fun x i hx => by rw [drive_value h true n s hx]) ?_
    rw [srcs_stored h ho, sum_filterMap]
    unfold totalCurrent
    refine congrArg List.sum (List.map_congr_left fun x hx => ?_)
    cases x with
    | ex m b nm tag w size delay r =>
      obtain ⟨⟨t, ht, rfl, hl⟩, hbox⟩ := source_card h hx
      simp only [C64.exItem, hl, Option.map_some, impressed, tagOf_spell ht]
      have hh := (hits_iff (q := q) (t := t) (b := b) (n := nm) (w := w) (size := size) (delay := delay) (r := r) R.cfg
        (Setup.de k J X R.cfg) (Setup.dh k J X R.cfg) a).2
      by_cases hc : t.component = a.h ∧ SampleIn b a.h (q .x) (q .y) (q .z)
      · rw [if_pos hc, if_pos (hh.2 hc)]
        have hor : ∀ a : Axis, b a.lo ≤ b a.hi := fun a' => C64.contained_ordered (mask := wholeBox) ⟨hc.2, fun _ _ => rfl⟩ a'
        have := (current_source h (b := b) (fun a' => ⟨(hbox a').1, hor a', (hbox a').2⟩) t ht size r
          (hoc _ _ _ _ _ _ _ _ hx t ht rfl hc.1 hc.2)).2
        simp only [srcItem]
        rw [this]
        rfl
      · rw [if_neg hc, if_neg (fun h' => hc (hh.1 h'))]
    | _ => rfl

/-- The sources that act on the sample are soft currents in the run. -/
theorem only_currents (h : setup k J X = some R) (ho : OrdinaryBlocks X.file.cards) (a : Axis) :
    (OnlyCurrents X a.e q → ∀ y ∈ R.sim.srcs.zipIdx, HitsE y.1 a.e (grid R.cfg q .x) (grid R.cfg q .y) (grid R.cfg q .z) →
      y.1.kind = .ecurr ∧ R.coefs (.soft y.2) = 1) ∧
    (OnlyCurrents X a.h q → ∀ y ∈ R.sim.srcs.zipIdx, HitsH y.1 a.h (grid R.cfg q .x) (grid R.cfg q .y) (grid R.cfg q .z) →
      y.1.kind = .hcurr ∧ R.coefs (.soft y.2) = 1) := by
  obtain ⟨hv, hn, hb, hdt, hC, hd, hst, pws, hpw, eS⟩ := run_parts h
  have get : ∀ y ∈ R.sim.srcs.zipIdx, ∃ m b nm t w size delay r, Deck.Card.ex m b nm (Tag.spell t) w size delay r ∈ X.file.cards ∧ t.Valid ∧
      y.1 = (srcItem (Setup.de k J X R.cfg) (Setup.dh k J X R.cfg) R.cfg ⟨b, nm, ⟨C27.typeOf t.qty, t.pol, t.norm, t.component, !t.hard⟩, w, size, delay, r⟩).1 ∧
      R.coefs (.soft y.2) = bit (!t.hard) := by
    intro y hy
    obtain ⟨h1, h2⟩ := List.mem_zipIdx' hy
    have h3 : R.sim.srcs[y.2]? = some y.1 := by rw [h2]; simp
    have esrc : R.sim.srcs = R.state.srcs.map fun x => (srcItem (Setup.de k J X R.cfg) (Setup.dh k J X R.cfg) R.cfg x).1 := by
      rw [eS]; simp only [List.map_map]; rfl
    rw [esrc, List.getElem?_map, Option.map_eq_some_iff] at h3
    obtain ⟨it, hit, he⟩ := h3
    have hmem := List.mem_of_getElem? hit
    rw [srcs_stored h ho, List.mem_filterMap] at hmem
    obtain ⟨x, hx, hmem⟩ := hmem
    cases x with
    | ex m b nm tag w size delay r =>
      obtain ⟨⟨t, ht, rfl, hl⟩, hbox⟩ := source_card h hx
      simp only [C64.exItem, hl, Option.map_some, Option.some.injEq] at hmem
      subst hmem
      refine ⟨m, b, nm, t, w, size, delay, r, hx, ht, he.symm, ?_⟩
      rw [hC]
      show otherCoef k J X R.cfg R.state (.soft y.2) = _
      simp only [otherCoef, hit]
    | _ => simp [C64.exItem] at hmem
  refine ⟨fun hoc y hy hh => ?_, fun hoc y hy hh => ?_⟩
  · obtain ⟨m, b, nm, t, w, size, delay, r, hx, ht, e, es⟩ := get y hy
    rw [e] at hh
    have hc := (hits_iff (q := q) R.cfg _ _ a).1.1 hh
    have hcur := hoc _ _ _ _ _ _ _ _ hx t ht rfl hc.1 hc.2
    obtain ⟨-, hbox⟩ := source_card h hx
    have hor : ∀ a : Axis, b a.lo ≤ b a.hi := fun a' => C64.contained_ordered (mask := wholeBox) ⟨hc.2, fun _ _ => rfl⟩ a'
    have := (current_source h (b := b) (fun a' => ⟨(hbox a').1, hor a', (hbox a').2⟩) t ht size r hcur).1
    rw [if_pos (component_electric hc.1)] at this
    refine ⟨by rw [e]; exact this, by rw [es, hcur.1]; rfl⟩
  · obtain ⟨m, b, nm, t, w, size, delay, r, hx, ht, e, es⟩ := get y hy
    rw [e] at hh
    have hc := (hits_iff (q := q) R.cfg _ _ a).2.1 hh
    have hcur := hoc _ _ _ _ _ _ _ _ hx t ht rfl hc.1 hc.2
    obtain ⟨-, hbox⟩ := source_card h hx
    have hor : ∀ a : Axis, b a.lo ≤ b a.hi := fun a' => C64.contained_ordered (mask := wholeBox) ⟨hc.2, fun _ _ => rfl⟩ a'
    have := (current_source h (b := b) (fun a' => ⟨(hbox a').1, hor a', (hbox a').2⟩) t ht size r hcur).1
    rw [if_neg (component_magnetic hc.1)] at this
    refine ⟨by rw [e]; exact this, by rw [es, hcur.1]; rfl⟩

end Vulture.C72
