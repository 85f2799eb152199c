import Verif.Spec.Cavity
import Verif.Lemmas.ScaleMain
import Verif.Props.C17_Setup
import Verif.Props.C45_Reciprocity
set_option linter.unusedSimpArgs false
set_option linter.unusedVariables false
/-
From the mesh file of a cavity to the closed box of C17.
-/
namespace Vulture.CavityLemmas
open Spec Setup Deck Scaling

/-- What the tags of a cavity mean. -/
theorem current_tag {tag : List Char} (h : ∃ t ∈ currentTags, tag = t.toList) :
    ∃ i, Source.lookup tag = some i ∧ i.soft = true ∧
      ((i.type ∈ [Source.SType.ecurrDens, .esurfDens, .ecurrent, .emoment] ∧ i.field.isE = true) ∨
       (i.type ∈ [Source.SType.mcurrDens, .msurfDens, .mcurrent, .mmoment] ∧ i.field.isE = false)) := by
  obtain ⟨t, ht, rfl⟩ := h
  revert t
  have : ∀ t ∈ currentTags, ((Source.lookup t.toList).map fun i => i.soft &&
      ((decide (i.type ∈ [Source.SType.ecurrDens, .esurfDens, .ecurrent, .emoment]) && i.field.isE) ||
       (decide (i.type ∈ [Source.SType.mcurrDens, .msurfDens, .mcurrent, .mmoment]) && !i.field.isE))) = some true := by
    decide +kernel
  intro t ht
  obtain ⟨i, hi, h⟩ := Option.map_eq_some_iff.1 (this t ht)
  refine ⟨i, hi, ?_⟩
  simp only [Bool.and_eq_true, Bool.or_eq_true, decide_eq_true_eq, Bool.not_eq_true'] at h
  exact h

theorem lumped_tag {tag : List Char} (h : ∃ t ∈ lumpedTags, tag = t.toList) :
    ∃ i, Source.lookup tag = some i ∧ i.soft = true ∧ (i.type = .thevenin ∨ i.type = .norton) ∧ i.field.isE = true := by
  obtain ⟨t, ht, rfl⟩ := h
  revert t
  have : ∀ t ∈ lumpedTags, ((Source.lookup t.toList).map fun i => i.soft &&
      ((decide (i.type = .thevenin) || decide (i.type = .norton)) && i.field.isE)) = some true := by
    decide +kernel
  intro t ht
  obtain ⟨i, hi, h⟩ := Option.map_eq_some_iff.1 (this t ht)
  refine ⟨i, hi, ?_⟩
  simp only [Bool.and_eq_true, Bool.or_eq_true, decide_eq_true_eq] at h
  exact ⟨h.1, h.2.1, h.2.2⟩

/-- A medium without poles and with numbers in range. -/
def Good : Deck.Med → Prop
  | .free | .pec => True
  | .simple e s u => 1 ≤ e ∧ 0 ≤ s ∧ 1 ≤ u
  | .debye .. => False

/-- A source as a cavity has it. -/
def GoodSrc (n : Axis → Int) (x : Deck.SrcItem) : Prop :=
  x.info.soft = true ∧
  ((x.info.type ∈ [Source.SType.ecurrDens, .esurfDens, .ecurrent, .emoment] ∧ x.info.field.isE = true) ∨
   (x.info.type ∈ [Source.SType.mcurrDens, .msurfDens, .mcurrent, .mmoment] ∧ x.info.field.isE = false) ∨
   ((x.info.type = .thevenin ∨ x.info.type = .norton) ∧ x.info.field.isE = true ∧ 1 / 100 < x.resist ∧ EndsOnWalls n x.mbbox))

/-- What the lists of a cavity hold. -/
structure Inv (n : Axis → Int) (s : Deck.State) : Prop where
  media : ∀ x ∈ s.media, Good x.2
  bnds : ∀ x ∈ s.bnds, ∀ pr, x.2 ≠ .sibc pr
  blocks : ∀ b ∈ s.blocks, Good b.med
  surfs : ∀ b ∈ s.surfs, ∀ pr, b.bnd ≠ .sibc pr
  srcs : ∀ x ∈ s.srcs, GoodSrc n x
  pws : s.pws = []

theorem find_mem {α : Type} {l : List (String × α)} {n : String} {a : α} (h : find l n = some a) : ∃ x ∈ l, x.2 = a := by
  unfold find at h
  obtain ⟨x, hx, rfl⟩ := Option.map_eq_some_iff.1 h
  exact ⟨x, List.mem_reverse.1 (List.mem_of_find?_eq_some hx), rfl⟩

/-- The cards of a cavity. -/
def CavityCard (n : Axis → Int) : Deck.Card → Prop
  | .mt _ m => Good m
  | .bt _ b => ∀ pr, b ≠ .sibc pr
  | .pw _ _ => False
  | .ex _ b _ tag _ _ _ resist => (∃ t ∈ currentTags, tag = t.toList) ∨
      (∃ t ∈ lumpedTags, tag = t.toList) ∧ 1 / 100 < resist ∧ EndsOnWalls n b
  | _ => True

theorem init_inv (n : Axis → Int) (m : BBox) : Inv n (State.init m) := by
  refine ⟨?_, ?_, ?_, ?_, ?_, rfl⟩ <;> simp [State.init, Good]

theorem card_inv {n : Axis → Int} {s s' : Deck.State} {c : Deck.Card} (h : s.card c = some s') (hc : CavityCard n c)
    (i : Inv n s) : Inv n s' := by
  obtain ⟨i1, i2, i3, i4, i5, i6⟩ := i
  cases c with
  | mt nm m =>
    simp only [State.card] at h; split at h <;> simp at h; subst h
    refine ⟨?_, i2, i3, i4, i5, i6⟩
    intro x hx
    rcases List.mem_append.1 hx with hx | hx
    · exact i1 x hx
    · rw [List.mem_singleton] at hx; subst hx; exact hc
  | bt nm m =>
    simp only [State.card] at h; split at h <;> simp at h; subst h
    refine ⟨i1, ?_, i3, i4, i5, i6⟩
    intro x hx
    rcases List.mem_append.1 hx with hx | hx
    · exact i2 x hx
    · rw [List.mem_singleton] at hx; subst hx; exact hc
  | wt nm => simp only [State.card] at h; split at h <;> simp at h; subst h; exact ⟨i1, i2, i3, i4, i5, i6⟩
  | wf nm => simp only [State.card] at h; split at h <;> simp at h; subst h; exact ⟨i1, i2, i3, i4, i5, i6⟩
  | tw c => simp only [State.card] at h; split at h <;> simp at h; subst h; exact ⟨i1, i2, i3, i4, i5, i6⟩
  | op c => simp only [State.card] at h; split at h <;> simp at h; subst h; exact ⟨i1, i2, i3, i4, i5, i6⟩
  | pw c d => exact absurd hc (by simp [CavityCard])
  | mb c =>
    simp only [State.card] at h
    split at h
    · simp at h
    · rename_i m hm
      split at h
      · simp at h; subst h
        refine ⟨i1, i2, ?_, i4, i5, i6⟩
        intro b hb
        rcases List.mem_append.1 hb with hb | hb
        · exact i3 b hb
        · rw [List.mem_singleton] at hb
          subst hb
          obtain ⟨x, hx, e⟩ := find_mem hm
          show Good m
          rw [← e]; exact i1 x hx
      · simp at h
  | tb c =>
    simp only [State.card] at h
    split at h
    · simp at h
    · rename_i m hm
      split at h
      · simp at h; subst h
        refine ⟨i1, i2, i3, ?_, i5, i6⟩
        intro b hb
        rcases List.mem_append.1 hb with hb | hb
        · exact i4 b hb
        · rw [List.mem_singleton] at hb
          subst hb
          obtain ⟨x, hx, e⟩ := find_mem hm
          show ∀ pr, m ≠ .sibc pr
          rw [← e]; exact i2 x hx
      · simp at h
  | ex q b nm tag w size delay resist =>
    simp only [State.card] at h
    split at h
    · simp at h
    · rename_i i hi
      split at h
      · simp at h; subst h
        refine ⟨?_, i2, i3, i4, ?_, i6⟩
        · intro x hx
          simp only at hx
          split at hx
          · rcases List.mem_append.1 hx with hx | hx
            · exact i1 x hx
            · rw [List.mem_singleton] at hx; subst hx; simp [Good]
          · exact i1 x hx
        · intro x hx
          rcases List.mem_append.1 hx with hx | hx
          · exact i5 x hx
          · rw [List.mem_singleton] at hx
            subst hx
            rcases hc with hc | ⟨hc, hr, hw⟩
            · obtain ⟨i', hi', h1, h2⟩ := current_tag hc
              rw [hi] at hi'; cases hi'
              refine ⟨h1, ?_⟩
              rcases h2 with h2 | h2
              · exact Or.inl h2
              · exact Or.inr (Or.inl h2)
            · obtain ⟨i', hi', h1, h2, h3⟩ := lumped_tag hc
              rw [hi] at hi'; cases hi'
              exact ⟨h1, Or.inr (Or.inr ⟨h2, h3, hr, hw⟩)⟩
      · simp at h

theorem read_inv {n : Axis → Int} : ∀ (l : List Deck.Card) {s s' : Deck.State}, Deck.read s l = some s' →
    (∀ c ∈ l, CavityCard n c) → Inv n s → Inv n s'
  | [], s, s', h, _, i => by
    simp [Deck.read] at h; subst h; exact i
  | c :: l, s, s', h, hl, i => by
    rw [C47.read_cons] at h
    obtain ⟨t, ht, h⟩ := Option.bind_eq_some_iff.1 h
    exact read_inv l h (fun c hc => hl c (by simp [hc])) (card_inv ht (hl c (by simp)) i)

variable {k : Consts} {J : Junk} {X : Experiment} {R : Run}

theorem cards_cavity (hX : Cavity k X) : ∀ c ∈ X.file.cards, CavityCard (cellsOf X.file) c := by
  intro c hc
  cases c with
  | mt n m =>
    obtain ⟨e, s, u, rfl, h1, h2, h3⟩ := hX.media n m hc
    exact ⟨h1, h2, h3⟩
  | bt n b => intro pr e; subst e; exact hX.sheets n pr hc
  | pw c d => exact hX.waves c d hc
  | ex q b n tag w size delay resist => exact hX.sources q b n tag w size delay resist hc
  | _ => trivial

theorem state_inv (h : setup k J X = some R) (hX : Cavity k X) : Inv (cellsOf X.file) R.state := by
  obtain ⟨s, hst, hc, hS, e⟩ := setup_parts h
  rw [e]
  exact read_inv _ (C47.stored_parts hst).2 (cards_cavity hX) (init_inv _ _)

theorem medCoef_accepted (hk : Physical k) (T : ℝ) {m : Deck.Med} (h : Good m) :
    C17.Accepted T (1 / (k.mu0 * k.c0 * k.c0)) k.mu0 (medCoef k T m) := by
  cases m with
  | free => exact ⟨0, .freeSpace, [], _, by decide, rfl, by rw [← hk.eps0]; rfl⟩
  | pec => exact ⟨1, .pec, [], _, by decide, rfl, by rw [← hk.eps0]; rfl⟩
  | simple e s u =>
    obtain ⟨h1, h2, h3⟩ := h
    refine ⟨2, .simple, [e, s, u], ⟨.simple, e, s, u, 0⟩, by decide, ?_, by rw [← hk.eps0]; rfl⟩
    simp only [parseMT, List.getElem?_cons_zero, Option.getD_some, List.getElem?_cons_succ]
    rw [if_neg (by push Not; exact ⟨h1, h2, h3⟩)]
  | debye => exact absurd h (by simp [Good])

theorem resist_accepted (hk : Physical k) (T : ℝ) {s : ℝ} (h : 0 ≤ s) :
    C17.Accepted T (1 / (k.mu0 * k.c0 * k.c0)) k.mu0 (resistCoef T k.eps0 k.mu0 s) := by
  have := medCoef_accepted hk T (m := .simple 1 s 1) ⟨le_refl _, h, le_refl _⟩
  exact this

/-- What a set-up run is made of, and that its grid is in order. -/
theorem run_parts (h : setup k J X = some R) : ValidCfg R.cfg ∧ R.cfg.n = cellsOf X.file ∧ R.cfg.bt = X.file.bt ∧
    R.dt = Setup.dt k J X R.cfg ∧ R.coefs = coefs k J X R.cfg R.state ∧
    R.drive = Deck.drive (env k J X R.cfg) (gridType k J X R.cfg == .cubic) R.cfg R.state ∧
    X.file.stored = some R.state ∧
    ∃ pws, R.state.pws.mapM (pwItem (gridType k J X R.cfg == .cubic) R.cfg) = some pws ∧
      R.sim = ⟨R.cfg, debyeItems R.cfg R.state.blocks, sibcItems R.cfg R.state.surfs,
        (R.state.srcs.map (srcItem (Setup.de k J X R.cfg) (Setup.dh k J X R.cfg) R.cfg)).map Prod.fst, pws⟩ := by
  obtain ⟨s, hst, hc, hS, e⟩ := setup_parts h
  obtain ⟨s', c', pws, hst', hc', hpw, eS⟩ := C47.sim_parts hS
  have e1 : s' = s := by
    have : (fileOf k J X R.cfg).stored = X.file.stored := rfl
    rw [this, hst] at hst'
    exact (Option.some.inj hst').symm
  have e2 : c' = R.cfg := by
    have : initExternalSurfaceParameters X.file.cells X.file.bt X.file.layers = some c' := hc'
    rw [hc] at this
    exact (Option.some.inj this).symm
  subst e1
  have es : R.state = s' := by rw [e]
  obtain ⟨o1, o2⟩ := C47.outer_cells hc
  have hn := (C47.stored_parts hst).1
  refine ⟨C07.setup_valid _ _ _ _ (by intro a; cases a <;> simp [File.cells] <;> omega) hc, ?_, o2, by rw [e], by rw [e], by rw [e],
    by rw [es]; exact hst, pws, ?_, ?_⟩
  · rw [o1]; exact cells_of X.file
  · rw [es, ← e2]; rw [e2]; rw [e2] at hpw; exact hpw
  · rw [es]; rw [e2] at eS; exact eS

theorem kept (h : setup k J X = some R) : C47.Kept R.state ∧
    R.state.mbox = mkBox 0 (R.cfg.n .x) 0 (R.cfg.n .y) 0 (R.cfg.n .z) := by
  obtain ⟨-, hn, -, -, -, -, hst, -⟩ := run_parts h
  obtain ⟨hk, hm⟩ := C47.read_kept _ _ _ (C47.stored_parts hst).2 (C47.init_kept _)
  exact ⟨hk, by rw [hm, hn]; rfl⟩

theorem debye_none {n : Axis → Int} {s : Deck.State} (i : Inv n s) (c : Cfg) : debyeItems c s.blocks = [] := by
  unfold debyeItems
  rw [List.filterMap_eq_nil_iff]
  intro b hb
  have := i.blocks b hb
  cases hm : b.med <;> simp_all [Good]

theorem sibc_none {n : Axis → Int} {s : Deck.State} (i : Inv n s) (c : Cfg) : sibcItems c s.surfs = [] := by
  unfold sibcItems
  rw [List.filterMap_eq_nil_iff]
  intro b hb
  have := i.surfs b hb
  cases hm : b.bnd <;> simp_all

theorem no_layers {c : Cfg} (hv : ValidCfg c) (hp : ∀ f, c.bt f = .pec) (f : Face) : c.gobox f = c.gibox f := by
  have hlay : ∀ f, c.layers f = 0 := fun f => hv.other f (by rw [hp f]; decide)
  cases f <;> simp [Cfg.gobox, Cfg.gibox, Cfg.giboxLo, Cfg.goboxHi, Cfg.giboxHi, Cfg.numLines, hlay] <;> omega

/-- Edge lengths inside the box of an accepted item are positive. -/
theorem edges_pos (h : setup k J X = some R) (hX : Cavity k X) {a : Axis} {i : Int} (h1 : R.cfg.gibox a.lo ≤ i)
    (h2 : i ≤ R.cfg.gibox a.hi) : 0 < Setup.de k J X R.cfg a i ∧ 0 < Setup.dh k J X R.cfg a i := by
  obtain ⟨hv, hn, hb, -⟩ := run_parts h
  have hg := no_layers hv (fun f => by rw [hb]; exact hX.walls f)
  obtain ⟨e1, e2, e3⟩ := C18.all_edges_ge R.cfg hv a (X.lines a) k.big (J.edges a)
    (fun m h0 h1 => hX.increasing a m h0 (by rw [← hn]; exact h1))
    (fun m h0 h1 => hX.representable a m h0 (by rw [← hn]; exact h1)) i
  exact ⟨lt_of_lt_of_le e3 (e1 (by rw [hg]; omega) (by rw [hg]; omega)), lt_of_lt_of_le e3 (e2 (by rw [hg]; omega) (by rw [hg]; omega))⟩

/-- An accepted box lies in the grid. -/
theorem placed (h : setup k J X = some R) {b : BBox} (hb : bboxIsWithin b R.state.mbox = true) (a : Axis) :
    R.cfg.gibox a.lo ≤ place R.cfg b a.lo ∧ place R.cfg b a.hi ≤ R.cfg.gibox a.hi := by
  have hm := (kept h).2
  simp only [bboxIsWithin, Bool.and_eq_true, decide_eq_true_eq] at hb
  have e1 : R.state.mbox .xlo = 0 := by rw [hm]; rfl
  have e2 : R.state.mbox .ylo = 0 := by rw [hm]; rfl
  have e3 : R.state.mbox .zlo = 0 := by rw [hm]; rfl
  have e4 : R.state.mbox .xhi = R.cfg.n .x := by rw [hm]; rfl
  have e5 : R.state.mbox .yhi = R.cfg.n .y := by rw [hm]; rfl
  have e6 : R.state.mbox .zhi = R.cfg.n .z := by rw [hm]; rfl
  cases a <;> simp [place, offsetBoundingBox, Axis.lo, Axis.hi, Cfg.gibox, Cfg.giboxLo, Cfg.giboxHi, Cfg.numLines] <;> omega

/-- Size of an electric source of an accepted box: not negative. -/
theorem size_nonneg (h : setup k J X = some R) (hX : Cavity k X) {b : BBox} (hb : bboxIsWithin b R.state.mbox = true) (d : Axis) :
    0 ≤ (Source.electricSize (Setup.de k J X R.cfg) (Setup.dh k J X R.cfg) (place R.cfg b) d).length ∧
    0 ≤ (Source.electricSize (Setup.de k J X R.cfg) (Setup.dh k J X R.cfg) (place R.cfg b) d).area := by
  have hp := placed h hb
  have hside : ∀ a : Axis, 0 ≤ if a = d then 0 else ∑ i ∈ Finset.Icc (place R.cfg b a.lo) (place R.cfg b a.hi), Setup.dh k J X R.cfg a i := by
    intro a
    split
    · exact le_refl _
    · refine Finset.sum_nonneg fun i hi => ?_
      rw [Finset.mem_Icc] at hi
      have := hp a
      exact (edges_pos h hX (by omega) (by omega)).2.le
  refine ⟨?_, mul_nonneg (hside _) (hside _)⟩
  show 0 ≤ ∑ i ∈ Finset.Icc (place R.cfg b d.lo) (place R.cfg b d.hi - 1), Setup.de k J X R.cfg d i
  refine Finset.sum_nonneg fun i hi => ?_
  rw [Finset.mem_Icc] at hi
  have := hp d
  exact (edges_pos h hX (by omega) (by omega)).1.le

/-- What a source of a cavity puts on the grid: nothing, or the medium of its resistance. -/
theorem srcFill_good (hk : Physical k) (h : setup k J X = some R) (hX : Cavity k X) {x : Deck.SrcItem} (hx : x ∈ R.state.srcs)
    (T : ℝ) {q : BBox × Coef ℝ} (hq : srcFill k J X R.cfg T x = some q) :
    C17.Accepted T (1 / (k.mu0 * k.c0 * k.c0)) k.mu0 q.2 ∧ q.1 = x.mbbox ∧ EndsOnWalls (cellsOf X.file) x.mbbox := by
  obtain ⟨hs, hg⟩ := (state_inv h hX).srcs x hx
  have hw := ((kept h).1.srcs x hx).2
  unfold srcFill at hq
  rcases hg with ⟨ht, -⟩ | ⟨ht, -⟩ | ⟨ht, -, hr, he⟩
  · simp only [List.mem_cons, List.mem_nil_iff, or_false] at ht
    rcases ht with ht | ht | ht | ht <;> simp [ht, Source.initSource] at hq
  · simp only [List.mem_cons, List.mem_nil_iff, or_false] at ht
    rcases ht with ht | ht | ht | ht <;> simp [ht, Source.initSource] at hq
  · obtain ⟨s1, s2⟩ := size_nonneg h hX hw x.info.pol
    have hr' : x.resist > Source.minResistance := hr
    have hr0 : 0 ≤ x.resist := by linarith
    have hsig : 0 ≤ (Source.electricSize (Setup.de k J X R.cfg) (Setup.dh k J X R.cfg) (place R.cfg x.mbbox) x.info.pol).length /
        ((Source.electricSize (Setup.de k J X R.cfg) (Setup.dh k J X R.cfg) (place R.cfg x.mbbox) x.info.pol).area * x.resist) :=
      div_nonneg s1 (mul_nonneg s2 hr0)
    rcases ht with ht | ht <;> simp only [ht, Source.initSource, Source.initThevenin, if_pos hr', Option.some.injEq] at hq <;>
      subst hq <;> exact ⟨resist_accepted hk T hsig, rfl, he⟩

/-- The resistances do not touch the sides. -/
theorem clear_of_walls {c : Cfg} {b : BBox} (he : EndsOnWalls c.n b) (fc : Fc) (i j l : Int) (f : Face)
    (ho : OnPlane c.gibox f fc i j l) : ¬ Contains (offsetBoundingBox b c.gibox) maskAll fc i j l := by
  rintro ⟨⟨h1, h2, h3⟩, -⟩
  have ex := he .x; have ey := he .y; have ez := he .z
  have sx := gibox_span c .x; have sy := gibox_span c .y; have sz := gibox_span c .z
  have hxy : (0 < b .xlo ∧ b .xhi < c.n .x) ∨ (b .ylo = b .yhi ∧ b .zlo = b .zhi) :=
    ex.imp id fun h => ⟨h .y (by decide), h .z (by decide)⟩
  have hyz : (0 < b .ylo ∧ b .yhi < c.n .y) ∨ (b .xlo = b .xhi ∧ b .zlo = b .zhi) :=
    ey.imp id fun h => ⟨h .x (by decide), h .z (by decide)⟩
  have hzx : (0 < b .zlo ∧ b .zhi < c.n .z) ∨ (b .xlo = b .xhi ∧ b .ylo = b .yhi) :=
    ez.imp id fun h => ⟨h .x (by decide), h .y (by decide)⟩
  simp only [Axis.lo, Axis.hi] at sx sy sz
  clear ex ey ez he
  cases fc <;> cases f <;> simp only [pos2, offsetBoundingBox, OnPlane, samplePos, Face.axis] at h1 h2 h3 ho <;> omega

/-- **Link.** The run set up from the file of a cavity, without its sources, is a closed box as C17 has it. -/
theorem setUp (hk : Physical k) (h : setup k J X = some R) (hX : Cavity k X) :
    C17.SetUp (C17.undriven R.sim) R.coefs X.cn k.c0 k.mu0 k.big X.lines J.edges (medSetup k J X R.cfg R.state) J.med
      (otherCoef k J X R.cfg R.state) R.dt := by
  obtain ⟨hv, hn, hb, hdt, hC, hdr, hst, pws, hpw, eS⟩ := run_parts h
  have inv := state_inv h hX
  have ecfg : (C17.undriven R.sim).cfg = R.cfg := by rw [eS]; rfl
  have epw : pws = [] := by
    rw [inv.pws] at hpw
    simpa using hpw.symm
  refine ⟨by rw [ecfg]; exact hv, ?_, ?_, ?_, rfl, ?_, hk.c0, hk.mu0, hX.courant, ?_, ?_, ?_, ?_, ?_, ?_, ?_, ?_, ?_, ?_, ?_, ?_, ?_⟩
  · intro f; rw [ecfg, hb]; exact hX.walls f
  · show R.sim.debye = []
    rw [eS]; exact debye_none inv _
  · show R.sim.sibc = []
    rw [eS]; exact sibc_none inv _
  · show R.sim.pws = []
    rw [eS]; exact epw
  · intro a m h0 h1
    rw [ecfg, hn] at h1
    exact hX.increasing a m h0 h1
  · intro a m h0 h1
    rw [ecfg, hn] at h1
    exact hX.representable a m h0 h1
  · rw [ecfg]; exact hdt
  · intro a i; rw [ecfg]; rfl
  · intro a i; rw [ecfg]; rfl
  · rw [ecfg]; exact hC
  · exact ⟨⟨.freeSpace, 1, 0, 1, 0⟩, by rw [← hk.eps0, hdt]; rfl⟩
  · exact ⟨⟨.pec, 1, 0, 1, 0⟩, by rw [← hk.eps0, hdt]; rfl⟩
  · intro b hb'
    obtain ⟨x, hx, rfl⟩ := List.mem_map.1 hb'
    rw [hdt]
    exact medCoef_accepted hk _ (inv.blocks x hx)
  · intro b hb'
    obtain ⟨x, hx, rfl⟩ := List.mem_map.1 hb'
    rw [hdt]
    refine medCoef_accepted hk _ ?_
    by_cases hf : x.free = true
    · simp [hf, Good]
    · simp [hf, Good]
  · intro b hb'
    obtain ⟨x, hx, e⟩ := List.mem_filterMap.1 hb'
    rw [hdt]
    have hs := inv.surfs x hx
    unfold surfFill at e
    cases hbn : x.bnd with
    | pec => rw [hbn] at e; simp at e; subst e; exact medCoef_accepted hk _ (m := .pec) trivial
    | free => rw [hbn] at e; simp at e; subst e; exact medCoef_accepted hk _ (m := .free) trivial
    | plain => rw [hbn] at e; simp at e
    | sibc pr => exact absurd hbn (hs pr)
  · intro b hb'
    obtain ⟨x, hx, e⟩ := List.mem_filterMap.1 hb'
    rw [hdt]
    exact (srcFill_good hk h hX hx _ e).1
  · intro b hb' fc i j l f ho
    obtain ⟨x, hx, e⟩ := List.mem_filterMap.1 hb'
    obtain ⟨-, e1, e2⟩ := srcFill_good hk h hX hx _ e
    rw [ecfg] at ho ⊢
    rw [e1]
    rw [← hn] at e2
    exact clear_of_walls e2 fc i j l f ho

/-- The sources of a cavity: currents only, all added to the field. -/
theorem sources (h : setup k J X = some R) (hX : Cavity k X) : CurrentsOnly R.sim.srcs ∧
    ∀ n, n < R.sim.srcs.length → R.coefs (.soft n) = 1 := by
  obtain ⟨hv, hn, hb, hdt, hC, hdr, hst, pws, hpw, eS⟩ := run_parts h
  have inv := state_inv h hX
  rw [eS]
  constructor
  · intro x hx
    obtain ⟨y, hy, rfl⟩ := List.mem_map.1 hx
    obtain ⟨z, hz, rfl⟩ := List.mem_map.1 hy
    obtain ⟨-, hg⟩ := inv.srcs z hz
    simp only [srcItem]
    rcases hg with ⟨ht, he⟩ | ⟨ht, he⟩ | ⟨ht, he, hr, -⟩
    · left
      refine ⟨?_, he⟩
      simp only [List.mem_cons, List.mem_nil_iff, or_false] at ht
      rcases ht with ht | ht | ht | ht <;> rw [ht] <;> rfl
    · right
      refine ⟨?_, he⟩
      simp only [List.mem_cons, List.mem_nil_iff, or_false] at ht
      rcases ht with ht | ht | ht | ht <;> rw [ht] <;> rfl
    · left
      refine ⟨?_, he⟩
      have hr' : z.resist > Source.minResistance := hr
      rcases ht with ht | ht <;> rw [ht] <;> simp only [Source.initSource, Source.initThevenin, if_pos hr']
  · intro n hl
    simp only [List.length_map] at hl
    rw [hC]
    show (match R.state.srcs[n]? with
      | some x => bit x.info.soft
      | none => 0) = 1
    rw [List.getElem?_eq_getElem hl]
    simp only
    rw [(inv.srcs _ (List.getElem_mem hl)).1]
    rfl

theorem sim_driven (R : Run) : driven (C17.undriven R.sim) R.sim.srcs = R.sim := rfl

end Vulture.CavityLemmas
