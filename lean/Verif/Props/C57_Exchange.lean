import Verif.Props.C56_Cavity
set_option linter.unusedSimpArgs false
set_option linter.unusedVariables false
/-
C57 Source and probe can be exchanged in the mesh file of a cavity: moving the only current source from one cell edge to
another and looking at the first edge gives, in every step, the voltage that was seen at the second edge before.
-/
namespace Vulture.C57
open Spec Setup Deck Scaling CavityLemmas Finset

/-- The sources of a state replaced. -/
def withSrcs (l : List Deck.SrcItem) (s : Deck.State) : Deck.State := { s with srcs := l }

def IsEx : Deck.Card → Prop
  | .ex .. => True
  | _ => False

/-- Cards other than `EX` neither look at the sources nor change them. -/
theorem card_withSrcs (l : List Deck.SrcItem) (s : Deck.State) {c : Deck.Card} (hc : ¬ IsEx c) :
    (withSrcs l s).card c = (s.card c).map (withSrcs l) := by
  cases c with
  | ex => exact absurd trivial hc
  | mt n m => simp only [State.card, withSrcs]; rw [apply_ite (Option.map _)]; rfl
  | bt n m => simp only [State.card, withSrcs]; rw [apply_ite (Option.map _)]; rfl
  | wt n => simp only [State.card, withSrcs]; rw [apply_ite (Option.map _)]; rfl
  | wf n => simp only [State.card, withSrcs]; rw [apply_ite (Option.map _)]; rfl
  | tw c => simp only [State.card, withSrcs]; rw [apply_ite (Option.map _)]; rfl
  | op c => simp only [State.card, withSrcs]; rw [apply_ite (Option.map _)]; rfl
  | pw c d => simp only [State.card, withSrcs]; rw [apply_ite (Option.map _)]; rfl
  | mb c =>
    simp only [State.card, withSrcs]
    cases find s.media c.medium with
    | none => rfl
    | some m => simp only; rw [apply_ite (Option.map _)]; rfl
  | tb c =>
    simp only [State.card, withSrcs]
    cases find s.bnds c.boundary with
    | none => rfl
    | some m => simp only; rw [apply_ite (Option.map _)]; rfl

theorem read_withSrcs (l : List Deck.SrcItem) : ∀ (cs : List Deck.Card) (s : Deck.State), (∀ c ∈ cs, ¬ IsEx c) →
    Deck.read (withSrcs l s) cs = (Deck.read s cs).map (withSrcs l)
  | [], s, _ => rfl
  | c :: cs, s, h => by
    rw [C47.read_cons, C47.read_cons, card_withSrcs l s (h c (by simp))]
    cases hs : s.card c with
    | none => rfl
    | some t =>
      simp only [Option.map_some, Option.bind_some]
      exact read_withSrcs l cs t fun c hc => h c (by simp [hc])

/-- Sources kept by other cards. -/
theorem card_srcs {s s' : Deck.State} {c : Deck.Card} (h : s.card c = some s') (hc : ¬ IsEx c) : s'.srcs = s.srcs := by
  have := card_withSrcs s.srcs s hc
  have e : withSrcs s.srcs s = s := rfl
  rw [e, h] at this
  have e2 : s' = withSrcs s.srcs s' := by simpa using this
  rw [e2]; rfl

theorem read_srcs : ∀ (cs : List Deck.Card) {s s' : Deck.State}, Deck.read s cs = some s' → (∀ c ∈ cs, ¬ IsEx c) → s'.srcs = s.srcs
  | [], s, s', h, _ => by simp [Deck.read] at h; rw [h]
  | c :: cs, s, s', h, hc => by
    rw [C47.read_cons] at h
    obtain ⟨t, ht, h⟩ := Option.bind_eq_some_iff.1 h
    rw [read_srcs cs h fun c h => hc c (by simp [h]), card_srcs ht (hc c (by simp))]

/-- A card for a current through one cell edge. -/
structure EdgeCard (a : Axis) (b : BBox) (tag : List Char) : Prop where
  tag : tag = 'I' :: (match a with | .x => ['X'] | .y => ['Y'] | .z => ['Z'])
  along : b a.hi = b a.lo + 1
  across : ∀ d, d ≠ a → b d.hi = b d.lo

/-- The electric component along an axis. -/
def along : Axis → Fc | .x => .ex | .y => .ey | .z => .ez

theorem edge_tag (a : Axis) : Source.lookup ('I' :: (match a with | .x => ['X'] | .y => ['Y'] | .z => ['Z'])) =
    some ⟨.ecurrent, a, none, along a, true⟩ := by
  cases a <;> decide +kernel

/-- Reading the `EX` card of an edge current. -/
theorem card_edge {s s' : Deck.State} {q : Nat} {b : BBox} {n : String} {tag : List Char} {w : String} {size delay resist : ℝ} {a : Axis}
    (he : EdgeCard a b tag) (h : s.card (.ex q b n tag w size delay resist) = some s') :
    s' = withSrcs (s.srcs ++ [⟨b, n, ⟨.ecurrent, a, none, along a, true⟩, w, size, delay, resist⟩]) s := by
  have hl : Source.lookup tag = some ⟨.ecurrent, a, none, along a, true⟩ := by rw [he.tag]; exact edge_tag a
  simp only [State.card, hl] at h
  split at h
  · have hlump : (exCard q b n tag w).lumped = false := by
      simp only [exCard, hl]; rfl
    simp only [hlump] at h
    simp at h
    exact h.symm
  · simp at h

/-- Two files that differ in the place of the only source. -/
structure Exchanged (X1 X2 : Experiment) (a1 a2 : Axis) (b1 b2 : BBox) : Prop where
  same : X2.file.nx = X1.file.nx ∧ X2.file.ny = X1.file.ny ∧ X2.file.nz = X1.file.nz ∧ X2.file.bt = X1.file.bt ∧
    X2.file.layers = X1.file.layers ∧ X2.lines = X1.lines ∧ X2.cn = X1.cn ∧ X2.par = X1.par ∧ X2.waves = X1.waves
  cards : ∃ before after n t1 t2 w size delay q1 r1 q2 r2,
    X1.file.cards = before ++ .ex q1 b1 n t1 w size delay r1 :: after ∧
    X2.file.cards = before ++ .ex q2 b2 n t2 w size delay r2 :: after ∧
    EdgeCard a1 b1 t1 ∧ EdgeCard a2 b2 t2 ∧ ∀ c ∈ before ++ after, ¬ IsEx c

section
variable {k : Consts} {J : Junk} {X1 X2 : Experiment} {R1 R2 : Run} {a1 a2 : Axis} {b1 b2 : BBox}

/-- What the two runs have in common, and their sources. -/
theorem states (h1 : setup k J X1 = some R1) (h2 : setup k J X2 = some R2) (hX : Exchanged X1 X2 a1 a2 b1 b2) :
    ∃ (t : Deck.State) (n w : String) (size delay r1 r2 : ℝ),
      R1.state = withSrcs [⟨b1, n, ⟨.ecurrent, a1, none, along a1, true⟩, w, size, delay, r1⟩] t ∧
      R2.state = withSrcs [⟨b2, n, ⟨.ecurrent, a2, none, along a2, true⟩, w, size, delay, r2⟩] t := by
  obtain ⟨before, after, n, t1, t2, w, size, delay, q1, r1, q2, r2, c1, c2, e1, e2, hno⟩ := hX.cards
  obtain ⟨sx, sy, sz, -⟩ := hX.same
  obtain ⟨-, -, -, -, -, -, st1, -⟩ := run_parts h1
  obtain ⟨-, -, -, -, -, -, st2, -⟩ := run_parts h2
  have rd1 := (C47.stored_parts st1).2
  have rd2 := (C47.stored_parts st2).2
  rw [c1] at rd1
  rw [c2, sx, sy, sz] at rd2
  obtain ⟨u1, p1, p1'⟩ := C47.read_append rd1
  obtain ⟨u2, p2, p2'⟩ := C47.read_append rd2
  rw [p1] at p2
  obtain rfl : u1 = u2 := Option.some.inj p2
  have hu : u1.srcs = [] := read_srcs before p1 fun c hc => hno c (by simp [hc])
  rw [C47.read_cons] at p1' p2'
  obtain ⟨v1, o1, p1'⟩ := Option.bind_eq_some_iff.1 p1'
  obtain ⟨v2, o2, p2'⟩ := Option.bind_eq_some_iff.1 p2'
  have k1 := card_edge e1 o1
  have k2 := card_edge e2 o2
  rw [hu, List.nil_append] at k1 k2
  have ha : ∀ c ∈ after, ¬ IsEx c := fun c hc => hno c (by simp [hc])
  rw [k1, read_withSrcs _ after u1 ha] at p1'
  rw [k2, read_withSrcs _ after u1 ha] at p2'
  cases hr : Deck.read u1 after with
  | none => rw [hr] at p1'; simp at p1'
  | some t =>
    rw [hr] at p1' p2'
    exact ⟨t, n, w, size, delay, r1, r2, by simpa using p1'.symm, by simpa using p2'.symm⟩

/-- Where the electric field of an edge is stored. -/
def edgeLoc (c : Cfg) (a : Axis) (b : BBox) : Loc :=
  .fld (along a) (c.gibox .xlo + b .xlo) (c.gibox .ylo + b .ylo) (c.gibox .zlo + b .zlo)

/-- The two runs: same grid, time step, coefficients. -/
theorem common (h1 : setup k J X1 = some R1) (h2 : setup k J X2 = some R2) (hX : Exchanged X1 X2 a1 a2 b1 b2) :
    R2.cfg = R1.cfg ∧ R2.dt = R1.dt ∧ R2.coefs = R1.coefs ∧
    C17.undriven R2.sim = C17.undriven R1.sim ∨ R1.state.pws ≠ [] := by
  by_cases hp : R1.state.pws = []
  swap
  · exact Or.inr hp
  left
  obtain ⟨t, n, w, size, delay, r1, r2, s1, s2⟩ := states h1 h2 hX
  obtain ⟨sx, sy, sz, sb, sl, slines, scn, spar, sw⟩ := hX.same
  obtain ⟨file2, lines2, cn2, par2, waves2⟩ := X2
  simp only at sx sy sz sb sl slines scn spar sw
  subst slines scn spar sw
  obtain ⟨v1, n1, bt1, dt1, C1, dr1, st1, pws1, pw1, S1⟩ := run_parts h1
  obtain ⟨v2, n2, bt2, dt2, C2, dr2, st2, pws2, pw2, S2⟩ := run_parts h2
  obtain ⟨-, -, c1, -, -⟩ := setup_parts h1
  obtain ⟨-, -, c2, -, -⟩ := setup_parts h2
  have ec : R2.cfg = R1.cfg := by
    have e1 : file2.cells = X1.file.cells := by funext a; cases a <;> simp [File.cells, sx, sy, sz]
    simp only at c2
    rw [e1, sb, sl, c1] at c2
    exact (Option.some.inj c2).symm
  have ht : t.pws = [] := by rw [s1] at hp; exact hp
  have q1 : pws1 = [] := by
    rw [hp] at pw1; simpa using pw1.symm
  have q2 : pws2 = [] := by
    rw [s2] at pw2
    have : (withSrcs [⟨b2, n, ⟨.ecurrent, a2, none, along a2, true⟩, w, size, delay, r2⟩] t).pws = t.pws := rfl
    rw [this, ht] at pw2; simpa using pw2.symm
  refine ⟨ec, by rw [dt2, dt1, ec]; rfl, ?_, ?_⟩
  · rw [C2, C1, ec, s1, s2]
    unfold coefs
    have hm : medSetup k J ⟨file2, X1.lines, X1.cn, X1.par, X1.waves⟩ R1.cfg
          (withSrcs [⟨b2, n, ⟨.ecurrent, a2, none, along a2, true⟩, w, size, delay, r2⟩] t) =
        medSetup k J X1 R1.cfg (withSrcs [⟨b1, n, ⟨.ecurrent, a1, none, along a1, true⟩, w, size, delay, r1⟩] t) := rfl
    have ho : otherCoef k J ⟨file2, X1.lines, X1.cn, X1.par, X1.waves⟩ R1.cfg
          (withSrcs [⟨b2, n, ⟨.ecurrent, a2, none, along a2, true⟩, w, size, delay, r2⟩] t) =
        otherCoef k J X1 R1.cfg (withSrcs [⟨b1, n, ⟨.ecurrent, a1, none, along a1, true⟩, w, size, delay, r1⟩] t) := by
      funext r
      cases r with
      | soft m => cases m <;> rfl
      | _ => rfl
    rw [hm, ho]
  · rw [S1, S2, ec, s1, s2, q1, q2]
    rfl

/-- The source of one of the runs sits on its edge. -/
theorem on_edge {k : Consts} {J : Junk} {X : Experiment} {R : Run} (h : setup k J X = some R) {a : Axis} {b : BBox} {t : List Char}
    (he : EdgeCard a b t) (hw : bboxIsWithin b R.state.mbox = true) :
    OnEdge R.cfg.gibox ⟨.ecurr, along a, place R.cfg b⟩ (along a) (R.cfg.gibox .xlo + b .xlo) (R.cfg.gibox .ylo + b .ylo)
      (R.cfg.gibox .zlo + b .zlo) := by
  obtain ⟨-, h1, h2⟩ := he
  have hx := placed h hw .x; have hy := placed h hw .y; have hz := placed h hw .z
  have dx := h2 .x; have dy := h2 .y; have dz := h2 .z
  simp only [Axis.lo, Axis.hi, place, offsetBoundingBox] at hx hy hz dx dy dz
  refine ⟨rfl, rfl, by cases a <;> rfl, ?_, ?_⟩
  · cases a <;> simp [Axis.lo, Axis.hi] at h1 dx dy dz <;> refine ⟨?_, ?_, ?_⟩ <;> simp only [along, pos2] <;> omega
  · intro i j l
    unfold SampleIn
    cases a <;> simp [Axis.lo, Axis.hi] at h1 dx dy dz <;> simp only [along, pos2, place, offsetBoundingBox] <;> omega

/-- The drive value of an edge current times the dual area is the current. -/
theorem edge_current {k : Consts} {J : Junk} {X : Experiment} {R : Run} (h : setup k J X = some R) (hX : Cavity k X) {g : Filling}
    (hg : ∀ a, g.dh a = Setup.dh k J X R.cfg a) {t : Deck.State} {n w : String} {size delay r : ℝ} {a : Axis} {b : BBox} {tg : List Char}
    (he : EdgeCard a b tg) (hs : R.state = withSrcs [⟨b, n, ⟨.ecurrent, a, none, along a, true⟩, w, size, delay, r⟩] t)
    (hw : bboxIsWithin b R.state.mbox = true) (m : ℕ) :
    R.drive m (.src false 0) * g.dualArea (along a) (R.cfg.gibox .xlo + b .xlo) (R.cfg.gibox .ylo + b .ylo) (R.cfg.gibox .zlo + b .zlo) =
      size * waveValue R.dt (X.waves w) (m * R.dt - delay) := by
  obtain ⟨hv, hn, hb, edt, hC, hdr, hst, -⟩ := run_parts h
  have hd : R.drive m (.src false 0) = size / (Source.electricSize (Setup.de k J X R.cfg) (Setup.dh k J X R.cfg) (place R.cfg b) a).area *
      waveValue R.dt (X.waves w) (m * R.dt - delay) := by
    rw [hdr, hs]
    simp only [Deck.drive, withSrcs, List.getElem?_cons_zero, srcItem, Source.initSource]
    have e : (env k J X R.cfg).dt = R.dt := edt.symm
    have ew : ∀ t, (env k J X R.cfg).wave w t = waveValue R.dt (X.waves w) t := by
      intro t; rw [edt]; rfl
    rw [e, ew]
    rfl
  have pos := fun (d : Axis) => (edges_pos h hX (a := d) (i := place R.cfg b d.lo) (placed h hw d).1 (by
    have h1 := he.along; have h2 := he.across d
    have h3 := (placed h hw d).2
    have : b d.lo ≤ b d.hi := by
      by_cases hda : d = a
      · subst hda; omega
      · rw [h2 hda]
    have : place R.cfg b d.lo ≤ place R.cfg b d.hi := by
      cases d <;> simp [place, offsetBoundingBox, Axis.lo, Axis.hi] at this ⊢ <;> omega
    omega)).2
  have side : ∀ d, d ≠ a → ∑ i ∈ Finset.Icc (place R.cfg b d.lo) (place R.cfg b d.hi), Setup.dh k J X R.cfg d i =
      Setup.dh k J X R.cfg d (place R.cfg b d.lo) := by
    intro d hda
    have h2 := he.across d hda
    have : place R.cfg b d.hi = place R.cfg b d.lo := by
      cases d <;> simp [place, offsetBoundingBox, Axis.lo, Axis.hi] at h2 ⊢ <;> omega
    rw [this, Finset.Icc_self, Finset.sum_singleton]
  have area : (Source.electricSize (Setup.de k J X R.cfg) (Setup.dh k J X R.cfg) (place R.cfg b) a).area =
      g.dualArea (along a) (R.cfg.gibox .xlo + b .xlo) (R.cfg.gibox .ylo + b .ylo) (R.cfg.gibox .zlo + b .zlo) := by
    have px : place R.cfg b .xlo = R.cfg.gibox .xlo + b .xlo := add_comm _ _
    have py : place R.cfg b .ylo = R.cfg.gibox .ylo + b .ylo := add_comm _ _
    have pz : place R.cfg b .zlo = R.cfg.gibox .zlo + b .zlo := add_comm _ _
    rw [← px, ← py, ← pz]
    cases a with
    | x =>
      have e1 := side .y (by decide); have e2 := side .z (by decide)
      simp only [Source.electricSize, Axis.next, along, Filling.dualArea, hg]
      simp only [reduceCtorEq, if_false]
      rw [e1, e2]; rfl
    | y =>
      have e1 := side .z (by decide); have e2 := side .x (by decide)
      simp only [Source.electricSize, Axis.next, along, Filling.dualArea, hg]
      simp only [reduceCtorEq, if_false]
      rw [e1, e2]; rfl
    | z =>
      have e1 := side .x (by decide); have e2 := side .y (by decide)
      simp only [Source.electricSize, Axis.next, along, Filling.dualArea, hg]
      simp only [reduceCtorEq, if_false]
      rw [e1, e2]; rfl
  have hA : g.dualArea (along a) (R.cfg.gibox .xlo + b .xlo) (R.cfg.gibox .ylo + b .ylo) (R.cfg.gibox .zlo + b .zlo) ≠ 0 := by
    have px : place R.cfg b .xlo = R.cfg.gibox .xlo + b .xlo := add_comm _ _
    have py : place R.cfg b .ylo = R.cfg.gibox .ylo + b .ylo := add_comm _ _
    have pz : place R.cfg b .zlo = R.cfg.gibox .zlo + b .zlo := add_comm _ _
    have p1 := pos .x; have p2 := pos .y; have p3 := pos .z
    simp only [Axis.lo] at p1 p2 p3
    rw [← px, ← py, ← pz]
    cases a <;> simp only [along, Filling.dualArea, hg] <;> positivity
  rw [hd, area]
  field_simp

/-- C57: in a cavity, exchange of source and probe leaves the voltage as it was, in every step: the field seen at edge 2
with the source on edge 1, times the length of edge 2, is the field seen at edge 1 with the source on edge 2, times the
length of edge 1. -/
theorem exchange (hk : Physical k) (h1 : setup k J X1 = some R1) (h2 : setup k J X2 = some R2) (c1 : Cavity k X1) (c2 : Cavity k X2)
    (hX : Exchanged X1 X2 a1 a2 b1 b2) (n : ℕ) :
    R1.fields n (edgeLoc R1.cfg a2 b2) * (X1.lines a2 (b2 a2.lo + 1) - X1.lines a2 (b2 a2.lo)) =
    R2.fields n (edgeLoc R2.cfg a1 b1) * (X1.lines a1 (b1 a1.lo + 1) - X1.lines a1 (b1 a1.lo)) := by
  obtain ⟨ec, edt, eC, eS⟩ := (common h1 h2 hX).resolve_right (fun hp => hp (state_inv h1 c1).pws)
  obtain ⟨t, nm, w, size, delay, r1, r2, s1, s2⟩ := states h1 h2 hX
  have hs := setUp hk h1 c1
  obtain ⟨g, hc, hC, gdt, gde, gdh⟩ := C17.setup_closed hs
  obtain ⟨v1, n1, bt1, dt1, C1, dr1, st1, pws1, pw1, S1⟩ := run_parts h1
  obtain ⟨v2, n2, bt2, dt2, C2, dr2, st2, pws2, pw2, S2⟩ := run_parts h2
  have ecfg : (C17.undriven R1.sim).cfg = R1.cfg := by rw [S1]; rfl
  obtain ⟨-, -, -, -, hdt, -⟩ := C56.cavity_closed hk h1 c1
  obtain ⟨same, before, after, nm', t1, t2, w', size', delay', q1, r1', q2, r2', cc1, cc2, e1, e2, hno⟩ := hX
  obtain ⟨sx, sy, sz, sb, sl, slines, scn, spar, sw⟩ := same
  have w1 : bboxIsWithin b1 R1.state.mbox = true := ((kept h1).1.srcs ⟨b1, nm, ⟨.ecurrent, a1, none, along a1, true⟩, w, size, delay, r1⟩ (by
    rw [s1]; simp [withSrcs])).2
  have w2 : bboxIsWithin b2 R2.state.mbox = true := ((kept h2).1.srcs ⟨b2, nm, ⟨.ecurrent, a2, none, along a2, true⟩, w, size, delay, r2⟩ (by
    rw [s2]; simp [withSrcs])).2
  have srcs1 : R1.sim.srcs = [⟨.ecurr, along a1, place R1.cfg b1⟩] := by rw [S1, s1]; rfl
  have srcs2 : R2.sim.srcs = [⟨.ecurr, along a2, place R2.cfg b2⟩] := by rw [S2, s2]; rfl
  have D1 : R1.sim = driven (C17.undriven R1.sim) [⟨.ecurr, along a1, place R1.cfg b1⟩] := by
    rw [← srcs1]; rfl
  have D2 : R2.sim = driven (C17.undriven R1.sim) [⟨.ecurr, along a2, place R2.cfg b2⟩] := by
    rw [← srcs2, ← eS]; rfl
  have o1 := on_edge h1 e1 w1
  have o2 := on_edge h2 e2 w2
  have gd1 : ∀ a, g.dh a = Setup.dh k J X1 R1.cfg a := by intro a; rw [gdh a, ecfg]; rfl
  have gd2 : ∀ a, g.dh a = Setup.dh k J X2 R2.cfg a := by
    intro a; rw [gd1 a, ec]
    show (initCellEdges R1.cfg a (X1.lines a) k.big (J.edges a)).dh = (initCellEdges R1.cfg a (X2.lines a) k.big (J.edges a)).dh
    rw [slines]
  have i1 := edge_current h1 c1 gd1 e1 s1 w1
  have i2 := edge_current h2 c2 gd2 e2 s2 w2
  rw [edt, sw] at i2
  have soft : R1.coefs (.soft 0) = 1 := (sources h1 c1).2 0 (by rw [srcs1]; simp)
  -- lengths of the edges
  have hg := no_layers v1 (fun f => by rw [bt1]; exact c1.walls f)
  have len : ∀ (a : Axis) (b : BBox) (tg : List Char), EdgeCard a b tg → bboxIsWithin b R1.state.mbox = true →
      g.edgeLength (along a) (R1.cfg.gibox .xlo + b .xlo) (R1.cfg.gibox .ylo + b .ylo) (R1.cfg.gibox .zlo + b .zlo) =
        X1.lines a (b a.lo + 1) - X1.lines a (b a.lo) := by
    intro a b tg he hw
    have p := placed h1 hw a
    have ha := he.along
    have sp := gibox_span R1.cfg a
    have pl : place R1.cfg b a.lo = R1.cfg.gibox a.lo + b a.lo := by cases a <;> exact add_comm _ _
    have ph : place R1.cfg b a.hi = R1.cfg.gibox a.lo + b a.hi := by cases a <;> exact add_comm _ _
    have e : g.edgeLength (along a) (R1.cfg.gibox .xlo + b .xlo) (R1.cfg.gibox .ylo + b .ylo) (R1.cfg.gibox .zlo + b .zlo) =
        g.de a (R1.cfg.gibox a.lo + b a.lo) := by cases a <;> rfl
    rw [e, gde a, ecfg, C18.edge_lengths R1.cfg v1 a (X1.lines a) k.big (J.edges a) _ (by rw [hg]; omega) (by rw [hg]; omega)]
    have : C18.nearestCell (R1.cfg.n a) (R1.cfg.gibox a.lo + b a.lo - R1.cfg.gibox a.lo) = b a.lo := by
      unfold C18.nearestCell; omega
    rw [this]; rfl
  have w2' : bboxIsWithin b2 R1.state.mbox = true := by
    rw [(kept h1).2]
    rw [(kept h2).2, ec] at w2
    exact w2
  have L1 := len a1 b1 t1 e1 w1
  have L2 := len a2 b2 t2 e2 w2'
  have F1 : R1.fields n = (driven (C17.undriven R1.sim) [⟨.ecurr, along a1, place R1.cfg b1⟩]).state R1.coefs R1.drive (fun _ => 0) n := by
    unfold Run.fields; rw [← D1]
  have F2 : R2.fields n = (driven (C17.undriven R1.sim) [⟨.ecurr, along a2, place R2.cfg b2⟩]).state R1.coefs R2.drive (fun _ => 0) n := by
    unfold Run.fields; rw [← D2, eC]
  rw [ec] at o2
  by_cases hI : ∃ m : ℕ, size * waveValue R1.dt (X1.waves w) (m * R1.dt - delay) ≠ 0
  · have key := C45.exchange (S := C17.undriven R1.sim) (C := R1.coefs) (g := g) hc (by rw [gdt]; exact hdt.ne') soft
      (x1 := ⟨.ecurr, along a1, place R1.cfg b1⟩) (x2 := ⟨.ecurr, along a2, place R1.cfg b2⟩)
      (by rw [ecfg]; exact o1) (by rw [ecfg]; exact o2) (fun m => size * waveValue R1.dt (X1.waves w) (m * R1.dt - delay)) hI R1.drive R2.drive
      i1 (fun m => by have := i2 m; rw [ec] at this; exact this) n
    rw [L1, L2] at key
    rw [F1, F2]
    unfold edgeLoc
    rw [ec]
    exact key
  · push Not at hI
    -- no current at all: no field at all
    have dual : ∀ (a : Axis) (b : BBox) (tg : List Char), EdgeCard a b tg → bboxIsWithin b R1.state.mbox = true →
        g.dualArea (along a) (R1.cfg.gibox .xlo + b .xlo) (R1.cfg.gibox .ylo + b .ylo) (R1.cfg.gibox .zlo + b .zlo) ≠ 0 := by
      intro a b tg he hw
      have pos : ∀ d : Axis, 0 < g.dh d (R1.cfg.gibox d.lo + b d.lo) := by
        intro d
        rw [gd1 d]
        refine (edges_pos h1 c1 (a := d) ?_ ?_).2
        · have := (placed h1 hw d).1
          have pl : place R1.cfg b d.lo = R1.cfg.gibox d.lo + b d.lo := by cases d <;> exact add_comm _ _
          omega
        · have := (placed h1 hw d).2
          have ph : place R1.cfg b d.hi = R1.cfg.gibox d.lo + b d.hi := by cases d <;> exact add_comm _ _
          have : b d.lo ≤ b d.hi := by
            have q1 := he.along; have q2 := he.across d
            by_cases hda : d = a
            · subst hda; omega
            · rw [q2 hda]
          omega
      have p1 := pos .x; have p2 := pos .y; have p3 := pos .z
      simp only [Axis.lo] at p1 p2 p3
      cases a <;> simp only [along, Filling.dualArea] <;> positivity
    -- add a unit current to both, and take it away again
    let v : ℝ → ℕ → Loc → ℝ := fun A m l => if m = 0 ∧ l = .src false 0 then 1 / A else 0
    let A1 := g.dualArea (along a1) (R1.cfg.gibox .xlo + b1 .xlo) (R1.cfg.gibox .ylo + b1 .ylo) (R1.cfg.gibox .zlo + b1 .zlo)
    let A2 := g.dualArea (along a2) (R1.cfg.gibox .xlo + b2 .xlo) (R1.cfg.gibox .ylo + b2 .ylo) (R1.cfg.gibox .zlo + b2 .zlo)
    have n1 : A1 ≠ 0 := dual a1 b1 t1 e1 w1
    have n2 : A2 ≠ 0 := dual a2 b2 t2 e2 w2'
    have unit : ∀ {A : ℝ}, A ≠ 0 → ∀ m, v A m (.src false 0) * A = if m = 0 then 1 else 0 := by
      intro A hA m
      by_cases hm : m = 0
      · simp only [v, hm, and_self, if_true]; field_simp
      · simp [v, hm]
    have one : ∃ m : ℕ, (fun m : ℕ => if m = 0 then (1:ℝ) else 0) m ≠ 0 := ⟨0, by simp⟩
    have key := fun (u1 u2 : ℕ → Loc → ℝ) (d1 : ∀ m, u1 m (.src false 0) * A1 = if m = 0 then 1 else 0)
        (d2 : ∀ m, u2 m (.src false 0) * A2 = if m = 0 then 1 else 0) =>
      C45.exchange (S := C17.undriven R1.sim) (C := R1.coefs) (g := g) hc (by rw [gdt]; exact hdt.ne') soft
      (x1 := ⟨.ecurr, along a1, place R1.cfg b1⟩) (x2 := ⟨.ecurr, along a2, place R1.cfg b2⟩)
      (by rw [ecfg]; exact o1) (by rw [ecfg]; exact o2) (fun m => if m = 0 then (1:ℝ) else 0) one u1 u2 d1 d2 n
    have k1 := key (v A1) (v A2) (unit n1) (unit n2)
    have k2 := key (fun m l => R1.drive m l + v A1 m l) (fun m l => R2.drive m l + v A2 m l)
      (fun m => by rw [add_mul, unit n1]; have := i1 m; rw [hI m] at this; rw [this, zero_add])
      (fun m => by rw [add_mul, unit n2]; have := i2 m; rw [hI m, ec] at this; rw [this, zero_add])
    rw [C11.additive, C11.additive, L1, L2] at k2
    rw [L1, L2] at k1
    rw [F1, F2]
    unfold edgeLoc
    rw [ec]
    linarith [k1, k2]

end
end Vulture.C57
