import Verif.Model.Gvulture
import Verif.Spec.Command
import Verif.Props.C60_Gnuplot
import Verif.Props.C94_Export
/-
C95. The files of the gnuplot export of a mesh file.
-/
set_option linter.unusedSimpArgs false
namespace Vulture.C95
open Vulture Gvulture Gnuplot Spec Deck

/-- The marks of the ranges. -/
theorem marks {K : Type} [Field K] (u : Axis → Int → K) (m : BBox) (p q : K × K × K) :
    Drawn (problemSize u m) p q ↔ RangeMark u m p q := by
  unfold problemSize
  simp only [C60.drawn_cons, C60.drawn_nil, C60.joined_cons, C60.joined_one, or_false]
  simp only [RangeMark, Ends, times, C60.pin_eq, Gnuplot.at3, Axis.lo, Axis.hi]
  tauto

theorem mapM_parts {α β : Type} (g : α → Option β) : ∀ (l : List α), (∀ x ∈ l, (g x).isSome) →
    ∃ r, l.mapM g = some r ∧ ∀ y, y ∈ r ↔ ∃ x ∈ l, g x = some y
  | [], _ => ⟨[], rfl, by simp⟩
  | x :: l, h => by
    obtain ⟨r, hr, hy⟩ := mapM_parts g l fun x hx => h x (by simp [hx])
    obtain ⟨y, hx⟩ := Option.isSome_iff_exists.1 (h x (by simp))
    refine ⟨y :: r, by rw [List.mapM_cons, hx, hr]; rfl, ?_⟩
    intro z
    rw [List.mem_cons, hy]
    simp only [List.mem_cons, exists_eq_or_imp, hx, Option.some.injEq]
    exact or_congr eq_comm Iff.rfl

/-- Box and angles of a `PW` card. -/
def waveOf : Card → Option (BBox × ℝ × ℝ × ℝ)
  | .pw c _ => some (c.bbox, c.theta, c.phi, c.eta)
  | _ => none

/-- What the checks say about the angles. -/
def AnglesChecked : Card → Prop
  | .pw c _ => PlaneWave.anglesOk c.theta c.phi c.eta
  | _ => True

theorem read_waves : ∀ (l : List Card) (s s' : Deck.State), Deck.read s l = some s' →
    (∀ c ∈ l, AnglesChecked c) ∧
    s'.pws.map (fun x => (x.mbbox, x.theta, x.phi, x.eta)) = s.pws.map (fun x => (x.mbbox, x.theta, x.phi, x.eta)) ++
      l.filterMap waveOf
  | [], s, s', h => by simp [Deck.read] at h; subst h; simp
  | c :: l, s, s', h => by
    rw [C47.read_cons] at h
    obtain ⟨t, ht, h⟩ := Option.bind_eq_some_iff.1 h
    obtain ⟨b1, b2⟩ := read_waves l t s' h
    have key : AnglesChecked c ∧ t.pws.map (fun x => (x.mbbox, x.theta, x.phi, x.eta)) =
        s.pws.map (fun x => (x.mbbox, x.theta, x.phi, x.eta)) ++ (waveOf c).toList := by
      cases c with
      | pw w d =>
        simp only [State.card] at ht
        split at ht
        · rename_i hp
          simp only [Option.some.injEq] at ht
          subst ht
          refine ⟨?_, by simp [waveOf]⟩
          simp only [parsePW, Bool.and_eq_true, Bool.not_eq_true', Bool.or_eq_false_iff, decide_eq_false_iff_not] at hp
          obtain ⟨⟨⟨⟨⟨-, h1, h2⟩, h3, h4⟩, h5, h6⟩, -⟩, -⟩ := hp
          refine ⟨?_, ?_, ?_⟩
          · rintro (h | h)
            · exact h1 (by exact_mod_cast h)
            · exact h2 (by exact_mod_cast h)
          · rintro (h | h)
            · exact h3 (by exact_mod_cast h)
            · exact h4 (by exact_mod_cast h)
          · rintro (h | h)
            · exact h5 (by exact_mod_cast h)
            · exact h6 (by exact_mod_cast h)
        · simp at ht
      | _ =>
        refine ⟨trivial, ?_⟩
        simp only [State.card] at ht
        (repeat' split at ht) <;> simp at ht <;> subst ht <;> simp [waveOf]
    refine ⟨?_, ?_⟩
    · intro x hx
      rcases List.mem_cons.1 hx with rfl | hx
      · exact key.1
      · exact b1 x hx
    · rw [b2, key.2, C94.filterMap_one, List.append_assoc]

/-- The three arrows of a wave from a card; in coordinates their ends are taken to coordinates. -/
noncomputable def arrowsOf (physical : Bool) (f : File) (lines : Axis → Int → ℝ) (eta0 : ℝ) (c : PWCard) : Option (Dat ℝ) :=
  waveArrows (Gnuplot.location physical (fun a => f.cells a + 1) lines) eta0 c.bbox c.theta c.phi c.eta

/-- The file of the plane waves shows the ranges, the edges of every wave's box and its three arrows. -/
theorem waves_drawn (physical : Bool) (lines : Axis → Int → ℝ) (eta0 : ℝ) {f : File} {s : Deck.State} (h : f.stored = some s)
    (hphi : ∀ c d, Card.pw c d ∈ f.cards → c.phi < 360) :
    ∃ out, waveFile physical (fun a => f.cells a + 1) lines eta0 s.mbox s.pws = some out ∧
      (∀ c d, Card.pw c d ∈ f.cards → ∃ g, arrowsOf physical f lines eta0 c = some g) ∧
      ∀ p q, Drawn out p q ↔ Drawn (problemSize (units physical lines) s.mbox) p q ∨
        ∃ c d, Card.pw c d ∈ f.cards ∧ (Outlines (units physical lines) c.bbox p q ∨
          ∃ g, arrowsOf physical f lines eta0 c = some g ∧ Drawn g p q) := by
  obtain ⟨-, hr⟩ := C47.stored_parts h
  obtain ⟨hang, hw⟩ := read_waves _ _ _ hr
  rw [show (State.init (mkBox 0 f.nx 0 f.ny 0 f.nz)).pws = [] from rfl, List.map_nil, List.nil_append] at hw
  have hsome : ∀ c d, Card.pw c d ∈ f.cards → ∃ g, arrowsOf physical f lines eta0 c = some g := by
    intro c d hc
    obtain ⟨o, ho, -⟩ := C30.origin_exists c.theta c.phi c.eta (hang _ hc) (by exact_mod_cast hphi c d hc)
    have hq : PlaneWave.ijk0 c.theta c.phi c.bbox = some (fun a => c.bbox (o a)) := by
      unfold PlaneWave.ijk0; rw [ho]; rfl
    unfold arrowsOf waveArrows
    rw [hq]
    exact ⟨_, rfl⟩
  have hitem : ∀ x, x ∈ s.pws.map (fun x => (x.mbbox, x.theta, x.phi, x.eta)) ↔
      ∃ c d, Card.pw c d ∈ f.cards ∧ x = (c.bbox, (c.theta : ℝ), (c.phi : ℝ), (c.eta : ℝ)) := by
    intro x
    rw [hw, List.mem_filterMap]
    constructor
    · rintro ⟨c, hc, hx⟩
      cases c <;> simp [waveOf] at hx
      exact ⟨_, _, hc, hx.symm⟩
    · rintro ⟨c, d, hc, rfl⟩
      exact ⟨_, hc, rfl⟩
  obtain ⟨r, hr', hy⟩ := mapM_parts (fun w : PwItem =>
    (waveArrows (Gnuplot.location physical (fun a => f.cells a + 1) lines) eta0 w.mbbox w.theta w.phi w.eta).map fun g =>
      box (units physical lines) w.mbbox ++ g) s.pws (by
    intro w hw'
    obtain ⟨c, d, hc, e⟩ := (hitem _).1 (List.mem_map.2 ⟨w, hw', rfl⟩)
    obtain ⟨e1, e2⟩ := Prod.mk.inj e
    obtain ⟨e2, e3⟩ := Prod.mk.inj e2
    obtain ⟨e3, e4⟩ := Prod.mk.inj e3
    obtain ⟨g, hg⟩ := hsome c d hc
    rw [e1, e2, e3, e4]
    unfold arrowsOf at hg
    rw [hg]
    rfl)
  refine ⟨problemSize (units physical lines) s.mbox ++ r.flatten, by unfold waveFile; rw [hr']; rfl, hsome, ?_⟩
  intro p q
  rw [C60.drawn_append]
  refine or_congr_right ?_
  have hflat : Drawn r.flatten p q ↔ ∃ y ∈ r, Drawn y p q := by
    unfold Drawn
    simp only [List.mem_flatten]
    constructor
    · rintro ⟨x, ⟨y, hy, hx⟩, hj⟩; exact ⟨y, hy, x, hx, hj⟩
    · rintro ⟨y, hy, x, hx, hj⟩; exact ⟨x, ⟨y, hy, hx⟩, hj⟩
  rw [hflat]
  constructor
  · rintro ⟨y, hyr, hd⟩
    obtain ⟨w, hw', e⟩ := (hy y).1 hyr
    obtain ⟨c, d, hc, ec⟩ := (hitem _).1 (List.mem_map.2 ⟨w, hw', rfl⟩)
    obtain ⟨e1, e2⟩ := Prod.mk.inj ec
    obtain ⟨e2, e3⟩ := Prod.mk.inj e2
    obtain ⟨e3, e4⟩ := Prod.mk.inj e3
    rw [e1, e2, e3, e4] at e
    obtain ⟨g, hg, rfl⟩ := Option.map_eq_some_iff.1 e
    rw [C60.drawn_append, C60.box_outline] at hd
    rcases hd with hd | hd
    · exact ⟨c, d, hc, .inl hd⟩
    · exact ⟨c, d, hc, .inr ⟨g, hg, hd⟩⟩
  · rintro ⟨c, d, hc, hd⟩
    obtain ⟨w, hw', ec⟩ := List.mem_map.1 ((hitem _).2 ⟨c, d, hc, rfl⟩)
    obtain ⟨e1, e2⟩ := Prod.mk.inj ec
    obtain ⟨e2, e3⟩ := Prod.mk.inj e2
    obtain ⟨e3, e4⟩ := Prod.mk.inj e3
    obtain ⟨g, hg⟩ := hsome c d hc
    refine ⟨box (units physical lines) c.bbox ++ g, (hy _).2 ⟨w, hw', ?_⟩, ?_⟩
    · rw [e1, e2, e3, e4]
      unfold arrowsOf at hg
      rw [hg]
      rfl
    · rw [C60.drawn_append, C60.box_outline]
      rcases hd with hd | ⟨g', hg', hd⟩
      · exact .inl hd
      · rw [hg] at hg'
        cases hg'
        exact .inr hd

/-- The points of a source's arrow. -/
theorem arrow_points {K : Type} [Field K] (u : Axis → Int → K) (b : BBox) (a : Axis) :
    boxArrow u b a = [Spec.sourceArrow u b a] := by
  rw [C60.arrow_shown]
  rfl

theorem field_axis (fc : Fc) (a : Axis) : axisOf fc = a ↔ fc = a.e ∨ fc = a.h := by
  cases fc <;> cases a <;> simp [axisOf, Axis.e, Axis.h]

/-- Observers with positive distances. -/
def GoodSteps (f : File) : Prop := ∀ c, Card.op c ∈ f.cards → c.ascii = false → 1 ≤ c.stepX ∧ 1 ≤ c.stepY ∧ 1 ≤ c.stepZ

theorem step_pos {f : File} (hs : GoodSteps f) {c : OPCard} (hc : Card.op c ∈ f.cards) (a : Axis) :
    1 ≤ (if c.ascii then 1 else match a with | .x => c.stepX | .y => c.stepY | .z => c.stepZ : Int) := by
  by_cases h : c.ascii = true
  · rw [if_pos h]
    exact le_rfl
  · rw [if_neg h]
    obtain ⟨h1, h2, h3⟩ := hs c hc (by simpa using h)
    cases a <;> assumption

/-- `gnuplot-observer.dat` of a mesh file. -/
theorem observers_drawn {K : Type} [Field K] (u : Axis → Int → K) {f : File} {s : Deck.State} (h : f.stored = some s)
    (hs : GoodSteps f) : ∃ out, observerFile u s.mbox (s.obs.map fun o => (o.mbbox, o.step)) = some out ∧
      (∀ p q, Drawn out p q ↔ Drawn (problemSize u s.mbox) p q) ∧
      ∀ P, [P] ∈ out ↔ ∃ c n, Card.op c ∈ f.cards ∧ Recorded c n ∧ P = pin u n := by
  obtain ⟨-, hr⟩ := C47.stored_parts h
  have hob := (C94.read_facts _ _ _ hr).2.2.2.2.1
  rw [show (State.init (mkBox 0 f.nx 0 f.ny 0 f.nz)).obs = [] from rfl, List.map_nil, List.nil_append] at hob
  have hitem : ∀ x, x ∈ (s.obs.map fun o => (o.mbbox, o.step)) ↔ ∃ c, Card.op c ∈ f.cards ∧ x = (c.bbox, fun a : Axis =>
      if c.ascii then (1 : Int) else match a with | .x => c.stepX | .y => c.stepY | .z => c.stepZ) := by
    intro x
    have e : (s.obs.map fun o => (o.mbbox, o.step)) = (f.cards.filterMap C94.opOf).map Prod.snd := by
      rw [← hob, List.map_map]
      rfl
    rw [e]
    constructor
    · intro hx
      obtain ⟨y, hy, rfl⟩ := List.mem_map.1 hx
      obtain ⟨c, hc, hy⟩ := List.mem_filterMap.1 hy
      cases c <;> simp [C94.opOf] at hy
      subst hy
      exact ⟨_, hc, rfl⟩
    · rintro ⟨c, hc, rfl⟩
      exact List.mem_map.2 ⟨_, List.mem_filterMap.2 ⟨_, hc, rfl⟩, rfl⟩
  obtain ⟨g, hg, hm⟩ := C60.observers_shown u s.mbox (s.obs.map fun o => (o.mbbox, o.step)) (by
    intro o ho a
    obtain ⟨c, hc, rfl⟩ := (hitem o).1 ho
    exact step_pos hs hc a)
  refine ⟨_, hg, ?_, ?_⟩
  · intro p q
    rw [C60.drawn_append]
    refine ⟨?_, .inl⟩
    rintro (hd | ⟨r, hr, hj⟩)
    · exact hd
    · obtain ⟨o, -, n, -, rfl⟩ := (hm r).1 hr
      rcases hj with hj | hj <;> exact absurd hj (C60.joined_one _ _ _)
  · intro P
    rw [List.mem_append, hm]
    constructor
    · rintro (hp | ⟨o, ho, n, hn, e⟩)
      · simp [problemSize] at hp
      · obtain ⟨c, hc, rfl⟩ := (hitem o).1 ho
        exact ⟨c, n, hc, hn, by simpa using e⟩
    · rintro ⟨c, n, hc, hn, rfl⟩
      exact .inr ⟨_, (hitem _).2 ⟨c, hc, rfl⟩, n, hn, rfl⟩


section
variable {K : Type} [Field K] {f : File} {u : Axis → Int → K} {w : PWCard → Dat K} {p q : K × K × K}

theorem in_external : Pictured f u w "gnuplot-external.dat" p q ↔ RangeMark u (mkBox 0 f.nx 0 f.ny 0 f.nz) p q ∨
    Outlines u (mkBox 0 f.nx 0 f.ny 0 f.nz) p q := by
  constructor
  · intro h
    generalize hn : "gnuplot-external.dat" = name at h
    cases h <;> first | exact absurd hn (by decide) | exact .inl ‹_› | exact .inr ‹_›
  · rintro (h | h)
    · exact .mark _ _ _ h
    · exact .side _ _ h

theorem in_surface : Pictured f u w "gnuplot-surface.dat" p q ↔ RangeMark u (mkBox 0 f.nx 0 f.ny 0 f.nz) p q ∨
    ∃ c, Card.tb c ∈ f.cards ∧ Outlines u c.bbox p q := by
  constructor
  · intro h
    generalize hn : "gnuplot-surface.dat" = name at h
    cases h <;> first | exact absurd hn (by decide) | exact .inl ‹_› | exact .inr ⟨_, ‹_›, ‹_›⟩
  · rintro (h | ⟨c, hc, h⟩)
    · exact .mark _ _ _ h
    · exact .sheet _ _ _ hc h

theorem in_block : Pictured f u w "gnuplot-block.dat" p q ↔ RangeMark u (mkBox 0 f.nx 0 f.ny 0 f.nz) p q ∨
    ∃ c, Card.mb c ∈ f.cards ∧ Outlines u c.bbox p q := by
  constructor
  · intro h
    generalize hn : "gnuplot-block.dat" = name at h
    cases h <;> first | exact absurd hn (by decide) | exact .inl ‹_› | exact .inr ⟨_, ‹_›, ‹_›⟩
  · rintro (h | ⟨c, hc, h⟩)
    · exact .mark _ _ _ h
    · exact .block _ _ _ hc h

theorem in_wires : Pictured f u w "gnuplot-wires.dat" p q ↔ RangeMark u (mkBox 0 f.nx 0 f.ny 0 f.nz) p q ∨
    ∃ c, Card.tw c ∈ f.cards ∧ Outlines u c.bbox p q := by
  constructor
  · intro h
    generalize hn : "gnuplot-wires.dat" = name at h
    cases h <;> first | exact absurd hn (by decide) | exact .inl ‹_› | exact .inr ⟨_, ‹_›, ‹_›⟩
  · rintro (h | ⟨c, hc, h⟩)
    · exact .mark _ _ _ h
    · exact .wire _ _ _ hc h

theorem in_source (hk : ∀ k b n tag wv z d r, Card.ex k b n tag wv z d r ∈ f.cards → (Source.lookup tag).isSome) : Pictured f u w "gnuplot-source.dat" p q ↔ RangeMark u (mkBox 0 f.nx 0 f.ny 0 f.nz) p q ∨
    ∃ c ∈ f.cards, ∃ b fc, C60.sourceOf c = some (b, fc) ∧ (Outlines u b p q ∨ Drawn (boxArrow u b (axisOf fc)) p q) := by
  simp only [arrow_points]
  constructor
  · intro h
    generalize hn : "gnuplot-source.dat" = name at h
    cases h with
    | mark _ _ _ h => exact .inl h
    | source k b name tag wv size delay resist _ _ hc ho => 
      obtain ⟨i, hi⟩ := Option.isSome_iff_exists.1 (hk _ _ _ _ _ _ _ _ hc)
      exact .inr ⟨_, hc, b, i.field, by simp [C60.sourceOf, hi], .inl ho⟩
    | sourceArrow k b name tag wv size delay resist i a _ _ hc hi ha hd =>
      have : axisOf i.field = a := (field_axis _ _).2 ha
      exact .inr ⟨_, hc, b, i.field, by simp [C60.sourceOf, hi], .inr (by rw [this]; exact hd)⟩
    | _ => exact absurd hn (by decide)
  · rintro (h | ⟨c, hc, b, fc, hb, h⟩)
    · exact .mark _ _ _ h
    · cases c with
      | ex k b' name tag wv size delay resist =>
        simp only [C60.sourceOf, Option.map_eq_some_iff, Prod.mk.injEq] at hb
        obtain ⟨i, hi, rfl, rfl⟩ := hb
        rcases h with h | h
        · exact .source _ _ _ _ _ _ _ _ _ _ hc h
        · exact .sourceArrow _ _ _ _ _ _ _ _ i (axisOf i.field) _ _ hc hi ((field_axis _ _).1 rfl) h
      | _ => simp [C60.sourceOf] at hb

theorem in_waves : Pictured f u w "gnuplot-planewave.dat" p q ↔ RangeMark u (mkBox 0 f.nx 0 f.ny 0 f.nz) p q ∨
    ∃ c d, Card.pw c d ∈ f.cards ∧ (Outlines u c.bbox p q ∨ Drawn (w c) p q) := by
  constructor
  · intro h
    generalize hn : "gnuplot-planewave.dat" = name at h
    cases h <;> first | exact absurd hn (by decide) | exact .inl ‹_› | exact .inr ⟨_, _, ‹_›, .inl ‹_›⟩ |
      exact .inr ⟨_, _, ‹_›, .inr ‹_›⟩
  · rintro (h | ⟨c, d, hc, h | h⟩)
    · exact .mark _ _ _ h
    · exact .waveBox _ _ _ _ hc h
    · exact .waveArrow _ _ _ _ hc h

theorem in_observers : Pictured f u w "gnuplot-observer.dat" p q ↔ RangeMark u (mkBox 0 f.nx 0 f.ny 0 f.nz) p q := by
  constructor
  · intro h
    generalize hn : "gnuplot-observer.dat" = name at h
    cases h <;> first | exact absurd hn (by decide) | exact ‹_›
  · exact .mark _ _ _

theorem in_lines : Pictured f u w "gnuplot-lines.dat" p q ↔ RangeMark u (mkBox 0 f.nx 0 f.ny 0 f.nz) p q ∨
    ∃ a n m, MeshLine f.cells a n m ∧ (∃ c, c ≠ a ∧ n c = backPlane f.cells c) ∧ Ends (pin u n) (pin u m) p q := by
  constructor
  · intro h
    generalize hn : "gnuplot-lines.dat" = name at h
    cases h <;> first | exact absurd hn (by decide) | exact .inl ‹_› | exact .inr ⟨_, _, _, ‹_›, ‹_›, ‹_›⟩
  · rintro (h | ⟨a, n, m, h1, h2, h3⟩)
    · exact .mark _ _ _ h
    · exact .meshLine _ _ _ _ _ h1 h2 h3

end

theorem known_tags : ∀ (l : List Card) (s s' : Deck.State), Deck.read s l = some s' →
    ∀ k b n tag wv z d r, Card.ex k b n tag wv z d r ∈ l → (Source.lookup tag).isSome
  | [], _, _, _ => by simp
  | c :: l, s, s', h => by
    rw [C47.read_cons] at h
    obtain ⟨t, ht, h⟩ := Option.bind_eq_some_iff.1 h
    intro k b n tag wv z d r hc
    rcases List.mem_cons.1 hc with rfl | hc
    · simp only [State.card] at ht
      split at ht
      · simp at ht
      · rename_i hl; simp [hl]
    · exact known_tags l t s' h _ _ _ _ _ _ _ _ hc

/-- The picture of an accepted mesh file. -/
theorem draws (physical external : Bool) {eta0 : ℝ} (lines : Axis → Int → ℝ) {f : File} {s : Deck.State}
    (h : f.stored = some s) (hphi : ∀ c d, Card.pw c d ∈ f.cards → c.phi < 360) (hs : GoodSteps f) :
    ∃ out, gnuplotMesh physical external eta0 lines f s = some out ∧ out.files.map Prod.fst = pictureFiles ∧
      (∀ c d, Card.pw c d ∈ f.cards → ∃ g, arrowsOf physical f lines eta0 c = some g) ∧
      (∀ name d, (name, d) ∈ out.files → ∀ p q, Drawn d p q ↔
        Pictured f (shownAt physical lines) (fun c => (arrowsOf physical f lines eta0 c).getD []) name p q) ∧
      (∀ d, ("gnuplot-observer.dat", d) ∈ out.files → ∀ P, [P] ∈ d ↔
        ∃ c n, Card.op c ∈ f.cards ∧ Recorded c n ∧ P = pin (shownAt physical lines) n) ∧
      out.script = plotLines (present external s) ∧ out.equal = equalBoundaries (mkBox 0 f.nx 0 f.ny 0 f.nz) := by
  obtain ⟨hn, hr⟩ := C47.stored_parts h
  have hbox : s.mbox = mkBox 0 f.nx 0 f.ny 0 f.nz := (C94.read_facts _ _ _ hr).2.1
  have hmesh : ∀ a : Axis, (mkBox 0 f.nx 0 f.ny 0 f.nz) a.lo < (mkBox 0 f.nx 0 f.ny 0 f.nz) a.hi := by
    intro a; cases a <;> simp only [mkBox, Axis.lo, Axis.hi] <;> omega
  have hk := known_tags _ _ _ hr
  obtain ⟨wv, hw1, hw2, hw3⟩ := waves_drawn physical lines eta0 h hphi
  obtain ⟨ob, ho1, ho2, ho3⟩ := observers_drawn (shownAt physical lines) h hs
  have ho1' : observerFile (units physical lines) s.mbox (s.obs.map fun o => (o.mbbox, o.step)) = some ob := ho1
  refine ⟨_, by dsimp only [gnuplotMesh]; rw [hw1, Option.bind_some, ho1', Option.map_some], rfl, hw2, ?_, ?_, rfl, by rw [hbox]⟩
  · intro name d hd p q
    simp only [List.mem_cons, List.not_mem_nil, or_false, Prod.mk.injEq] at hd
    have hm : ∀ p q, Drawn (problemSize (units physical lines) s.mbox) p q ↔
        RangeMark (shownAt physical lines) (mkBox 0 f.nx 0 f.ny 0 f.nz) p q := fun p q => by rw [marks, hbox]; rfl
    rcases hd with ⟨rfl, rfl⟩ | ⟨rfl, rfl⟩ | ⟨rfl, rfl⟩ | ⟨rfl, rfl⟩ | ⟨rfl, rfl⟩ | ⟨rfl, rfl⟩ | ⟨rfl, rfl⟩ | ⟨rfl, rfl⟩
    · rw [in_external, hbox, C60.outer_faces_shown _ _ hmesh, ← hbox, hm, hbox]; rfl
    · rw [in_surface, C60.surfaces_shown _ h, hm]; rfl
    · rw [in_block, C60.blocks_shown _ h, hm]; rfl
    · rw [in_wires, C60.wires_shown _ h, hm]; rfl
    · rw [in_source hk, C60.source_cards_shown _ h, hm]; rfl
    · rw [in_waves, hw3, hm]
      refine or_congr_right ?_
      refine exists_congr fun c => exists_congr fun d => and_congr_right fun hc => or_congr_right ?_
      obtain ⟨g, hg⟩ := hw2 c d hc
      rw [hg]
      simp
    · rw [in_observers, ho2, ← hm]; rfl
    · rw [in_lines, hbox, ← hm, hbox]
      exact C60.mesh_lines_shown (units physical lines) f.cells (fun a => by cases a <;> simp only [File.cells] <;> omega) p q
  · intro d hd P
    simp only [List.mem_cons, List.not_mem_nil, or_false, Prod.mk.injEq] at hd
    have : d = ob := by
      rcases hd with ⟨e, -⟩ | ⟨e, -⟩ | ⟨e, -⟩ | ⟨e, -⟩ | ⟨e, -⟩ | ⟨e, -⟩ | ⟨-, e⟩ | ⟨e, -⟩ <;>
        first | exact e | exact absurd e (by decide)
    subst this
    exact ho3 P

/-! ### Arrows of a wave -/

/-- A mesh node has the coordinates of its mesh lines. -/
theorem node_coordinate {n : Int} (hn : 2 ≤ n) (lines : Int → ℝ) {i : Int} (h0 : 0 ≤ i) (h1 : i ≤ n - 1) :
    nodeInPhysicalUnits n lines (i : ℝ) = lines i := by
  unfold nodeInPhysicalUnits
  simp only [Int.floor_intCast, sub_self]
  rw [if_neg (by omega)]
  split_ifs with h
  · have : i = n - 1 := by omega
    subst this
    push_cast
    ring
  · ring

/-- The three polylines of a wave begin at the corner of its box where it enters and show its direction, its electric and
its magnetic field, orthogonal and right handed, each 0.3 of the shortest side long in cells; in coordinates, both ends of
each are taken to coordinates. -/
theorem wave_arrows (place : (Axis → ℝ) → Axis → ℝ) (eta0 theta phi eta : ℝ) (h0 : 0 < eta0) (b : BBox) (q : Axis → ℤ)
    (hq : PlaneWave.ijk0 theta phi b = some q) :
    ∃ (k e h : Axis → ℝ) (A B C : List (Pt ℝ)),
      waveArrows place eta0 b theta phi eta = some [A, B, C] ∧
      k = direction theta phi ∧ UniformWave k e h 1 1 ∧
      (∀ a, e a = PlaneWave.finc eta0 1 theta phi eta a.e) ∧
      (∃ l, A = pt (place fun a => q a) :: pt (place fun a => q a + arrowScale b * k a) :: l) ∧
      (∃ l, B = pt (place fun a => q a) :: pt (place fun a => q a + arrowScale b * e a) :: l) ∧
      (∃ l, C = pt (place fun a => q a) :: pt (place fun a => q a + arrowScale b * h a) :: l) := by
  obtain ⟨k, e, h, A, B, C, hw, hk, hu, he, ⟨l1, rfl⟩, ⟨l2, rfl⟩, ⟨l3, rfl⟩⟩ := C60.wave_shown eta0 theta phi eta h0 b q hq
  unfold waveArrows at hw ⊢
  rw [hq] at hw ⊢
  simp only [Option.map_some, Option.some.injEq, List.cons.injEq, and_true, id, arrow, List.cons_append, List.nil_append] at hw
  obtain ⟨⟨-, a1, -⟩, ⟨-, b1, -⟩, -, c1, -⟩ := hw
  have inj : ∀ v w : Axis → ℝ, pt v = pt w → v = w := by
    intro v w e
    obtain ⟨e1, e2⟩ := Prod.mk.inj e
    obtain ⟨e2, e3⟩ := Prod.mk.inj e2
    funext a
    cases a <;> assumption
  have a2 := inj _ _ a1
  have b2 := inj _ _ b1
  have c2 := inj _ _ c1
  have starts : ∀ s t n k, ∃ l, arrow s t n k = pt s :: pt t :: l := fun s t n k => ⟨_, rfl⟩
  refine ⟨k, e, h, _, _, _, rfl, hk, hu, he, ?_, ?_, ?_⟩
  · rw [← a2]; exact starts _ _ _ _
  · rw [← b2]; exact starts _ _ _ _
  · rw [← c2]; exact starts _ _ _ _

/-- In coordinates the arrows of a wave of the file begin at the coordinates of a corner of its box. -/
theorem arrows_start (physical : Bool) (lines : Axis → Int → ℝ) {f : File} (hn : ∀ a, 1 ≤ f.cells a) (q : Axis → Int)
    (hq : ∀ a, 0 ≤ q a ∧ q a ≤ f.cells a) :
    pt (Gnuplot.location physical (fun a => f.cells a + 1) lines fun a => (q a : ℝ)) = pin (shownAt physical lines) q := by
  have : ∀ a, Gnuplot.location physical (fun a => f.cells a + 1) lines (fun a => (q a : ℝ)) a = shownAt physical lines a (q a) := by
    intro a
    unfold Gnuplot.location shownAt
    have := hn a
    have := hq a
    split_ifs
    · exact node_coordinate (by dsimp only; omega) _ (by omega) (by dsimp only; omega)
    · rfl
  simp only [pt, pin, this]

/-! ### The script -/

theorem flags {f : File} {s : Deck.State} (external : Bool) (h : f.stored = some s) (name : String) :
    name ∈ C60.wanted (present external s) ↔ Needed f external name := by
  obtain ⟨-, hr⟩ := C47.stored_parts h
  obtain ⟨b1, b2, -, -⟩ := C47.read_boxes _ _ _ hr
  have b3 := C60.read_lines _ _ _ hr
  have b4 := (C94.read_facts _ _ _ hr).2.2.1
  have b5 := (C94.read_facts _ _ _ hr).2.2.2.1
  have b6 := (C94.read_facts _ _ _ hr).2.2.2.2.1
  simp only [State.init, List.map_nil, List.nil_append] at b1 b2 b3 b4 b5 b6
  have ne : ∀ {α β : Type} {l : List α} {g : α → β} {k : Card → Option β}, l.map g = f.cards.filterMap k →
      (l ≠ [] ↔ ∃ c ∈ f.cards, (k c).isSome) := by
    intro α β l g k e
    have : l ≠ [] ↔ l.map g ≠ [] := by simp
    rw [this, e]
    simp [List.filterMap_eq_nil_iff, Option.isSome_iff_ne_none]
  have e1 := ne b1; have e2 := ne b2; have e3 := ne b3; have e4 := ne b4; have e5 := ne b5; have e6 := ne b6
  have hw : name ∈ C60.wanted (present external s) ↔ name = "gnuplot-lines.dat" ∨
      (name = "gnuplot-external.dat" ∧ external = true) ∨ (name = "gnuplot-surface.dat" ∧ s.surfs ≠ []) ∨
      (name = "gnuplot-block.dat" ∧ s.blocks ≠ []) ∨ (name = "gnuplot-wires.dat" ∧ s.lines ≠ []) ∨
      (name = "gnuplot-source.dat" ∧ s.srcs ≠ []) ∨ (name = "gnuplot-planewave.dat" ∧ s.pws ≠ []) ∨
      (name = "gnuplot-observer.dat" ∧ s.obs ≠ []) := by
    unfold C60.wanted present
    simp only [List.mem_map, List.mem_filter, List.mem_cons, List.not_mem_nil, or_false]
    constructor
    · rintro ⟨x, ⟨rfl | rfl | rfl | rfl | rfl | rfl | rfl | rfl, hx⟩, rfl⟩ <;> simp at hx <;> simp [hx]
    · rintro (rfl | ⟨rfl, h⟩ | ⟨rfl, h⟩ | ⟨rfl, h⟩ | ⟨rfl, h⟩ | ⟨rfl, h⟩ | ⟨rfl, h⟩ | ⟨rfl, h⟩)
      · exact ⟨_, ⟨.inl rfl, rfl⟩, rfl⟩
      · exact ⟨_, ⟨.inr (.inl rfl), h⟩, rfl⟩
      · exact ⟨_, ⟨.inr (.inr (.inl rfl)), by simpa using h⟩, rfl⟩
      · exact ⟨_, ⟨.inr (.inr (.inr (.inl rfl))), by simpa using h⟩, rfl⟩
      · exact ⟨_, ⟨.inr (.inr (.inr (.inr (.inl rfl)))), by simpa using h⟩, rfl⟩
      · exact ⟨_, ⟨.inr (.inr (.inr (.inr (.inr (.inl rfl))))), by simpa using h⟩, rfl⟩
      · exact ⟨_, ⟨.inr (.inr (.inr (.inr (.inr (.inr (.inl rfl)))))), by simpa using h⟩, rfl⟩
      · exact ⟨_, ⟨.inr (.inr (.inr (.inr (.inr (.inr (.inr rfl)))))), by simpa using h⟩, rfl⟩
  rw [hw, e1, e2, e3, e4, e5, e6]
  constructor
  · rintro (rfl | ⟨rfl, h⟩ | ⟨rfl, c, hc, h⟩ | ⟨rfl, c, hc, h⟩ | ⟨rfl, c, hc, h⟩ | ⟨rfl, c, hc, h⟩ | ⟨rfl, c, hc, h⟩ |
      ⟨rfl, c, hc, h⟩)
    · exact .lines
    · exact .side h
    · cases c <;> simp at h; exact .sheet _ hc
    · cases c <;> simp at h; exact .block _ hc
    · cases c <;> simp at h; exact .wire _ hc
    · cases c <;> simp [C94.exOf] at h; exact .source _ _ _ _ _ _ _ _ hc
    · cases c <;> simp [C94.pwOf] at h; exact .wave _ _ hc
    · cases c <;> simp [C94.opOf] at h; exact .observer _ hc
  · intro h
    cases h with
    | lines => exact .inl rfl
    | side h => exact .inr (.inl ⟨rfl, h⟩)
    | sheet c hc => exact .inr (.inr (.inl ⟨rfl, _, hc, rfl⟩))
    | block c hc => exact .inr (.inr (.inr (.inl ⟨rfl, _, hc, rfl⟩)))
    | wire c hc => exact .inr (.inr (.inr (.inr (.inl ⟨rfl, _, hc, rfl⟩))))
    | source k b n t w z d r hc => exact .inr (.inr (.inr (.inr (.inr (.inl ⟨rfl, _, hc, rfl⟩)))))
    | wave c d hc => exact .inr (.inr (.inr (.inr (.inr (.inr (.inl ⟨rfl, _, hc, rfl⟩))))))
    | observer c hc => exact .inr (.inr (.inr (.inr (.inr (.inr (.inr ⟨rfl, _, hc, rfl⟩))))))

/-- Of a file with at least one observer, with the sides of the mesh shown, the plot command of the script plots exactly the
files that have something to show, each once, and then the script goes on with its own commands. -/
theorem script_plots {f : File} {s : Deck.State} (h : f.stored = some s) {c : OPCard} (hc : Card.op c ∈ f.cards) :
    ∃ names : List String, names.Nodup ∧ (∀ name, name ∈ names ↔ Needed f true name) ∧
      (visible SLine.commented (firstCommand SLine.continued (plotLines (present true s))).1).map SLine.file = names.map some ∧
      (firstCommand SLine.continued (plotLines (present true s))).2 =
        [.text "set output", .text "set term pop", .text "replot"] := by
  have hobs : (present true s).observers = true := by
    have := (flags true h "gnuplot-observer.dat").2 (.observer c hc)
    unfold C60.wanted at this
    simp only [List.mem_map, List.mem_filter, List.mem_cons, List.not_mem_nil, or_false] at this
    obtain ⟨x, ⟨rfl | rfl | rfl | rfl | rfl | rfl | rfl | rfl, hx⟩, e⟩ := this <;>
      first | exact hx | (simp at e)
  obtain ⟨h1, h2⟩ := C60.script_complete_partial (present true s) rfl hobs
  refine ⟨C60.wanted (present true s), ?_, flags true h, h1, h2⟩
  unfold C60.wanted
  refine List.Nodup.sublist (List.Sublist.map _ List.filter_sublist) ?_
  simp only [List.map_cons, List.map_nil]
  decide

/-- Without an observer the plot command swallows the line that closes the output; without the sides of the mesh it plots
the mesh lines only. -/
theorem script_fails {f : File} {s : Deck.State} (h : f.stored = some s) :
    ((∀ c, Card.op c ∉ f.cards) → ∀ external,
      SLine.text "set output" ∈ (firstCommand SLine.continued (plotLines (present external s))).1) ∧
    (visible SLine.commented (firstCommand SLine.continued (plotLines (present false s))).1).map SLine.file =
      [some "gnuplot-lines.dat"] := by
  refine ⟨fun hno external => ?_, C60.no_external_hides _ rfl⟩
  refine (C60.no_observers_runs_on _ ?_).1
  by_contra hp
  have hp' : (present external s).observers = true := by simpa using hp
  have : "gnuplot-observer.dat" ∈ C60.wanted (present external s) := by
    unfold C60.wanted
    exact List.mem_map.2 ⟨("gnuplot-observer.dat", _), List.mem_filter.2 ⟨by simp, hp'⟩, rfl⟩
  have := (flags external h _).1 this
  generalize hn : "gnuplot-observer.dat" = name at this
  cases this <;> first | exact absurd hn (by decide) | exact hno _ ‹_›

end Vulture.C95
