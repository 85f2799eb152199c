import Verif.Props.C25_Surface
import Verif.Props.C42_Sheet
import Verif.Props.C43_Adjacency
import Verif.Props.C59_SheetMesh
import Verif.Props.C64_Material
import Verif.Spec.SheetCard
/- C65: an impedance sheet obeys the law its cards declare. -/
set_option linter.unusedSimpArgs false
set_option linter.unusedVariables false
set_option linter.unusedSectionVars false
namespace Vulture.C65
open Vulture Spec Setup Deck CavityLemmas

variable {k : Consts} {J : Junk} {X : Experiment} {R : Setup.Run}

theorem read_surfs : ∀ (r : List Deck.Card) {s s' : Deck.State}, Deck.read s r = some s' →
    s'.surfs = s.surfs ++ r.filterMap (C64.tbItem s'.bnds)
  | [], s, s', h => by simp [Deck.read] at h; subst h; simp
  | c :: r, s, s', h => by
    have h0 := h
    rw [C47.read_cons] at h
    obtain ⟨t, ht, h⟩ := Option.bind_eq_some_iff.1 h
    obtain ⟨a1, a2, a3, a4⟩ := C64.card_lists ht
    have b2 := read_surfs r h
    have e2 : C64.tbItem s.bnds c = C64.tbItem s'.bnds c := by
      cases c with
      | tb c =>
        simp only [State.card] at ht
        split at ht
        · simp at ht
        · rename_i m hm
          have : find s'.bnds c.boundary = some m := C47.read_bnds (.tb c :: r) h0 hm
          simp [C64.tbItem, hm, this]
      | _ => rfl
    rw [C64.filterMap_cons_toList, b2, a2, e2, List.append_assoc]

theorem nth_filterMap {α β : Type*} (g : α → Option β) (p : α → Prop) [DecidablePred p] {pre post : List α} {a : α} {b : β}
    (hp : ∀ x, p x ↔ (g x).isSome = true) (hg : g a = some b) :
    ((pre ++ a :: post).filterMap g)[(pre.filter fun x => p x).length]? = some b := by
  have e : (pre.filter fun x => p x).length = (pre.filterMap g).length := by
    induction pre with
    | nil => rfl
    | cons x pre ih =>
      cases hx : g x with
      | none =>
        rw [List.filterMap_cons_none hx, List.filter_cons_of_neg (by simp [hp, hx]), ih]
      | some y =>
        rw [List.filterMap_cons_some hx, List.filter_cons_of_pos (by simp [hp, hx]), List.length_cons, List.length_cons, ih]
  rw [e, List.filterMap_append, List.filterMap_cons_some hg]
  simp

/-- The sheet of a card and its data in the run. -/
theorem sheet_listed (h : setup k J X = some R) {n : Nat} {c : TBCard} {pr : Nat → Nat → PoleResidue} (hc : SheetCard X n c pr) :
    (Deck.sibcItems R.cfg R.state.surfs)[n]? =
      some ⟨((bboxDirection c.bbox).join).getD .x, place R.cfg c.bbox, fun p q => (pr p q).terms.length⟩ ∧
    (sheetData R.state)[n]? = some (pr, c.orient, (c.angle : ℝ)) ∧ (c.orient = 1 ∨ c.orient = -1) := by
  classical
  obtain ⟨hv, hn, hb, hdt, hC, -, hst, -⟩ := run_parts h
  obtain ⟨-, hr⟩ := C47.stored_parts hst
  have hsurf := read_surfs _ hr
  rw [show (State.init _).surfs = [] from rfl, List.nil_append] at hsurf
  obtain ⟨pre, post, e, hname, hcount⟩ := hc
  have hfind := (C64.boundary_found hst (.sibc pr)).2 hname
  have hiff : ∀ x, IsSheet X x ↔ ∃ b pr, C64.tbItem R.state.bnds x = some b ∧ b.bnd = .sibc pr := by
    intro x
    constructor
    · rintro ⟨c', pr', rfl, hb'⟩
      exact ⟨⟨c'.bbox, .sibc pr', c'.orient, (c'.angle : ℝ)⟩, pr', by simp only [C64.tbItem, (C64.boundary_found hst _).2 hb', Option.map_some], rfl⟩
    · rintro ⟨b, pr', hb', hs⟩
      cases x with
      | tb c' =>
        simp only [C64.tbItem, Option.map_eq_some_iff] at hb'
        obtain ⟨bb, hbb, rfl⟩ := hb'
        simp only at hs
        subst hs
        exact ⟨c', pr', rfl, (C64.boundary_found hst _).1 hbb⟩
      | _ => simp [C64.tbItem] at hb'
  have item : C64.tbItem R.state.bnds (.tb c) = some ⟨c.bbox, .sibc pr, c.orient, (c.angle : ℝ)⟩ := by
    simp only [C64.tbItem, hfind, Option.map_some]
  refine ⟨?_, ?_, ?_⟩
  · rw [hsurf, sibcItems, List.filterMap_filterMap, e, ← hcount]
    refine nth_filterMap _ (IsSheet X) ?_ ?_
    · intro x
      rw [hiff]
      cases hx : C64.tbItem R.state.bnds x with
      | none => simp
      | some b =>
        obtain ⟨bb, bd, o, an⟩ := b
        cases bd <;> simp
    · rw [item]; rfl
  · rw [sheetData, hsurf, List.filterMap_filterMap, e, ← hcount]
    refine nth_filterMap _ (IsSheet X) ?_ ?_
    · intro x
      rw [hiff]
      cases hx : C64.tbItem R.state.bnds x with
      | none => simp
      | some b =>
        obtain ⟨bb, bd, o, an⟩ := b
        cases bd <;> simp
    · rw [item]; rfl
  · obtain ⟨u, t, hacc⟩ := C64.accepted hst (x := .tb c) (by rw [e]; simp)
    simp only [State.card] at hacc
    split at hacc
    · simp at hacc
    · split at hacc
      · rename_i hp
        simp only [parseTB, Bool.and_eq_true, Bool.not_eq_true', Bool.and_eq_false_iff, decide_eq_false_iff_not, not_not] at hp
        exact hp.1.2
      · simp at hacc

/-! ### The magnetic field beside a square -/

def hIdx (al : Along) (side : Side) : Nat := (match al with | .first => 0 | .second => 2) + match side with | .a => 0 | .b => 1

def eNo : Edge → Nat | .lowFirst => 0 | .highFirst => 1 | .lowSecond => 2 | .highSecond => 3

theorem flag_read (J : Junk) (c : Cfg) (s : Deck.State) (n : Axis) (p : Int × Int × Int) (above : Bool) (e : Edge)
    (h : C43.flag (Adj.faceMap c.gobox (Deck.sibcItems c s.surfs)) n p above e ≠ none) :
    C43.flag (faceMapRead J c s) n p above e = C43.flag (Adj.faceMap c.gobox (Deck.sibcItems c s.surfs)) n p above e := by
  rw [C43.flag_place] at h ⊢
  rw [C43.flag_place]
  simp only [faceMapRead, sibcFace] at h ⊢
  obtain ⟨b, hb⟩ := Option.ne_none_iff_exists'.1 h
  rw [hb]
  rfl

/-- The record of the high second edge above a square looks one square too far; this says that it makes no difference. -/
def FourthRight (l : List SibcSurf) (normal : Axis) (t : Int × Int × Int) : Prop :=
  (∃ s ∈ l, Covers s normal.next.next (shift normal.next 1 (standing normal t true .highSecond))) ↔ Stands l normal t .b .highSecond

open Classical in
theorem factor (J : Junk) (c : Cfg) (s : Deck.State) {n : Nat} {w : SibcSurf} (hn : (Deck.sibcItems c s.surfs)[n]? = some w)
    (hf : ∀ w ∈ Deck.sibcItems c s.surfs, w.gbbox w.normal.lo = w.gbbox w.normal.hi) (t : Int × Int × Int)
    (hs : C43.Surrounded c.gobox w.normal t) (h4 : FourthRight (Deck.sibcItems c s.surfs) w.normal t) (al : Along) (side : Side) :
    hFactor J c s n (hIdx al side) t.1 t.2.1 t.2.2 =
      (1 + (if Stands (Deck.sibcItems c s.surfs) w.normal t side (lowEdgeOf al) then 1 else 0) +
        (if Stands (Deck.sibcItems c s.surfs) w.normal t side (highEdgeOf al) then 1 else 0)) / 2 := by
  have right : ∀ e, C43.flag (faceMapRead J c s) w.normal t (decide (side = .b)) e = some (decide (Stands (Deck.sibcItems c s.surfs) w.normal t side e)) := by
    intro e
    have r := C43.flags_right_partial c.gobox _ hf w.normal t hs (decide (side = .b)) e
    rw [flag_read J c s _ _ _ _ r.1]
    have iff : C43.flag (Adj.faceMap c.gobox (Deck.sibcItems c s.surfs)) w.normal t (decide (side = .b)) e = some true ↔
        Stands (Deck.sibcItems c s.surfs) w.normal t side e := by
      by_cases h : decide (side = .b) = true ∧ e = .highSecond
      · obtain ⟨h1, rfl⟩ := h
        have h1' : side = .b := by simpa using h1
        subst h1'
        have h4' : (∃ s' ∈ Deck.sibcItems c s.surfs, Covers s' w.normal.next.next (shift w.normal.next 1 (standing w.normal t true .highSecond))) ↔
          Stands (Deck.sibcItems c s.surfs) w.normal t .b .highSecond := h4
        rw [← h4']
        exact C43.fourth_flag c.gobox _ hf w.normal t hs
      · exact r.2 h
    obtain ⟨b, hb⟩ := Option.ne_none_iff_exists'.1 r.1
    rw [hb] at iff ⊢
    cases b
    · have : ¬ Stands (Deck.sibcItems c s.surfs) w.normal t side e := fun x => by simpa using iff.2 x
      simp [this]
    · have := iff.1 rfl
      simp [this]
  have conv : ∀ f, adjFlag J c s (decide (side = .b)) n t.1 t.2.1 t.2.2 f =
      ((if decide (side = .b) = true then Adj.isAdjB else Adj.isAdjA) (faceMapRead J c s) w.normal t.1 t.2.1 t.2.2 f).getD false := by
    intro f
    unfold adjFlag
    rw [hn]
  have val : ∀ e : Edge, bit (adjFlag J c s (decide (side = .b)) n t.1 t.2.1 t.2.2
      (eNo e)) =
        if Stands (Deck.sibcItems c s.surfs) w.normal t side e then 1 else 0 := by
    intro e
    have r := right e
    unfold C43.flag at r
    rw [conv]
    have : ((if decide (side = .b) = true then Adj.isAdjB else Adj.isAdjA) (faceMapRead J c s) w.normal t.1 t.2.1 t.2.2
        (eNo e)).getD false =
        decide (Stands (Deck.sibcItems c s.surfs) w.normal t side e) := by
      cases side <;> cases e <;>
        simp only [reduceCtorEq, decide_false, Bool.false_eq_true, if_false, decide_true, if_true, eNo] at r ⊢ <;> rw [r] <;> rfl
    rw [this]
    by_cases hS : Stands (Deck.sibcItems c s.surfs) w.normal t side e <;> simp [bit, hS]
  have l := val (lowEdgeOf al)
  have g := val (highEdgeOf al)
  unfold hFactor
  cases al <;> cases side <;>
    simp only [hIdx, eNo, lowEdgeOf, highEdgeOf, reduceCtorEq, decide_false, decide_true] at l g ⊢ <;>
    norm_num at l g ⊢ <;> rw [l, g] <;> ring

/-- The currents at the ports. -/
theorem port_current (C : CRef → ℝ) (n : Nat) (w : SibcSurf) (l : List SibcSurf) (o : Int) (ho : o = 1 ∨ o = -1) (ang : ℝ) (t : Int × Int × Int) (s : Loc → ℝ)
    (hA : ∀ p q, C (.sibA n p q) = entry (SibcData.orient (o == 1) (Real.cos ang) (Real.sin ang)).1 p q)
    (hH : ∀ al side, C (.sibH n (hIdx al side) t.1 t.2.1 t.2.2) * (s (fldAt (al.mag w.normal).h (match side with | .a => shift w.normal (-1) t | .b => t)) +
      s (fldAt (al.mag w.normal).h (shift (al.mag w.normal) 1 (match side with | .a => shift w.normal (-1) t | .b => t)))) = meanH l s w side t al)
    (p : Pol) (second : Bool) :
    C25.faceH C n w.normal t s (portNo p second) = current ang (portSide o second) p (sideH l s w (portSide o second) t) := by
  have h1 := hH .first .a; have h2 := hH .first .b; have h3 := hH .second .a; have h4 := hH .second .b
  simp only [hIdx, Along.mag, Nat.add_zero, Nat.zero_add] at h1 h2 h3 h4
  norm_num at h2 h4
  unfold C25.faceH
  simp only [if_true, Bool.false_eq_true, if_false, h1, h2, h3, h4, hA]
  rcases ho with rfl | rfl <;> cases p <;> cases second <;>
    simp [entry, SibcData.orient, SibcData.matLinearComb, SibcData.Acp, SibcData.Acm, SibcData.Asp, SibcData.Asm, portNo, portSide, current, sideH] <;>
    ring

/-- The fields at the ports. -/
theorem port_voltage (B : Nat → Nat → ℝ) (o : Int) (ho : o = 1 ∨ o = -1) (ang : ℝ) (n : Nat) (w : SibcSurf) (t : Int × Int × Int) (s : Loc → ℝ)
    (out : Nat → ℝ)
    (hB : ∀ p q, B p q = entry (SibcData.orient (o == 1) (Real.cos ang) (Real.sin ang)).2 p q)
    (hE : ∀ m, m < 4 → s (.et n m (sibcRel w t).1 (sibcRel w t).2.1 (sibcRel w t).2.2) = B m 0 * out 0 + B m 1 * out 1 + B m 2 * out 2 + B m 3 * out 3)
    (p : Pol) (second : Bool) :
    voltage ang p (sideE s n w (portSide o second) t) = out (portNo p second) := by
  have hc := Real.sin_sq_add_cos_sq ang
  have e : ∀ m, m < 4 → s (.et n m (t.1 - w.gbbox .xlo) (t.2.1 - w.gbbox .ylo) (t.2.2 - w.gbbox .zlo)) =
    B m 0 * out 0 + B m 1 * out 1 + B m 2 * out 2 + B m 3 * out 3 := hE
  have e0 := e 0 (by norm_num); have e1 := e 1 (by norm_num); have e2 := e 2 (by norm_num); have e3 := e 3 (by norm_num)
  simp only [hB] at e0 e1 e2 e3
  rcases ho with rfl | rfl <;> cases p <;> cases second <;>
    simp [entry, SibcData.orient, SibcData.matLinearComb, SibcData.Bcp, SibcData.Bcm, SibcData.Bsp, SibcData.Bsm] at e0 e1 e2 e3 <;>
    simp only [voltage, sideE, squareField, storedAt, portSide, portNo] <;> simp [e0, e1, e2, e3] <;>
    first
      | linear_combination (out 0) * hc
      | linear_combination (out 1) * hc
      | linear_combination (out 2) * hc
      | linear_combination (out 3) * hc

/-- **C65**: in every step of the run of any accepted mesh file, the electric fields on the two sides of every square of an
impedance sheet are the responses of the boundary type its card names to the magnetic fields beside the square since the
start, in the frame turned by the angle of the card, with the ports on the sides its orientation says. -/
theorem sheet_law (h : setup k J X = some R) (hz : ThirdSidesOrdered X.file.cards) (hT : 0 < R.dt) {n : Nat} {c : TBCard}
    {pr : Nat → Nat → PoleResidue} (hc : SheetCard X n c pr) (hp : ∀ p < 4, ∀ q < 4, ∀ a ∈ (pr p q).terms, a.1 ≠ 0) :
    ∃ w, R.sim.sibc[n]? = some w ∧ w.gbbox = place R.cfg c.bbox ∧ c.bbox w.normal.lo = c.bbox w.normal.hi ∧
      ∀ t, Covers w w.normal t → C43.Surrounded R.cfg.gobox w.normal t → FourthRight R.sim.sibc w.normal t →
        ∀ (N : ℕ) (p : Pol) (second : Bool),
          voltage (Real.pi * c.angle / 180) p (sideE (R.fields (N + 1)) n w (portSide c.orient second) t) =
            answer pr R.dt (fun p' second' => (List.range (N + 1)).map fun m =>
              current (Real.pi * c.angle / 180) (portSide c.orient second') p' (sideH R.sim.sibc (R.fields m) w (portSide c.orient second') t))
              p second ((N + 1 : ℕ) * R.dt) := by
  obtain ⟨hv, -, -, hdt, hC, -, -, pws, -, eS⟩ := run_parts h
  obtain ⟨st, hst, hcc, hS, -⟩ := Scaling.setup_parts h
  have hvs : ValidSim R.sim := C47.accepted_file_valid hS hz
  have esib : R.sim.sibc = Deck.sibcItems R.cfg R.state.surfs := by rw [eS]
  obtain ⟨hi, hd, ho⟩ := sheet_listed h hc
  obtain ⟨w, hw⟩ : ∃ w : SibcSurf, w = ⟨((bboxDirection c.bbox).join).getD .x, place R.cfg c.bbox, fun p q => (pr p q).terms.length⟩ := ⟨_, rfl⟩
  rw [← hw] at hi
  have hn : R.sim.sibc[n]? = some w := by rw [esib]; exact hi
  have hgb : w.gbbox = place R.cfg c.bbox := by rw [hw]
  have hflat := (hvs.sibc w (List.mem_of_getElem? hn)).2.2
  refine ⟨w, hn, hgb, ?_, ?_⟩
  · have : place R.cfg c.bbox w.normal.lo = place R.cfg c.bbox w.normal.hi := by rw [← hgb]; exact hflat
    cases hax : w.normal <;> rw [hax] at this <;> simp [place, offsetBoundingBox, Axis.lo, Axis.hi, Face.axis, Face.isLo] at this ⊢ <;> omega
  intro t ht hsur h4 N p second
  have hmat : sheetMat R.state n = SibcData.orient (c.orient == 1) (Real.cos (Real.pi * c.angle / 180)) (Real.sin (Real.pi * c.angle / 180)) := by
    unfold sheetMat; rw [hd]
  have hfil : ∀ p q, sheetFilter k J X R.cfg R.state n p q = toRecConv (pr p q) R.dt := by
    intro p q; unfold sheetFilter; rw [hd, hdt]
  have face : C25.SibcFace R.sim R.coefs R.dt pr n w t := by
    refine ⟨hn, ?_, fun p _ q _ => by rw [hw], ?_, ?_⟩
    · exact mem_boxLoop.1 (show (t.1, t.2.1, t.2.2) ∈ _ from (C59.covers_iff w hflat t).2 ht)
    · intro p _ q _
      rw [hC]
      show (sheetFilter k J X R.cfg R.state n p q).asymp = _
      rw [hfil]; rfl
    · intro p _ q _ m hm
      rw [hC]
      have key : ∀ im j, coefs k J X R.cfg R.state (.rcq im j n p q m) = part im (rcqAt (toRecConv (pr p q) R.dt) j m) := by
        intro im j
        show part im (rcqAt (sheetFilter k J X R.cfg R.state n p q) j m) = _
        rw [hfil]
      have get : (toRecConv (pr p q) R.dt).q[m]? = some (toRCq R.dt (pr p q).terms[m]) := by
        simp [toRecConv, hm]
      simp only [key]
      refine ⟨?_, ?_, ?_⟩ <;> simp [rcqAt, get, part]
  have hcur : ∀ m p' second', C25.faceH R.coefs n w.normal t (R.fields m) (portNo p' second') =
      current (Real.pi * c.angle / 180) (portSide c.orient second') p' (sideH R.sim.sibc (R.fields m) w (portSide c.orient second') t) := by
    intro m p' second'
    refine port_current R.coefs n w R.sim.sibc c.orient ho _ t _ ?_ ?_ p' second'
    · intro p q; rw [hC]
      show entry (sheetMat R.state n).1 p q = _
      rw [hmat]
    · intro al side
      unfold meanH
      rw [hC]
      have : coefs k J X R.cfg R.state (.sibH n (hIdx al side) t.1 t.2.1 t.2.2) = hFactor J R.cfg R.state n (hIdx al side) t.1 t.2.1 t.2.2 := rfl
      rw [this, factor J R.cfg R.state hi (by rw [← esib]; exact fun w' hw' => (hvs.sibc w' hw').2.2) t hsur (by rw [← esib]; exact h4) al side, ← esib]
      cases side <;> rfl
  have hE := fun m hm => C25.surface_convolution face hT hp R.drive N (m := m) hm
  refine port_voltage (fun p q => R.coefs (.sibB n p q)) c.orient ho _ n w t (R.fields (N + 1)) (fun p' => ∑ q ∈ Finset.range 4,
        response (pr p' q).asymp (pr p' q).terms (interp R.dt (C25.history R.sim R.coefs R.drive n w.normal t q (N + 1))) ((N + 1 : ℕ) * R.dt)) ?_ ?_ p second |>.trans ?_
  · intro p q; rw [hC]
    show entry (sheetMat R.state n).2 p q = _
    rw [hmat]
  · intro m hm
    have := hE m hm
    unfold Setup.Run.fields
    rw [this]
    simp only [Finset.sum_range_succ, Finset.sum_range_zero, zero_add]
  · unfold answer
    have hist : ∀ p' second', C25.history R.sim R.coefs R.drive n w.normal t (portNo p' second') (N + 1) = (List.range (N + 1)).map fun m =>
        current (Real.pi * c.angle / 180) (portSide c.orient second') p' (sideH R.sim.sibc (R.fields m) w (portSide c.orient second') t) := by
      intro p' second'
      unfold C25.history
      refine List.map_congr_left fun m _ => ?_
      exact hcur m p' second'
    simp only [← hist]
    simp only [Finset.sum_range_succ, Finset.sum_range_zero, zero_add]
    rfl

/-- The sum of the two samples beside a square. -/
def meanSamples (s : Loc → ℝ) (w : SibcSurf) (side : Side) (t : Int × Int × Int) (al : Along) : ℝ :=
  s (fldAt (al.mag w.normal).h (match side with | .a => shift w.normal (-1) t | .b => t)) +
    s (fldAt (al.mag w.normal).h (shift (al.mag w.normal) 1 (match side with | .a => shift w.normal (-1) t | .b => t)))

/-- A sample inside a sheet that stands on the edge of a square is zero after every step, unless a magnetic source or
plane wave acts there; so with one such sheet the field beside the square is the sample at the other edge. -/
theorem one_sample_counts (h : setup k J X = some R) (hz : ThirdSidesOrdered X.file.cards) {w : SibcSurf} {t : Int × Int × Int}
    {side : Side} {al : Along} (hs : Stands R.sim.sibc w.normal t side (lowEdgeOf al)) (hh : ¬ Stands R.sim.sibc w.normal t side (highEdgeOf al)) :
    let q := match side with | .a => shift w.normal (-1) t | .b => t
    NoWrite (updateSourcesH R.sim.srcs ++ updatePlaneWavesH R.sim.cfg R.sim.pws) (fldAt (al.mag w.normal).h q) → ∀ N,
      meanH R.sim.sibc (R.fields N) w side t al = R.fields N (fldAt (al.mag w.normal).h (shift (al.mag w.normal) 1 q)) := by
  intro q hno N
  obtain ⟨st, hst, hcc, hS, -⟩ := Scaling.setup_parts h
  have hvs : ValidSim R.sim := C47.accepted_file_valid hS hz
  obtain ⟨s', hs', hcov⟩ := id hs
  have hq : standing w.normal t (side = .b) (lowEdgeOf al) = q ∧ (lowEdgeOf al).across w.normal = al.mag w.normal := by
    cases al <;> cases side <;> simp [standing, lowEdgeOf, Edge.isHigh, Edge.across, Along.mag, q]
  rw [hq.1, hq.2] at hcov
  have hnorm := hcov.1
  have zero : ∀ N, R.fields N (fldAt (al.mag w.normal).h q) = 0 := by
    intro N
    cases N with
    | zero => rfl
    | succ N =>
      have hstep : R.fields (N + 1) = R.sim.step.run R.coefs (setInputs (R.drive N) (R.fields N)) := rfl
      rw [hstep, ← hnorm]
      refine C59.normal_zero R.coefs R.sim hvs hs' (t := q) ?_ ?_ _
      · rw [hnorm]; exact hcov
      · rw [hnorm]; exact hno
  unfold meanH
  simp only [if_pos hs, if_neg hh]
  have z := zero N
  have e : meanSamples (R.fields N) w side t al = R.fields N (fldAt (al.mag w.normal).h (shift (al.mag w.normal) 1 q)) := by
    unfold meanSamples
    cases side
    · have z' : R.fields N (fldAt (al.mag w.normal).h (shift w.normal (-1) t)) = 0 := z
      simp only [z', zero_add]; rfl
    · have z' : R.fields N (fldAt (al.mag w.normal).h t) = 0 := z
      simp only [z', zero_add]; rfl
  rw [← e]
  have e2 : ∀ x : ℝ, (1 + 1 + 0) / 2 * x = x := by intro x; ring
  exact e2 _

/-- With a single sheet the field beside a square is the mean of the two samples. -/
theorem lone_sheet (w : SibcSurf) (t : Int × Int × Int) : FourthRight [w] w.normal t ∧ ∀ side e, ¬ Stands [w] w.normal t side e := by
  have ne : ∀ e : Edge, w.normal ≠ e.across w.normal := by
    intro e; cases e <;> cases w.normal <;> decide
  have no : ∀ side e, ¬ Stands [w] w.normal t side e := by
    rintro side e ⟨s, hs, hc⟩
    rw [List.mem_singleton] at hs
    subst hs
    exact ne e hc.1
  refine ⟨?_, no⟩
  constructor
  · rintro ⟨s, hs, hc⟩
    rw [List.mem_singleton] at hs
    subst hs
    exact absurd hc.1 (ne .highSecond)
  · intro h; exact absurd h (no _ _)

/-- A response without poles follows the last sample. -/
theorem answer_now {T : ℝ} (hT : 0 < T) (a : ℝ) (x : List ℝ) (N : ℕ) : response a [] (interp T x) ((N + 1 : ℕ) * T) = a * x.getD N 0 := by
  have e : ⌊((N + 1 : ℕ) * T) / T⌋₊ = N + 1 := by
    rw [mul_div_assoc, div_self hT.ne', mul_one, Nat.floor_natCast]
  have : interp T x ((N + 1 : ℕ) * T) = x.getD N 0 := by
    unfold interp
    simp only [e]
    rw [mul_div_assoc, div_self hT.ne']
    simp [sampleVal]
  unfold response
  rw [this]
  simp [impulseResponse]

/-- Fields at a square: the electric fields of the new step with the magnetic fields that made them. -/
noncomputable def around (R : Setup.Run) (n : Nat) (w : SibcSurf) (t : Int × Int × Int) (N : ℕ) : SideFields :=
  let E := sideE (R.fields (N + 1)) n w
  let H := sideH R.sim.sibc (R.fields N) w
  ⟨(E .a t).first, (E .b t).first, (E .a t).second, (E .b t).second, (H .a t).first, (H .b t).first, (H .a t).second, (H .b t).second⟩

theorem power_sum (ang : ℝ) (o : Int) (ho : o = 1 ∨ o = -1) (E H : Side → InPlane) :
    (⟨(E .a).first, (E .b).first, (E .a).second, (E .b).second, (H .a).first, (H .b).first, (H .a).second, (H .b).second⟩ : SideFields).power =
      voltage ang .tm (E (portSide o false)) * current ang (portSide o false) .tm (H (portSide o false)) +
      voltage ang .tm (E (portSide o true)) * current ang (portSide o true) .tm (H (portSide o true)) +
      (voltage ang .te (E (portSide o false)) * current ang (portSide o false) .te (H (portSide o false)) +
      voltage ang .te (E (portSide o true)) * current ang (portSide o true) .te (H (portSide o true))) := by
  have hc := Real.sin_sq_add_cos_sq ang
  rcases ho with rfl | rfl <;> simp only [SideFields.power, voltage, current, portSide] <;> simp <;>
    linear_combination ((E .a).second * (H .a).first - (E .a).first * (H .a).second + (E .b).first * (H .b).second - (E .b).second * (H .b).first) * hc

open Classical in
/-- **C65**, passivity: a sheet declared by passive scattering parameters takes power from the mesh, or none, at every square
in every step, whatever the angle and orientation of its card. -/
theorem passive_sheet (h : setup k J X = some R) (hz : ThirdSidesOrdered X.file.cards) (hT : 0 < R.dt) {n : Nat} {c : TBCard}
    {eta0 : ℝ} (he : 0 < eta0) {STM STE : SibcData.M2} (hM : SibcData.deltaS STM ≠ 0) (hE : SibcData.deltaS STE ≠ 0)
    (pM : Passive STM) (pE : Passive STE) {Z : SibcData.M4} (hZ : SibcData.initFromS eta0 STM STE = some Z)
    (hc : SheetCard X n c fun p q => ⟨entry Z p q, []⟩) {w : SibcSurf} (hw : R.sim.sibc[n]? = some w) {t : Int × Int × Int}
    (ht : Covers w w.normal t) (hs : C43.Surrounded R.cfg.gobox w.normal t) (h4 : FourthRight R.sim.sibc w.normal t) (N : ℕ) :
    0 ≤ (around R n w t N).power := by
  obtain ⟨w', hw', -, -, law⟩ := sheet_law h hz hT hc (by simp)
  rw [hw] at hw'
  cases hw'
  have L := law t ht hs h4 N
  have ho := (sheet_listed h hc).2.2
  unfold around
  rw [power_sum (Real.pi * c.angle / 180) c.orient ho (fun sd => sideE (R.fields (N + 1)) n w sd t) (fun sd => sideH R.sim.sibc (R.fields N) w sd t)]
  have get : ∀ f : ℕ → ℝ, ((List.range (N + 1)).map f).getD N 0 = f N := by
    intro f; simp [List.getD_eq_getElem?_getD]
  simp only [L, answer, answer_now hT, get]
  generalize current (Real.pi * c.angle / 180) (portSide c.orient false) .tm (sideH R.sim.sibc (R.fields N) w (portSide c.orient false) t) = i0
  generalize current (Real.pi * c.angle / 180) (portSide c.orient true) .tm (sideH R.sim.sibc (R.fields N) w (portSide c.orient true) t) = i1
  generalize current (Real.pi * c.angle / 180) (portSide c.orient false) .te (sideH R.sim.sibc (R.fields N) w (portSide c.orient false) t) = i2
  generalize current (Real.pi * c.angle / 180) (portSide c.orient true) .te (sideH R.sim.sibc (R.fields N) w (portSide c.orient true) t) = i3
  unfold SibcData.initFromS at hZ
  split at hZ
  · cases hZ
  · simp only [Option.some.injEq] at hZ
    subst hZ
    have h1 := (C26.dissipative_iff eta0 he STM hM).2 pM ![i0, i1]
    have h2 := (C26.dissipative_iff eta0 he STE hE).2 pE ![i2, i3]
    simp only [C26.mv, C26.dp] at h1 h2
    simp at h1 h2
    simp [portNo, entry]
    nlinarith

/-! ### A turned sheet in a box -/

noncomputable def filmCards (pr : Nat → Nat → PoleResidue) : List Deck.Card :=
  [.bt "film" (.sibc pr), .tb ⟨9, mkBox 3 3 1 5 1 3, "film", -1, 30⟩]
noncomputable def film (pr : Nat → Nat → PoleResidue) : Experiment :=
  ⟨⟨6, 5, 4, fun _ => .pec, fun _ => 0, filmCards pr, false⟩, fun _ i => (i : ℝ), 0.5, fun _ => ⟨4, 1, -1, 1⟩,
    fun _ => .builtin ⟨.gaussian, 1, -1, -1, -1⟩⟩

theorem film_sheet (pr : Nat → Nat → PoleResidue) : SheetCard (film pr) 0 ⟨9, mkBox 3 3 1 5 1 3, "film", -1, 30⟩ pr := by
  classical
  refine ⟨[.bt "film" (.sibc pr)], [], rfl, .card (by simp [film, filmCards]), ?_⟩
  rw [List.filter_cons_of_neg]
  · rfl
  · simp [IsSheet]

/-- The program accepts the file; the theorems apply to the squares of the sheet. -/
theorem film_accepted (pr : Nat → Nat → PoleResidue) (k : Consts) (hk : Physical k) (hb : 1 < k.big) (J : Junk) :
    ∃ R, setup k J (film pr) = some R ∧ 0 < R.dt ∧ ThirdSidesOrdered (film pr).file.cards ∧ ∃ w, R.sim.sibc = [w] ∧
      Covers w w.normal (4, 3, 2) ∧ C43.Surrounded R.cfg.gobox w.normal (4, 3, 2) ∧ FourthRight R.sim.sibc w.normal (4, 3, 2) := by
  obtain ⟨s, hs, hu, hp, hsr⟩ : ∃ s, (film pr).file.stored = some s ∧ s.surfs = [⟨mkBox 3 3 1 5 1 3, .sibc pr, -1, ((30 : ℚ) : ℝ)⟩] ∧
      s.pws = [] ∧ s.srcs = [] := by
    have e : (film pr).file.stored = Deck.read (State.init (mkBox 0 6 0 5 0 4)) (filmCards pr) := rfl
    rw [e, filmCards]
    rw [C47.read_cons, C47.card_bt (by rfl), Option.bind_some]
    rw [C47.read_cons, C47.card_tb (m := .sibc pr) (by rfl) (by rfl), Option.bind_some]
    exact ⟨_, rfl, rfl, rfl, rfl⟩
  have hcells : initExternalSurfaceParameters (film pr).file.cells (film pr).file.bt (film pr).file.layers =
    initExternalSurfaceParameters C54.wallFile.cells C54.wallFile.bt C54.wallFile.layers := rfl
  obtain ⟨c, hc⟩ : ∃ c, initExternalSurfaceParameters C54.wallFile.cells C54.wallFile.bt C54.wallFile.layers = some c :=
    Option.isSome_iff_exists.1 (by decide +kernel)
  have hbox : c.gobox = mkBox 1 7 1 6 1 5 ∧ place c (mkBox 3 3 1 5 1 3) = mkBox 4 4 2 6 2 4 := by
    have h2 : (initExternalSurfaceParameters C54.wallFile.cells C54.wallFile.bt C54.wallFile.layers).map (fun c => Face.all.all fun f =>
      c.gobox f == mkBox 1 7 1 6 1 5 f && place c (mkBox 3 3 1 5 1 3) f == mkBox 4 4 2 6 2 4 f) = some true := by decide +kernel
    rw [hc, Option.map_some, Option.some.injEq, List.all_eq_true] at h2
    constructor <;> funext f <;> have h4 := h2 f (by cases f <;> decide) <;>
      rw [Bool.and_eq_true, beq_iff_eq, beq_iff_eq] at h4
    exacts [h4.1, h4.2]
  have items : sibcItems c s.surfs = [⟨.x, mkBox 4 4 2 6 2 4, fun p q => (pr p q).terms.length⟩] := by
    rw [hu]
    simp only [sibcItems, List.filterMap_cons, List.filterMap_nil, hbox.2]
    rfl
  have hS : (fileOf k J (film pr) c).sim (Setup.de k J (film pr) c) (Setup.dh k J (film pr) c) =
      some ⟨c, debyeItems c s.blocks, sibcItems c s.surfs, [], []⟩ := by
    unfold File.sim
    have a1 : (fileOf k J (film pr) c).stored = some s := hs
    have a2 : initExternalSurfaceParameters (fileOf k J (film pr) c).cells (fileOf k J (film pr) c).bt (fileOf k J (film pr) c).layers = some c := hc
    rw [a1, Option.bind_some, a2, Option.bind_some, hp, hsr]
    rfl
  have hR := Scaling.setup_of (hcells.trans hc) hs hS
  refine ⟨_, hR, C64.step_positive hk hR (show (0 : ℝ) < 0.5 by norm_num) ?_ ?_, ?_, _, items, ?_, ?_, ?_⟩
  · intro a m _ _; show (m : ℝ) < ((m + 1 : Int) : ℝ); push_cast; linarith
  · intro a m _ _; show ((m + 1 : Int) : ℝ) - (m : ℝ) < k.big; push_cast; linarith
  · intro x hx b hb
    simp only [film, filmCards, List.mem_cons, List.not_mem_nil, or_false] at hx
    rcases hx with rfl | rfl
    · cases hb
    · simp [boxOf] at hb; subst hb; simp [mkBox]
  · refine ⟨rfl, rfl, ?_⟩; intro a ha; cases a <;> simp_all [coord, mkBox, Axis.lo, Axis.hi]
  · show C43.Surrounded c.gobox .x (4, 3, 2)
    rw [hbox.1]
    refine ⟨?_, ?_, ?_, ?_⟩
    · intro a; cases a <;> decide
    · decide
    · decide
    · intro a _; cases a <;> first | contradiction | decide
  · show FourthRight (sibcItems c s.surfs) _ _
    rw [items]
    exact (lone_sheet _ _).1

open Classical in
/-- `passive_sheet` applies to a half-transmitting film. -/
example : ∃ Z, SibcData.initFromS 1 (!![-1/2, 1/2; 1/2, -1/2] : SibcData.M2) !![-1/2, 1/2; 1/2, -1/2] = some Z ∧
    SheetCard (film fun p q => ⟨entry Z p q, []⟩) 0 ⟨9, mkBox 3 3 1 5 1 3, "film", -1, 30⟩ (fun p q => ⟨entry Z p q, []⟩) ∧
    Passive !![-1/2, 1/2; 1/2, -1/2] ∧ SibcData.deltaS (!![-1/2, 1/2; 1/2, -1/2] : SibcData.M2) ≠ 0 := by
  have hp : SibcData.isPassiveS (!![-1/2, 1/2; 1/2, -1/2] : SibcData.M2) := by simp [SibcData.isPassiveS]; norm_num
  exact ⟨_, by unfold SibcData.initFromS; rw [if_neg (not_or.2 ⟨not_not.2 hp, not_not.2 hp⟩)], film_sheet _, by
    intro a
    simp only [C26.mv, C26.dp]
    simp
    nlinarith [sq_nonneg (a 0 + a 1)], by norm_num [SibcData.deltaS]⟩

end Vulture.C65
