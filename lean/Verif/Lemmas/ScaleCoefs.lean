import Verif.Lemmas.ScaleMedia
import Verif.Lemmas.ScaleWave
import Verif.Lemmas.ScaleDeck
import Verif.Lemmas.Degree
import Verif.Props.C43_Adjacency
set_option linter.unusedSimpArgs false
set_option linter.unusedVariables false
/- All coefficients and driving values of an experiment in another unit of length, whatever memory held before. -/
namespace Vulture.Scaling
open Spec Setup Deck Degree

section
variable {k : Consts} {J J' : Junk} {X X' : Experiment} {c : Cfg} {r : ℝ}

/-- Source boxes in the grid. -/
def BoxesIn (c : Cfg) (s : Deck.State) : Prop := ∀ x ∈ s.srcs, Within (place c x.mbbox) c.gibox

theorem inner_index (hv : ValidCfg c) {b : BBox} (hb : Within b c.gibox) (a : Axis) {i : Int} (h1 : b a.lo ≤ i) (h2 : i ≤ b a.hi) :
    0 ≤ i ∧ i < c.numCells a := by
  have f := cfg_facts hv a
  have w := hb a
  omega

theorem init_scaled (h : Rel k c r X X') (J J' : Junk) {b : BBox} (hb : Within b c.gibox) (t : Source.SType) (pol norm : Axis)
    (size R : ℝ) :
    (Source.initSource (Setup.de k J' X' c) (Setup.dh k J' X' c) b t pol norm (sizeFactor r t * size) R).kind =
      (Source.initSource (Setup.de k J X c) (Setup.dh k J X c) b t pol norm size R).kind ∧
    (Source.initSource (Setup.de k J' X' c) (Setup.dh k J' X' c) b t pol norm (sizeFactor r t * size) R).size =
      r ^ (match (Source.initSource (Setup.de k J X c) (Setup.dh k J X c) b t pol norm size R).kind with
        | .ecurr | .hcurr => (-1 : Int) | _ => 0) *
        (Source.initSource (Setup.de k J X c) (Setup.dh k J X c) b t pol norm size R).size ∧
    (Source.initSource (Setup.de k J' X' c) (Setup.dh k J' X' c) b t pol norm (sizeFactor r t * size) R).med =
      scaleAct r (Source.initSource (Setup.de k J X c) (Setup.dh k J X c) b t pol norm size R).med :=
  initSource_scaled h.pos (b := b) (de := Setup.de k J X c) (de' := Setup.de k J' X' c) (dh := Setup.dh k J X c)
    (dh' := Setup.dh k J' X' c) (fun a i h1 h2 => h.de J J' (inner_index h.valid hb a h1 h2))
    (fun a i h1 h2 => h.dh J J' (inner_index h.valid hb a h1 h2)) t pol norm size R

/-! ### Media -/

theorem surfFill_scale (hr : 0 < r) (T : ℝ) (b : Surf) :
    surfFill k (r * T) { b with bnd := scaleBnd r b.bnd } = (surfFill k T b).map fun x => (x.1, scaleCoef r x.2) := by
  have hp := medCoef_scale hr k T .pec
  have hf := medCoef_scale hr k T .free
  obtain ⟨q, b, o, a⟩ := b
  cases b <;> simp only [surfFill, scaleBnd, Option.map_some, Option.map_none]
  · rw [← hp]; rfl
  · rw [← hf]; rfl
  · rw [← hp]; rfl

theorem srcFill_scale (h : Rel k c r X X') (J J' : Junk) (T : ℝ) (x : SrcItem) (hb : Within (place c x.mbbox) c.gibox) :
    srcFill k J' X' c (r * T) (scaleSrc r x) = (srcFill k J X c T x).map fun x => (x.1, scaleCoef r x.2) := by
  have e := (init_scaled h J J' hb x.info.type x.info.pol (x.info.norm.getD .x) x.size x.resist).2.2
  have hp := medCoef_scale h.pos k T .pec
  unfold srcFill scaleSrc
  simp only [e]
  cases (Source.initSource (Setup.de k J X c) (Setup.dh k J X c) (place c x.mbbox) x.info.type x.info.pol
    (x.info.norm.getD .x) x.size x.resist).med with
  | keep => rfl
  | resistor s =>
    simp only [scaleAct, Option.map_some]
    rw [resistCoef_scale h.pos]
  | pec =>
    simp only [scaleAct, Option.map_some]
    rw [← hp]; rfl

theorem filterMap_scale {α β γ δ : Type} {g : α → Option β} {g' : γ → Option δ} {m : α → γ} {p : β → δ} (l : List α)
    (h : ∀ x ∈ l, g' (m x) = (g x).map p) : (l.map m).filterMap g' = (l.filterMap g).map p := by
  induction l with
  | nil => rfl
  | cons x l ih =>
    rw [List.map_cons, List.filterMap_cons, List.filterMap_cons, h x (by simp)]
    have := ih fun y hy => h y (by simp [hy])
    cases g x <;> simp [this]

theorem medSetup_scale (h : Rel k c r X X') (J J' : Junk) {s : Deck.State} (hb : BoxesIn c s) :
    medSetup k J' X' c (scaleState r s) = medMap (scaleCoef r) (medSetup k J X c s) := by
  have hf : ∀ T, medCoef k (r * T) .free = scaleCoef r (medCoef k T .free) := fun T => medCoef_scale h.pos k T .free
  have hp : ∀ T, medCoef k (r * T) .pec = scaleCoef r (medCoef k T .pec) := fun T => medCoef_scale h.pos k T .pec
  unfold medSetup medMap
  simp only [h.dt J J']
  congr 1
  · exact hf _
  · exact hp _
  · simp only [scaleState, List.map_map, Function.comp_def, medCoef_scale h.pos]
  · simp only [scaleState, List.map_map, Function.comp_def]
    congr 1
    funext l
    cases l.free <;> simp [hf, hp]
  · exact filterMap_scale s.surfs fun x _ => surfFill_scale h.pos _ x
  · exact filterMap_scale s.srcs fun x hx => srcFill_scale h J J' _ x (hb x hx)

theorem media_scale (h : Rel k c r X X') (J J' : Junk) {s : Deck.State} (hb : BoxesIn c s) {fc : Fc} {i j l : Int}
    (hi : InGrid c i j l) : mediaArrays c (medSetup k J' X' c (scaleState r s)) J'.med fc i j l =
      scaleCoef r (mediaArrays c (medSetup k J X c s) J.med fc i j l) := by
  rw [medSetup_scale h J J' hb]
  exact agree_media h.valid _ _ _ fc i j l hi

/-! ### Debye media -/

theorem blockPoles_scale (s : Deck.State) :
    blockPoles (scaleState r s) = (blockPoles s).map fun l => l.map fun p => ⟨p.res / r, p.pole / r⟩ := by
  unfold blockPoles
  refine filterMap_scale s.blocks fun b _ => ?_
  obtain ⟨q, m, w⟩ := b
  cases m <;> rfl

theorem poleAt_scale (s : Deck.State) (b p : Nat) :
    poleAt (scaleState r s) b p = (poleAt s b p).map fun p => ⟨p.res / r, p.pole / r⟩ := by
  unfold poleAt
  rw [blockPoles_scale, List.getElem?_map]
  cases (blockPoles s)[b]? with
  | none => rfl
  | some l => simp [List.getElem?_map]

theorem dalpha_scale (hr : 0 < r) (T : ℝ) (p : DPole) : dalpha (r * T) ⟨p.res / r, p.pole / r⟩ = dalpha T p := by
  have h0 : (r : ℂ) ≠ 0 := by exact_mod_cast hr.ne'
  have e : (1 : ℂ) / 2 * (r * T) * (p.pole / r) = 1 / 2 * T * p.pole := by field_simp
  unfold dalpha
  simp only
  push_cast
  rw [e]

theorem dbeta_scale (hr : 0 < r) (T eps0 : ℝ) (p : DPole) : dbeta (r * T) eps0 ⟨p.res / r, p.pole / r⟩ = dbeta T eps0 p / r := by
  have h0 : (r : ℂ) ≠ 0 := by exact_mod_cast hr.ne'
  have e : (1 : ℂ) / 2 * (r * T) * (p.pole / r) = 1 / 2 * T * p.pole := by field_simp
  unfold dbeta
  simp only
  push_cast
  rw [e, div_div, mul_comm _ (r : ℂ), ← mul_div_assoc, div_div]

theorem part_div (im : Bool) (z : ℂ) : part im (z / r) = r ^ (-1 : Int) * part im z := by
  rw [zpow_neg_one, inv_mul_eq_div]
  cases im <;> simp [part]

/-! ### Sheets -/

theorem sheetData_scale (s : Deck.State) :
    sheetData (scaleState r s) = (sheetData s).map fun d =>
      ((fun p q => ⟨(d.1 p q).asymp, (d.1 p q).terms.map fun t => (t.1 / r, t.2 / r)⟩ : Nat → Nat → PoleResidue), d.2) := by
  unfold sheetData
  refine filterMap_scale s.surfs fun b _ => ?_
  obtain ⟨q, m, w, a⟩ := b
  cases m <;> rfl

theorem sheetMat_scale (s : Deck.State) (n : Nat) : sheetMat (scaleState r s) n = sheetMat s n := by
  unfold sheetMat
  rw [sheetData_scale, List.getElem?_map]
  cases (sheetData s)[n]? <;> rfl

theorem toRCq_scale (hr : 0 < r) (T : ℝ) (t : ℂ × ℂ) : toRCq (r * T) (t.1 / r, t.2 / r) = toRCq T t := by
  have h0 : (r : ℂ) ≠ 0 := by exact_mod_cast hr.ne'
  have e1 : t.2 / r / (t.1 / r) = t.2 / t.1 := div_div_div_cancel_right₀ h0 _ _
  have e2 : t.1 / r * ((r : ℂ) * T) = t.1 * T := by field_simp
  unfold toRCq
  simp only
  push_cast
  rw [e1, e2]

theorem sheetFilter_scale (h : Rel k c r X X') (J J' : Junk) (s : Deck.State) (n p q : Nat) :
    sheetFilter k J' X' c (scaleState r s) n p q = sheetFilter k J X c s n p q := by
  unfold sheetFilter
  rw [sheetData_scale, List.getElem?_map, h.dt J J']
  cases (sheetData s)[n]? with
  | none => rfl
  | some d =>
    simp only [Option.map_some, toRecConv, List.map_map, Function.comp_def, toRCq_scale h.pos]

/-- No sheet lies in the low side, or reaches the high side, of the grid. -/
def SheetsIn (c : Cfg) (l : List SibcSurf) : Prop :=
  ∀ w ∈ l, Within w.gbbox c.gobox ∧ w.gbbox w.normal.lo = w.gbbox w.normal.hi ∧ c.gobox w.normal.lo < w.gbbox w.normal.lo ∧
    ∀ a : Axis, w.gbbox a.hi < c.gobox a.hi

theorem sibcFace_same {s : Deck.State} (J J' : Junk) (hs : SheetsIn c (sibcItems c s.surfs)) {i j l : Int} {a : Axis}
    (hi : C43.Inner c.gobox (i, j, l)) : sibcFace J' c s i j l a = sibcFace J c s i j l a := by
  unfold sibcFace
  have V := C43.faceMap_value c.gobox (sibcItems c s.surfs) (fun w hw => (hs w hw).2.1) (i, j, l) a
  simp only at V
  by_cases hc : ∃ w ∈ sibcItems c s.surfs, Covers w a (i, j, l)
  · rw [V.1 hc]; rfl
  · rw [V.2.1 hc hi]; rfl

theorem adjFlag_same {s : Deck.State} (J J' : Junk) (hs : SheetsIn c (sibcItems c s.surfs)) (up : Bool) {n : Nat} {i j l : Int}
    (f : Nat) (ho : OnSheet (sibcItems c s.surfs) n i j l) : adjFlag J' c s up n i j l f = adjFlag J c s up n i j l f := by
  obtain ⟨w, hw, w', hw', h1, h2, h3⟩ := ho
  rw [hw] at hw'
  cases hw'
  obtain ⟨wi, we, wl, wh⟩ := hs w (List.mem_of_getElem? hw)
  have ix := wi .x; have iy := wi .y; have iz := wi .z
  have hx := wh .x; have hy := wh .y; have hz := wh .z
  have S : ∀ {i' j' l' : Int} {a : Axis}, C43.Inner c.gobox (i', j', l') → sibcFace J' c s i' j' l' a = sibcFace J c s i' j' l' a :=
    fun h => sibcFace_same J J' hs h
  unfold adjFlag
  rw [hw]
  simp only
  have key : ∀ up : Bool, (if up = true then Adj.isAdjB else Adj.isAdjA) (faceMapRead J' c s) w.normal i j l f =
      (if up = true then Adj.isAdjB else Adj.isAdjA) (faceMapRead J c s) w.normal i j l f := by
    intro up
    revert h1 h2 h3 we wl ix iy iz hx hy hz
    unfold sheetExtent
    generalize w.normal = nrm
    intro h1 h2 h3 we wl ix iy iz hx hy hz
    have inn : ∀ {i' j' l' : Int}, (c.gobox .xlo ≤ i' ∧ i' < c.gobox .xhi) → (c.gobox .ylo ≤ j' ∧ j' < c.gobox .yhi) →
        (c.gobox .zlo ≤ l' ∧ l' < c.gobox .zhi) → C43.Inner c.gobox (i', j', l') := by
      intro i' j' l' a1 a2 a3 a
      cases a
      exacts [a1, a2, a3]
    match f with
    | 0 | 1 | 2 | _ + 3 =>
      cases nrm <;> cases up <;> simp only [Axis.lo, Axis.hi] at * <;>
        simp only [reduceCtorEq, if_true, if_false, Bool.false_eq_true, Adj.isAdjA, Adj.isAdjB, faceMapRead, add_zero] at h1 h2 h3 ⊢ <;>
        exact congrArg some (S (inn (by omega) (by omega) (by omega)))
  rw [key up]

theorem hFactor_same {s : Deck.State} (J J' : Junk) (hs : SheetsIn c (sibcItems c s.surfs)) {n q : Nat} {i j l : Int}
    (ho : OnSheet (sibcItems c s.surfs) n i j l) : hFactor J' c s n q i j l = hFactor J c s n q i j l := by
  unfold hFactor
  simp only
  rw [adjFlag_same J J' hs _ _ ho, adjFlag_same J J' hs _ _ ho]

/-- Flags depend on the items only. -/
theorem adjFlag_items {s s' : Deck.State} (e : sibcItems c s'.surfs = sibcItems c s.surfs) (J : Junk) :
    adjFlag J c s' = adjFlag J c s := by
  have e1 : sibcFace J c s' = sibcFace J c s := by unfold sibcFace; rw [e]
  have e2 : faceMapRead J c s' = faceMapRead J c s := by unfold faceMapRead; rw [e1]
  funext up n i j l f
  unfold adjFlag
  rw [e, e2]

theorem edgeWeight_items {s s' : Deck.State} (e : sibcItems c s'.surfs = sibcItems c s.surfs) :
    edgeWeight c s' = edgeWeight c s := by
  funext n m i j l
  unfold edgeWeight
  rw [e]

theorem surfs_same (r : ℝ) (c : Cfg) (s : Deck.State) : sibcItems c (scaleState r s).surfs = sibcItems c s.surfs :=
  sibcItems_scale r c s.surfs

/-! ### Plane waves -/

theorem duni_scale (h : Rel k c r X X') (J J' : Junk) (hg : gridType k J' X' c = gridType k J X c)
    (hn : gridType k J X c ≠ .nonuniform) : duni k J' X' c = fun a => r * duni k J X c a := by
  funext a
  unfold duni
  rw [hg, if_neg hn, if_neg hn]
  have f := cfg_facts h.valid a
  exact h.de J J' ⟨by omega, by omega⟩

theorem auxLoss_scale (h : Rel k c r X X') (J J' : Junk) (hg : gridType k J' X' c = gridType k J X c)
    (hn : gridType k J X c ≠ .nonuniform) (d : ℝ) : auxLoss k J' X' c d = auxLoss k J X c d := by
  unfold auxLoss
  rw [duni_scale h J J' hg hn, h.dt J J']
  simp only
  rw [show ∀ u v w : ℝ, 0.5 * (r * u) / k.eps0 * v * 4 / k.eta0 / (r * w) = 0.5 * u / k.eps0 * v * 4 / k.eta0 / w from
    fun u v w => by
      rw [show 0.5 * (r * u) / k.eps0 * v * 4 / k.eta0 = r * (0.5 * u / k.eps0 * v * 4 / k.eta0) by ring,
        mul_div_mul_left _ _ h.pos.ne']]

theorem onCubic_same (hg : gridType k J' X' c = gridType k J X c) {v v' : ℝ} (hv : gridType k J X c = .cubic → v' = v) :
    onCubic k J' X' c v' = onCubic k J X c v := by
  unfold onCubic
  rw [hg]
  split
  · exact hv (by assumption)
  · rfl

theorem ofWave_scale (s : Deck.State) (n : Nat) {f g : PwItem → ℝ} (hf : ∀ w, f (scalePw r w) = g w) :
    ofWave (scaleState r s) n f = ofWave s n g := by
  unfold ofWave
  simp only [scaleState, List.getElem?_map]
  cases s.pws[n]? with
  | none => rfl
  | some w => exact hf w

theorem wave_coef (h : Rel k c r X X') (J J' : Junk) (hg : gridType k J' X' c = gridType k J X c)
    (hn : gridType k J X c ≠ .nonuniform) (e th ph : ℝ) :
    Setup.dt k J' X' c / (e * duni k J' X' c .x) / PlaneWave.relPhaseVelocity k.c0 (Setup.dt k J' X' c) (duni k J' X' c) th ph =
      Setup.dt k J X c / (e * duni k J X c .x) / PlaneWave.relPhaseVelocity k.c0 (Setup.dt k J X c) (duni k J X c) th ph := by
  rw [duni_scale h J J' hg hn, h.dt J J']
  unfold PlaneWave.relPhaseVelocity
  rw [phaseVelocity_scale h.pos, phaseVelocity_scale h.pos]
  simp only
  rw [show e * (r * duni k J X c .x) = r * (e * duni k J X c .x) by ring, mul_div_mul_left _ _ h.pos.ne']

/-! ### All coefficients -/

theorem coefs_scale (h : Rel k c r X X') (J J' : Junk) {s : Deck.State} {S : Sim} (hcfg : S.cfg = c)
    (hsib : S.sibc = sibcItems c s.surfs) (hb : BoxesIn c s) (hs : SheetsIn c (sibcItems c s.surfs))
    (hg : S.pws.length = 0 ∨ gridType k J' X' c = gridType k J X c) (q : CRef) (hq : SCAllocated S q) :
    coefs k J' X' c (scaleState r s) q = r ^ cdeg q * coefs k J X c s q := by
  subst hcfg
  have hpw : ∀ n, n < S.pws.length → gridType k J' X' S.cfg = gridType k J X S.cfg := by
    intro n hn
    rcases hg with hg | hg
    · omega
    · exact hg
  have one : ∀ x : ℝ, x = r ^ (0 : Int) * x := fun x => by rw [zpow_zero, one_mul]
  have cub : gridType k J X S.cfg = .cubic → gridType k J X S.cfg ≠ .nonuniform := fun e => by rw [e]; decide
  cases q with
  | alpha fc i j l =>
    show Coef.alpha (mediaArrays _ _ _ fc i j l) = _
    rw [media_scale h J J' hb hq]; exact one _
  | beta fc i j l =>
    show Coef.beta (mediaArrays _ _ _ fc i j l) = _
    rw [media_scale h J J' hb hq]
    show r * _ = r ^ (1 : Int) * _
    rw [zpow_one]; rfl
  | gamma fc i j l =>
    show Coef.gamma (mediaArrays _ _ _ fc i j l) = _
    rw [media_scale h J J' hb hq]
    show r * _ = r ^ (1 : Int) * _
    rw [zpow_one]; rfl
  | ide a i => exact (h.ide J J' hq).1
  | idh a i => exact (h.ide J J' hq).2
  | ad a i => refine Eq.trans ?_ (one _); exact congrArg PmlCoef.a (h.pml J J' hq).1
  | bd a i => refine Eq.trans ?_ (one _); exact congrArg PmlCoef.b (h.pml J J' hq).1
  | ibd a i => refine Eq.trans ?_ (one _); exact congrArg PmlCoef.ib (h.pml J J' hq).1
  | ah a i => refine Eq.trans ?_ (one _); exact congrArg PmlCoef.a (h.pml J J' hq).2
  | bh a i => refine Eq.trans ?_ (one _); exact congrArg PmlCoef.b (h.pml J J' hq).2
  | ibh a i => refine Eq.trans ?_ (one _); exact congrArg PmlCoef.ib (h.pml J J' hq).2
  | zeta f => refine Eq.trans ?_ (one _); exact h.zeta J J' f
  | dal im b p =>
    refine Eq.trans ?_ (one _)
    simp only [coefs, coefRef, otherCoef, poleAt_scale, h.dt J J']
    cases poleAt s b p with
    | none => rfl
    | some z => simp only [Option.map_some, dalpha_scale h.pos]
  | dbe im b p =>
    show _ = r ^ (-1 : Int) * _
    simp only [coefs, coefRef, otherCoef, poleAt_scale, h.dt J J']
    cases poleAt s b p with
    | none => simp
    | some z => simp only [Option.map_some, dbeta_scale h.pos, part_div]
  | soft n =>
    refine Eq.trans ?_ (one _)
    simp only [coefs, coefRef, otherCoef, scaleState, List.getElem?_map]
    cases s.srcs[n]? <;> rfl
  | sibH n q i j l =>
    refine Eq.trans ?_ (one _)
    have e1 : hFactor J' S.cfg (scaleState r s) n q i j l = hFactor J' S.cfg s n q i j l := by
      unfold hFactor; rw [adjFlag_items (surfs_same r S.cfg s)]
    show hFactor J' S.cfg (scaleState r s) n q i j l = hFactor J S.cfg s n q i j l
    rw [e1]
    exact hFactor_same J J' hs (hsib ▸ hq.2)
  | sibA n p q =>
    refine Eq.trans ?_ (one _)
    show entry (sheetMat _ n).1 p q = entry (sheetMat _ n).1 p q
    rw [sheetMat_scale]
  | sibB n p q =>
    refine Eq.trans ?_ (one _)
    show entry (sheetMat _ n).2 p q = entry (sheetMat _ n).2 p q
    rw [sheetMat_scale]
  | rca n p q =>
    refine Eq.trans ?_ (one _)
    show (sheetFilter k J' X' S.cfg (scaleState r s) n p q).asymp = (sheetFilter k J X S.cfg s n p q).asymp
    rw [sheetFilter_scale h J J']
  | rcq im m n p q pole =>
    refine Eq.trans ?_ (one _)
    show part im (rcqAt (sheetFilter k J' X' S.cfg (scaleState r s) n p q) m pole) =
      part im (rcqAt (sheetFilter k J X S.cfg s n p q) m pole)
    rw [sheetFilter_scale h J J']
  | sibW n m i j l =>
    refine Eq.trans ?_ (one _)
    show edgeWeight S.cfg (scaleState r s) n m i j l = edgeWeight S.cfg s n m i j l
    rw [edgeWeight_items (surfs_same r S.cfg s)]
  | sibN n f i j l =>
    refine Eq.trans ?_ (one _)
    show bit (!(adjFlag J' S.cfg (scaleState r s) (4 ≤ f) n i j l (f % 4))) = bit (!(adjFlag J S.cfg s (4 ≤ f) n i j l (f % 4)))
    rw [adjFlag_items (surfs_same r S.cfg s), adjFlag_same J J' hs _ _ (hsib ▸ hq.2)]
  | half => exact one _
  | auxBeta n =>
    refine Eq.trans ?_ (one _)
    have g := hpw n hq
    refine onCubic_same g fun e => ofWave_scale s n fun w => ?_
    exact wave_coef h J J' g (cub e) _ _ _
  | auxGamma n =>
    refine Eq.trans ?_ (one _)
    have g := hpw n hq
    refine onCubic_same g fun e => ofWave_scale s n fun w => ?_
    exact wave_coef h J J' g (cub e) _ _ _
  | auxAd n i =>
    refine Eq.trans ?_ (one _)
    have g := hpw n hq.1
    refine onCubic_same g fun e => ?_
    rw [auxLoss_scale h J J' g (cub e)]
  | auxBd n i =>
    refine Eq.trans ?_ (one _)
    have g := hpw n hq.1
    refine onCubic_same g fun e => ?_
    rw [auxLoss_scale h J J' g (cub e)]
  | auxAh n i =>
    refine Eq.trans ?_ (one _)
    have g := hpw n hq.1
    refine onCubic_same g fun e => ?_
    rw [auxLoss_scale h J J' g (cub e)]
  | auxBh n i =>
    refine Eq.trans ?_ (one _)
    have g := hpw n hq.1
    refine onCubic_same g fun e => ?_
    rw [auxLoss_scale h J J' g (cub e)]
  | auxW n hi fc i j l =>
    refine Eq.trans ?_ (one _)
    exact ofWave_scale s n fun w => rfl

end
end Vulture.Scaling
