import Verif.Lemmas.ScaleCoefs
set_option linter.unusedSimpArgs false
set_option linter.unusedVariables false
/- Driving values and fields of an experiment in another unit of length, whatever memory held before. -/
namespace Vulture.Scaling
open Spec Setup Deck Degree

section
variable {k : Consts} {J J' : Junk} {X X' : Experiment} {c : Cfg} {r : ℝ}

theorem time_scale (r T : ℝ) (h : Bool) (n : Nat) : time (r * T) h n = r * time T h n := by
  unfold time; split <;> ring

theorem srcItem_scale (h : Rel k c r X X') (J J' : Junk) (x : SrcItem) (hb : Within (place c x.mbbox) c.gibox) :
    (srcItem (Setup.de k J' X' c) (Setup.dh k J' X' c) c (scaleSrc r x)).1 =
      (srcItem (Setup.de k J X c) (Setup.dh k J X c) c x).1 ∧
    (srcItem (Setup.de k J' X' c) (Setup.dh k J' X' c) c (scaleSrc r x)).2 =
      r ^ (if (srcItem (Setup.de k J X c) (Setup.dh k J X c) c x).1.kind = .ecurr ∨
          (srcItem (Setup.de k J X c) (Setup.dh k J X c) c x).1.kind = .hcurr then (-1 : Int) else 0) *
        (srcItem (Setup.de k J X c) (Setup.dh k J X c) c x).2 := by
  obtain ⟨e1, e2, -⟩ := init_scaled h J J' hb x.info.type x.info.pol (x.info.norm.getD .x) x.size x.resist
  constructor
  · unfold srcItem scaleSrc
    simp only [e1]
  · unfold srcItem scaleSrc
    simp only [e2]
    have fin : ∀ (K : SrcKind) (z : ℝ), r ^ (match K with | .ecurr | .hcurr => (-1 : Int) | _ => 0) * z =
        r ^ (if K = .ecurr ∨ K = .hcurr then (-1 : Int) else 0) * z := by
      intro K z; cases K <;> simp
    exact fin _ _

theorem location_scale (h : Rel k c r X X') (J J' : Junk) (fc : Fc) (q : Axis → Int)
    (h1 : ∀ a, 0 ≤ q a - c.gibox a.lo ∧ q a - c.gibox a.lo ≤ c.n a) (h2 : ∀ a, 0 ≤ q a ∧ q a < c.numCells a) :
    location (env k J' X' c) c fc q = fun a => r * location (env k J X c) c fc q a := by
  funext a
  unfold location getFieldPhysicalLocation
  simp only [env]
  rw [h.lines a _ (h1 a).1 (h1 a).2, h.de J J' (h2 a)]
  have fin : ∀ (P : Prop) [Decidable P] (x y : ℝ), (if P then r * x + 1 / 2 * (r * y) else r * x) =
      r * if P then x + 1 / 2 * y else x := by
    intro P _ x y
    split <;> ring
  exact fin _ _ _

theorem corner_axis {theta phi : ℝ} {o : Axis → Face} (h : PlaneWave.originCorner theta phi = some o) (a : Axis) :
    o a = a.lo ∨ o a = a.hi := by
  unfold PlaneWave.originCorner at h
  (repeat' split at h) <;> simp at h <;> subst h <;> cases a <;> simp [PlaneWave.corner, Axis.lo, Axis.hi]

theorem giboxLo_eq (c : Cfg) (a : Axis) : c.giboxLo a = c.gibox a.lo := by cases a <;> rfl

theorem gibox_span (c : Cfg) (a : Axis) : c.gibox a.hi = c.gibox a.lo + c.n a := by
  cases a <;> simp [Cfg.gibox, Cfg.giboxHi, Cfg.numLines, Axis.lo, Axis.hi] <;> omega

theorem node_scale (h : Rel k c r X X') {theta phi : ℝ} {b : BBox} {q0 : Axis → Int} (hb : Within b c.gibox) (ho : Ordered b)
    (hq : PlaneWave.ijk0 theta phi b = some q0) :
    PlaneWave.nodeLocation c X'.lines q0 = fun a => r * PlaneWave.nodeLocation c X.lines q0 a := by
  unfold PlaneWave.ijk0 at hq
  obtain ⟨o, ho', rfl⟩ := Option.map_eq_some_iff.1 hq
  funext a
  unfold PlaneWave.nodeLocation
  have w := hb a
  have d := ho a
  have s := gibox_span c a
  refine h.lines a _ ?_ ?_ <;> rcases corner_axis ho' a with e | e <;> simp only [giboxLo_eq, e] <;> omega

theorem waveSpeed_scale (h : Rel k c r X X') (J J' : Junk) (hg : gridType k J' X' c = gridType k J X c) (w : PwItem) :
    waveSpeed k J' X' c (scalePw r w) = waveSpeed k J X c w := by
  unfold waveSpeed
  rw [hg]
  by_cases e : gridType k J X c = .uniform
  · rw [if_pos e, if_pos e, duni_scale h J J' hg (by rw [e]; decide), h.dt J J', phaseVelocity_scale h.pos]
    rfl
  · rw [if_neg e, if_neg e]

theorem analytic_scale (hr : 0 < r) (F : ℝ) (q x x0 : Axis → ℝ) (v : ℝ) (g g' : ℝ → ℝ) (t : ℝ) (hg : ∀ t, g' (r * t) = g t) :
    PlaneWave.analytic F q (fun a => r * x a) (fun a => r * x0 a) v g' (r * t) = PlaneWave.analytic F q x x0 v g t := by
  unfold PlaneWave.analytic
  simp only
  rw [← hg]
  congr 2
  ring

theorem drive_scale (h : Rel k c r X X') (hw : ∀ n, X'.waves n = scaleWave r (X.waves n)) (J J' : Junk) {s : Deck.State} {S : Sim}
    (hcfg : S.cfg = c) (hsrc : S.srcs = (s.srcs.map (srcItem (Setup.de k J X c) (Setup.dh k J X c) c)).map Prod.fst)
    (hb : BoxesIn c s) (hp : ∀ x ∈ s.pws, Within (place c x.mbbox) c.gibox ∧ Ordered (place c x.mbbox))
    (hg : s.pws.length = 0 ∨ gridType k J' X' c = gridType k J X c) (n : Nat) (l : Loc) (hl : SAllocated S l) (hi : l.isInput = true) :
    drive (env k J' X' c) (gridType k J' X' c == .cubic) c (scaleState r s) n l =
      r ^ ldeg S l * drive (env k J X c) (gridType k J X c == .cubic) c s n l := by
  have wv : ∀ (nm : String) t, (env k J' X' c).wave nm (r * t) = (env k J X c).wave nm t := by
    intro nm t
    simp only [env]
    rw [hw, h.dt J J', waveValue_scale h.pos]
  have hgt : ∀ {m : Nat} {x : PwItem}, s.pws[m]? = some x → gridType k J' X' c = gridType k J X c := by
    intro m x hx
    rcases hg with hg | hg
    · rw [List.length_eq_zero_iff] at hg; rw [hg] at hx; simp at hx
    · exact hg
  cases l with
  | src hh m =>
    simp only [drive, scaleState, List.getElem?_map, ldeg, hsrc]
    cases hx : s.srcs[m]? with
    | none => simp
    | some x =>
      simp only [Option.map_some]
      have e := (srcItem_scale h J J' x (hb x (List.mem_of_getElem? hx))).2
      show (srcItem (Setup.de k J' X' c) (Setup.dh k J' X' c) c (scaleSrc r x)).2 * _ = _
      rw [e]
      have t : time (env k J' X' c).dt hh n - (scaleSrc r x).delay = r * (time (env k J X c).dt hh n - x.delay) := by
        show time (Setup.dt k J' X' c) hh n - r * x.delay = r * (time (Setup.dt k J X c) hh n - x.delay)
        rw [h.dt J J', time_scale]; ring
      rw [t, wv, mul_assoc]
      rfl
  | wav m =>
    simp only [drive, scaleState, List.getElem?_map, ldeg, zpow_zero, one_mul]
    cases hx : s.pws[m]? with
    | none => simp
    | some x =>
      simp only [Option.map_some]
      rw [hgt hx]
      have t : time (env k J' X' c).dt false n - (scalePw r x).delay = r * (time (env k J X c).dt false n - x.delay) := by
        show time (Setup.dt k J' X' c) false n - r * x.delay = r * (time (Setup.dt k J X c) false n - x.delay)
        rw [h.dt J J', time_scale]; ring
      cases (gridType k J X c == .cubic) with
      | false => rfl
      | true =>
        simp only
        rw [t, wv]
        rfl
  | inc hh m fc i j l =>
    simp only [drive, scaleState, List.getElem?_map, ldeg, zpow_zero, one_mul]
    cases hx : s.pws[m]? with
    | none => simp
    | some x =>
      simp only [Option.map_some]
      rw [hgt hx]
      cases (gridType k J X c == .cubic) with
      | true => rfl
      | false =>
        simp only
        show (match PlaneWave.ijk0 x.theta x.phi (place c x.mbbox) with | some q0 => _ | none => _) = _
        cases hq : PlaneWave.ijk0 x.theta x.phi (place c x.mbbox) with
        | none => rfl
        | some q0 =>
          simp only
          obtain ⟨p1, p2⟩ := hp x (List.mem_of_getElem? hx)
          obtain ⟨-, g1, g2, g3, g4⟩ := hl
          rw [hcfg] at g1 g2 g3 g4
          simp only [giboxLo_eq, Cfg.numLines] at g2 g3 g4
          obtain ⟨a1, a2, a3⟩ := g1
          rw [location_scale h J J' fc (triple i j l)
              (by intro a; cases a <;> simp only [triple] <;> omega) (by intro a; cases a <;> simp only [triple] <;> omega)]
          show PlaneWave.analytic _ _ _ (PlaneWave.nodeLocation c X'.lines q0) (waveSpeed k J' X' c (scalePw r x)) _
            (time (Setup.dt k J' X' c) hh n) = _
          rw [node_scale h p1 p2 hq, waveSpeed_scale h J J' (hgt hx), h.dt J J', time_scale]
          refine analytic_scale h.pos _ _ _ _ _ _ _ _ fun t => ?_
          show (env k J' X' c).wave x.wave (r * t - r * x.delay) = (env k J X c).wave x.wave (t - x.delay)
          rw [← mul_sub, wv]
  | _ => simp [Loc.isInput] at hi

end
end Vulture.Scaling
