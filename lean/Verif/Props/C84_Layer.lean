import Verif.Props.C84_Steps
/- C84, second part: along a line, layers only stretch that line. -/
set_option linter.unusedSimpArgs false
set_option linter.unusedVariables false
set_option linter.unusedSectionVars false
namespace Vulture.C84
open Vulture Spec Setup CavityLemmas Scaling C72

section
variable {k : Consts} {J : Junk} {X : Experiment} {R : Setup.Run} {a b c p : Axis} {f : Face} {q r : Axis → Int}

theorem plain_axis {fc : Fc} (h1 : X.file.bt b.lo ≠ .pml) (h2 : X.file.bt b.hi ≠ .pml) : kappaAt X fc q b = 1 ∧ sigmaAt k X fc q b = 0 := by
  unfold kappaAt sigmaAt
  rw [if_neg fun h => h1 h.1, if_neg fun h => h2 h.1, if_neg fun h => h1 h.1, if_neg fun h => h2 h.1]
  exact ⟨rfl, rfl⟩

theorem plain_rate (eps0 T U U' : ℝ) : stretchedRate eps0 T 1 0 U U' = (U' - U) / T := by unfold stretchedRate; ring

theorem profile_sign (h : setup k J X = some R) (hg : GoodLayers k X) (hf : X.file.bt f = .pml) {x : ℝ} (hx : 0 < x) :
    1 ≤ profileKappa (X.par f) (layerThickness X f) x ∧ 0 ≤ profileSigma k.eta0 (X.par f) (layerThickness X f) (sideCell X f) x := by
  obtain ⟨hv, hn, hb, -⟩ := run_parts h
  obtain ⟨g1, g2, g3⟩ := hg
  obtain ⟨p1, p2, p3, p4⟩ := g3 f hf
  have l := hv.pml f (by rw [hb]; exact hf)
  have e := C83.layers_eq h f
  rw [if_pos hf] at e
  rw [e] at l
  have sc : 0 < sideCell X f := g2 _ _
  have hl : (0 : ℝ) < X.file.layers f := by exact_mod_cast (by omega : (0 : Int) < X.file.layers f)
  have D : 0 < layerThickness X f := mul_pos hl sc
  have pw : 0 ≤ (x / layerThickness X f) ^ (X.par f).order := pow_nonneg (div_nonneg hx.le D.le) _
  constructor
  · unfold profileKappa
    have := mul_nonneg (sub_nonneg.2 p4) pw
    linarith
  · unfold profileSigma
    refine mul_nonneg ?_ pw
    unfold topConductivity
    split_ifs with h0
    · have lg : Real.log (X.par f).refCoeff ≤ 0 := Real.log_nonpos h0.le p3
      have : 0 ≤ ((X.par f).order + 1 : ℝ) / (2 * k.eta0 * (X.par f).nEff * layerThickness X f) := by positivity
      have e : -((X.par f).order + 1 : ℝ) / (2 * k.eta0 * (X.par f).nEff * layerThickness X f) * Real.log (X.par f).refCoeff =
        ((X.par f).order + 1 : ℝ) / (2 * k.eta0 * (X.par f).nEff * layerThickness X f) * (- Real.log (X.par f).refCoeff) := by ring
      rw [e]
      exact mul_nonneg this (by linarith)
    · positivity

theorem stretch_sign (h : setup k J X = some R) (hg : GoodLayers k X) (fc : Fc) (q : Axis → Int) (b : Axis) : 1 ≤ kappaAt X fc q b ∧ 0 ≤ sigmaAt k X fc q b := by
  unfold kappaAt sigmaAt
  split_ifs with h1 h2
  · exact profile_sign h hg h1.1 h1.2
  · exact profile_sign h hg h2.1 h2.2
  · exact ⟨le_rfl, le_rfl⟩

theorem rate_det {eps0 T κ σ U U' V V' : ℝ} (he : 0 < eps0) (hT : 0 < T) (hκ : 1 ≤ κ) (hσ : 0 ≤ σ) (hUV : U = V)
    (h : stretchedRate eps0 T κ σ U U' = stretchedRate eps0 T κ σ V V') : U' = V' := by
  subst hUV
  unfold stretchedRate at h
  have c1 : 0 < κ / T + σ / eps0 / 2 := by
    have : 0 < κ / T := div_pos (by linarith) hT
    have : 0 ≤ σ / eps0 / 2 := by positivity
    linarith
  have : (κ / T + σ / eps0 / 2) * (U' - V') = 0 := by
    linear_combination h
  rcases mul_eq_zero.1 this with h' | h'
  · exact absurd h' c1.ne'
  · linarith

theorem ampere_det (hk : Physical k) {T D D1 D2 c : ℝ} (hT : 0 < T) {s : Stuff} (hr : InRange k T s) (hd : ∀ e s' u poles, s ≠ .dispersive e s' u poles)
    (h1 : AmpereIn k T D D1 c 0 s) (h2 : AmpereIn k T D D2 c 0 s) : D1 = D2 := by
  have he := C83.eps_pos hk
  have key : ∀ {eps sig : ℝ}, 0 < eps → 0 ≤ sig → AmpereWithCurrent T eps sig D D1 c 0 → AmpereWithCurrent T eps sig D D2 c 0 → D1 = D2 := by
    intro eps sig h0 h0' a1 a2
    unfold AmpereWithCurrent at a1 a2
    have c1 : 0 < eps / T + sig / 2 := by
      have : 0 < eps / T := div_pos h0 hT
      linarith
    have : (eps / T + sig / 2) * (D1 - D2) = 0 := by linear_combination a1 - a2
    rcases mul_eq_zero.1 this with h' | h'
    · exact absurd h' c1.ne'
    · linarith
  cases s with
  | vacuum => exact key he le_rfl h1 h2
  | metal => exact (show D1 = 0 from h1).trans (show D2 = 0 from h2).symm
  | matter e s u =>
    obtain ⟨r1, r2, r3⟩ := hr
    exact key (mul_pos (by linarith) he) r2 (h1 r1 r2 r3) (h2 r1 r2 r3)
  | dispersive e s u poles => exact absurd rfl (hd _ _ _ _)

theorem ampere_zero (k : Consts) (T : ℝ) {s : Stuff} : AmpereIn k T 0 0 0 0 s := by
  cases s <;> simp [AmpereIn, AmpereWithCurrent]

theorem value_zero (R : Setup.Run) (fc : Fc) (q : Axis → Int) : value R 0 fc q = 0 := rfl

section one
variable (hk : Physical k) (h : setup k J X = some R) (ho : OrdinaryBlocks X.file.cards) (hT : 0 < R.dt) (hg : GoodLayers k X)
  (h2 : ∀ b, X.file.bt b.lo = .pml → 2 ≤ cellsOf X.file b)
include hk h ho hT hg h2

/-- Where nothing drives a sample of the layers it stays dark. -/
theorem layer_dark_E (hq : InLayer X a.e q) (hs : ClearOfSheets X a.e q) (hw : ClearOfWaves X a.e q)
    {s : Stuff} (hm : MadeOf X a.e (continued X a.e q .x) (continued X a.e q .y) (continued X a.e q .z) s) (hr : InRange k R.dt s)
    (hd : ∀ e s' u poles, s ≠ .dispersive e s' u poles)
    (hl : ∀ x ∈ X.file.cards, ∀ s, ¬ ResistorOf X a.e (continued X a.e q .x) (continued X a.e q .y) (continued X a.e q .z) x s)
    (n : ℕ) (h0 : ∀ m, m ≤ n → rotH X (value R m) a q = 0) : value R (n + 1) a.e q = 0 := by
  obtain ⟨D, P, D0, P0, e⟩ := C83.layer_ampere hk h ho hT hg h2 hq hs hw hm hl
  have he := C83.eps_pos hk
  have s1 := stretch_sign h hg a.e q a.next
  have s2 := stretch_sign h hg a.e q a.next.next
  have key : ∀ m, m ≤ n + 1 → D m = 0 ∧ P m = 0 ∧ value R m a.e q = 0 := by
    intro m
    induction m with
    | zero => intro _; exact ⟨D0, P0, rfl⟩
    | succ m ih =>
      intro hm'
      obtain ⟨i1, i2, i3⟩ := ih (by omega)
      obtain ⟨e1, e2, e3⟩ := e m
      rw [h0 m (by omega), i1] at e1
      have d1 : D (m + 1) = 0 := ampere_det hk hT hr hd e1 (ampere_zero k R.dt)
      rw [d1, i1, i2] at e2
      have d2 : P (m + 1) = 0 := rate_det he hT s1.1 s1.2 rfl (e2.trans (by unfold stretchedRate; simp))
      rw [d2, i2, i3] at e3
      exact ⟨d1, d2, rate_det he hT s2.1 s2.2 rfl (e3.trans (by unfold stretchedRate; simp))⟩
  exact (key (n + 1) le_rfl).2.2

theorem mu_pos {s : Stuff} (hr : InRange k R.dt s) : 0 < relPermeability s * k.mu0 := by
  have := hk.mu0
  cases s with
  | vacuum => simpa [relPermeability] using this
  | metal => simpa [relPermeability] using this
  | matter e s u => have := hr.2.2; unfold relPermeability; positivity
  | dispersive e s u poles => have := hr.2.2.1; unfold relPermeability; positivity

theorem layer_dark_H (hq : InLayer X a.h q) (hs : ClearOfSheets X a.h q) (hw : ClearOfWaves X a.h q)
    {s : Stuff} (hm : MadeOf X a.h (continued X a.h q .x) (continued X a.h q .y) (continued X a.h q .z) s) (hr : InRange k R.dt s)
    (hl : ∀ x ∈ X.file.cards, ∀ s, ¬ ResistorOf X a.h (continued X a.h q .x) (continued X a.h q .y) (continued X a.h q .z) x s)
    (n : ℕ) (h0 : ∀ m, m ≤ n → rotE X (value R (m + 1)) a q = 0) : value R (n + 1) a.h q = 0 := by
  obtain ⟨B, B0, e⟩ := C83.layer_faraday hk h ho hT hg h2 hq hs hw hm hr hl
  have he := C83.eps_pos hk
  have mu := mu_pos hk h ho hT hg h2 hr
  have s1 := stretch_sign h hg a.h q a.next
  have s2 := stretch_sign h hg a.h q a.next.next
  have key : ∀ m, m ≤ n + 1 → B m = 0 ∧ value R m a.h q = 0 := by
    intro m
    induction m with
    | zero => intro _; exact ⟨B0, rfl⟩
    | succ m ih =>
      intro hm'
      obtain ⟨i1, i2⟩ := ih (by omega)
      obtain ⟨e1, e2⟩ := e m
      rw [h0 m (by omega), i1, neg_zero] at e1
      have e1 := (mul_eq_zero.1 e1).resolve_left mu.ne'
      have d1 : B (m + 1) = 0 := rate_det he hT s1.1 s1.2 rfl (e1.trans (by unfold stretchedRate; simp))
      rw [d1, i1, i2] at e2
      exact ⟨d1, rate_det he hT s2.1 s2.2 rfl (e2.trans (by unfold stretchedRate; simp))⟩
  exact (key (n + 1) le_rfl).2

theorem same_increments {T : ℝ} (hT : 0 < T) {U V : ℕ → ℝ} (h0 : U 0 = V 0) (hs : ∀ n, (U (n + 1) - U n) / T = (V (n + 1) - V n) / T) (n : ℕ) : U n = V n := by
  induction n with
  | zero => exact h0
  | succ n ih =>
    have := hs n
    rw [div_left_inj' hT.ne', ih] at this
    linarith

/-- Fields across the line: the layers stretch the rate of change along the line only. -/
theorem layer_line_E (hpa : p ≠ a) (hp : ∀ b, b ≠ p → X.file.bt b.lo ≠ .pml ∧ X.file.bt b.hi ≠ .pml)
    (hq : InLayer X a.e q) (hs : ClearOfSheets X a.e q) (hw : ClearOfWaves X a.e q)
    {s : Stuff} (hm : MadeOf X a.e (continued X a.e q .x) (continued X a.e q .y) (continued X a.e q .z) s)
    (hl : ∀ x ∈ X.file.cards, ∀ s, ¬ ResistorOf X a.e (continued X a.e q .x) (continued X a.e q .y) (continued X a.e q .z) x s) :
    ∃ D : ℕ → ℝ, D 0 = 0 ∧ ∀ n, AmpereIn k R.dt (D n) (D (n + 1)) (rotH X (value R n) a q) 0 s ∧
      stretchedRate k.eps0 R.dt (kappaAt X a.e q p) (sigmaAt k X a.e q p) (value R n a.e q) (value R (n + 1) a.e q) = (D (n + 1) - D n) / R.dt := by
  obtain ⟨D, P, D0, P0, e⟩ := C83.layer_ampere hk h ho hT hg h2 hq hs hw hm hl
  have pl : ∀ b, b ≠ p → kappaAt X a.e q b = 1 ∧ sigmaAt k X a.e q b = 0 := fun b hb => plain_axis (hp b hb).1 (hp b hb).2
  refine ⟨D, D0, fun n => ⟨(e n).1, ?_⟩⟩
  obtain ⟨ka, sa⟩ := pl a hpa.symm
  rcases (by cases a <;> cases p <;> first | exact absurd rfl hpa | exact Or.inl rfl | exact Or.inr rfl : p = a.next ∨ p = a.next.next) with e1 | e1
  · have ne : a.next.next ≠ p := by rw [e1]; cases a <;> decide
    obtain ⟨kb, sb⟩ := pl _ ne
    have eq : ∀ n, value R n a.e q = P n := same_increments hk h ho hT hg h2 hT (by rw [value_zero, P0]) fun n => by
      have := (e n).2.2
      rw [ka, sa, kb, sb, plain_rate, plain_rate] at this
      exact this
    rw [eq n, eq (n + 1), e1]
    exact (e n).2.1
  · have ne : a.next ≠ p := by rw [e1]; cases a <;> decide
    obtain ⟨kb, sb⟩ := pl _ ne
    have u := (e n).2.1
    have v := (e n).2.2
    rw [ka, sa, plain_rate] at v
    rw [kb, sb, plain_rate] at u
    rw [e1, v, u]

theorem layer_line_H (hpa : p ≠ a) (hp : ∀ b, b ≠ p → X.file.bt b.lo ≠ .pml ∧ X.file.bt b.hi ≠ .pml)
    (hq : InLayer X a.h q) (hs : ClearOfSheets X a.h q) (hw : ClearOfWaves X a.h q)
    {s : Stuff} (hm : MadeOf X a.h (continued X a.h q .x) (continued X a.h q .y) (continued X a.h q .z) s) (hr : InRange k R.dt s)
    (hl : ∀ x ∈ X.file.cards, ∀ s, ¬ ResistorOf X a.h (continued X a.h q .x) (continued X a.h q .y) (continued X a.h q .z) x s) (n : ℕ) :
    relPermeability s * k.mu0 *
      stretchedRate k.eps0 R.dt (kappaAt X a.h q p) (sigmaAt k X a.h q p) (value R n a.h q) (value R (n + 1) a.h q) = - rotE X (value R (n + 1)) a q := by
  obtain ⟨B, B0, e⟩ := C83.layer_faraday hk h ho hT hg h2 hq hs hw hm hr hl
  have pl : ∀ b, b ≠ p → kappaAt X a.h q b = 1 ∧ sigmaAt k X a.h q b = 0 := fun b hb => plain_axis (hp b hb).1 (hp b hb).2
  obtain ⟨ka, sa⟩ := pl a hpa.symm
  rcases (by cases a <;> cases p <;> first | exact absurd rfl hpa | exact Or.inl rfl | exact Or.inr rfl : p = a.next ∨ p = a.next.next) with e1 | e1
  · have ne : a.next.next ≠ p := by rw [e1]; cases a <;> decide
    obtain ⟨kb, sb⟩ := pl _ ne
    have eq : ∀ n, value R n a.h q = B n := same_increments hk h ho hT hg h2 hT (by rw [value_zero, B0]) fun n => by
      have := (e n).2
      rw [ka, sa, kb, sb, plain_rate, plain_rate] at this
      exact this
    rw [eq n, eq (n + 1), e1]
    exact (e n).1
  · have ne : a.next ≠ p := by rw [e1]; cases a <;> decide
    obtain ⟨kb, sb⟩ := pl _ ne
    have u := (e n).1
    have v := (e n).2
    rw [ka, sa, plain_rate] at v
    rw [kb, sb, plain_rate] at u
    rw [e1, v, u]

end one

/-- Two models with the same line have the same stretching along it. -/
theorem same_stretch {Y : Experiment} {T : ℝ} {e h' e' h'' p' : Axis} (hs : SameLine X Y T e h' p e' h'' p') {fc fc' : Fc} {r : Axis → Int}
    (hpos : pos2 fc p (q p) = pos2 fc' p' (r p')) :
    kappaAt X fc q p = kappaAt Y fc' r p' ∧ sigmaAt k X fc q p = sigmaAt k Y fc' r p' := by
  have x1 := C81.lo_axis p
  have x2 := C81.lo_axis p'
  have c1 : sideCell X p.lo = sideCell Y p'.lo := by
    unfold sideCell; rw [x1.1, x2.1, x1.2.2.1, x2.2.2.1]; exact hs.lengths _
  have c2 : sideCell X p.hi = sideCell Y p'.hi := by
    unfold sideCell; rw [x1.2.1, x2.2.1, x1.2.2.2, x2.2.2.2, hs.cells]; exact hs.lengths _
  have t1 : layerThickness X p.lo = layerThickness Y p'.lo := by unfold layerThickness; rw [c1, hs.layers.1]
  have t2 : layerThickness X p.hi = layerThickness Y p'.hi := by unfold layerThickness; rw [c2, hs.layers.2]
  have o1 : outwards X p.lo fc q = outwards Y p'.lo fc' r := by
    unfold outwards; rw [x1.1, x2.1, x1.2.2.1, x2.2.2.1, c1, hpos, hs.cells]
  have o2 : outwards X p.hi fc q = outwards Y p'.hi fc' r := by
    unfold outwards; rw [x1.2.1, x2.2.1, x1.2.2.2, x2.2.2.2, c2, hpos, hs.cells]
  unfold kappaAt sigmaAt
  rw [hs.low, hs.high, o1, o2, t1, t2, hs.params.1, hs.params.2, c1, c2]
  exact ⟨rfl, rfl⟩

end
end Vulture.C84
