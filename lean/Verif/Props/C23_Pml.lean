import Verif.Model.PmlProfile
import Verif.Lemmas.Pointwise
import Verif.Props.C18_Edges
import Verif.Props.C22_Mur
/- C23: absorbing layers. -/
set_option linter.unusedSimpArgs false
namespace Vulture.C23
open Spec

/-! ### The grading computed by the set-up code -/

/-- Depth of position `y` (in cells) inside the layer of face `f`, as a fraction of its thickness. -/
noncomputable def layerDepth (c : Cfg) (f : Face) (y : ℝ) : ℝ :=
  (if f.isLo then (c.gibox f : ℝ) - y else y - c.gibox f) / c.layers f

/-- Largest conductivity of a layer of `N` cells of size `d`. -/
noncomputable def sigmaMax (eta0 : ℝ) (p : PmlParams) (N : Int) (d : ℝ) : ℝ :=
  if p.refCoeff > 0 then -(p.order + 1) / (2 * eta0 * p.nEff * (N * d)) * Real.log p.refCoeff
  else 4 * (p.order + 1) / (5 * eta0 * p.nEff * d)

/-- Loss and stretching of a polynomial grading of the given order at depth `x`. -/
noncomputable def loss (dt eps0 eta0 : ℝ) (p : PmlParams) (N : Int) (d x : ℝ) : ℝ :=
  dt / (2 * eps0) * (sigmaMax eta0 p N d * x ^ p.order)
noncomputable def stretch (p : PmlParams) (x : ℝ) : ℝ := 1 + (p.kmax - 1) * x ^ p.order

/-- The values of one grading step. -/
noncomputable def graded (dt eps0 eta0 : ℝ) (p : PmlParams) (N : Int) (d x : ℝ) : PmlCoef :=
  pmlCoef (loss dt eps0 eta0 p N d x) (stretch p x)

theorem profileLoop_aux (F : ℝ → PmlCoef) (delta : Int → ℝ) (dl : ℝ) (low : Int) (n : Nat)
    (h : ∀ i, low ≤ i → i < low + n → delta i = dl) (d0 : ℝ) (A : Arr PmlCoef) :
    ((List.range n).map (fun (t : Nat) => low + t)).foldl (fun st i => (st.1 + delta i, st.2.set i (F st.1))) (d0, A) =
      (d0 + n * dl, fun i => if low ≤ i ∧ i < low + n then F (d0 + (i - low : Int) * dl) else A i) := by
  induction n with
  | zero =>
    simp only [List.range_zero, List.map_nil, List.foldl_nil, Nat.cast_zero, zero_mul, add_zero, Prod.mk.injEq, true_and]
    funext i
    rw [if_neg (by omega)]
  | succ n ih =>
    rw [List.range_succ, List.map_append, List.foldl_append, ih (fun i h1 h2 => h i h1 (by push_cast; omega))]
    simp only [List.map_cons, List.map_nil, List.foldl_cons, List.foldl_nil, Prod.mk.injEq]
    refine ⟨by rw [h (low + n) (by omega) (by push_cast; omega)]; push_cast; ring, ?_⟩
    funext i
    unfold Arr.set
    by_cases e : i = low + n
    · subst e
      rw [if_pos rfl, if_pos ⟨by omega, by push_cast; omega⟩]
      congr 2
      push_cast
      ring
    · rw [if_neg e]
      beta_reduce
      by_cases g : low ≤ i ∧ i < low + n
      · rw [if_pos g, if_pos ⟨g.1, by push_cast; omega⟩]
      · rw [if_neg g, if_neg (by push_cast; omega)]

theorem profileLoop_eq (F : ℝ → PmlCoef) (delta : Int → ℝ) (dl : ℝ) (low high : Int) (hlh : low ≤ high + 1)
    (h : ∀ i, low ≤ i → i ≤ high → delta i = dl) (d0 : ℝ) (A : Arr PmlCoef) :
    profileLoop F delta low high (d0, A) =
      (d0 + (high + 1 - low : Int) * dl,
        fun i => if low ≤ i ∧ i ≤ high then F (d0 + (i - low : Int) * dl) else A i) := by
  unfold profileLoop intRange
  rw [profileLoop_aux F delta dl low _ (fun i h1 h2 => h i h1 (by omega))]
  have e : (((high + 1 - low).toNat : ℕ) : ℤ) = high + 1 - low := by omega
  have e' : (((high + 1 - low).toNat : ℕ) : ℝ) = ((high + 1 - low : Int) : ℝ) := by exact_mod_cast congrArg (Int.cast (R := ℝ)) e
  rw [e', e]
  congr 1
  funext i
  exact if_congr (by omega) rfl rfl

theorem total_eq (de : Arr ℝ) (d : ℝ) (low high : Int) (hlh : low ≤ high + 1)
    (h : ∀ i, low ≤ i → i ≤ high → de i = d) :
    (intRange low high).foldl (fun t i => t + de i) 0 = (high + 1 - low : Int) * d := by
  have key : ∀ (L : List Int) (t : ℝ), (∀ i ∈ L, de i = d) → L.foldl (fun t i => t + de i) t = t + L.length * d := by
    intro L
    induction L with
    | nil => intro t _; simp
    | cons a L ih =>
      intro t hL
      rw [List.foldl_cons, ih _ (fun i hi => hL i (List.mem_cons_of_mem _ hi)), hL a List.mem_cons_self]
      push_cast [List.length_cons]; ring
  rw [key _ _ (fun i hi => h i (mem_intRange.1 hi).1 (mem_intRange.1 hi).2)]
  have : ((intRange low high).length : ℤ) = high + 1 - low := by unfold intRange; simp; omega
  have : ((intRange low high).length : ℝ) = ((high + 1 - low : Int) : ℝ) := by exact_mod_cast congrArg (Int.cast (R := ℝ)) this
  rw [this]; ring

/-- The cells of a layer have one size `d`. -/
def UniformLayer (de dh : Arr ℝ) (low high : Int) (d : ℝ) : Prop :=
  ∀ i, low ≤ i → i ≤ high → de i = d ∧ dh i = d

section profile
variable (dt eps0 eta0 : ℝ)

theorem at_eq (p : PmlParams) {N : Int} {d : ℝ} (hN : 0 < N) (hd : d ≠ 0) (y : ℝ) :
    pmlAt dt eps0 eta0 (N * d) d p (y * d) = graded dt eps0 eta0 p N d (y / N) := by
  have hN' : (N : ℝ) ≠ 0 := by exact_mod_cast hN.ne'
  unfold pmlAt graded
  have e : y * d / (N * d) = y / N := by rw [mul_div_mul_right _ _ hd]
  rw [e]
  congr 1
  unfold loss pmlSigmaProfile sigmaMax
  ring

theorem setProfile_down (p : PmlParams) (de dh : Arr ℝ) (low high : Int) (hlh : low ≤ high) {d : ℝ} (hd : d ≠ 0)
    (hu : UniformLayer de dh low high d) (A : PmlArrays) :
    setProfile dt eps0 eta0 de dh low high false p A =
      ⟨fun i => if low ≤ i ∧ i ≤ high then
          graded dt eps0 eta0 p (high + 1 - low) d (((high + 1 : Int) - (i : ℝ)) / (high + 1 - low : Int)) else A.node i,
       fun i => if low ≤ i ∧ i ≤ high then
          graded dt eps0 eta0 p (high + 1 - low) d (((high + 1 : Int) - ((i : ℝ) + 1 / 2)) / (high + 1 - low : Int)) else A.half i⟩ := by
  unfold setProfile
  rw [total_eq de d low high (by omega) (fun i h1 h2 => (hu i h1 h2).1), (hu low le_rfl hlh).1]
  simp only [Bool.false_eq_true, if_false]
  rw [profileLoop_eq _ _ (-1 * d) low high (by omega) (fun i h1 h2 => by rw [(hu i h1 h2).1]),
    profileLoop_eq _ _ (-1 * d) low high (by omega) (fun i h1 h2 => by rw [(hu i h1 h2).2])]
  congr 1
  · funext i
    refine if_congr Iff.rfl ?_ rfl
    rw [← at_eq dt eps0 eta0 p (by omega) hd]
    congr 1; push_cast; ring
  · funext i
    refine if_congr Iff.rfl ?_ rfl
    rw [← at_eq dt eps0 eta0 p (by omega) hd]
    congr 1; push_cast; ring

theorem setProfile_up (p : PmlParams) (de dh : Arr ℝ) (low high : Int) (hlh : low ≤ high) {d : ℝ} (hd : d ≠ 0)
    (hu : UniformLayer de dh low high d) (A : PmlArrays) :
    setProfile dt eps0 eta0 de dh low high true p A =
      ⟨fun i => if low ≤ i ∧ i ≤ high + 1 then
          graded dt eps0 eta0 p (high + 1 - low) d (((i : ℝ) - low) / (high + 1 - low : Int)) else A.node i,
       fun i => if low ≤ i ∧ i ≤ high then
          graded dt eps0 eta0 p (high + 1 - low) d ((((i : ℝ) + 1 / 2) - low) / (high + 1 - low : Int)) else A.half i⟩ := by
  unfold setProfile
  rw [total_eq de d low high (by omega) (fun i h1 h2 => (hu i h1 h2).1), (hu low le_rfl hlh).1]
  simp only [if_true]
  rw [profileLoop_eq _ _ (1 * d) low high (by omega) (fun i h1 h2 => by rw [(hu i h1 h2).1]),
    profileLoop_eq _ _ (1 * d) low high (by omega) (fun i h1 h2 => by rw [(hu i h1 h2).2])]
  congr 1
  · funext i
    unfold Arr.set
    by_cases e : i = high + 1
    · subst e
      rw [if_pos rfl, if_pos ⟨by omega, le_rfl⟩, ← at_eq dt eps0 eta0 p (by omega) hd]
      congr 1; push_cast; ring
    · rw [if_neg e]
      refine if_congr (by omega) ?_ rfl
      rw [← at_eq dt eps0 eta0 p (by omega) hd]
      congr 1; push_cast; ring
  · funext i
    refine if_congr Iff.rfl ?_ rfl
    rw [← at_eq dt eps0 eta0 p (by omega) hd]
    congr 1; push_cast; ring

/-- No loss, no stretching. -/
def unity : PmlCoef := ⟨0, 1, 1, 1, 1⟩

section edges
variable {c : Cfg} (h : ValidCfg c) (a : Axis) (lines : Axis → Int → ℝ) (big : ℝ) (junk : EdgeArrays ℝ)
include h

theorem uniform_lo (hp : c.bt a.lo = .pml) :
    UniformLayer (initCellEdges c a (lines a) big junk).de (initCellEdges c a (lines a) big junk).dh
      (c.gobox a.lo) (c.gibox a.lo - 1) (C22.faceCell c lines a.lo) := by
  have fx := cfg_facts h a
  have off := C07.inner_offset c a
  have hn := h.cells a
  have hl := h.pml _ hp
  have e : ∀ i, c.gobox a.lo - 1 ≤ i → i ≤ c.gibox a.lo - 1 →
      (initCellEdges c a (lines a) big junk).de i = C22.faceCell c lines a.lo := by
    intro i h1 h2
    rw [C18.edge_lengths c h a (lines a) big junk i h1 (by omega)]
    unfold C18.cellSize C18.nearestCell C22.faceCell
    have e : max 0 (min ((c.n a : Int) - 1) (i - c.gibox a.lo)) = 0 := by omega
    rw [e]
    cases a <;> simp [Axis.lo, Face.isLo, Face.axis]
  intro i h1 h2
  refine ⟨e i (by omega) h2, ?_⟩
  rw [C18.dual_edges c h a (lines a) big junk i h1 (by omega), e i (by omega) h2, e (i - 1) (by omega) (by omega)]
  ring

theorem uniform_hi (hp : c.bt a.hi = .pml) :
    UniformLayer (initCellEdges c a (lines a) big junk).de (initCellEdges c a (lines a) big junk).dh
      (c.gibox a.hi) (c.gobox a.hi - 1) (C22.faceCell c lines a.hi) := by
  have fx := cfg_facts h a
  have off := C07.inner_offset c a
  have hn := h.cells a
  have hl := h.pml _ hp
  have e : ∀ i, c.gibox a.hi - 1 ≤ i → i ≤ c.gobox a.hi →
      (initCellEdges c a (lines a) big junk).de i = C22.faceCell c lines a.hi := by
    intro i h1 h2
    rw [C18.edge_lengths c h a (lines a) big junk i (by omega) h2]
    unfold C18.cellSize C18.nearestCell C22.faceCell
    have e : max 0 (min ((c.n a : Int) - 1) (i - c.gibox a.lo)) = c.n a - 1 := by omega
    rw [e]
    cases a <;> simp [Axis.hi, Face.isLo, Face.axis]
  intro i h1 h2
  refine ⟨e i (by omega) (by omega), ?_⟩
  rw [C18.dual_edges c h a (lines a) big junk i (by omega) (by omega), e i (by omega) (by omega), e (i - 1) (by omega) (by omega)]
  ring

/-- **C23, grading.** The coefficient arrays of one axis after set-up: polynomial grading in the depth of
the sample inside the layer (whole positions for `ad`, `bd`, `ibd`; half positions for `ah`, `bh`,
`ibh`), no loss inside the user's mesh. -/
theorem grading (par : Face → PmlParams) (jp : PmlArrays) (hlo : C22.faceCell c lines a.lo ≠ 0)
    (hhi : C22.faceCell c lines a.hi ≠ 0) :
    let E := initCellEdges c a (lines a) big junk
    let A := setPmlParameters dt eps0 eta0 c a E.de E.dh par jp
    (∀ i : Int, c.gobox a.lo ≤ i → i < c.gibox a.lo →
      A.node i = graded dt eps0 eta0 (par a.lo) (c.layers a.lo) (C22.faceCell c lines a.lo) (layerDepth c a.lo i) ∧
      A.half i = graded dt eps0 eta0 (par a.lo) (c.layers a.lo) (C22.faceCell c lines a.lo) (layerDepth c a.lo (i + 1 / 2))) ∧
    (∀ i : Int, c.gibox a.lo ≤ i → i < c.gibox a.hi → A.node i = unity ∧ A.half i = unity) ∧
    (∀ i : Int, c.bt a.hi ≠ .pml → i = c.gibox a.hi → A.node i = unity) ∧
    (∀ i : Int, c.bt a.hi = .pml → c.gibox a.hi ≤ i → i ≤ c.gobox a.hi →
      A.node i = graded dt eps0 eta0 (par a.hi) (c.layers a.hi) (C22.faceCell c lines a.hi) (layerDepth c a.hi i)) ∧
    (∀ i : Int, c.gibox a.hi ≤ i → i < c.gobox a.hi →
      A.half i = graded dt eps0 eta0 (par a.hi) (c.layers a.hi) (C22.faceCell c lines a.hi) (layerDepth c a.hi (i + 1 / 2))) := by
  intro E A
  have fx := cfg_facts h a
  have off := C07.inner_offset c a
  have hoth := h.other
  have hpml := h.pml
  have lo_isLo : a.lo.isLo = true := by cases a <;> rfl
  have hi_isLo : a.hi.isLo = false := by cases a <;> rfl
  have plo : c.gobox a.lo < c.gibox a.lo → c.bt a.lo = .pml := by
    intro hh; by_contra hne; have := hoth _ hne; omega
  have phi : c.gibox a.hi < c.gobox a.hi → c.bt a.hi = .pml := by
    intro hh; by_contra hne; have := hoth _ hne; omega
  have e1 : c.gibox a.lo - 1 + 1 - c.gobox a.lo = c.layers a.lo := by omega
  have e2 : c.gobox a.hi - 1 + 1 - c.gibox a.hi = c.layers a.hi := by omega
  let A0 : PmlArrays := ⟨jp.node.fill (c.gobox a.lo - 1) (c.gobox a.hi) fun _ _ => unity,
    jp.half.fill (c.gobox a.lo - 1) (c.gobox a.hi) fun _ _ => unity⟩
  have A0n : ∀ i, c.gobox a.lo - 1 ≤ i → i ≤ c.gobox a.hi → A0.node i = unity ∧ A0.half i = unity := by
    intro i h1 h2
    exact ⟨by simp only [A0]; rw [C18.fill_apply, if_pos ⟨h1, h2⟩], by simp only [A0]; rw [C18.fill_apply, if_pos ⟨h1, h2⟩]⟩
  obtain ⟨A1, hA1⟩ : ∃ A1, A1 = if c.bt a.lo = .pml then
      setProfile dt eps0 eta0 E.de E.dh (c.gobox a.lo) (c.gibox a.lo - 1) false (par a.lo) A0 else A0 := ⟨_, rfl⟩
  have hA : A = if c.bt a.hi = .pml then
    setProfile dt eps0 eta0 E.de E.dh (c.gibox a.hi) (c.gobox a.hi - 1) true (par a.hi) A1 else A1 := by
    rw [hA1]; rfl
  have A1lo : ∀ i : Int, c.gobox a.lo ≤ i → i < c.gibox a.lo →
      A1.node i = graded dt eps0 eta0 (par a.lo) (c.layers a.lo) (C22.faceCell c lines a.lo) (layerDepth c a.lo i) ∧
      A1.half i = graded dt eps0 eta0 (par a.lo) (c.layers a.lo) (C22.faceCell c lines a.lo) (layerDepth c a.lo (i + 1 / 2)) := by
    intro i h1 h2
    have hp := plo (by omega)
    rw [hA1, if_pos hp, setProfile_down dt eps0 eta0 _ _ _ _ _ (by omega) hlo (uniform_lo h a lines big junk hp), e1]
    simp only
    rw [if_pos ⟨h1, by omega⟩, if_pos ⟨h1, by omega⟩]
    unfold layerDepth
    rw [lo_isLo]
    simp
  have A1in : ∀ i, c.gibox a.lo ≤ i → i ≤ c.gobox a.hi → A1.node i = unity ∧ A1.half i = unity := by
    intro i h1 h2
    by_cases hp : c.bt a.lo = .pml
    · rw [hA1, if_pos hp, setProfile_down dt eps0 eta0 _ _ _ _ _ (by have := hpml _ hp; omega) hlo
        (uniform_lo h a lines big junk hp)]
      simp only
      rw [if_neg (by omega), if_neg (by omega)]
      exact A0n i (by omega) h2
    · rw [hA1, if_neg hp]
      exact A0n i (by omega) h2
  by_cases hp : c.bt a.hi = .pml
  · have hu := setProfile_up dt eps0 eta0 (par a.hi) E.de E.dh (c.gibox a.hi) (c.gobox a.hi - 1)
      (by have := hpml _ hp; omega) hhi (uniform_hi h a lines big junk hp) A1
    rw [e2] at hu
    rw [if_pos hp, hu] at hA
    have An : ∀ i, A.node i = if c.gibox a.hi ≤ i ∧ i ≤ c.gobox a.hi - 1 + 1 then
        graded dt eps0 eta0 (par a.hi) (c.layers a.hi) (C22.faceCell c lines a.hi)
          (((i : ℝ) - c.gibox a.hi) / c.layers a.hi) else A1.node i := by
      intro i; rw [hA]
    have Ah : ∀ i, A.half i = if c.gibox a.hi ≤ i ∧ i ≤ c.gobox a.hi - 1 then
        graded dt eps0 eta0 (par a.hi) (c.layers a.hi) (C22.faceCell c lines a.hi)
          (((i : ℝ) + 1 / 2 - c.gibox a.hi) / c.layers a.hi) else A1.half i := by
      intro i; rw [hA]
    refine ⟨fun i h1 h2 => ?_, fun i h1 h2 => ?_, fun i hne => absurd hp hne, fun i _ h1 h2 => ?_, fun i h1 h2 => ?_⟩
    · rw [An, Ah, if_neg (by omega), if_neg (by omega)]
      exact A1lo i h1 h2
    · rw [An, Ah, if_neg (by omega), if_neg (by omega)]
      exact A1in i h1 (by omega)
    · rw [An, if_pos ⟨h1, by omega⟩]
      unfold layerDepth
      rw [hi_isLo]
      simp
    · rw [Ah, if_pos ⟨h1, by omega⟩]
      unfold layerDepth
      rw [hi_isLo]
      simp
  · rw [if_neg hp] at hA
    refine ⟨fun i h1 h2 => ?_, fun i h1 h2 => ?_, fun i _ h1 => ?_, fun i h1 => absurd h1 hp, fun i h1 h2 => ?_⟩
    · rw [hA]; exact A1lo i h1 h2
    · rw [hA]; exact A1in i h1 (by omega)
    · rw [hA]; exact (A1in i (by omega) (by omega)).1
    · exact absurd (phi (by omega)) hp

end edges

end profile

/-! ### Bounds -/

/-- Physically meaningful layer parameters. -/
structure Sane (dt eps0 eta0 : ℝ) (p : PmlParams) (N : Int) (d : ℝ) : Prop where
  dt : 0 ≤ dt
  eps0 : 0 < eps0
  eta0 : 0 < eta0
  neff : 0 < p.nEff
  ref : p.refCoeff ≤ 1
  kmax : 1 ≤ p.kmax
  layers : 1 ≤ N
  cell : 0 < d

section bounds
variable {dt eps0 eta0 : ℝ} {p : PmlParams} {N : Int} {d : ℝ}

theorem sigmaMax_nonneg (h : Sane dt eps0 eta0 p N d) : 0 ≤ sigmaMax eta0 p N d := by
  have hN : (0 : ℝ) < N := by exact_mod_cast h.layers
  have := h.eta0; have := h.neff; have := h.cell
  unfold sigmaMax
  split
  · rename_i hr
    have hl : Real.log p.refCoeff ≤ 0 := Real.log_nonpos hr.le h.ref
    rw [neg_div, neg_mul]
    have : 0 ≤ ((p.order : ℝ) + 1) / (2 * eta0 * p.nEff * (N * d)) := by positivity
    nlinarith
  · positivity

/-- The conductivity grows from zero at the inner interface, monotonically. -/
theorem loss_monotone (h : Sane dt eps0 eta0 p N d) {x y : ℝ} (hx : 0 ≤ x) (hxy : x ≤ y) :
    0 ≤ loss dt eps0 eta0 p N d x ∧ loss dt eps0 eta0 p N d x ≤ loss dt eps0 eta0 p N d y := by
  have hs := sigmaMax_nonneg h
  have h1 := h.dt; have h2 := h.eps0
  have hpow : x ^ p.order ≤ y ^ p.order := pow_le_pow_left₀ hx hxy _
  have hc : 0 ≤ dt / (2 * eps0) := by positivity
  unfold loss
  exact ⟨by positivity, mul_le_mul_of_nonneg_left (mul_le_mul_of_nonneg_left hpow hs) hc⟩

theorem loss_zero (ho : 1 ≤ p.order) : loss dt eps0 eta0 p N d 0 = 0 ∧ stretch p 0 = 1 := by
  have : p.order ≠ 0 := by omega
  simp [loss, stretch, this]

/-- The conductivity is positive inside the layer unless the nominal reflection is one. -/
theorem loss_pos (h : Sane dt eps0 eta0 p N d) (hdt : 0 < dt) (hr : p.refCoeff < 1) {x : ℝ} (hx : 0 < x) :
    0 < loss dt eps0 eta0 p N d x := by
  have hN : (0 : ℝ) < N := by exact_mod_cast h.layers
  have := h.eta0; have := h.neff; have := h.cell; have := h.eps0
  have hs : 0 < sigmaMax eta0 p N d := by
    unfold sigmaMax
    split
    · rename_i hr'
      have hl : Real.log p.refCoeff < 0 := Real.log_neg hr' hr
      rw [neg_div, neg_mul]
      have : 0 < ((p.order : ℝ) + 1) / (2 * eta0 * p.nEff * (N * d)) := by positivity
      nlinarith
    · positivity
  unfold loss
  positivity

theorem stretch_ge (h : Sane dt eps0 eta0 p N d) {x : ℝ} (hx : 0 ≤ x) : 1 ≤ stretch p x := by
  unfold stretch
  have := h.kmax
  have : 0 ≤ (p.kmax - 1) * x ^ p.order := mul_nonneg (by linarith) (pow_nonneg hx _)
  linarith

/-- Coefficients that do not amplify. -/
def Damping (q : PmlCoef) : Prop := |q.a| ≤ 1 ∧ 0 < q.b ∧ q.b ≤ 1 ∧ 1 ≤ q.ib

theorem unity_damping : Damping unity := by unfold Damping unity; norm_num

theorem coef_damping {s k : ℝ} (hs : 0 ≤ s) (hk : 1 ≤ k) : Damping (pmlCoef s k) := by
  have hpos : 0 < k + s := by linarith
  refine ⟨?_, ?_, ?_, ?_⟩
  · simp only [pmlCoef]
    rw [abs_div, abs_of_pos hpos, div_le_one hpos, abs_le]
    constructor <;> linarith
  · simp only [pmlCoef]; positivity
  · simp only [pmlCoef]
    rw [div_le_one hpos]; linarith
  · simp only [pmlCoef]; linarith

theorem graded_damping (h : Sane dt eps0 eta0 p N d) {x : ℝ} (hx : 0 ≤ x) : Damping (graded dt eps0 eta0 p N d x) :=
  coef_damping (loss_monotone h hx le_rfl).1 (stretch_ge h hx)

end bounds

/-- **C23, no amplification.** With physically meaningful parameters every coefficient computed by the
set-up code, on the whole grid, satisfies `|a| ≤ 1` and `0 < b ≤ 1`. -/
theorem never_amplifies {c : Cfg} (h : ValidCfg c) (a : Axis) (lines : Axis → Int → ℝ) (big : ℝ) (junk : EdgeArrays ℝ)
    (dt eps0 eta0 : ℝ) (par : Face → PmlParams) (jp : PmlArrays)
    (hs : ∀ f, f.axis = a → c.bt f = .pml → Sane dt eps0 eta0 (par f) (c.layers f) (C22.faceCell c lines f))
    (hcell : ∀ f, f.axis = a → C22.faceCell c lines f ≠ 0) (i : Int) :
    let E := initCellEdges c a (lines a) big junk
    let A := setPmlParameters dt eps0 eta0 c a E.de E.dh par jp
    (c.gobox a.lo ≤ i → i ≤ c.gobox a.hi → Damping (A.node i)) ∧
    (c.gobox a.lo ≤ i → i < c.gobox a.hi → Damping (A.half i)) := by
  intro E A
  obtain ⟨g1, g2, g3, g4, g5⟩ := grading dt eps0 eta0 h a lines big junk par jp
    (hcell a.lo (by cases a <;> rfl)) (hcell a.hi (by cases a <;> rfl))
  have fx := cfg_facts h a
  have off := C07.inner_offset c a
  have lo_isLo : a.lo.isLo = true := by cases a <;> rfl
  have hi_isLo : a.hi.isLo = false := by cases a <;> rfl
  have plo : c.gobox a.lo < c.gibox a.lo → c.bt a.lo = .pml := by
    intro hh; by_contra hne; have := h.other _ hne; omega
  have phi : c.gibox a.hi < c.gobox a.hi → c.bt a.hi = .pml := by
    intro hh; by_contra hne; have := h.other _ hne; omega
  have slo := fun hp => hs a.lo (by cases a <;> rfl) hp
  have shi := fun hp => hs a.hi (by cases a <;> rfl) hp
  have dlo : ∀ y : ℝ, y ≤ c.gibox a.lo → c.bt a.lo = .pml → 0 ≤ layerDepth c a.lo y := by
    intro y hy hp
    unfold layerDepth
    rw [lo_isLo]
    have : (0 : ℝ) ≤ c.layers a.lo := by exact_mod_cast (by have := h.pml _ hp; omega : (0 : Int) ≤ c.layers a.lo)
    simp only [if_true]
    exact div_nonneg (by linarith) this
  have dhi : ∀ y : ℝ, (c.gibox a.hi : ℝ) ≤ y → c.bt a.hi = .pml → 0 ≤ layerDepth c a.hi y := by
    intro y hy hp
    unfold layerDepth
    rw [hi_isLo]
    have : (0 : ℝ) ≤ c.layers a.hi := by exact_mod_cast (by have := h.pml _ hp; omega : (0 : Int) ≤ c.layers a.hi)
    simp only [Bool.false_eq_true, if_false]
    exact div_nonneg (by linarith) this
  constructor
  · intro h1 h2
    by_cases l1 : i < c.gibox a.lo
    · have hp := plo (by omega)
      rw [(g1 i h1 l1).1]
      exact graded_damping (slo hp) (dlo i (by exact_mod_cast l1.le) hp)
    · by_cases l2 : i < c.gibox a.hi
      · rw [(g2 i (by omega) l2).1]; exact unity_damping
      · by_cases hp : c.bt a.hi = .pml
        · rw [g4 i hp (by omega) h2]
          exact graded_damping (shi hp) (dhi i (by exact_mod_cast (by omega : c.gibox a.hi ≤ i)) hp)
        · have : c.gibox a.hi = c.gobox a.hi := by have := h.other _ hp; omega
          rw [g3 i hp (by omega)]; exact unity_damping
  · intro h1 h2
    by_cases l1 : i < c.gibox a.lo
    · have hp := plo (by omega)
      rw [(g1 i h1 l1).2]
      refine graded_damping (slo hp) (dlo _ ?_ hp)
      have : (i : ℝ) + 1 ≤ c.gibox a.lo := by exact_mod_cast l1
      linarith
    · by_cases l2 : i < c.gibox a.hi
      · rw [(g2 i (by omega) l2).2]; exact unity_damping
      · have hp := phi (by omega)
        rw [g5 i (by omega) h2]
        refine graded_damping (shi hp) (dhi _ ?_ hp)
        have : (c.gibox a.hi : ℝ) ≤ i := by exact_mod_cast (by omega : c.gibox a.hi ≤ i)
        linarith

/-- The input is not checked: a nominal reflection coefficient above one gives a negative
conductivity, and the layer amplifies. -/
theorem reflection_above_one_amplifies {dt eps0 eta0 : ℝ} (hdt : 0 < dt) (he : 0 < eps0) (heta : 0 < eta0)
    {p : PmlParams} (hn : 0 < p.nEff) (hr : 1 < p.refCoeff) (hk : p.kmax = 1) {N : Int} (hN : 1 ≤ N) {d : ℝ} (hd : 0 < d)
    {x : ℝ} (hx : 0 < x) (hsmall : -1 < loss dt eps0 eta0 p N d x) :
    loss dt eps0 eta0 p N d x < 0 ∧ 1 < (graded dt eps0 eta0 p N d x).a := by
  have hN' : (0 : ℝ) < N := by exact_mod_cast hN
  have hs : sigmaMax eta0 p N d < 0 := by
    unfold sigmaMax
    rw [if_pos (by linarith)]
    have hl : 0 < Real.log p.refCoeff := Real.log_pos hr
    rw [neg_div, neg_mul]
    have : 0 < ((p.order : ℝ) + 1) / (2 * eta0 * p.nEff * (N * d)) := by positivity
    nlinarith
  have hl : loss dt eps0 eta0 p N d x < 0 := by
    have h1 : 0 < dt / (2 * eps0) := by positivity
    have h2 : 0 < x ^ p.order := by positivity
    have := mul_neg_of_neg_of_pos hs h2
    unfold loss
    exact mul_neg_of_pos_of_neg h1 this
  refine ⟨hl, ?_⟩
  have hst : stretch p x = 1 := by unfold stretch; rw [hk]; ring
  simp only [graded, pmlCoef, hst]
  rw [lt_div_iff₀ (by linarith)]
  linarith

/-- The default layer (six cells, order four, optimum profile) is sane for any positive time step. -/
example : Sane 1 1 1 ⟨4, 1, -1, 1⟩ 6 1 := by constructor <;> norm_num

/-- The amplifying case exists. -/
example : ∃ (p : PmlParams) (x : ℝ), 1 < p.refCoeff ∧ 0 < x ∧ 1 < (graded 1 1 1 p 1 1 x).a := by
  refine ⟨⟨1, 1, Real.exp 1, 1⟩, 1 / 2, ?_, by norm_num, ?_⟩
  · simp only
    exact Real.one_lt_exp_iff.2 one_pos
  · refine (reflection_above_one_amplifies one_pos one_pos one_pos one_pos ?_ rfl le_rfl one_pos (by norm_num) ?_).2
    · exact Real.one_lt_exp_iff.2 one_pos
    · have hpos : Real.exp 1 > 0 := Real.exp_pos 1
      simp only [loss, sigmaMax, if_pos hpos, Real.log_exp]
      norm_num

end Vulture.C23
