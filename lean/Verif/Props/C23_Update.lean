import Verif.Props.C23_Pml
/- C23: the field updates in the absorbing layers. -/
set_option linter.unusedSimpArgs false
namespace Vulture.C23
open Spec C10
variable {K : Type*} [CommRing K] (C : CRef → K)

/-- Cyclic successors of an axis. -/
def nxt : Axis → Axis | .x => .y | .y => .z | .z => .x
def prv : Axis → Axis | .x => .z | .y => .x | .z => .y

/-- The discrete curl of the magnetic field at an electric sample. -/
def curlH (a : Axis) (i j k : Int) : Expr :=
  match a with
  | .x => curlHx (HZ i j k) (HZ i (j-1) k) (HY i j (k-1)) (HY i j k) i j k
  | .y => curlHy (HX i j k) (HX i j (k-1)) (HZ (i-1) j k) (HZ i j k) i j k
  | .z => curlHz (HY i j k) (HY (i-1) j k) (HX i (j-1) k) (HX i j k) i j k
/-- Minus the discrete curl of the electric field at a magnetic sample. -/
def curlE (a : Axis) (i j k : Int) : Expr :=
  match a with
  | .x => curlEx (EY i j (k+1)) (EY i j k) (EZ i j k) (EZ i (j+1) k) i j k
  | .y => curlEy (EZ (i+1) j k) (EZ i j k) (EX i j k) (EX i j (k+1)) i j k
  | .z => curlEz (EX i (j+1) k) (EX i j k) (EY i j k) (EY (i+1) j k) i j k

/-- The block that advances an electric sample of a layer. -/
def blockE (r : Face) (a : Axis) (lim : Face → Int) (i j k : Int) : Block :=
  match a with | .x => pmlExBlock r lim i j k | .y => pmlEyBlock r lim i j k | .z => pmlEzBlock r lim i j k
def blockH (r : Face) (a : Axis) (lim : Face → Int) (i j k : Int) : Block :=
  match a with | .x => pmlHxBlock r lim i j k | .y => pmlHyBlock r lim i j k | .z => pmlHzBlock r lim i j k

abbrev coreE := C22.coreE
abbrev coreH (c : Cfg) : Prog := updatePmlHfield c ++ updateMurHfield c ++ updateGridHfield c

theorem mem_blockE {c : Cfg} {r : Face} (hr : c.bt r = .pml) (a : Axis) {i j k : Int}
    (hi : InLim (c.fplim r a.e) i j k) : blockE r a (c.fplim r a.e) i j k ∈ updatePmlEfield c := by
  refine List.mem_flatMap.2 ⟨r, by cases r <;> simp [Face.all], ?_⟩
  unfold pmlRegionE
  rw [if_pos hr]
  simp only [List.mem_append]
  cases a
  · exact Or.inl (Or.inl (List.mem_map.2 ⟨(i, j, k), mem_boxLoop.2 hi, rfl⟩))
  · exact Or.inl (Or.inr (List.mem_map.2 ⟨(i, j, k), mem_boxLoop.2 hi, rfl⟩))
  · exact Or.inr (List.mem_map.2 ⟨(i, j, k), mem_boxLoop.2 hi, rfl⟩)

theorem mem_blockH {c : Cfg} {r : Face} (hr : c.bt r = .pml) (a : Axis) {i j k : Int}
    (hi : InLim (c.fplim r a.h) i j k) : blockH r a (c.fplim r a.h) i j k ∈ updatePmlHfield c := by
  refine List.mem_flatMap.2 ⟨r, by cases r <;> simp [Face.all], ?_⟩
  unfold pmlRegionH
  rw [if_pos hr]
  simp only [List.mem_append]
  cases a
  · exact Or.inl (Or.inl (List.mem_map.2 ⟨(i, j, k), mem_boxLoop.2 hi, rfl⟩))
  · exact Or.inl (Or.inr (List.mem_map.2 ⟨(i, j, k), mem_boxLoop.2 hi, rfl⟩))
  · exact Or.inr (List.mem_map.2 ⟨(i, j, k), mem_boxLoop.2 hi, rfl⟩)

/-- Mur and grid updates write field samples only. -/
theorem grid_fld (c : Cfg) {l : Loc} (hl : ∀ fc i j k, l ≠ .fld fc i j k) :
    NoWrite (updateMurEfield c) l ∧ NoWrite (updateGridEfield c) l := by
  constructor
  · refine NoWrite.flatMap fun f _ => ?_
    split
    · refine NoWrite.flatMap fun fc _ => NoWrite.loop fun i j k _ => ?_
      simp [murE, Block.writes, hl]
    · exact NoWrite.nil
  · unfold updateGridEfield
    exact ((NoWrite.loop fun i j k _ => by simp [Block.writes, hl]).append
      (NoWrite.loop fun i j k _ => by simp [Block.writes, hl])).append
      (NoWrite.loop fun i j k _ => by simp [Block.writes, hl])

theorem pml_count {c : Cfg} (h : ValidCfg c) {r : Face} (a : Axis) {i j k : Int}
    (hr : c.bt r = .pml) (hi : InLim (c.fplim r a.e) i j k) :
    NoWrite (updateMurEfield c) (.fld a.e i j k) ∧ NoWrite (updateGridEfield c) (.fld a.e i j k) := by
  have hf : a.e = .ex ∨ a.e = .ey ∨ a.e = .ez := by cases a <;> simp [Axis.e]
  have hc := C09.electric_exactly_once h a.e hf i j k
  rw [C09.tw_append, C09.tw_append] at hc
  have h1 : 1 ≤ timesWritten (updatePmlEfield c) (.fld a.e i j k) := by
    unfold timesWritten
    refine List.one_le_countP_iff.2 ⟨_, mem_blockE hr a hi, ?_⟩
    cases a <;> simp [blockE, pmlExBlock, pmlEyBlock, pmlEzBlock, Block.writes, Axis.e]
  constructor <;> apply noWrite_of_count <;> split at hc <;> omega

theorem valueE {c : Cfg} (h : ValidCfg c) {r : Face} (hr : c.bt r = .pml) (a : Axis) {i j k : Int}
    (hi : InLim (c.fplim r a.e) i j k) (s : Loc → K) {l : Loc}
    (hl : l ∈ (blockE r a (c.fplim r a.e) i j k).writes) :
    (coreE c).run C s l = (blockE r a (c.fplim r a.e) i j k).exec C s l := by
  have hno : NoWrite (updateMurEfield c) l ∧ NoWrite (updateGridEfield c) l := by
    by_cases hf : l = .fld a.e i j k
    · subst hf; exact pml_count h a hr hi
    · refine grid_fld c fun fc i' j' k' hh => hf ?_
      subst hh
      cases a <;> simp [blockE, pmlExBlock, pmlEyBlock, pmlEzBlock, Block.writes, PPr, Pr] at hl <;>
        simp [Axis.e, hl]
  change Prog.run C (updatePmlEfield c ++ updateMurEfield c ++ updateGridEfield c) s l = _
  rw [run_append, run_append, NoWrite.run C hno.2, NoWrite.run C hno.1]
  exact run_indep C (List.pairwise_append.1 (electric_independent h)).1 (mem_blockE hr a hi) hl

theorem valueH {c : Cfg} (h : ValidCfg c) {r : Face} (hr : c.bt r = .pml) (a : Axis) {i j k : Int}
    (hi : InLim (c.fplim r a.h) i j k) (s : Loc → K) {l : Loc}
    (hl : l ∈ (blockH r a (c.fplim r a.h) i j k).writes) :
    (coreH c).run C s l = (blockH r a (c.fplim r a.h) i j k).exec C s l :=
  run_indep C (magnetic_independent h)
    (List.mem_append_left _ (List.mem_append_left _ (mem_blockH hr a hi))) hl

/-- The sample, its two auxiliary values. -/
def ppL (c : Cfg) (r : Face) (a : Axis) (i j k : Int) : Loc := PPr r a.e (c.fplim r a.e) i j k
def pL (c : Cfg) (r : Face) (a : Axis) (i j k : Int) : Loc := Pr r a.e (c.fplim r a.e) i j k
def bL (c : Cfg) (r : Face) (a : Axis) (i j k : Int) : Loc := Br r a.h (c.fplim r a.h) i j k

/-- What one electric half step does in a layer. -/
theorem layer_electric {c : Cfg} (h : ValidCfg c) {r : Face} (hr : c.bt r = .pml) (a : Axis) {i j k : Int}
    (hi : InLim (c.fplim r a.e) i j k) (s : Loc → K) :
    let t := (coreE c).run C s
    let co := fun b : Axis => coord b (i, j, k)
    t (ppL c r a i j k) = C (.alpha a.e i j k) * s (ppL c r a i j k) +
      C (.beta a.e i j k) * (curlH a i j k).eval C s ∧
    t (pL c r a i j k) = C (.ad (nxt a) (co (nxt a))) * s (pL c r a i j k) +
      C (.bd (nxt a) (co (nxt a))) * (t (ppL c r a i j k) - s (ppL c r a i j k)) ∧
    t (.fld a.e i j k) = C (.ad (prv a) (co (prv a))) * s (.fld a.e i j k) +
      C (.bd (prv a) (co (prv a))) * (C (.ibh a (co a)) *
        (t (pL c r a i j k) - C (.ah a (co a)) * s (pL c r a i j k))) := by
  have e1 := valueE C h hr a hi s (l := ppL c r a i j k)
    (by cases a <;> simp [blockE, pmlExBlock, pmlEyBlock, pmlEzBlock, Block.writes, ppL, Axis.e])
  have e2 := valueE C h hr a hi s (l := pL c r a i j k)
    (by cases a <;> simp [blockE, pmlExBlock, pmlEyBlock, pmlEzBlock, Block.writes, pL, Axis.e])
  have e3 := valueE C h hr a hi s (l := .fld a.e i j k)
    (by cases a <;> simp [blockE, pmlExBlock, pmlEyBlock, pmlEzBlock, Block.writes, Axis.e])
  intro t co
  simp only [t, e1, e2, e3]
  cases a <;>
    simp [blockE, pmlExBlock, pmlEyBlock, pmlEzBlock, Block.exec, ppL, pL, PPr, Pr, Axis.e, List.find?, Expr.eval,
      nxt, prv, co, coord, curlH, EX, EY, EZ]

theorem layer_magnetic {c : Cfg} (h : ValidCfg c) {r : Face} (hr : c.bt r = .pml) (a : Axis) {i j k : Int}
    (hi : InLim (c.fplim r a.h) i j k) (s : Loc → K) :
    let t := (coreH c).run C s
    let co := fun b : Axis => coord b (i, j, k)
    t (bL c r a i j k) = C (.ah (nxt a) (co (nxt a))) * s (bL c r a i j k) +
      C (.gamma a.h i j k) * (C (.bh (nxt a) (co (nxt a))) * (curlE a i j k).eval C s) ∧
    t (.fld a.h i j k) = C (.ah (prv a) (co (prv a))) * s (.fld a.h i j k) +
      C (.bh (prv a) (co (prv a))) * (C (.ibd a (co a)) *
        (t (bL c r a i j k) - C (.ad a (co a)) * s (bL c r a i j k))) := by
  have e1 := valueH C h hr a hi s (l := bL c r a i j k)
    (by cases a <;> simp [blockH, pmlHxBlock, pmlHyBlock, pmlHzBlock, Block.writes, bL, Axis.h])
  have e3 := valueH C h hr a hi s (l := .fld a.h i j k)
    (by cases a <;> simp [blockH, pmlHxBlock, pmlHyBlock, pmlHzBlock, Block.writes, Axis.h])
  intro t co
  simp only [t, e1, e3]
  cases a <;>
    simp [blockH, pmlHxBlock, pmlHyBlock, pmlHzBlock, Block.exec, bL, Br, Axis.h, List.find?, Expr.eval,
      nxt, prv, co, coord, curlE, HX, HY, HZ]

/-! ### Stretched equations -/

/-- The stored values belong to loss `g` and stretching `k`. -/
structure Consistent (q : PmlCoef) : Prop where
  ne : q.k + q.g ≠ 0
  b : q.b = 1 / (q.k + q.g)
  a : q.a = (q.k - q.g) / (q.k + q.g)
  ib : q.ib = q.k + q.g

theorem consistent_unity : Consistent unity := by constructor <;> simp [unity]
theorem consistent_coef {s k : ℝ} (h : k + s ≠ 0) : Consistent (pmlCoef s k) := ⟨h, rfl, rfl, rfl⟩

/-- Every grading step with meaningful parameters is consistent. -/
theorem consistent_graded {dt eps0 eta0 : ℝ} {p : PmlParams} {N : Int} {d : ℝ} (h : Sane dt eps0 eta0 p N d) {x : ℝ}
    (hx : 0 ≤ x) : Consistent (graded dt eps0 eta0 p N d x) :=
  consistent_coef (by have := (loss_monotone h hx le_rfl).1; have := stretch_ge h hx; linarith)

/-- The coefficient arrays hold the given grading. -/
structure Holds (Cr : CRef → ℝ) (A : Axis → PmlArrays) : Prop where
  ad : ∀ b n, Cr (.ad b n) = ((A b).node n).a
  bd : ∀ b n, Cr (.bd b n) = ((A b).node n).b
  ibd : ∀ b n, Cr (.ibd b n) = ((A b).node n).ib
  ah : ∀ b n, Cr (.ah b n) = ((A b).half n).a
  bh : ∀ b n, Cr (.bh b n) = ((A b).half n).b
  ibh : ∀ b n, Cr (.ibh b n) = ((A b).half n).ib

/-- **C23, electric equations of the layer.** With the intermediate quantities `PP` and `P`, the update is
the centred discretisation of `PP` obeying the ordinary Ampère law, of
`κ₁ ∂P/∂t + (σ₁/ε₀) P = ∂PP/∂t` and of `κ₂ ∂E/∂t + (σ₂/ε₀) E = κ₃ ∂P/∂t + (σ₃/ε₀) P`, where the three
gradings belong to the three axes at the sample's position (whole positions along the two axes normal
to the component, half position along its own axis). `g = σ dt / (2 ε₀)`. -/
theorem stretched_electric (Cr : CRef → ℝ) {A : Axis → PmlArrays} (hA : Holds Cr A) {c : Cfg} (h : ValidCfg c) {r : Face}
    (hr : c.bt r = .pml) (a : Axis) {i j k : Int} (hi : InLim (c.fplim r a.e) i j k)
    (h1 : Consistent ((A (nxt a)).node (coord (nxt a) (i, j, k))))
    (h2 : Consistent ((A (prv a)).node (coord (prv a) (i, j, k))))
    (h3 : Consistent ((A a).half (coord a (i, j, k)))) (s : Loc → ℝ) :
    let t := (coreE c).run Cr s
    let c1 := (A (nxt a)).node (coord (nxt a) (i, j, k))
    let c2 := (A (prv a)).node (coord (prv a) (i, j, k))
    let c3 := (A a).half (coord a (i, j, k))
    t (ppL c r a i j k) = Cr (.alpha a.e i j k) * s (ppL c r a i j k) +
      Cr (.beta a.e i j k) * (curlH a i j k).eval Cr s ∧
    c1.k * (t (pL c r a i j k) - s (pL c r a i j k)) + c1.g * (t (pL c r a i j k) + s (pL c r a i j k)) =
      t (ppL c r a i j k) - s (ppL c r a i j k) ∧
    c2.k * (t (.fld a.e i j k) - s (.fld a.e i j k)) + c2.g * (t (.fld a.e i j k) + s (.fld a.e i j k)) =
      c3.k * (t (pL c r a i j k) - s (pL c r a i j k)) + c3.g * (t (pL c r a i j k) + s (pL c r a i j k)) := by
  intro t c1 c2 c3
  obtain ⟨e1, e2, e3⟩ := layer_electric Cr h hr a hi s
  refine ⟨e1, ?_, ?_⟩
  · rw [hA.ad, hA.bd, h1.a, h1.b] at e2
    have hne := h1.ne
    change t _ = _ + _ * (t _ - _) at e2
    change c1.k + c1.g ≠ 0 at hne
    change t _ = (c1.k - c1.g) / (c1.k + c1.g) * _ + 1 / (c1.k + c1.g) * (t _ - _) at e2
    field_simp at e2
    linear_combination e2
  · rw [hA.ad, hA.bd, hA.ibh, hA.ah, h2.a, h2.b, h3.a, h3.ib] at e3
    have hne := h2.ne
    have hne3 := h3.ne
    change c2.k + c2.g ≠ 0 at hne
    change c3.k + c3.g ≠ 0 at hne3
    change t _ = (c2.k - c2.g) / (c2.k + c2.g) * _ + 1 / (c2.k + c2.g) *
      ((c3.k + c3.g) * (t _ - (c3.k - c3.g) / (c3.k + c3.g) * _)) at e3
    field_simp at e3
    linear_combination e3

/-- **C23, magnetic equations of the layer.** -/
theorem stretched_magnetic (Cr : CRef → ℝ) {A : Axis → PmlArrays} (hA : Holds Cr A) {c : Cfg} (h : ValidCfg c) {r : Face}
    (hr : c.bt r = .pml) (a : Axis) {i j k : Int} (hi : InLim (c.fplim r a.h) i j k)
    (h1 : Consistent ((A (nxt a)).half (coord (nxt a) (i, j, k))))
    (h2 : Consistent ((A (prv a)).half (coord (prv a) (i, j, k))))
    (h3 : Consistent ((A a).node (coord a (i, j, k)))) (s : Loc → ℝ) :
    let t := (coreH c).run Cr s
    let c1 := (A (nxt a)).half (coord (nxt a) (i, j, k))
    let c2 := (A (prv a)).half (coord (prv a) (i, j, k))
    let c3 := (A a).node (coord a (i, j, k))
    c1.k * (t (bL c r a i j k) - s (bL c r a i j k)) + c1.g * (t (bL c r a i j k) + s (bL c r a i j k)) =
      Cr (.gamma a.h i j k) * (curlE a i j k).eval Cr s ∧
    c2.k * (t (.fld a.h i j k) - s (.fld a.h i j k)) + c2.g * (t (.fld a.h i j k) + s (.fld a.h i j k)) =
      c3.k * (t (bL c r a i j k) - s (bL c r a i j k)) + c3.g * (t (bL c r a i j k) + s (bL c r a i j k)) := by
  intro t c1 c2 c3
  obtain ⟨e2, e3⟩ := layer_magnetic Cr h hr a hi s
  refine ⟨?_, ?_⟩
  · rw [hA.ah, hA.bh, h1.a, h1.b] at e2
    have hne := h1.ne
    change c1.k + c1.g ≠ 0 at hne
    change t _ = (c1.k - c1.g) / (c1.k + c1.g) * _ + _ * (1 / (c1.k + c1.g) * _) at e2
    field_simp at e2
    linear_combination e2
  · rw [hA.ah, hA.bh, hA.ibd, hA.ad, h2.a, h2.b, h3.a, h3.ib] at e3
    have hne := h2.ne
    have hne3 := h3.ne
    change c2.k + c2.g ≠ 0 at hne
    change c3.k + c3.g ≠ 0 at hne3
    change t _ = (c2.k - c2.g) / (c2.k + c2.g) * _ + 1 / (c2.k + c2.g) *
      ((c3.k + c3.g) * (t _ - (c3.k - c3.g) / (c3.k + c3.g) * _)) at e3
    field_simp at e3
    linear_combination e3

/-! ### Without loss the layer is ordinary space -/

/-- All grading coefficients are one. -/
def LossFree : Prop := ∀ b n, C (.ad b n) = 1 ∧ C (.bd b n) = 1 ∧ C (.ibd b n) = 1 ∧
  C (.ah b n) = 1 ∧ C (.bh b n) = 1 ∧ C (.ibh b n) = 1

/-- The outer intermediate quantity of every layer sample equals the field. -/
def Tracks (c : Cfg) (s : Loc → K) : Prop :=
  ∀ r, c.bt r = .pml → ∀ (a : Axis) (i j k : Int), InLim (c.fplim r a.e) i j k →
    s (ppL c r a i j k) = s (.fld a.e i j k)

theorem lossfree_electric (hC : LossFree C) {c : Cfg} (h : ValidCfg c) {r : Face} (hr : c.bt r = .pml) (a : Axis)
    {i j k : Int} (hi : InLim (c.fplim r a.e) i j k) (s : Loc → K)
    (hs : s (ppL c r a i j k) = s (.fld a.e i j k)) :
    (coreE c).run C s (.fld a.e i j k) = (ampere a.e i j k).eval C s ∧
    (coreE c).run C s (ppL c r a i j k) = (coreE c).run C s (.fld a.e i j k) := by
  obtain ⟨e1, e2, e3⟩ := layer_electric C h hr a hi s
  obtain ⟨n1, n2, -, -, -, -⟩ := hC (nxt a) (coord (nxt a) (i, j, k))
  obtain ⟨p1, p2, -, -, -, -⟩ := hC (prv a) (coord (prv a) (i, j, k))
  obtain ⟨-, -, -, a1, -, a2⟩ := hC a (coord a (i, j, k))
  rw [n1, n2] at e2
  rw [p1, p2, a1, a2] at e3
  have key : (coreE c).run C s (.fld a.e i j k) = (coreE c).run C s (ppL c r a i j k) := by
    rw [e3]
    linear_combination e2 - hs
  refine ⟨?_, key.symm⟩
  rw [key, e1, hs]
  cases a <;> simp [ampere, ampereX, ampereY, ampereZ, Axis.e, Expr.eval, curlH, EX, EY, EZ]

theorem lossfree_magnetic (hC : LossFree C) {c : Cfg} (h : ValidCfg c) {r : Face} (hr : c.bt r = .pml) (a : Axis)
    {i j k : Int} (hi : InLim (c.fplim r a.h) i j k) (s : Loc → K) :
    (coreH c).run C s (.fld a.h i j k) = (faraday a.h i j k).eval C s := by
  obtain ⟨e2, e3⟩ := layer_magnetic C h hr a hi s
  obtain ⟨-, -, -, n1, n2, -⟩ := hC (nxt a) (coord (nxt a) (i, j, k))
  obtain ⟨-, -, -, p1, p2, -⟩ := hC (prv a) (coord (prv a) (i, j, k))
  obtain ⟨a2, -, a1, -, -, -⟩ := hC a (coord a (i, j, k))
  rw [n1, n2] at e2
  rw [p1, p2, a1, a2] at e3
  rw [e3, e2]
  cases a <;> simp [faraday, faradayX, faradayY, faradayZ, Axis.h, Expr.eval, curlE, HX, HY, HZ]

/-- Samples of the layers are field samples inside the outer grid. -/
theorem layer_inside {c : Cfg} (h : ValidCfg c) {r : Face} {fc : Fc} {i j k : Int} (hi : InLim (c.fplim r fc) i j k) :
    SampleIn c.gobox fc i j k := by
  unfold Cfg.fplim at hi
  exact sampleIn_mono (pbox_within h r) ((C19.inLim_iff_contains _ _ _ _ _ _).1 hi).1

/-- No extra update (Debye block, internal surface, source, plane wave) acts on the electric field in
the layers. -/
def LayersUndisturbed (S : Sim) : Prop :=
  ∀ r, S.cfg.bt r = .pml → ∀ (a : Axis) (i j k : Int), InLim (S.cfg.fplim r a.e) i j k →
    NoWrite (C22.extrasE S) (.fld a.e i j k)

section pp
variable (r : Face) (fc : Fc) (i j k : Int)

theorem noPP_extrasE (S : Sim) : NoWrite (C22.extrasE S) (.pp r fc i j k) := by
  unfold C22.extrasE
  refine NoWrite.append (NoWrite.append (NoWrite.append ?_ ?_) ?_) ?_
  · refine NoWrite.flatMap fun x _ => NoWrite.flatMap fun fc' h' => NoWrite.loop fun i' j' k' _ => ?_
    intro h
    simp only [debyeBlock, Block.writes, List.map_cons, List.mem_cons, reduceCtorEq, false_or,
      List.mem_map, List.mem_flatMap, List.not_mem_nil, or_false] at h
    rcases h with ⟨a, ⟨m, _, rfl | rfl⟩, h⟩ <;> cases h
  · refine NoWrite.flatMap fun x _ => NoWrite.loop fun i' j' k' _ => ?_
    intro h
    simp only [sibcEBlock, Block.writes, List.map_append, List.mem_append, List.map_cons, List.map_nil,
      List.mem_cons, List.not_mem_nil, or_false, false_or, List.mem_map, List.mem_flatMap, fldAt, reduceCtorEq] at h
    rcases h with ⟨a, ⟨m, _, rfl⟩, h⟩ | ⟨a, ⟨p, _, q, _, rfl | ⟨m, _, rfl | rfl⟩⟩, h⟩ <;> cases h
  · refine NoWrite.flatMap fun x _ => ?_
    split
    · refine NoWrite.loop fun i' j' k' _ => ?_
      intro h
      unfold srcEBlock at h
      split at h <;> simp [Block.writes] at h
    · exact NoWrite.nil
  · refine NoWrite.flatMap fun x _ => NoWrite.append ?_ ?_
    · split
      · intro b hb
        simp only [auxE, List.mem_append, List.mem_map] at hb
        rcases hb with (⟨_, _, rfl⟩ | ⟨_, _, rfl⟩) | hb
        · simp [Block.writes]
        · simp [Block.writes]
        · simp at hb; subst hb; simp [Block.writes]
      · exact NoWrite.nil
    · refine NoWrite.flatMap fun r hr => ?_
      split
      · exact NoWrite.loop fun i' j' k' _ => by simp [pwEBlock, Block.writes]
      · exact NoWrite.nil

theorem noPP_extrasH (S : Sim) :
    NoWrite (updateSibcH S.sibc ++ updateSourcesH S.srcs ++ updatePlaneWavesH S.cfg S.pws) (.pp r fc i j k) := by
  refine NoWrite.append (NoWrite.append ?_ ?_) ?_
  · refine NoWrite.append ?_ ?_
    · refine NoWrite.flatMap fun x _ => NoWrite.loop fun i' j' k' _ => ?_
      intro h
      obtain ⟨s, n⟩ := x
      obtain ⟨nrm, g, np⟩ := s
      cases nrm <;> simp [sibcHBlock, Block.writes, sibcCorr, sibcAdj, fldAt] at h
    · refine NoWrite.flatMap fun x _ => NoWrite.loop fun i' j' k' _ => ?_
      intro h
      simp [Block.writes, fldAt] at h
  · refine NoWrite.flatMap fun x _ => ?_
    split
    · refine NoWrite.loop fun i' j' k' _ => ?_
      intro h
      unfold srcHBlock at h
      split at h <;> simp [Block.writes] at h
    · exact NoWrite.nil
  · refine NoWrite.flatMap fun x _ => NoWrite.append ?_ ?_
    · split
      · intro b hb
        simp only [auxH, List.mem_append, List.mem_map] at hb
        rcases hb with ⟨_, _, rfl⟩ | ⟨_, _, rfl⟩ <;> simp [Block.writes]
      · exact NoWrite.nil
    · refine NoWrite.flatMap fun r hr => ?_
      split
      · exact NoWrite.loop fun i' j' k' _ => by simp [pwHBlock, Block.writes]
      · exact NoWrite.nil

end pp

theorem noWrite_ppH (c : Cfg) (r : Face) (fc : Fc) (i j k : Int) : NoWrite (coreH c) (.pp r fc i j k) := by
  unfold coreH updatePmlHfield updateMurHfield updateGridHfield
  refine NoWrite.append (NoWrite.append (NoWrite.flatMap fun r' _ => ?_) (NoWrite.flatMap fun r' _ => ?_)) ?_
  · unfold pmlRegionH
    split
    · refine NoWrite.append (NoWrite.append ?_ ?_) ?_ <;> refine NoWrite.loop fun i j k _ => ?_ <;>
        simp [pmlHxBlock, pmlHyBlock, pmlHzBlock, Block.writes, Br]
    · exact NoWrite.nil
  · split
    · exact NoWrite.loop fun i j k _ => by simp [Block.writes]
    · exact NoWrite.nil
  · refine NoWrite.append (NoWrite.append ?_ ?_) ?_ <;> exact NoWrite.loop fun i j k _ => by simp [Block.writes]

theorem noWrite_ppGhost (c : Cfg) (comps : Face → List Fc) (r : Face) (fc : Fc) (i j k : Int) :
    NoWrite (Face.all.flatMap fun f => ghostFace c (comps f) f) (.pp r fc i j k) := by
  refine NoWrite.flatMap fun f _ => ?_
  intro b hb
  unfold ghostFace at hb
  split at hb
  · cases hb
  · cases hb
  · obtain ⟨q, hq, hb⟩ := List.mem_flatMap.1 hb
    obtain ⟨fc', h', rfl⟩ := List.mem_map.1 hb
    simp [Block.writes, fldAt]

/-- Programs of the magnetic half step other than the core and the ghost copies. -/
def extrasH (S : Sim) : Prog :=
  updateSibcH S.sibc ++ updateSourcesH S.srcs ++ updatePlaneWavesH S.cfg S.pws

theorem run3 (p q r : Prog) (s : Loc → K) : Prog.run C (p ++ (q ++ r)) s = Prog.run C (q ++ r) (Prog.run C p s) :=
  run_append C _ _ _

/-- **C23, loss-free layers.** With a loss-free grading and nothing else acting in the layers, started
from cleared arrays, every layer sample is advanced in every step by exactly the ordinary update:
the layers behave as plain continuation of the grid. -/
theorem lossfree_step (hC : LossFree C) (S : Sim) (h : ValidCfg S.cfg) (hu : LayersUndisturbed S)
    (s : Loc → K) (hs : Tracks S.cfg s) :
    Tracks S.cfg (S.step.run C s) ∧
    ∀ r, S.cfg.bt r = .pml → ∀ (a : Axis) (i j k : Int), InLim (S.cfg.fplim r a.e) i j k →
      S.step.run C s (.fld a.e i j k) = (ampere a.e i j k).eval C s := by
  have hE : S.stepE = coreE S.cfg ++ (C22.extrasE S ++ updateGhostEfield S.cfg) := by
    simp [Sim.stepE, C22.coreE, C22.extrasE, List.append_assoc]
  have hH : S.stepH = coreH S.cfg ++ (extrasH S ++ updateGhostHfield S.cfg) := by
    simp [Sim.stepH, coreH, extrasH, List.append_assoc]
  have vf : ∀ r, S.cfg.bt r = .pml → ∀ (a : Axis) (i j k : Int), InLim (S.cfg.fplim r a.e) i j k →
      S.step.run C s (.fld a.e i j k) = (coreE S.cfg).run C s (.fld a.e i j k) := by
    intro r hr a i j k hi
    unfold Sim.step
    rw [run_append, NoWrite.run C (noE_stepH (axis_e_isE a) i j k S), hE, run3,
      NoWrite.run C ((hu r hr a i j k hi).append (noWrite_ghostE h (layer_inside h hi)))]
  have vp : ∀ r, S.cfg.bt r = .pml → ∀ (a : Axis) (i j k : Int), InLim (S.cfg.fplim r a.e) i j k →
      S.step.run C s (ppL S.cfg r a i j k) = (coreE S.cfg).run C s (ppL S.cfg r a i j k) := by
    intro r hr a i j k hi
    unfold Sim.step
    have g1 : NoWrite (updateGhostHfield S.cfg) (ppL S.cfg r a i j k) := noWrite_ppGhost S.cfg ghostHcomps _ _ _ _ _
    have g2 : NoWrite (updateGhostEfield S.cfg) (ppL S.cfg r a i j k) := noWrite_ppGhost S.cfg ghostEcomps _ _ _ _ _
    have x1 : NoWrite (extrasH S) (ppL S.cfg r a i j k) := noPP_extrasH _ _ _ _ _ S
    have x2 : NoWrite (C22.extrasE S) (ppL S.cfg r a i j k) := noPP_extrasE _ _ _ _ _ S
    have x3 : NoWrite (coreH S.cfg) (ppL S.cfg r a i j k) := noWrite_ppH S.cfg _ _ _ _ _
    rw [run_append, hH, run3, NoWrite.run C (x1.append g1), NoWrite.run C x3, hE, run3, NoWrite.run C (x2.append g2)]
  refine ⟨fun r hr a i j k hi => ?_, fun r hr a i j k hi => ?_⟩
  · rw [vf r hr a i j k hi, vp r hr a i j k hi]
    exact (lossfree_electric C hC h hr a hi s (hs r hr a i j k hi)).2
  · rw [vf r hr a i j k hi]
    exact (lossfree_electric C hC h hr a hi s (hs r hr a i j k hi)).1

/-- The same for whole runs. -/
theorem lossfree_run (hC : LossFree C) (S : Sim) (h : ValidCfg S.cfg) (hu : LayersUndisturbed S)
    (u : Nat → Loc → K) (n : Nat) :
    ∀ r, S.cfg.bt r = .pml → ∀ (a : Axis) (i j k : Int), InLim (S.cfg.fplim r a.e) i j k →
      S.state C u (fun _ => 0) (n + 1) (.fld a.e i j k) = (ampere a.e i j k).eval C (S.state C u (fun _ => 0) n) := by
  have tr : ∀ (w : Loc → K) (s : Loc → K), Tracks S.cfg s → Tracks S.cfg (setInputs w s) := by
    intro w s hs r hr a i j k hi
    simpa [setInputs, Loc.isInput, ppL, PPr] using hs r hr a i j k hi
  have inv : ∀ n, Tracks S.cfg (S.state C u (fun _ => 0) n) := by
    intro n
    induction n with
    | zero => intro r hr a i j k hi; rfl
    | succ n ih => exact (lossfree_step C hC S h hu _ (tr _ _ ih)).1
  intro r hr a i j k hi
  have := (lossfree_step C hC S h hu _ (tr (u n) _ (inv n))).2 r hr a i j k hi
  rw [Sim.state, this]
  apply eval_congr
  intro l hl
  cases a <;> simp [ampere, ampereX, ampereY, ampereZ, Axis.e, Expr.reads, curlHx, curlHy, curlHz, EX, EY, EZ, HX, HY, HZ] at hl <;>
    rcases hl with rfl | rfl | rfl | rfl | rfl <;> rfl

/-! ### Witness -/

/-- 2×2×2 cells, a two-cell layer at high z. -/
def wcfg : Cfg where
  n := fun _ => 2
  bt := fun | .zhi => .pml | _ => .pec
  layers := fun | .zhi => 2 | _ => 0
example : ValidCfg wcfg := by constructor <;> decide
example : InLim (wcfg.fplim .zhi .ex) 1 2 4 := by unfold InLim; decide
example : LayersUndisturbed ⟨wcfg, [], [], [], []⟩ := fun _ _ _ _ _ _ _ => NoWrite.nil
example : LossFree (fun _ => (1 : ℤ)) := by intro b n; simp

end Vulture.C23
