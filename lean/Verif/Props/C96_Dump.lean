import Verif.Spec.Dump
import Verif.Props.C64_Material
set_option linter.unusedSimpArgs false
set_option linter.unusedVariables false
/-
C96. The grid dump shows metal and dielectrics where the mesh file puts them, and hides magnetic matter on fine meshes.
-/
namespace Vulture.C96
open Vulture Dump Spec Setup Deck Scaling CavityLemmas

/-! ### Where a sample is found -/

theorem upTo_get {lo hi i : Int} (h : lo ≤ i ∧ i ≤ hi) : (upTo lo hi)[(i - lo).toNat]? = some i := by
  unfold upTo
  rw [List.getElem?_map, List.getElem?_range (by omega)]
  simp; omega

theorem downTo_get {lo hi i : Int} (h : lo ≤ i ∧ i ≤ hi) : (downTo hi lo)[(hi - i).toNat]? = some i := by
  unfold downTo
  rw [List.getElem?_map, List.getElem?_range (by omega)]
  simp; omega

theorem upTo_length (lo hi : Int) : (upTo lo hi).length = (hi + 1 - lo).toNat := by simp [upTo]
theorem downTo_length (hi lo : Int) : (downTo hi lo).length = (hi + 1 - lo).toNat := by simp [downTo]

/-- An element of a list of blocks of equal length. -/
theorem flat_get {α β : Type*} (F : α → List β) {w : Nat} (hw : ∀ a, (F a).length = w) : ∀ (l : List α) (n m : Nat) (a : α) (b : β),
    l[n]? = some a → (F a)[m]? = some b → (l.flatMap F)[n * w + m]? = some b
  | [], n, m, a, b, h, _ => by simp at h
  | x :: l, 0, m, a, b, h, h' => by
    simp only [List.getElem?_cons_zero, Option.some.injEq] at h
    subst h
    have : m < (F x).length := (List.getElem?_eq_some_iff.1 h').1
    rw [List.flatMap_cons, Nat.zero_mul, Nat.zero_add, List.getElem?_append_left this, h']
  | x :: l, n + 1, m, a, b, h, h' => by
    simp only [List.getElem?_cons_succ] at h
    rw [List.flatMap_cons, List.getElem?_append_right (by rw [hw]; nlinarith), hw]
    have := flat_get F hw l n m a b h h'
    rw [show (n + 1) * w + m - w = n * w + m by rw [Nat.succ_mul]; omega]
    exact this

theorem line_get {o : BBox} (g : Int → Int → Int → Char) {i j k : Int} (hi : o .xlo - 1 ≤ i ∧ i ≤ o .xhi) (hj : o .ylo - 1 ≤ j) :
    (line o g j k)[(j - (o .ylo - 1)).toNat + (i - (o .xlo - 1)).toNat]? = some (g i j k) := by
  unfold line
  have l1 : ((upTo (o .ylo - 1) (j - 1)).map fun _ => ' ').length = (j - (o .ylo - 1)).toNat := by
    rw [List.length_map, upTo_length]; congr 1; omega
  have l2 : ((upTo (o .xlo - 1) (o .xhi)).map fun i => g i j k).length = (o .xhi + 1 - (o .xlo - 1)).toNat := by
    rw [List.length_map, upTo_length]
  rw [List.append_assoc, List.getElem?_append_right (by rw [l1]; omega), l1, Nat.add_sub_cancel_left,
    List.getElem?_append_left (by rw [l2]; omega), List.getElem?_map, upTo_get hi]
  rfl

/-- The boxes of a valid grid. -/
theorem outer {c : Cfg} : c.gobox .xlo = 1 ∧ c.gobox .ylo = 1 ∧ c.gobox .zlo = 1 ∧
    c.gobox .xhi = c.layers .xlo + c.n .x + c.layers .xhi + 1 ∧ c.gobox .yhi = c.layers .ylo + c.n .y + c.layers .yhi + 1 ∧
    c.gobox .zhi = c.layers .zlo + c.n .z + c.layers .zhi + 1 ∧ c.gibox .xlo = c.layers .xlo + 1 ∧
    c.gibox .ylo = c.layers .ylo + 1 ∧ c.gibox .zlo = c.layers .zlo + 1 := by
  refine ⟨rfl, rfl, rfl, ?_, ?_, ?_, ?_, ?_, ?_⟩ <;>
    simp only [Cfg.gobox, Cfg.gibox, Cfg.goboxLo, Cfg.goboxHi, Cfg.giboxHi, Cfg.giboxLo, Cfg.numLines, NUM_GHOST_CELLS, Axis.lo,
      Axis.hi] <;> omega

/-- Every sample of the grid with its layers and one more at each end has one character, at the documented place. -/
theorem located {c : Cfg} (hv : ValidCfg c) (g : Int → Int → Int → Char) {i j k : Int}
    (hi : -1 - c.layers .xlo ≤ i ∧ i ≤ c.n .x + c.layers .xhi) (hj : -1 - c.layers .ylo ≤ j ∧ j ≤ c.n .y + c.layers .yhi)
    (hk : -1 - c.layers .zlo ≤ k ∧ k ≤ c.n .z + c.layers .zhi) :
    CharAt (file c.gobox g) (dumpLine c j k).toNat (dumpColumn c i j).toNat
      (g (i + c.gibox .xlo) (j + c.gibox .ylo) (k + c.gibox .zlo)) := by
  obtain ⟨o1, o2, o3, o4, o5, o6, o7, o8, o9⟩ := outer (c := c)
  have n1 := hv.cells .y
  have hl : ∀ f, 0 ≤ c.layers f := by
    intro f
    by_cases hp : c.bt f = .pml
    · have := hv.pml f hp; omega
    · rw [hv.other f hp]
  have hly := hl .ylo; have hlz := hl .yhi
  refine ⟨line c.gobox g (j + c.gibox .ylo) (k + c.gibox .zlo), ?_, ?_⟩
  · have hw : ∀ k', ((downTo (c.gobox .yhi) (c.gobox .ylo - 1)).map fun j => line c.gobox g j k').length = (dumpRows c .y).toNat := by
      intro k'
      rw [List.length_map, downTo_length]
      simp only [dumpRows, Axis.lo, Axis.hi]
      congr 1; omega
    have := flat_get _ hw (downTo (c.gobox .zhi) (c.gobox .zlo - 1)) (c.gobox .zhi - (k + c.gibox .zlo)).toNat
      (c.gobox .yhi - (j + c.gibox .ylo)).toNat _ (line c.gobox g (j + c.gibox .ylo) (k + c.gibox .zlo)) (downTo_get (by omega))
      (by rw [List.getElem?_map, downTo_get (by omega)]; rfl)
    have e : (dumpLine c j k).toNat = (c.gobox .zhi - (k + c.gibox .zlo)).toNat * (dumpRows c .y).toNat +
        (c.gobox .yhi - (j + c.gibox .ylo)).toNat := by
      have hr : 0 ≤ dumpRows c .y := by simp only [dumpRows, Axis.lo, Axis.hi]; omega
      have e1 : c.gobox .zhi - (k + c.gibox .zlo) = c.n .z + c.layers .zhi - k := by omega
      have e2 : c.gobox .yhi - (j + c.gibox .ylo) = c.n .y + c.layers .yhi - j := by omega
      rw [e1, e2]
      have p1 : 0 ≤ c.n .z + c.layers .zhi - k := by omega
      have p2 : 0 ≤ c.n .y + c.layers .yhi - j := by omega
      unfold dumpLine
      rw [Int.toNat_add (Int.mul_nonneg p1 hr) p2, Int.toNat_mul p1 hr]
    rw [e]
    exact this
  · have := line_get (o := c.gobox) g (i := i + c.gibox .xlo) (j := j + c.gibox .ylo) (k := k + c.gibox .zlo) (by omega) (by omega)
    have e : (dumpColumn c i j).toNat = (j + c.gibox .ylo - (c.gobox .ylo - 1)).toNat +
        (i + c.gibox .xlo - (c.gobox .xlo - 1)).toNat := by
      unfold dumpColumn; omega
    rw [e]
    exact this

/-- The line of a row and plane: its blanks and characters, and then its label and nothing else. The labels count from the
outer face of the layers, not from the corner of the mesh. -/
theorem labelled {c : Cfg} (hv : ValidCfg c) (g : Int → Int → Int → Char) {j k : Int}
    (hj : -1 - c.layers .ylo ≤ j ∧ j ≤ c.n .y + c.layers .yhi) (hk : -1 - c.layers .zlo ≤ k ∧ k ≤ c.n .z + c.layers .zhi) :
    ∃ l, (l.length : Int) = (c.layers .ylo + 1 + j) + dumpRows c .x ∧
      (file c.gobox g)[(dumpLine c j k).toNat]? = some (l ++ endLabel c j k) := by
  obtain ⟨o1, o2, o3, o4, o5, o6, o7, o8, o9⟩ := outer (c := c)
  have n1 := hv.cells .y
  have n2 := hv.cells .x
  have hl : ∀ f, 0 ≤ c.layers f := by
    intro f
    by_cases hp : c.bt f = .pml
    · have := hv.pml f hp; omega
    · rw [hv.other f hp]
  have hly := hl .ylo; have hlz := hl .yhi; have hlx := hl .xlo; have hlx' := hl .xhi
  have hw : ∀ k', ((downTo (c.gobox .yhi) (c.gobox .ylo - 1)).map fun j => line c.gobox g j k').length = (dumpRows c .y).toNat := by
    intro k'
    rw [List.length_map, downTo_length]
    simp only [dumpRows, Axis.lo, Axis.hi]
    congr 1; omega
  have := flat_get _ hw (downTo (c.gobox .zhi) (c.gobox .zlo - 1)) (c.gobox .zhi - (k + c.gibox .zlo)).toNat
    (c.gobox .yhi - (j + c.gibox .ylo)).toNat _ (line c.gobox g (j + c.gibox .ylo) (k + c.gibox .zlo)) (downTo_get (by omega))
    (by rw [List.getElem?_map, downTo_get (by omega)]; rfl)
  have e : (dumpLine c j k).toNat = (c.gobox .zhi - (k + c.gibox .zlo)).toNat * (dumpRows c .y).toNat +
      (c.gobox .yhi - (j + c.gibox .ylo)).toNat := by
    have hr : 0 ≤ dumpRows c .y := by simp only [dumpRows, Axis.lo, Axis.hi]; omega
    have e1 : c.gobox .zhi - (k + c.gibox .zlo) = c.n .z + c.layers .zhi - k := by omega
    have e2 : c.gobox .yhi - (j + c.gibox .ylo) = c.n .y + c.layers .yhi - j := by omega
    rw [e1, e2]
    have p1 : 0 ≤ c.n .z + c.layers .zhi - k := by omega
    have p2 : 0 ≤ c.n .y + c.layers .yhi - j := by omega
    unfold dumpLine
    rw [Int.toNat_add (Int.mul_nonneg p1 hr) p2, Int.toNat_mul p1 hr]
  have el : labels c.gobox (j + c.gibox .ylo) (k + c.gibox .zlo) = endLabel c j k := by
    have a1 : (j + c.gibox .ylo = c.gobox .yhi - 1) ↔ (j = c.n .y + c.layers .yhi - 1) := by omega
    have a2 : (j + c.gibox .ylo = (c.gobox .yhi + c.gobox .ylo - 1).tdiv 2) ↔
        (c.layers .ylo + 1 + j = (c.layers .ylo + c.n .y + c.layers .yhi + 1) / 2) := by
      rw [Int.tdiv_eq_ediv_of_nonneg (by omega)]
      have : c.gobox .yhi + c.gobox .ylo - 1 = c.layers .ylo + c.n .y + c.layers .yhi + 1 := by omega
      rw [this]; omega
    have a3 : (j + c.gibox .ylo = c.gobox .ylo) ↔ (j = -c.layers .ylo) := by omega
    have a4 : k + c.gibox .zlo = c.layers .zlo + 1 + k := by omega
    unfold labels endLabel
    simp only [a1, a2, a3, a4]
    congr 1
    · congr 1
      split
      · rename_i h
        rw [show j + c.gibox .ylo = c.layers .ylo + c.n .y + c.layers .yhi by omega]
      · rfl
    · split
      · rename_i h
        rw [show j + c.gibox .ylo = 1 by omega]
      · rfl
  refine ⟨(upTo (c.gobox .ylo - 1) (j + c.gibox .ylo - 1)).map (fun _ => ' ') ++
    (upTo (c.gobox .xlo - 1) (c.gobox .xhi)).map (fun i => g i (j + c.gibox .ylo) (k + c.gibox .zlo)), ?_, ?_⟩
  · rw [List.length_append, List.length_map, List.length_map, upTo_length, upTo_length]
    simp only [dumpRows, Axis.lo, Axis.hi]
    omega
  · rw [e, ← el]
    exact this

/-- The file has one line for every line of samples along x. -/
theorem line_count {c : Cfg} (hv : ValidCfg c) (g : Int → Int → Int → Char) :
    ((file c.gobox g).length : Int) = dumpRows c .z * dumpRows c .y := by
  obtain ⟨o1, o2, o3, o4, o5, o6, -⟩ := outer (c := c)
  have hl : ∀ f, 0 ≤ c.layers f := by
    intro f
    by_cases hp : c.bt f = .pml
    · have := hv.pml f hp; omega
    · rw [hv.other f hp]
  have n1 := hv.cells .y; have n2 := hv.cells .z
  have a := hl .ylo; have b := hl .yhi; have cc := hl .zlo; have d := hl .zhi
  have e : (file c.gobox g).length = (dumpRows c .z).toNat * (dumpRows c .y).toNat := by
    unfold file
    rw [List.length_flatMap]
    simp only [List.length_map, downTo_length, List.map_const', List.sum_replicate, smul_eq_mul, dumpRows, Axis.lo, Axis.hi]
    congr 2 <;> omega
  rw [e]; push_cast
  rw [Int.toNat_of_nonneg (by simp only [dumpRows, Axis.lo, Axis.hi]; omega),
    Int.toNat_of_nonneg (by simp only [dumpRows, Axis.lo, Axis.hi]; omega)]

/-- The dump reads the arrays only where they are allocated. -/
theorem in_bounds {c : Cfg} (hv : ValidCfg c) {g g' : Int → Int → Int → Char}
    (h : ∀ i j k, InGrid c i j k → g i j k = g' i j k) : file c.gobox g = file c.gobox g' := by
  obtain ⟨o1, o2, o3, o4, o5, o6, -⟩ := outer (c := c)
  unfold file
  refine List.flatMap_congr fun k hk => List.map_congr_left fun j hj => ?_
  unfold line
  congr 2
  refine List.map_congr_left fun i hi => h i j k ?_
  simp only [upTo, downTo, List.mem_map, List.mem_range] at hi hj hk
  obtain ⟨a, ha, rfl⟩ := hi; obtain ⟨b, hb, rfl⟩ := hj; obtain ⟨d, hd, rfl⟩ := hk
  simp only [InGrid, Cfg.numCells, NUM_GHOST_CELLS, Axis.lo, Axis.hi]
  omega

/-! ### What the character tells -/

/-- The character of the coefficients of a material. -/
noncomputable def markOf (k : Consts) (T : ℝ) (fc : Fc) (s : Stuff) : Char :=
  if fc.isE then decodeAlphaBeta T k.eps0 (C64.coefOf k T s).alpha (C64.coefOf k T s).beta
  else decodeGamma T k.mu0 (C64.coefOf k T s).gamma

section
variable {k : Consts} {J : Junk} {X : Experiment} {R : Run} {fc : Fc} {i j l : Int}

/-- The character of a sample of the mesh depends on what the file says the sample is made of. -/
theorem sample_mark (h : setup k J X = some R) (ho : OrdinaryBlocks X.file.cards) (hi : SampleIn (meshBox X) fc i j l)
    {s : Stuff} (hs : MadeOf X fc i j l s) : ∃ f, (dumpName fc, f) ∈ ofRun k J X R ∧
      (∀ f', (dumpName fc, f') ∈ ofRun k J X R → f' = f) ∧
      CharAt f (dumpLine R.cfg j l).toNat (dumpColumn R.cfg i j).toNat (markOf k R.dt fc s) := by
  obtain ⟨s', hs', e⟩ := C64.coefficients h ho hi
  rw [C64.made_unique h ho hs' hs] at e
  obtain ⟨hv, hn, -⟩ := run_parts h
  have hl : ∀ f, 0 ≤ R.cfg.layers f := by
    intro f
    by_cases hp : R.cfg.bt f = .pml
    · have := hv.pml f hp; omega
    · rw [hv.other f hp]
  have b : (0 ≤ i ∧ i ≤ R.cfg.n .x) ∧ (0 ≤ j ∧ j ≤ R.cfg.n .y) ∧ (0 ≤ l ∧ l ≤ R.cfg.n .z) := by
    rw [hn]
    obtain ⟨h1, h2, h3⟩ := hi
    cases fc <;> simp only [pos2, meshBox, mkBox, cellsOf] at h1 h2 h3 ⊢ <;> omega
  refine ⟨file R.cfg.gobox (mark R.dt k.eps0 k.mu0 (mediaArrays R.cfg (medSetup k J X R.cfg R.state) J.med) fc), ?_, ?_, ?_⟩
  · cases fc <;> simp [ofRun, dump, fileName, dumpName]
  · intro f' hf'
    cases fc <;> simpa [ofRun, dump, fileName, dumpName] using hf'
  · have h1 := hl .xlo; have h2 := hl .xhi; have h3 := hl .ylo; have h4 := hl .yhi; have h5 := hl .zlo; have h6 := hl .zhi
    have := located hv (mark R.dt k.eps0 k.mu0 (mediaArrays R.cfg (medSetup k J X R.cfg R.state) J.med) fc) (i := i) (j := j) (k := l)
      (by omega) (by omega) (by omega)
    unfold mark at this
    rw [e] at this
    exact this

theorem vacuum_mark (k : Consts) (T : ℝ) (fc : Fc) : markOf k T fc .vacuum = '.' := by
  unfold markOf decodeAlphaBeta decodeGamma
  simp [C64.coefOf, medCoef]

theorem metal_mark (k : Consts) (T : ℝ) (fc : Fc) : markOf k T fc .metal = if fc.isE then '*' else '.' := by
  unfold markOf decodeAlphaBeta decodeGamma
  simp only [C64.coefOf, medCoef, sub_self, abs_zero]
  norm_num

theorem matter_mark (hk : Physical k) {T : ℝ} (hT : 0 < T) {e s u : ℝ} (he : 1 ≤ e) (hs : 0 ≤ s) (hu : 1 ≤ u) (fc : Fc) :
    markOf k T fc (.matter e s u) =
      if fc.isE then
        if (offVacuum k T e s).1 < 1 / 10 ^ 6 ∧ |(offVacuum k T e s).2| < 1 / 10 ^ 6 then '.'
        else if (offMetal k T e s).1 < 1 / 10 ^ 6 ∧ (offMetal k T e s).2 < 1 / 10 ^ 6 then '*' else 'o'
      else if T / k.mu0 * (1 - 1 / u) < 1 / 10 ^ 6 then '.' else 'o' := by
  have hm := hk.mu0
  have h0 : 0 < k.eps0 := by rw [hk.eps0]; have := hk.c0; positivity
  have hd : 0 < 2 * e * k.eps0 + s * T := by positivity
  have hu0 : 0 < u := by linarith
  unfold markOf decodeAlphaBeta decodeGamma
  have a1 : |(2 * e * k.eps0 + 2 * 0 - T * s) / (2 * e * k.eps0 + 2 * 0 + T * s) - 1| = (offVacuum k T e s).1 := by
    have : (2 * e * k.eps0 + 2 * 0 - T * s) / (2 * e * k.eps0 + 2 * 0 + T * s) - 1 = -(2 * s * T / (2 * e * k.eps0 + s * T)) := by
      have : 2 * e * k.eps0 + 2 * 0 + T * s ≠ 0 := by have := hd; nlinarith
      field_simp
      ring
    rw [this, abs_neg, abs_of_nonneg (by positivity)]; rfl
  have a2 : |2 * T / (2 * e * k.eps0 + 2 * 0 + T * s) - T / k.eps0| = |(offVacuum k T e s).2| := by
    rw [abs_sub_comm]
    unfold offVacuum
    dsimp only
    rw [show 2 * e * k.eps0 + 2 * 0 + T * s = 2 * e * k.eps0 + s * T by ring]
  have a3 : |(2 * e * k.eps0 + 2 * 0 - T * s) / (2 * e * k.eps0 + 2 * 0 + T * s) + 1| = (offMetal k T e s).1 := by
    have : (2 * e * k.eps0 + 2 * 0 - T * s) / (2 * e * k.eps0 + 2 * 0 + T * s) + 1 = 4 * e * k.eps0 / (2 * e * k.eps0 + s * T) := by
      have : 2 * e * k.eps0 + 2 * 0 + T * s ≠ 0 := by have := hd; nlinarith
      field_simp
      ring
    rw [this, abs_of_nonneg (by positivity)]; rfl
  have a4 : |2 * T / (2 * e * k.eps0 + 2 * 0 + T * s)| = (offMetal k T e s).2 := by
    rw [show 2 * e * k.eps0 + 2 * 0 + T * s = 2 * e * k.eps0 + s * T by ring, abs_of_nonneg (by positivity)]; rfl
  have a5 : |T / (u * k.mu0) - T / k.mu0| = T / k.mu0 * (1 - 1 / u) := by
    have : T / (u * k.mu0) - T / k.mu0 = -(T / k.mu0 * (1 - 1 / u)) := by field_simp; ring
    rw [this, abs_neg, abs_of_nonneg]
    have : 1 / u ≤ 1 := by rw [div_le_one hu0]; exact hu
    have : 0 ≤ 1 - 1 / u := by linarith
    positivity
  have b1 : (C64.coefOf k T (.matter e s u)).alpha = (2 * e * k.eps0 + 2 * 0 - T * s) / (2 * e * k.eps0 + 2 * 0 + T * s) := by
    simp [C64.coefOf, medCoef, calcCoeff]
  have b2 : (C64.coefOf k T (.matter e s u)).beta = 2 * T / (2 * e * k.eps0 + 2 * 0 + T * s) := by
    simp [C64.coefOf, medCoef, calcCoeff]
  have b3 : (C64.coefOf k T (.matter e s u)).gamma = T / (u * k.mu0) := rfl
  rw [b1, b2, b3, a1, a2, a3, a4, a5]

/-! ### The dump of a run -/

/-- Vacuum is shown as a dot in all files; metal as a star in those of the electric field and as a dot in the others. -/
theorem vacuum_and_metal (h : setup k J X = some R) (ho : OrdinaryBlocks X.file.cards) (hi : SampleIn (meshBox X) fc i j l) :
    (MadeOf X fc i j l .vacuum → ∃ f, (dumpName fc, f) ∈ ofRun k J X R ∧
      CharAt f (dumpLine R.cfg j l).toNat (dumpColumn R.cfg i j).toNat '.') ∧
    (MadeOf X fc i j l .metal → ∃ f, (dumpName fc, f) ∈ ofRun k J X R ∧
      CharAt f (dumpLine R.cfg j l).toNat (dumpColumn R.cfg i j).toNat (if fc.isE then '*' else '.')) := by
  constructor
  · intro hs
    obtain ⟨f, h1, -, h2⟩ := sample_mark h ho hi hs
    rw [vacuum_mark] at h2
    exact ⟨f, h1, h2⟩
  · intro hs
    obtain ⟨f, h1, -, h2⟩ := sample_mark h ho hi hs
    rw [metal_mark] at h2
    exact ⟨f, h1, h2⟩

/-- A dielectric without losses is shown as "other" unless it is vacuum within the absolute tolerance. -/
theorem dielectric (hk : Physical k) (h : setup k J X = some R) (hT : 0 < R.dt) (ho : OrdinaryBlocks X.file.cards)
    (hi : SampleIn (meshBox X) fc i j l) (hf : fc.isE = true) {e u : ℝ} (he : 1 ≤ e) (hu : 1 ≤ u)
    (hs : MadeOf X fc i j l (.matter e 0 u)) : ∃ f, (dumpName fc, f) ∈ ofRun k J X R ∧
      CharAt f (dumpLine R.cfg j l).toNat (dumpColumn R.cfg i j).toNat
        (if R.dt / k.eps0 * (1 - 1 / e) < 1 / 10 ^ 6 then '.' else 'o') := by
  obtain ⟨f, h1, -, h2⟩ := sample_mark h ho hi hs
  refine ⟨f, h1, ?_⟩
  have h0 : 0 < k.eps0 := by rw [hk.eps0]; have := hk.c0; have := hk.mu0; positivity
  have he0 : 0 < e := by linarith
  rw [matter_mark hk hT he le_rfl hu, hf] at h2
  have a1 : (offVacuum k R.dt e 0).1 < 1 / 10 ^ 6 := by simp [offVacuum]
  have a2 : |(offVacuum k R.dt e 0).2| = R.dt / k.eps0 * (1 - 1 / e) := by
    have : (offVacuum k R.dt e 0).2 = R.dt / k.eps0 * (1 - 1 / e) := by
      simp only [offVacuum]; field_simp; ring
    rw [this, abs_of_nonneg]
    have : 1 / e ≤ 1 := by rw [div_le_one he0]; exact he
    have : 0 ≤ 1 - 1 / e := by linarith
    positivity
  have a3 : ¬ (offMetal k R.dt e 0).1 < 1 / 10 ^ 6 := by
    have : (offMetal k R.dt e 0).1 = 2 := by simp only [offMetal]; field_simp; ring
    rw [this]; norm_num
  rw [a2] at h2
  simp only [a1, a3, true_and, false_and, if_true, if_false] at h2
  exact h2

/-- Where the losses are not small the sample is shown as "other" or as metal, never as vacuum. -/
theorem lossy (hk : Physical k) (h : setup k J X = some R) (hT : 0 < R.dt) (ho : OrdinaryBlocks X.file.cards)
    (hi : SampleIn (meshBox X) fc i j l) (hf : fc.isE = true) {e s u : ℝ} (he : 1 ≤ e) (hs0 : 0 ≤ s) (hu : 1 ≤ u)
    (hs : MadeOf X fc i j l (.matter e s u)) (hl : 1 / 10 ^ 6 ≤ (offVacuum k R.dt e s).1) :
    ∃ f, (dumpName fc, f) ∈ ofRun k J X R ∧ CharAt f (dumpLine R.cfg j l).toNat (dumpColumn R.cfg i j).toNat
      (if (offMetal k R.dt e s).1 < 1 / 10 ^ 6 ∧ (offMetal k R.dt e s).2 < 1 / 10 ^ 6 then '*' else 'o') := by
  obtain ⟨f, h1, -, h2⟩ := sample_mark h ho hi hs
  refine ⟨f, h1, ?_⟩
  rw [matter_mark hk hT he hs0 hu, hf, if_pos rfl, if_neg (fun hh => absurd hh.1 (by linarith))] at h2
  exact h2

/-- A conductor good enough looks like metal, though the field in it is not zero. -/
theorem looks_metal (hk : Physical k) (h : setup k J X = some R) (hT : 0 < R.dt) (ho : OrdinaryBlocks X.file.cards)
    (hi : SampleIn (meshBox X) fc i j l) (hf : fc.isE = true) {e s u : ℝ} (he : 1 ≤ e) (hu : 1 ≤ u)
    (hs : MadeOf X fc i j l (.matter e s u)) (h1 : 2 * 10 ^ 6 ≤ s) (h2 : 4 * 10 ^ 6 * e * k.eps0 ≤ s * R.dt) :
    ∃ f, (dumpName fc, f) ∈ ofRun k J X R ∧ CharAt f (dumpLine R.cfg j l).toNat (dumpColumn R.cfg i j).toNat '*' := by
  have h0 : 0 < k.eps0 := by rw [hk.eps0]; have := hk.c0; have := hk.mu0; positivity
  have hs0 : 0 ≤ s := by linarith
  have he0 : 0 < e * k.eps0 := by positivity
  have hd : 0 < 2 * e * k.eps0 + s * R.dt := by positivity
  have b1 : 1 / 10 ^ 6 ≤ (offVacuum k R.dt e s).1 := by
    unfold offVacuum
    rw [div_le_div_iff₀ (by norm_num) hd]
    nlinarith
  have b2 : (offMetal k R.dt e s).1 < 1 / 10 ^ 6 := by
    unfold offMetal
    rw [div_lt_div_iff₀ hd (by norm_num)]
    nlinarith
  have b3 : (offMetal k R.dt e s).2 < 1 / 10 ^ 6 := by
    unfold offMetal
    rw [div_lt_div_iff₀ hd (by norm_num)]
    nlinarith
  obtain ⟨f, c1, c2⟩ := lossy hk h hT ho hi hf he hs0 hu hs b1
  rw [if_pos ⟨b2, b3⟩] at c2
  exact ⟨f, c1, c2⟩

/-- The character of a magnetic field sample in matter. -/
theorem magnetic (hk : Physical k) (h : setup k J X = some R) (hT : 0 < R.dt) (ho : OrdinaryBlocks X.file.cards)
    (hi : SampleIn (meshBox X) fc i j l) (hf : fc.isE = false) {e s u : ℝ} (he : 1 ≤ e) (hs0 : 0 ≤ s) (hu : 1 ≤ u)
    (hs : MadeOf X fc i j l (.matter e s u)) : ∃ f, (dumpName fc, f) ∈ ofRun k J X R ∧
      CharAt f (dumpLine R.cfg j l).toNat (dumpColumn R.cfg i j).toNat
        (if R.dt / k.mu0 * (1 - 1 / u) < 1 / 10 ^ 6 then '.' else 'o') := by
  obtain ⟨f, h1, -, h2⟩ := sample_mark h ho hi hs
  refine ⟨f, h1, ?_⟩
  rw [matter_mark hk hT he hs0 hu, hf] at h2
  exact h2

/-- With a time step below a millionth of the vacuum permeability (1.25 ps) magnetic matter of any permeability is shown as
vacuum. -/
theorem magnetic_hidden (hk : Physical k) (h : setup k J X = some R) (hT : 0 < R.dt) (hfine : R.dt ≤ k.mu0 / 10 ^ 6)
    (ho : OrdinaryBlocks X.file.cards) (hi : SampleIn (meshBox X) fc i j l) (hf : fc.isE = false) {e s u : ℝ} (he : 1 ≤ e)
    (hs0 : 0 ≤ s) (hu : 1 ≤ u) (hs : MadeOf X fc i j l (.matter e s u)) : ∃ f, (dumpName fc, f) ∈ ofRun k J X R ∧
      CharAt f (dumpLine R.cfg j l).toNat (dumpColumn R.cfg i j).toNat '.' := by
  obtain ⟨f, h1, h2⟩ := magnetic hk h hT ho hi hf he hs0 hu hs
  refine ⟨f, h1, ?_⟩
  have hm := hk.mu0
  have hu0 : 0 < 1 / u := by have : 0 < u := by linarith
                             positivity
  have a : R.dt / k.mu0 ≤ 1 / 10 ^ 6 := by
    rw [div_le_div_iff₀ hm (by norm_num)]
    rw [le_div_iff₀ (by norm_num)] at hfine
    linarith
  have b : 0 < R.dt / k.mu0 := by positivity
  rw [if_pos (by nlinarith)] at h2
  exact h2

/-- The step is at most the time light takes across any cell, times the Courant number. -/
theorem step_le (hk : Physical k) (h : setup k J X = some R) (hcn : 0 < X.cn)
    (hl : ∀ a m, 0 ≤ m → m < cellsOf X.file a → X.lines a m < X.lines a (m + 1))
    (hb : ∀ a m, 0 ≤ m → m < cellsOf X.file a → X.lines a (m + 1) - X.lines a m < k.big) (a : Axis) {m : Int} (h0 : 0 ≤ m)
    (h1 : m < cellsOf X.file a) : R.dt ≤ X.cn * (X.lines a (m + 1) - X.lines a m) / k.c0 := by
  obtain ⟨hv, hn, -, hdt, -⟩ := run_parts h
  have least := fun a => (C18.smallest_largest (c := R.cfg) (a := a) (lines := X.lines a) (big := k.big) (junk := J.edges a) hv
    (fun m h0 h1 => hl a m h0 (by rw [← hn]; exact h1)) (fun m h0 h1 => hb a m h0 (by rw [← hn]; exact h1))).1
  have pos : ∀ a, 0 < (edges k J X R.cfg a).dmin := by
    intro a
    obtain ⟨m, h0, h1, e⟩ := (least a).1
    have := hl a m h0 (by rw [← hn]; exact h1)
    have e' : (edges k J X R.cfg a).dmin = C18.cellSize (X.lines a) m := e
    rw [e']
    unfold C18.cellSize
    linarith
  have hle : (edges k J X R.cfg a).dmin ≤ X.lines a (m + 1) - X.lines a m :=
    (least a).2 ⟨m, h0, by rw [hn]; exact h1, rfl⟩
  obtain ⟨t1, t2, -⟩ := C18.time_step_courant X.cn k.c0 hk.c0 hcn _ pos
  have e : R.dt = timeStep X.cn k.c0 fun a => (edges k J X R.cfg a).dmin := hdt
  rw [← e] at t1 t2
  have hc := hk.c0
  set d := (edges k J X R.cfg a).dmin with hd
  have pd : 0 < d := pos a
  have one : (k.c0 * R.dt) ^ 2 * (1 / d ^ 2) ≤ X.cn ^ 2 := by
    have px := pos .x; have py := pos .y; have pz := pos .z
    have q : 1 / d ^ 2 ≤ 1 / (edges k J X R.cfg .x).dmin ^ 2 + 1 / (edges k J X R.cfg .y).dmin ^ 2 + 1 / (edges k J X R.cfg .z).dmin ^ 2 := by
      have qx : 0 < 1 / (edges k J X R.cfg .x).dmin ^ 2 := by positivity
      have qy : 0 < 1 / (edges k J X R.cfg .y).dmin ^ 2 := by positivity
      have qz : 0 < 1 / (edges k J X R.cfg .z).dmin ^ 2 := by positivity
      cases a <;> rw [hd] <;> linarith
    calc _ ≤ _ := mul_le_mul_of_nonneg_left q (by positivity)
      _ = _ := t2
  have two : (k.c0 * R.dt) ^ 2 ≤ (X.cn * d) ^ 2 := by
    rw [mul_one_div, div_le_iff₀ (by positivity)] at one
    rw [mul_pow (a := X.cn)]; exact one
  have three : k.c0 * R.dt ≤ X.cn * d := by
    exact le_of_sq_le_sq two (by positivity)
  rw [le_div_iff₀ hc]
  nlinarith

/-- So it is on every mesh that has a cell of 0.37 mm or less (`c0 mu0 / 10^6`) and a Courant number up to one. -/
theorem fine_meshes (hk : Physical k) (h : setup k J X = some R) (hcn : 0 < X.cn) (hcn1 : X.cn ≤ 1)
    (hl : ∀ a m, 0 ≤ m → m < cellsOf X.file a → X.lines a m < X.lines a (m + 1))
    (hb : ∀ a m, 0 ≤ m → m < cellsOf X.file a → X.lines a (m + 1) - X.lines a m < k.big)
    (hfine : ∃ a m, 0 ≤ m ∧ m < cellsOf X.file a ∧ X.lines a (m + 1) - X.lines a m ≤ k.c0 * k.mu0 / 10 ^ 6)
    (ho : OrdinaryBlocks X.file.cards) (hi : SampleIn (meshBox X) fc i j l) (hf : fc.isE = false) {e s u : ℝ} (he : 1 ≤ e)
    (hs0 : 0 ≤ s) (hu : 1 ≤ u) (hs : MadeOf X fc i j l (.matter e s u)) : ∃ f, (dumpName fc, f) ∈ ofRun k J X R ∧
      CharAt f (dumpLine R.cfg j l).toNat (dumpColumn R.cfg i j).toNat '.' := by
  obtain ⟨a, m, h0, h1, h2⟩ := hfine
  have h3 := step_le hk h hcn hl hb a h0 h1
  have hc := hk.c0; have hm := hk.mu0
  refine magnetic_hidden hk h (C64.step_positive hk h hcn hl hb) ?_ ho hi hf he hs0 hu hs
  refine h3.trans ?_
  rw [div_le_iff₀ hc]
  have := hl a m h0 h1
  calc _ ≤ 1 * (X.lines a (m + 1) - X.lines a m) := mul_le_mul_of_nonneg_right hcn1 (by linarith)
    _ ≤ k.c0 * k.mu0 / 10 ^ 6 := by rw [one_mul]; exact h2
    _ = _ := by ring

end

/-! ### Concrete cases -/

/-- The file of C64: the end of the wire is a star, the wax an "o", vacuum a dot. -/
example (k : Consts) (J : Junk) : ∃ R, setup k J C64.bench = some R ∧
    SampleIn (meshBox C64.bench) .ez 3 2 0 ∧ MadeOf C64.bench .ez 3 2 0 .metal ∧
    SampleIn (meshBox C64.bench) .ez 4 2 0 ∧ MadeOf C64.bench .ez 4 2 0 (.matter 3 0 1) ∧
    SampleIn (meshBox C64.bench) .hz 5 4 3 ∧ MadeOf C64.bench .hz 5 4 3 .vacuum := by
  obtain ⟨R, hR⟩ := C64.bench_setup k J
  obtain ⟨-, h1, -, -, h2, -, h3⟩ := C64.bench_made
  exact ⟨R, hR, by decide, h1, by decide, h2, by decide, h3⟩

/-- A block of ferrite in a fine mesh. -/
def coreFile : File := ⟨6, 5, 4, fun _ => .pec, fun _ => 3,
  [.mt "ferrite" (.simple 10 0 100), .mb ⟨8, mkBox 1 4 1 4 1 3, "ferrite", "111111".toList⟩], false⟩
noncomputable def core (k : Consts) : Experiment :=
  ⟨coreFile, fun _ i => i * (k.c0 * k.mu0 / 10 ^ 6), 0.5, fun _ => ⟨4, 1, -1, 1⟩, fun _ => .builtin ⟨.gaussian, 1, -1, -1, -1⟩⟩

theorem core_setup (k : Consts) (J : Junk) : ∃ R, setup k J (core k) = some R := by
  obtain ⟨s, hs, hp⟩ : ∃ s, coreFile.stored = some s ∧ s.pws = [] := by
    have e : coreFile.stored = Deck.read (State.init (mkBox 0 6 0 5 0 4)) coreFile.cards := rfl
    rw [e, coreFile]
    rw [C47.read_cons, C47.card_mt (by decide +kernel), Option.bind_some]
    rw [C47.read_cons, C47.card_mb (m := .simple 10 0 100) (by rfl) (by rfl), Option.bind_some]
    exact ⟨_, rfl, rfl⟩
  obtain ⟨c, hc⟩ : ∃ c, initExternalSurfaceParameters coreFile.cells coreFile.bt coreFile.layers = some c :=
    Option.isSome_iff_exists.1 (by decide +kernel)
  have hS : ∃ S, (fileOf k J (core k) c).sim (Setup.de k J (core k) c) (Setup.dh k J (core k) c) = some S := by
    unfold File.sim
    have a1 : (fileOf k J (core k) c).stored = some s := hs
    have a2 : initExternalSurfaceParameters (fileOf k J (core k) c).cells (fileOf k J (core k) c).bt (fileOf k J (core k) c).layers = some c := hc
    rw [a1, Option.bind_some, a2, Option.bind_some, hp]
    exact ⟨_, rfl⟩
  obtain ⟨S, hS⟩ := hS
  exact ⟨_, Scaling.setup_of hc hs hS⟩

/-- A magnetic field sample inside the ferrite; its dump shows vacuum. -/
example (k : Consts) (hk : Physical k) (hb : k.c0 * k.mu0 / 10 ^ 6 < k.big) (J : Junk) : ∃ R, setup k J (core k) = some R ∧
    MadeOf (core k) .hz 2 2 2 (.matter 10 0 100) ∧ ∃ f, ("mediaHz.dat", f) ∈ ofRun k J (core k) R ∧
      CharAt f 17 6 '.' := by
  obtain ⟨R, hR⟩ := core_setup k J
  have hc := hk.c0; have hm := hk.mu0
  have hinc : Includes (⟨8, mkBox 1 4 1 4 1 3, "ferrite", "111111".toList⟩ : MBCard) fun f => (63 : Nat).testBit (maskPlace f) :=
    C64.bench_mask 63 [true, true, true, true, true, true] (by decide) (by decide) (by decide) _ (by decide +kernel)
  have hcard : ∀ x ∈ (core k).file.cards, (x = .mt "ferrite" (.simple 10 0 100)) ∨ x = .mb ⟨8, mkBox 1 4 1 4 1 3, "ferrite", "111111".toList⟩ := by
    intro x hx
    simpa [core, coreFile] using hx
  have hmade : MadeOf (core k) .hz 2 2 2 (.matter 10 0 100) := by
    have hr : BlockOf (core k) .hz 2 2 2 (.mb ⟨8, mkBox 1 4 1 4 1 3, "ferrite", "111111".toList⟩) (.matter 10 0 100) :=
      ⟨_, _, .simple 10 0 100, rfl, hinc, ⟨by decide, by decide +kernel⟩, .card (by simp [core, coreFile]), rfl⟩
    refine .block ?_ ?_ ?_ ?_ ⟨[_], [], rfl, ⟨_, hr⟩, by simp⟩ hr
    · rintro x hx s ⟨q, b, n, tag, w, size, delay, r, d, rfl, -⟩
      rcases hcard _ hx with h | h <;> cases h
    · rintro ⟨f, -, hf⟩
      revert hf
      have e : meshBox (core k) = mkBox 0 6 0 5 0 4 := rfl
      rw [e]
      cases f <;> decide
    · rintro x hx s ⟨c, b, rfl, -⟩
      rcases hcard _ hx with h | h <;> cases h
    · rintro x hx s ⟨c, rfl, -⟩
      rcases hcard _ hx with h | h <;> cases h
  refine ⟨R, hR, hmade, ?_⟩
  have pos : 0 < k.c0 * k.mu0 / 10 ^ 6 := by positivity
  have size : ∀ (a : Axis) (m : Int), (core k).lines a (m + 1) - (core k).lines a m = k.c0 * k.mu0 / 10 ^ 6 := by
    intro a m; simp only [core]; push_cast; ring
  obtain ⟨f, h1, h2⟩ := fine_meshes hk hR (by norm_num [core]) (by norm_num [core]) (fun a m _ _ => by have := size a m; linarith)
    (fun a m _ _ => by rw [size]; exact hb) ⟨.x, 0, le_rfl, show (0 : Int) < 6 by decide, (size _ _).le⟩
    (by
      intro c hc'
      rcases hcard _ hc' with h | h
      · cases h
      · cases h
        have hq : ∀ (t : String) (q : Nat), t.toList.head? ≠ some '_' → t ≠ String.ofList (Names.resistName q) := by
          rintro t q h rfl
          exact h (by rw [String.toList_ofList]; rfl)
        exact ⟨le_refl 8, fun q => hq "ferrite" q (by decide +kernel)⟩)
    (show SampleIn (meshBox (core k)) .hz 2 2 2 from by
      have e : meshBox (core k) = mkBox 0 6 0 5 0 4 := rfl
      rw [e]; decide) rfl (by norm_num) le_rfl (by norm_num) hmade
  refine ⟨f, h1, ?_⟩
  obtain ⟨hv, hn, hbt, -⟩ := run_parts hR
  have lay : ∀ f, R.cfg.layers f = 0 := by
    intro f
    refine hv.other f ?_
    rw [hbt]
    show BType.pec ≠ .pml
    decide
  have e1 : (dumpLine R.cfg 2 2).toNat = 17 := by
    simp only [dumpLine, dumpRows, lay, hn, cellsOf, core, coreFile]; rfl
  have e2 : (dumpColumn R.cfg 2 2).toNat = 6 := by
    simp only [dumpColumn, lay]; rfl
  rw [e1, e2] at h2
  exact h2

end Vulture.C96
