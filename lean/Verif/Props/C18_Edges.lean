import Verif.Model.Edges
import Verif.Lemmas.Limits
import Verif.Props.C07_Extents
import Mathlib.Algebra.Order.Floor.Ring
import Mathlib.Algebra.BigOperators.Group.Finset.Basic
import Mathlib.Order.Interval.Finset.Basic
import Mathlib.Data.Int.Interval
import Mathlib.Tactic.Ring
import Mathlib.Tactic.LinearCombination
import Mathlib.Tactic.Linarith
import Mathlib.Tactic.FieldSimp
import Mathlib.Tactic.Positivity
import Mathlib.Tactic.NormNum
import Mathlib.Data.Rat.Floor
set_option linter.unusedSimpArgs false
/-
C18: cell edges, dual edges and physical positions; C41: classification of the mesh.
-/
namespace Vulture.C18
open Spec

/-! ### Specification -/

/-- Size of mesh cell `m`. -/
def cellSize {K : Type*} [Sub K] (lines : Int → K) (m : Int) : K := lines (m + 1) - lines m

/-- The cell of the user's mesh (`0 .. n-1`) nearest to cell `m`. -/
def nearestCell (n m : Int) : Int := max 0 (min (n - 1) m)

/-- The mesh lines are in increasing order. -/
def Increasing {K : Type*} [LT K] (n : Int) (lines : Int → K) : Prop :=
  ∀ m, 0 ≤ m → m < n → lines m < lines (m + 1)

/-- A component is staggered by half a cell along an axis. -/
def Staggered (fc : Fc) (a : Axis) : Prop := pos2 fc a 0 = 1

instance (fc : Fc) (a : Axis) : Decidable (Staggered fc a) := inferInstanceAs (Decidable (_ = _))

/-! ### Arrays filled by loops -/

theorem foldl_set {K : Type*} (f : Int → K) (l : List Int) (A : Arr K) (i : Int) :
    l.foldl (fun B j => Arr.set B j (f j)) A i = if i ∈ l then f i else A i := by
  induction l generalizing A with
  | nil => simp
  | cons j l ih =>
    rw [List.foldl_cons, ih]
    by_cases h : i ∈ l
    · simp [h]
    · by_cases h' : i = j
      · subst h'; simp [h, Arr.set]
      · simp [h, h', Arr.set]

theorem fill_apply {K : Type*} (A : Arr K) (lo hi : Int) (f : Int → K) (i : Int) :
    A.fill lo hi (fun j _ => f j) i = if lo ≤ i ∧ i ≤ hi then f i else A i := by
  unfold Arr.fill
  rw [foldl_set f]
  simp only [mem_intRange]

section
variable {K : Type*} [Field K] [LinearOrder K]

theorem primary_value (c : Cfg) (hv : ValidCfg c) (a : Axis) (lines : Int → K) (A : Arr K) (i : Int)
    (h1 : c.gobox a.lo - 1 ≤ i) (h2 : i ≤ c.gobox a.hi) :
    primaryEdges (c.gobox a.lo) (c.gibox a.lo) (c.gibox a.hi) (c.gobox a.hi) lines A i =
      cellSize lines (nearestCell (c.n a) (i - c.gibox a.lo)) := by
  have hn : c.gibox a.hi = c.gibox a.lo + c.n a := by
    cases a <;> simp [Axis.lo, Axis.hi, Cfg.gibox, Cfg.giboxHi, Cfg.numLines] <;> omega
  have hw : c.gobox a.lo ≤ c.gibox a.lo ∧ c.gibox a.hi ≤ c.gobox a.hi := by
    have h1 := C07.layers_nonneg hv a.lo
    have h2 := C07.layers_nonneg hv a.hi
    cases a <;> simp [Axis.lo, Axis.hi, Cfg.gibox, Cfg.gobox, Cfg.giboxLo, Cfg.goboxHi] at * <;> omega
  have hc := hv.cells a
  generalize c.gobox a.lo = glo at *
  generalize c.gobox a.hi = ghi at *
  generalize c.gibox a.lo = ilo at *
  generalize c.gibox a.hi = ihi at *
  generalize c.n a = n at *
  subst hn
  unfold primaryEdges
  simp only [Arr.set, fill_apply]
  have key : ∀ j, glo ≤ j → j ≤ ghi - 1 →
      (if ilo + n ≤ j ∧ j ≤ ghi - 1 then lines (ilo + n - ilo) - lines (ilo + n - ilo - 1)
        else if ilo ≤ j ∧ j ≤ ilo + n - 1 then lines (j - ilo + 1) - lines (j - ilo)
        else if glo ≤ j ∧ j ≤ ilo - 1 then lines 1 - lines 0 else A j) =
      cellSize lines (nearestCell n (j - ilo)) := by
    intro j hj1 hj2
    unfold cellSize nearestCell
    split
    · rw [show max 0 (min (n-1) (j - ilo)) = n - 1 by omega]; congr 2 <;> omega
    · split
      · rw [show max 0 (min (n-1) (j - ilo)) = j - ilo by omega]
      · rw [if_pos (by omega), show max 0 (min (n-1) (j - ilo)) = 0 by omega]; rfl
  by_cases e1 : i = ghi
  · subst e1
    rw [if_pos rfl]
    by_cases e2 : i - 1 = glo - 1
    · omega
    · rw [if_neg e2, key _ (by omega) (by omega)]
      unfold nearestCell
      congr 1; omega
  · rw [if_neg e1]
    by_cases e2 : i = glo - 1
    · rw [if_pos e2, key _ (by omega) (by omega)]
      unfold nearestCell
      congr 1; omega
    · rw [if_neg e2, key _ (by omega) (by omega)]

variable (c : Cfg) (hv : ValidCfg c) (a : Axis) (lines : Int → K) (big : K) (junk : EdgeArrays K)
include hv

/-- **C18**: every edge length is the size of the nearest cell of the user's mesh: of the cell itself
inside the mesh, of the boundary cell in the absorbing layers and ghost cells. -/
theorem edge_lengths (i : Int) (h1 : c.gobox a.lo - 1 ≤ i) (h2 : i ≤ c.gobox a.hi) :
    (initCellEdges c a lines big junk).de i =
      cellSize lines (nearestCell (c.n a) (i - c.gibox a.lo)) :=
  primary_value c hv a lines junk.de i h1 h2

/-- Every dual edge is the mean of the two edges that meet there. -/
theorem dual_edges (i : Int) (h1 : c.gobox a.lo ≤ i) (h2 : i ≤ c.gobox a.hi) :
    (initCellEdges c a lines big junk).dh i =
      ((initCellEdges c a lines big junk).de (i - 1) + (initCellEdges c a lines big junk).de i) / 2 := by
  simp only [initCellEdges, Arr.set, fill_apply]
  rw [if_neg (by omega), if_pos ⟨h1, h2⟩]
  ring

/-- The stored reciprocals are the reciprocals of the lengths, over the whole range used. -/
theorem reciprocals (i : Int) (h1 : c.gobox a.lo - 1 ≤ i) (h2 : i ≤ c.gobox a.hi) :
    (initCellEdges c a lines big junk).ide i = 1 / (initCellEdges c a lines big junk).de i ∧
    (initCellEdges c a lines big junk).idh i = 1 / (initCellEdges c a lines big junk).dh i := by
  have hle : c.gobox a.lo ≤ c.gobox a.hi := by
    have h1 := C07.layers_nonneg hv a.lo
    have h2 := C07.layers_nonneg hv a.hi
    have h3 := hv.cells a
    cases a <;> simp [Axis.lo, Axis.hi, Cfg.gibox, Cfg.gobox, Cfg.giboxLo, Cfg.goboxHi, Cfg.giboxHi, Cfg.numLines] at * <;> omega
  constructor
  · simp only [initCellEdges, fill_apply]
    rw [if_pos ⟨h1, h2⟩]
  · by_cases e : i = c.gobox a.lo - 1
    · subst e
      simp only [initCellEdges, Arr.set, fill_apply, if_true]
      rw [if_pos ⟨le_refl _, hle⟩, if_neg (by omega)]
    · simp only [initCellEdges, Arr.set, fill_apply]
      rw [if_neg e, if_neg e, if_pos ⟨by omega, h2⟩, if_pos ⟨by omega, h2⟩]

/-- The result depends on mesh lines `0 .. n` only: no line outside the user's list is read. -/
theorem edges_use_mesh_lines_only (lines' : Int → K) (hl : ∀ m, 0 ≤ m → m ≤ c.n a → lines m = lines' m)
    (i : Int) (h1 : c.gobox a.lo - 1 ≤ i) (h2 : i ≤ c.gobox a.hi) :
    (initCellEdges c a lines big junk).de i = (initCellEdges c a lines' big junk).de i := by
  rw [edge_lengths c hv a lines big junk i h1 h2, edge_lengths c hv a lines' big junk i h1 h2]
  unfold cellSize nearestCell
  have := hv.cells a
  rw [hl _ (by omega) (by omega), hl _ (by omega) (by omega)]

end

/-! ### Positions -/

section
variable {K : Type*} [Field K] [LinearOrder K] [IsStrictOrderedRing K] [FloorRing K]

/-- The position at an integral line index inside the mesh is that mesh line, exactly. -/
theorem mesh_lines_reproduced (n : Int) (lines : Int → K) (m : Int) (h0 : 0 ≤ m) (h1 : m ≤ n) :
    nodeInPhysicalUnits (n + 1) lines (m : K) = lines m := by
  unfold nodeInPhysicalUnits
  simp only [Int.floor_intCast]
  rw [if_neg (by omega)]
  by_cases e : m = n
  · subst e
    rw [if_pos (by omega)]
    have : m + 1 - 1 = m := by omega
    rw [this]; push_cast; ring
  · rw [if_neg (by omega)]; ring

/-- Position in terms of the node below and the local cell. -/
theorem node_split (n : Int) (hn : 1 ≤ n) (lines : Int → K) (r : K) :
    nodeInPhysicalUnits (n + 1) lines r =
      nodeInPhysicalUnits (n + 1) lines (⌊r⌋ : K) + (r - ⌊r⌋) * cellSize lines (nearestCell n ⌊r⌋) := by
  unfold nodeInPhysicalUnits cellSize nearestCell
  simp only [Int.floor_intCast]
  have q1 : n + 1 - 1 = n := by omega
  have q2 : n + 1 - 2 = n - 1 := by omega
  rw [q1, q2]
  split
  · rw [show max 0 (min (n-1) ⌊r⌋) = 0 by omega]; simp only [zero_add]; ring
  · split
    · rw [show max 0 (min (n-1) ⌊r⌋) = n - 1 by omega, show n - 1 + 1 = n by omega]
      push_cast; ring
    · rw [show max 0 (min (n-1) ⌊r⌋) = ⌊r⌋ by omega]; ring

/-- Neighbouring nodes are one (nearest) cell apart, everywhere, including outside the mesh. -/
theorem node_step (n : Int) (hn : 1 ≤ n) (lines : Int → K) (m : Int) :
    nodeInPhysicalUnits (n + 1) lines ((m + 1 : Int) : K) =
      nodeInPhysicalUnits (n + 1) lines (m : K) + cellSize lines (nearestCell n m) := by
  unfold nodeInPhysicalUnits cellSize nearestCell
  simp only [Int.floor_intCast]
  have q1 : n + 1 - 1 = n := by omega
  have q2 : n + 1 - 2 = n - 1 := by omega
  rw [q1, q2]
  by_cases h1 : m < 0
  · rw [if_pos h1]
    by_cases h2 : m + 1 < 0
    · rw [if_pos h2, show max 0 (min (n-1) m) = 0 by omega]; push_cast; try simp only [zero_add]
      ring
    · rw [if_neg h2, show max 0 (min (n-1) m) = 0 by omega, if_neg (by omega), show m + 1 = 0 by omega]
      have : m = -1 := by omega
      subst this; push_cast; try simp only [zero_add]
      ring
  · rw [if_neg h1, if_neg (by omega)]
    by_cases h2 : m > n - 1
    · rw [if_pos h2, if_pos (by omega), show max 0 (min (n-1) m) = n - 1 by omega,
        show n - 1 + 1 = n by omega]
      push_cast; ring
    · rw [if_neg h2, show max 0 (min (n-1) m) = m by omega]
      by_cases h3 : m + 1 > n - 1
      · have : m + 1 = n := by omega
        subst this
        rw [if_pos h3]; push_cast
        rw [show m + 1 - 1 = m by omega]; ring
      · rw [if_neg h3]; ring

/-- **C18**: along the whole grid, absorbing layers included, the position of a node is the mesh origin
plus the edges between them (`gibox.lo` is the grid index of mesh line 0) … -/
theorem positions_above (c : Cfg) (hv : ValidCfg c) (a : Axis) (lines : Int → K) (big : K)
    (junk : EdgeArrays K) (i : Int) (h1 : c.gibox a.lo ≤ i) (h2 : i ≤ c.gobox a.hi) :
    nodeInPhysicalUnits (c.numLines a) lines ((i - c.gibox a.lo : Int) : K) =
      lines 0 + ∑ m ∈ Finset.Ico (c.gibox a.lo) i, (initCellEdges c a lines big junk).de m := by
  have hn := hv.cells a
  have hlo : c.gobox a.lo ≤ c.gibox a.lo := by
    have h1 := C07.layers_nonneg hv a.lo
    cases a <;> simp [Axis.lo, Axis.hi, Cfg.gibox, Cfg.gobox, Cfg.giboxLo] at * <;> omega
  obtain ⟨d, rfl⟩ : ∃ d : Nat, i = c.gibox a.lo + d := ⟨(i - c.gibox a.lo).toNat, by omega⟩
  clear h1
  induction d with
  | zero =>
    simp only [Nat.cast_zero, add_zero, sub_self, Finset.Ico_self, Finset.sum_empty]
    exact mesh_lines_reproduced (c.n a) lines 0 (by omega) (by omega)
  | succ d ih =>
    have h2' : c.gibox a.lo + (d : Int) ≤ c.gobox a.hi := by push_cast at h2; omega
    have e1 : (c.gibox a.lo + ((d + 1 : Nat) : Int)) = (c.gibox a.lo + d) + 1 := by push_cast; ring
    rw [e1, show c.gibox a.lo + (d : Int) + 1 - c.gibox a.lo = (c.gibox a.lo + d - c.gibox a.lo) + 1 by ring]
    have := node_step (c.n a) hn lines (c.gibox a.lo + d - c.gibox a.lo)
    rw [show c.numLines a = c.n a + 1 from rfl] at ih ⊢
    rw [this, ih h2', edge_sum_succ, edge_lengths c hv a lines big junk _ (by omega) h2', add_assoc]
where
  edge_sum_succ {f : Int → K} {l d : Int} (h : l ≤ d := by omega) :
      ∑ m ∈ Finset.Ico l (d + 1), f m = ∑ m ∈ Finset.Ico l d, f m + f d := by
    have : Finset.Ico l (d + 1) = insert d (Finset.Ico l d) := by
      ext x; simp only [Finset.mem_Ico, Finset.mem_insert]; omega
    rw [this, Finset.sum_insert (by simp), add_comm]

/-- … minus them on the low side. -/
theorem positions_below (c : Cfg) (hv : ValidCfg c) (a : Axis) (lines : Int → K) (big : K)
    (junk : EdgeArrays K) (i : Int) (h1 : c.gobox a.lo ≤ i) (h2 : i ≤ c.gibox a.lo) :
    nodeInPhysicalUnits (c.numLines a) lines ((i - c.gibox a.lo : Int) : K) =
      lines 0 - ∑ m ∈ Finset.Ico i (c.gibox a.lo), (initCellEdges c a lines big junk).de m := by
  have hn := hv.cells a
  have hhi : c.gibox a.lo ≤ c.gobox a.hi := by
    have h1 := C07.layers_nonneg hv a.hi
    cases a <;> simp [Axis.lo, Axis.hi, Cfg.gibox, Cfg.gobox, Cfg.giboxLo, Cfg.goboxHi, Cfg.giboxHi, Cfg.numLines] at * <;> omega
  obtain ⟨d, rfl⟩ : ∃ d : Nat, i = c.gibox a.lo - d := ⟨(c.gibox a.lo - i).toNat, by omega⟩
  clear h2
  induction d with
  | zero =>
    simp only [Nat.cast_zero, sub_zero, sub_self, Finset.Ico_self, Finset.sum_empty]
    exact mesh_lines_reproduced (c.n a) lines 0 (by omega) (by omega)
  | succ d ih =>
    have h1' : c.gobox a.lo ≤ c.gibox a.lo - (d : Int) := by push_cast at h1; omega
    have step := node_step (c.n a) hn lines (c.gibox a.lo - ((d + 1 : Nat) : Int) - c.gibox a.lo)
    rw [show c.gibox a.lo - ((d + 1 : Nat) : Int) - c.gibox a.lo + 1 = c.gibox a.lo - d - c.gibox a.lo by
      push_cast; ring] at step
    rw [show c.numLines a = c.n a + 1 from rfl] at ih ⊢
    have hs : Finset.Ico (c.gibox a.lo - ((d + 1 : Nat) : Int)) (c.gibox a.lo) =
        insert (c.gibox a.lo - ((d + 1 : Nat) : Int)) (Finset.Ico (c.gibox a.lo - (d : Int)) (c.gibox a.lo)) := by
      ext x; simp only [Finset.mem_Ico, Finset.mem_insert]; push_cast; omega
    rw [hs, Finset.sum_insert (by simp only [Finset.mem_Ico]; push_cast; omega), edge_lengths c hv a lines big junk _ (by omega) (by omega)]
    rw [ih h1'] at step
    linear_combination -step

/-- For an increasing list of lines, positions strictly increase over the whole axis (so distinct
indices never share a position, and order is preserved). -/
theorem position_strictMono (n : Int) (hn : 1 ≤ n) (lines : Int → K) (hl : Increasing n lines) :
    StrictMono (nodeInPhysicalUnits (n + 1) lines) := by
  have hpos : ∀ m, 0 < cellSize lines (nearestCell n m) := fun m => by
    unfold cellSize nearestCell
    have := hl (max 0 (min (n-1) m)) (by omega) (by omega)
    linarith
  have hmono : ∀ (d : Nat) (m : Int), nodeInPhysicalUnits (n+1) lines (m : K) ≤
      nodeInPhysicalUnits (n+1) lines ((m + d : Int) : K) := by
    intro d m
    induction d with
    | zero => simp
    | succ d ih =>
      have := node_step n hn lines (m + d)
      rw [show m + ((d + 1 : Nat) : Int) = m + d + 1 by push_cast; ring, this]
      have := hpos (m + d)
      linarith
  intro r s hrs
  rw [node_split n hn lines r, node_split n hn lines s]
  have hfr := Int.floor_le r
  have hfs := Int.floor_le s
  have hlr := Int.lt_floor_add_one r
  rcases eq_or_lt_of_le (Int.floor_le_floor hrs.le) with e | lt
  · rw [e]
    have := hpos ⌊s⌋
    nlinarith
  · have h1 := hmono (⌊s⌋ - (⌊r⌋ + 1)).toNat (⌊r⌋ + 1)
    rw [show ⌊r⌋ + 1 + ((⌊s⌋ - (⌊r⌋ + 1)).toNat : Int) = ⌊s⌋ by omega, node_step n hn lines] at h1
    have h2 := hpos ⌊r⌋
    have h3 := hpos ⌊s⌋
    have h4 : (s - ⌊s⌋) * cellSize lines (nearestCell n ⌊s⌋) ≥ 0 := mul_nonneg (by linarith) h3.le
    nlinarith

/-- The physical location the incident-field code uses for a sample of the user region is the node line
itself, or the middle of the cell for the staggered axes, and agrees with the index location. -/
theorem sample_location (c : Cfg) (hv : ValidCfg c) (a : Axis) (lines : Int → K) (big : K)
    (junk : EdgeArrays K) (fc : Fc) (ig : Int) (h1 : c.gibox a.lo ≤ ig)
    (h2 : ig ≤ if Staggered fc a then c.gibox a.hi - 1 else c.gibox a.hi) :
    let at_ := getFieldPhysicalLocation (c.gibox a.lo) lines (initCellEdges c a lines big junk).de fc a ig
    at_ = (if Staggered fc a then
        (lines (ig - c.gibox a.lo) + lines (ig - c.gibox a.lo + 1)) / 2 else lines (ig - c.gibox a.lo)) ∧
    at_ = nodeInPhysicalUnits (c.numLines a) lines (getFieldIndexLocation fc a ig - (c.gibox a.lo : K)) := by
  have hn := hv.cells a
  have hin : c.gibox a.hi = c.gibox a.lo + c.n a := by
    cases a <;> simp [Axis.lo, Axis.hi, Cfg.gibox, Cfg.giboxHi, Cfg.numLines] <;> omega
  have hw : c.gobox a.lo ≤ c.gibox a.lo ∧ c.gibox a.hi ≤ c.gobox a.hi := by
    have h1 := C07.layers_nonneg hv a.lo
    have h2 := C07.layers_nonneg hv a.hi
    cases a <;> simp [Axis.lo, Axis.hi, Cfg.gibox, Cfg.gobox, Cfg.giboxLo, Cfg.goboxHi] at * <;> omega
  have hhalf : getFieldPhysicalLocation (c.gibox a.lo) lines (initCellEdges c a lines big junk).de fc a ig
      = if Staggered fc a then lines (ig - c.gibox a.lo) + (1/2) * (initCellEdges c a lines big junk).de ig
        else lines (ig - c.gibox a.lo) := by
    cases fc <;> cases a <;> simp [getFieldPhysicalLocation, Staggered, pos2]
  have hidx : (getFieldIndexLocation fc a ig : K) = if Staggered fc a then (ig : K) + 1/2 else ig := by
    cases fc <;> cases a <;> simp [getFieldIndexLocation, Staggered, pos2]
  intro at_
  have hA : at_ = _ := hhalf
  rw [hA, hidx]
  have hnum : c.numLines a = c.n a + 1 := rfl
  split <;> rename_i hst
  · rw [if_pos hst] at h2
    rw [edge_lengths c hv a lines big junk ig (by omega) (by omega)]
    have hne : nearestCell (c.n a) (ig - c.gibox a.lo) = ig - c.gibox a.lo := by unfold nearestCell; omega
    rw [hne, hnum]
    refine ⟨by unfold cellSize; ring, ?_⟩
    rw [node_split (c.n a) hn]
    have hfl : ⌊(ig : K) + 1/2 - (c.gibox a.lo : K)⌋ = ig - c.gibox a.lo := by
      rw [Int.floor_eq_iff]; push_cast; constructor <;> linarith
    rw [hfl, hne, mesh_lines_reproduced _ lines _ (by omega) (by omega)]
    push_cast; ring
  · rw [if_neg hst] at h2
    refine ⟨rfl, ?_⟩
    rw [hnum, show (ig : K) - (c.gibox a.lo : K) = ((ig - c.gibox a.lo : Int) : K) by push_cast; ring,
      mesh_lines_reproduced _ lines _ (by omega) (by omega)]

end

/-! ### Uniform meshes -/

/-- An accepted MS card gives increasing lines with exactly the requested spacing. -/
theorem uniform_mesh {K : Type*} [Field K] [LinearOrder K] [IsStrictOrderedRing K] (v : Arr K)
    (nums : List K) (del : Axis → K) (hp : parseMSValues nums = some del) (a : Axis) (n : Int) :
    Increasing n (setUniformMesh v (n + 1) (del a)) ∧
    (0 ≤ n → setUniformMesh v (n + 1) (del a) 0 = 0) ∧
    ∀ m, 0 ≤ m → m < n → cellSize (setUniformMesh v (n + 1) (del a)) m = del a := by
  have hpos : 0 < del a := by
    unfold parseMSValues at hp
    split at hp
    · split at hp
      · cases hp
      · rename_i h; cases hp; exact not_le.mp h
    · split at hp
      · cases hp
      · rename_i h; cases hp; push Not at h
        cases a <;> simp [h.1, h.2.1, h.2.2]
    · cases hp
  have hval : ∀ m, 0 ≤ m → m ≤ n → setUniformMesh v (n + 1) (del a) m = m * del a := by
    intro m h0 h1
    unfold setUniformMesh
    rw [fill_apply, if_pos ⟨h0, by omega⟩]
  refine ⟨fun m h0 h1 => ?_, fun h => ?_, fun m h0 h1 => ?_⟩
  · rw [hval m h0 (by omega), hval (m+1) (by omega) (by omega)]; push_cast; nlinarith
  · rw [hval 0 (by omega) h]; simp
  · unfold cellSize; rw [hval m h0 (by omega), hval (m+1) (by omega) (by omega)]; push_cast; ring

/-- The given numbers are used as they are: one number for all axes or one per axis. -/
theorem uniform_mesh_values {K : Type*} [LinearOrder K] [Zero K] (nums : List K) (del : Axis → K) :
    parseMSValues nums = some del ↔
      ((∃ d, nums = [d] ∧ del = fun _ => d) ∨ nums = [del .x, del .y, del .z]) ∧ ∀ a, 0 < del a := by
  constructor
  · intro hp
    unfold parseMSValues at hp
    split at hp
    · rename_i d
      split at hp
      · cases hp
      · rename_i h; cases hp; exact ⟨Or.inl ⟨d, rfl, rfl⟩, fun _ => not_le.mp h⟩
    · split at hp
      · cases hp
      · rename_i h; cases hp; push Not at h
        exact ⟨Or.inr rfl, fun a => by cases a <;> simp [h.1, h.2.1, h.2.2]⟩
    · cases hp
  · rintro ⟨⟨d, rfl, rfl⟩ | h, hpos⟩
    · simp [parseMSValues, hpos .x]
    · rw [h]
      simp only [parseMSValues]
      rw [if_neg (by push Not; exact ⟨hpos _, hpos _, hpos _⟩)]
      congr 1; funext a; cases a <;> rfl

/-- Increasing order of user-supplied lines is *not* checked: a list with two equal lines (a cell of
size zero) is accepted. -/
theorem unordered_lines_accepted :
    ∃ (nums : List ℚ) (f : Int → ℚ → ℚ), parseXLValues 3 nums = some f ∧
      ¬ Increasing 2 (fun i => f i 0) ∧ cellSize (fun i => f i 0) 1 = 0 :=
  ⟨[0, 1, 1], _, rfl, by
    intro h
    have := h 1 (by decide) (by decide)
    revert this; decide +kernel, by decide +kernel⟩

/-! ### Smallest and largest cell, time step -/

section
variable {K : Type*} [Field K] [LinearOrder K] [IsStrictOrderedRing K]

theorem foldl_min (A : Arr K) (l : List Int) (m : K) :
    (l.foldl (minStep A) m ≤ m ∧ ∀ i ∈ l, l.foldl (minStep A) m ≤ A i) ∧
    (l.foldl (minStep A) m = m ∨ ∃ i ∈ l, l.foldl (minStep A) m = A i) := by
  induction l generalizing m with
  | nil => simp
  | cons j l ih =>
    rw [List.foldl_cons]
    obtain ⟨⟨h1, h2⟩, h3⟩ := ih (minStep A m j)
    have hs : minStep A m j ≤ m ∧ minStep A m j ≤ A j ∧ (minStep A m j = m ∨ minStep A m j = A j) := by
      unfold minStep; split
      · rename_i h; exact ⟨h.le, le_refl _, Or.inr rfl⟩
      · rename_i h; exact ⟨le_refl _, not_lt.mp h, Or.inl rfl⟩
    refine ⟨⟨h1.trans hs.1, ?_⟩, ?_⟩
    · intro i hi
      rcases List.mem_cons.mp hi with rfl | hi
      · exact h1.trans hs.2.1
      · exact h2 i hi
    · rcases h3 with h3 | ⟨i, hi, h3⟩
      · rcases hs.2.2 with h | h
        · exact Or.inl (h3.trans h)
        · exact Or.inr ⟨j, List.mem_cons_self, h3.trans h⟩
      · exact Or.inr ⟨i, List.mem_cons_of_mem _ hi, h3⟩

theorem foldl_max (A : Arr K) (l : List Int) (m : K) :
    (m ≤ l.foldl (maxStep A) m ∧ ∀ i ∈ l, A i ≤ l.foldl (maxStep A) m) ∧
    (l.foldl (maxStep A) m = m ∨ ∃ i ∈ l, l.foldl (maxStep A) m = A i) := by
  induction l generalizing m with
  | nil => simp
  | cons j l ih =>
    rw [List.foldl_cons]
    obtain ⟨⟨h1, h2⟩, h3⟩ := ih (maxStep A m j)
    have hs : m ≤ maxStep A m j ∧ A j ≤ maxStep A m j ∧ (maxStep A m j = m ∨ maxStep A m j = A j) := by
      unfold maxStep; split
      · rename_i h; exact ⟨le_of_lt h, le_refl _, Or.inr rfl⟩
      · rename_i h; exact ⟨le_refl _, not_lt.mp h, Or.inl rfl⟩
    refine ⟨⟨hs.1.trans h1, ?_⟩, ?_⟩
    · intro i hi
      rcases List.mem_cons.mp hi with rfl | hi
      · exact hs.2.1.trans h1
      · exact h2 i hi
    · rcases h3 with h3 | ⟨i, hi, h3⟩
      · rcases hs.2.2 with h | h
        · exact Or.inl (h3.trans h)
        · exact Or.inr ⟨j, List.mem_cons_self, h3.trans h⟩
      · exact Or.inr ⟨i, List.mem_cons_of_mem _ hi, h3⟩

variable (c : Cfg) (hv : ValidCfg c) (a : Axis) (lines : Int → K) (big : K) (junk : EdgeArrays K)
include hv

/-- The smallest (largest) edge the time step is computed from is the size of the smallest (largest)
cell of the user's mesh (cells smaller than `REAL_MAX`, larger than zero). -/
theorem smallest_largest (hl : Increasing (c.n a) lines)
    (hbig : ∀ m, 0 ≤ m → m < c.n a → cellSize lines m < big) :
    IsLeast {d | ∃ m, 0 ≤ m ∧ m < c.n a ∧ d = cellSize lines m} (initCellEdges c a lines big junk).dmin ∧
    IsGreatest {d | ∃ m, 0 ≤ m ∧ m < c.n a ∧ d = cellSize lines m}
      (initCellEdges c a lines big junk).dmax := by
  have hn := hv.cells a
  have hin : c.gibox a.hi = c.gibox a.lo + c.n a := by
    cases a <;> simp [Axis.lo, Axis.hi, Cfg.gibox, Cfg.giboxHi, Cfg.numLines] <;> omega
  have hw : c.gobox a.lo ≤ c.gibox a.lo ∧ c.gibox a.hi ≤ c.gobox a.hi := by
    have h1 := C07.layers_nonneg hv a.lo
    have h2 := C07.layers_nonneg hv a.hi
    cases a <;> simp [Axis.lo, Axis.hi, Cfg.gibox, Cfg.gobox, Cfg.giboxLo, Cfg.goboxHi] at * <;> omega
  set E := initCellEdges c a lines big junk with hE
  have hde : ∀ i, c.gobox a.lo - 1 ≤ i → i ≤ c.gobox a.hi →
      ∃ m, 0 ≤ m ∧ m < c.n a ∧ E.de i = cellSize lines m := fun i h1 h2 =>
    ⟨nearestCell (c.n a) (i - c.gibox a.lo), by unfold nearestCell; omega, by unfold nearestCell; omega,
      edge_lengths c hv a lines big junk i h1 h2⟩
  have hcell : ∀ m, 0 ≤ m → m < c.n a → ∃ i, c.gobox a.lo - 1 ≤ i ∧ i ≤ c.gobox a.hi ∧ E.de i = cellSize lines m := by
    intro m h0 h1
    refine ⟨m + c.gibox a.lo, by omega, by omega, ?_⟩
    rw [hE, edge_lengths c hv a lines big junk _ (by omega) (by omega)]
    congr 1; unfold nearestCell; omega
  have hdh : ∀ i, c.gobox a.lo ≤ i → i ≤ c.gobox a.hi → E.dh i = (E.de (i-1) + E.de i) / 2 :=
    fun i => dual_edges c hv a lines big junk i
  have hpos : ∀ m, 0 ≤ m → m < c.n a → 0 < cellSize lines m := fun m h0 h1 => by
    have := hl m h0 h1; unfold cellSize; linarith
  constructor
  · have hmin : E.dmin = (intRange (c.gobox a.lo) (c.gobox a.hi)).foldl (minStep E.dh)
      ((intRange (c.gobox a.lo - 1) (c.gobox a.hi)).foldl (minStep E.de) big) := rfl
    obtain ⟨⟨p1, p2⟩, p3⟩ := foldl_min E.de (intRange (c.gobox a.lo - 1) (c.gobox a.hi)) big
    obtain ⟨⟨q1, q2⟩, q3⟩ := foldl_min E.dh (intRange (c.gobox a.lo) (c.gobox a.hi))
      ((intRange (c.gobox a.lo - 1) (c.gobox a.hi)).foldl (minStep E.de) big)
    rw [← hmin] at q1 q2 q3
    set d1 := (intRange (c.gobox a.lo - 1) (c.gobox a.hi)).foldl (minStep E.de) big
    have hd1 : d1 ∈ {d | ∃ m, 0 ≤ m ∧ m < c.n a ∧ d = cellSize lines m} := by
      rcases p3 with p3 | ⟨i, hi, p3⟩
      · obtain ⟨i, hi1, hi2, hi3⟩ := hcell 0 le_rfl (by omega)
        have := p2 i (mem_intRange.mpr ⟨hi1, hi2⟩)
        rw [hi3, p3] at this
        exact absurd (hbig 0 le_rfl (by omega)) (not_lt.mpr this)
      · rw [mem_intRange] at hi
        obtain ⟨m, h0, h1, h2⟩ := hde i hi.1 hi.2
        exact ⟨m, h0, h1, p3.trans h2⟩
    have hlow : ∀ m, 0 ≤ m → m < c.n a → d1 ≤ cellSize lines m := by
      intro m h0 h1
      obtain ⟨i, hi1, hi2, hi3⟩ := hcell m h0 h1
      rw [← hi3]; exact p2 i (mem_intRange.mpr ⟨hi1, hi2⟩)
    have heq : E.dmin = d1 := by
      refine le_antisymm q1 ?_
      rcases q3 with q3 | ⟨i, hi, q3⟩
      · exact q3.ge
      · rw [mem_intRange] at hi
        rw [q3, hdh i hi.1 hi.2]
        have a1 := p2 (i-1) (mem_intRange.mpr ⟨by omega, by omega⟩)
        have a2 := p2 i (mem_intRange.mpr ⟨by omega, by omega⟩)
        linarith
    rw [heq]
    exact ⟨hd1, fun d ⟨m, h0, h1, h2⟩ => h2 ▸ hlow m h0 h1⟩
  · have hmax : E.dmax = (intRange (c.gobox a.lo) (c.gobox a.hi)).foldl (maxStep E.dh)
      ((intRange (c.gobox a.lo - 1) (c.gobox a.hi)).foldl (maxStep E.de) 0) := rfl
    obtain ⟨⟨p1, p2⟩, p3⟩ := foldl_max E.de (intRange (c.gobox a.lo - 1) (c.gobox a.hi)) 0
    obtain ⟨⟨q1, q2⟩, q3⟩ := foldl_max E.dh (intRange (c.gobox a.lo) (c.gobox a.hi))
      ((intRange (c.gobox a.lo - 1) (c.gobox a.hi)).foldl (maxStep E.de) 0)
    rw [← hmax] at q1 q2 q3
    set d1 := (intRange (c.gobox a.lo - 1) (c.gobox a.hi)).foldl (maxStep E.de) 0
    have hd1 : d1 ∈ {d | ∃ m, 0 ≤ m ∧ m < c.n a ∧ d = cellSize lines m} := by
      rcases p3 with p3 | ⟨i, hi, p3⟩
      · obtain ⟨i, hi1, hi2, hi3⟩ := hcell 0 le_rfl (by omega)
        have := p2 i (mem_intRange.mpr ⟨hi1, hi2⟩)
        rw [hi3, p3] at this
        exact absurd (hpos 0 le_rfl (by omega)) (not_lt.mpr this)
      · rw [mem_intRange] at hi
        obtain ⟨m, h0, h1, h2⟩ := hde i hi.1 hi.2
        exact ⟨m, h0, h1, p3.trans h2⟩
    have hhi : ∀ m, 0 ≤ m → m < c.n a → cellSize lines m ≤ d1 := by
      intro m h0 h1
      obtain ⟨i, hi1, hi2, hi3⟩ := hcell m h0 h1
      rw [← hi3]; exact p2 i (mem_intRange.mpr ⟨hi1, hi2⟩)
    have heq : E.dmax = d1 := by
      refine le_antisymm ?_ q1
      rcases q3 with q3 | ⟨i, hi, q3⟩
      · exact q3.le
      · rw [mem_intRange] at hi
        rw [q3, hdh i hi.1 hi.2]
        have a1 := p2 (i-1) (mem_intRange.mpr ⟨by omega, by omega⟩)
        have a2 := p2 i (mem_intRange.mpr ⟨by omega, by omega⟩)
        linarith
    rw [heq]
    exact ⟨hd1, fun d ⟨m, h0, h1, h2⟩ => h2 ▸ hhi m h0 h1⟩

end

/-- Every edge and dual edge is at least the smallest one (used for the Courant limit). -/
theorem all_edges_ge {K : Type*} [Field K] [LinearOrder K] [IsStrictOrderedRing K] (c : Cfg)
    (hv : ValidCfg c) (a : Axis) (lines : Int → K) (big : K) (junk : EdgeArrays K)
    (hl : Increasing (c.n a) lines) (hbig : ∀ m, 0 ≤ m → m < c.n a → cellSize lines m < big) (i : Int) :
    (c.gobox a.lo - 1 ≤ i → i ≤ c.gobox a.hi →
      (initCellEdges c a lines big junk).dmin ≤ (initCellEdges c a lines big junk).de i) ∧
    (c.gobox a.lo ≤ i → i ≤ c.gobox a.hi →
      (initCellEdges c a lines big junk).dmin ≤ (initCellEdges c a lines big junk).dh i) ∧
    0 < (initCellEdges c a lines big junk).dmin := by
  have hn := hv.cells a
  have h := (smallest_largest c hv a lines big junk hl hbig).1
  have hde : ∀ i, c.gobox a.lo - 1 ≤ i → i ≤ c.gobox a.hi →
      (initCellEdges c a lines big junk).dmin ≤ (initCellEdges c a lines big junk).de i := by
    intro i h1 h2
    rw [edge_lengths c hv a lines big junk i h1 h2]
    exact h.2 ⟨_, by unfold nearestCell; omega, by unfold nearestCell; omega, rfl⟩
  refine ⟨hde i, fun h1 h2 => ?_, ?_⟩
  · rw [dual_edges c hv a lines big junk i h1 h2]
    have a1 := hde (i-1) (by omega) (by omega)
    have a2 := hde i (by omega) (by omega)
    linarith
  · obtain ⟨m, h0, h1, h2⟩ := h.1
    rw [h2]; have := hl m h0 h1; unfold cellSize; linarith

/-- **C35** (second half): the time step times the speed of light is the Courant number times the
stability limit of the smallest cell, and never exceeds that fraction of the limit of any cell. -/
theorem time_step_courant (cn c0 : ℝ) (hc : 0 < c0) (hcn : 0 < cn) (dmin : Axis → ℝ)
    (hd : ∀ a, 0 < dmin a) :
    0 < timeStep cn c0 dmin ∧
    (c0 * timeStep cn c0 dmin) ^ 2 * (1 / dmin .x ^ 2 + 1 / dmin .y ^ 2 + 1 / dmin .z ^ 2) = cn ^ 2 ∧
    ∀ d : Axis → ℝ, (∀ a, dmin a ≤ d a) →
      (c0 * timeStep cn c0 dmin) ^ 2 * (1 / d .x ^ 2 + 1 / d .y ^ 2 + 1 / d .z ^ 2) ≤ cn ^ 2 := by
  have hx := hd .x
  have hy := hd .y
  have hz := hd .z
  have hS : 0 < (1 / dmin .x) * (1 / dmin .x) + (1 / dmin .y) * (1 / dmin .y) + (1 / dmin .z) * (1 / dmin .z) := by
    positivity
  have hsq := Real.sq_sqrt hS.le
  have hsp := Real.sqrt_pos.mpr hS
  have heq : (c0 * timeStep cn c0 dmin) ^ 2 * (1 / dmin .x ^ 2 + 1 / dmin .y ^ 2 + 1 / dmin .z ^ 2) = cn ^ 2 := by
    unfold timeStep
    rw [show c0 * (cn / c0 / Real.sqrt ((1 / dmin .x) * (1 / dmin .x) + (1 / dmin .y) * (1 / dmin .y)
        + (1 / dmin .z) * (1 / dmin .z))) = cn / Real.sqrt ((1 / dmin .x) * (1 / dmin .x) + (1 / dmin .y) * (1 / dmin .y)
        + (1 / dmin .z) * (1 / dmin .z)) by field_simp, div_pow, hsq, div_mul_eq_mul_div,
        div_eq_iff hS.ne']
    ring
  refine ⟨by unfold timeStep; positivity, heq, fun d hdd => ?_⟩
  rw [← heq]
  refine mul_le_mul_of_nonneg_left ?_ (sq_nonneg _)
  have one : ∀ a, 1 / d a ^ 2 ≤ 1 / dmin a ^ 2 := fun a =>
    one_div_le_one_div_of_le (pow_pos (hd a) 2) (pow_le_pow_left₀ (hd a).le (hdd a) 2)
  linarith [one .x, one .y, one .z]

/-! ### C41: mesh classification -/

/-- All cells of every axis have the same size up to the tolerance between neighbours. -/
def UniformMesh {K : Type*} [Field K] [LinearOrder K] (tol : K) (gibox : BBox) (de : Axis → Arr K) : Prop :=
  ∀ (a : Axis) i, gibox a.lo < i → i < gibox a.hi → |de a i - de a (i - 1)| ≤ tol

/-- A uniform mesh is never called non-uniform. -/
theorem uniform_recognised {K : Type*} [Field K] [LinearOrder K] [IsStrictOrderedRing K] (tol : K)
    (gibox : BBox) (de : Axis → Arr K) (h : UniformMesh tol gibox de) :
    setGridType tol gibox de ≠ .nonuniform := by
  have one : ∀ a : Axis, axisIsUniform tol (gibox a.lo) (gibox a.hi) (de a) = true := by
    intro a
    unfold axisIsUniform
    rw [List.all_eq_true]
    intro i hi
    rw [mem_intRange] at hi
    have := (abs_le.mp (h a i (by omega) (by omega))).2
    simpa using this
  have hx := one .x
  have hy := one .y
  have hz := one .z
  simp only [Axis.lo, Axis.hi] at hx hy hz
  unfold setGridType
  rw [hx, hy, hz]
  simp only [Bool.and_self, if_true]
  split <;> simp

/-- Among the meshes called uniform, those whose first cell has the same size along all three axes (up to the
tolerance) are called cubic, and only those. -/
theorem cubic_iff {K : Type*} [Field K] [LinearOrder K] [IsStrictOrderedRing K] (tol : K) (gibox : BBox)
    (de : Axis → Arr K) (h : UniformMesh tol gibox de) :
    setGridType tol gibox de = .cubic ↔ |de .x (gibox .xlo) - de .y (gibox .ylo)| < tol ∧
      |de .y (gibox .ylo) - de .z (gibox .zlo)| < tol := by
  have hu := uniform_recognised tol gibox de h
  unfold setGridType at hu ⊢
  split_ifs at hu ⊢ with h1 h2
  · simp only [true_iff]; exact h2
  · simp only [reduceCtorEq, false_iff]; exact h2
  · exact absurd rfl hu

/-- A mesh with a cell larger than its predecessor by more than the tolerance is called non-uniform. -/
theorem growing_recognised_partial {K : Type*} [Field K] [LinearOrder K] (tol : K) (gibox : BBox)
    (de : Axis → Arr K) (a : Axis) (i : Int) (h1 : gibox a.lo < i) (h2 : i < gibox a.hi)
    (h : de a i - de a (i - 1) > tol) : setGridType tol gibox de = .nonuniform := by
  have : axisIsUniform tol (gibox a.lo) (gibox a.hi) (de a) = false := by
    unfold axisIsUniform
    rw [List.all_eq_false]
    exact ⟨i, mem_intRange.mpr ⟨by omega, by omega⟩, by simp [h]⟩
  unfold setGridType
  cases a <;> simp only [Axis.lo, Axis.hi] at this <;> simp [this]

/-- … but a mesh whose cells only shrink is called uniform, however different they are: with cell sizes
`s, 1, 1` for any `s ≥ 1` along x the mesh is classified as cubic or uniform. -/
theorem shrinking_called_uniform (tol s : ℚ) (ht : 0 < tol) (hs : 1 ≤ s) :
    ∃ (gibox : BBox) (de : Axis → Arr ℚ), de .x 1 = s ∧ de .x 2 = 1 ∧ gibox .xlo = 1 ∧ gibox .xhi = 4 ∧
      setGridType tol gibox de ≠ .nonuniform := by
  refine ⟨mkBox 1 4 1 2 1 2, fun a i => if a = .x ∧ i = 1 then s else 1, by simp, by simp, rfl, rfl, ?_⟩
  have hx : axisIsUniform tol 1 4 (fun i => if Axis.x = .x ∧ i = 1 then s else (1:ℚ)) = true := by
    unfold axisIsUniform
    rw [List.all_eq_true]
    intro i hi
    rw [mem_intRange] at hi
    have hi' : i = 2 ∨ i = 3 := by omega
    rcases hi' with rfl | rfl <;> simp <;> linarith
  have hy : ∀ a : Axis, axisIsUniform tol 1 2 (fun i => if a = .x ∧ i = 1 then s else (1:ℚ)) = true := by
    intro a
    unfold axisIsUniform
    rw [List.all_eq_true]
    intro i hi
    rw [mem_intRange] at hi; omega
  unfold setGridType
  rw [if_pos (by
    simp only [Bool.and_eq_true]
    exact ⟨⟨hx, hy .y⟩, hy .z⟩)]
  split <;> simp

/-! ### Non-vacuity -/

/-- A 3-cell axis with different cells and two PML layers on the low side. -/
def demo : Cfg := ⟨fun _ => 3, fun f => if f = .xlo then .pml else .pec, fun f => if f = .xlo then 2 else 0⟩
def demoLines : Int → ℚ := fun i => i * i + i
example : ValidCfg demo := ⟨by decide, by decide, by decide, by decide⟩
example : Increasing (demo.n .x) demoLines := by
  intro m h0 h1
  unfold demoLines; push_cast
  have : (0:ℚ) ≤ m := by exact_mod_cast h0
  nlinarith
/-- Edges of that axis: two layers copying the first cell, then the cells 2, 4, 6. -/
example : [0, 1, 2, 3, 4, 5, 6].map
    (initCellEdges demo .x demoLines 1000 ⟨fun _ => 0, fun _ => 0, fun _ => 0, fun _ => 0, 0, 0⟩).de
    = [2, 2, 2, 2, 4, 6, 6] := by decide +kernel
example : nodeInPhysicalUnits (demo.numLines .x) demoLines (-2) = -4 ∧
    nodeInPhysicalUnits (demo.numLines .x) demoLines 2 = 6 ∧
    nodeInPhysicalUnits (demo.numLines .x) demoLines (3/2) = 4 := by decide +kernel

end Vulture.C18
