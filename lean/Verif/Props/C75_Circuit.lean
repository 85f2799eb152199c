import Verif.Props.C73_Rooms
import Verif.Spec.Circuit
/- C75: circuit laws. -/
set_option linter.unusedSimpArgs false
set_option linter.unusedVariables false
set_option linter.unusedSectionVars false
namespace Vulture.C75
open Vulture Spec Setup Deck CavityLemmas Scaling C72

section
variable {k : Consts} {J : Junk} {X : Experiment} {R : Setup.Run}

theorem length_pos (h : setup k J X = some R) (hl : Increasing X) (a : Axis) (m : Int) : 0 < cellLength X a m := by
  obtain ⟨hv, hn, -⟩ := run_parts h
  have h1 : 1 ≤ cellsOf X.file a := by rw [← hn]; exact hv.cells a
  unfold cellLength
  dsimp only
  have := hl a (max 0 (min (cellsOf X.file a - 1) m)) (by omega) (by omega)
  linarith

theorem middle_pos (h : setup k J X = some R) (hl : Increasing X) (a : Axis) (m : Int) : 0 < middleDistance X a m := by
  have := length_pos h hl a m
  have := length_pos h hl a (m - 1)
  unfold middleDistance; linarith

theorem edge_area_pos (h : setup k J X = some R) (hl : Increasing X) (a : Axis) (q) : 0 < edgeArea X a q :=
  mul_pos (middle_pos h hl _ _) (middle_pos h hl _ _)

theorem loop_is_rot (h : setup k J X = some R) (hl : Increasing X) (F : Fc → (Axis → Int) → ℝ) (a : Axis) (q : Axis → Int) :
    loopH X F a q = edgeArea X a q * rotH X F a q := by
  have h1 := (middle_pos h hl a.next (q a.next)).ne'
  have h2 := (middle_pos h hl a.next.next (q a.next.next)).ne'
  unfold loopH edgeArea rotH
  dsimp only
  field_simp

theorem no_current {fc : Fc} {q : Axis → Int} (hn : NoSource X fc q) (T t : ℝ) : totalCurrent X T t fc q = 0 := by
  unfold totalCurrent
  refine List.sum_eq_zero fun x hx => ?_
  obtain ⟨y, hy, rfl⟩ := List.mem_map.1 hx
  cases y with
  | ex m b nm tag w size delay r =>
    simp only [impressed]
    cases e : tagOf tag with
    | none => rfl
    | some t =>
      dsimp only
      have ht : t.Valid ∧ t.spell = tag := by
        unfold tagOf at e
        split_ifs at e with hex
        injection e with e
        rw [← e]
        exact hex.choose_spec
      rw [if_neg]
      rintro ⟨h1, h2⟩
      exact hn m b nm tag w size delay r hy t ht.1 ht.2 h1 h2
  | _ => rfl

variable (hk : Physical k) (h : setup k J X = some R) (ho : OrdinaryBlocks X.file.cards) (hT : 0 < R.dt) (hl : Increasing X)

include hk h ho hT in
theorem edge_law {a : Axis} {q : Axis → Int} {stuff : Stuff} (hm : MatterEdge X a q stuff) (n : ℕ) :
    permittivity k stuff * (value R (n + 1) a.e q - value R n a.e q) / R.dt +
    conductivity stuff * (value R (n + 1) a.e q + value R n a.e q) / 2 + totalCurrent X R.dt (n * R.dt) a.e q = rotH X (value R n) a q := by
  obtain ⟨⟨i1, i2, i3, i4, i5, i6⟩, hs, hr⟩ := hm
  have := C72.ampere hk h ho hT i1 i2 i3 i4 i5 i6 hs n
  cases stuff with
  | vacuum =>
    simp only [AmpereIn, AmpereWithCurrent] at this
    simp only [permittivity, conductivity]
    linear_combination this
  | metal => exact hr.elim
  | matter e s u =>
    have := this hr.1 hr.2.1 hr.2.2
    simp only [AmpereWithCurrent] at this
    simp only [permittivity, conductivity]
    linear_combination this
  | dispersive e s u p => exact hr.elim

include hk h ho hT hl in
/-- C75: the magnetic field along the loop around an edge is the current through it. -/
theorem edge_loop {a : Axis} {q : Axis → Int} {n : ℕ} {I : ℝ} (hI : CurrentIs k X R n a q I) : loopH X (value R n) a q = I := by
  rcases hI with ⟨stuff, hm, rfl⟩ | ⟨-, rfl⟩
  · rw [loop_is_rot h hl, ← edge_law hk h ho hT hm n, edgeCurrent]
  · rfl

theorem back_same (q : Axis → Int) (a : Axis) : back q a a = q a - 1 := if_pos rfl
theorem back_other (q : Axis → Int) {a b : Axis} (hb : b ≠ a) : back q a b = q b := if_neg hb
theorem back_back (q : Axis → Int) (a b : Axis) : back (back q a) b = back (back q b) a := by
  funext c; unfold back; split_ifs <;> rfl

theorem div_loop (F : Fc → (Axis → Int) → ℝ) (q : Axis → Int) : leaving (loopH X F) q = 0 := by
  unfold leaving loopH
  dsimp only [Axis.next]
  rw [back_back q .y .x, back_back q .z .x, back_back q .z .y]
  simp only [back_other q (show Axis.y ≠ Axis.x by decide), back_other q (show Axis.z ≠ Axis.x by decide),
    back_other q (show Axis.x ≠ Axis.y by decide), back_other q (show Axis.z ≠ Axis.y by decide),
    back_other q (show Axis.x ≠ Axis.z by decide), back_other q (show Axis.y ≠ Axis.z by decide)]
  ring

theorem leaving_congr {f g : Axis → (Axis → Int) → ℝ} {q} (hs : SixEdges (fun a p => f a p = g a p) q) : leaving f q = leaving g q := by
  unfold leaving
  rw [(hs .x).1, (hs .x).2, (hs .y).1, (hs .y).2, (hs .z).1, (hs .z).2]

include hk h ho hT hl in
/-- C75: Kirchhoff's law at a node. -/
theorem node_law {n : ℕ} {q : Axis → Int} {I : Axis → (Axis → Int) → ℝ} (hI : SixEdges (fun a p => CurrentIs k X R n a p (I a p)) q) :
    leaving I q = 0 := by
  rw [← div_loop (X := X) (value R n) q]
  exact leaving_congr fun a => ⟨(edge_loop hk h ho hT hl (hI a).1).symm, (edge_loop hk h ho hT hl (hI a).2).symm⟩

include hk h ho hT hl in
/-- C75: the charge of a node changes by what the conduction currents and the impressed currents carry to it. -/
theorem charge_step {n : ℕ} {q : Axis → Int} {M : Axis → (Axis → Int) → Stuff} (hM : SixEdges (fun a p => MatterEdge X a p (M a p)) q) :
    nodeCharge X R (fun a p => permittivity k (M a p)) (n + 1) q - nodeCharge X R (fun a p => permittivity k (M a p)) n q =
      -(R.dt * leaving (fun a p => edgeArea X a p * (conductivity (M a p) * (value R (n + 1) a.e p + value R n a.e p) / 2 +
        totalCurrent X R.dt (n * R.dt) a.e p)) q) := by
  have nl := node_law hk h ho hT hl (n := n) (q := q) (I := fun a p => edgeCurrent k X R n a p (M a p))
    fun a => ⟨Or.inl ⟨_, (hM a).1, rfl⟩, Or.inl ⟨_, (hM a).2, rfl⟩⟩
  unfold leaving edgeCurrent at nl
  unfold nodeCharge leaving
  have hT' := hT.ne'
  have key : ∀ A e E E' s Jx : ℝ, A * (e * (E' - E) / R.dt + s * (E' + E) / 2 + Jx) =
      (A * e * E' - A * e * E) / R.dt + A * (s * (E' + E) / 2 + Jx) := by
    intro A e E E' s Jx; ring
  simp only [key] at nl
  field_simp at nl ⊢
  linear_combination nl

include hk h ho hT hl in
/-- C75: a node between insulators carries the charge that the impressed currents have brought. -/
theorem charge_carried {q : Axis → Int} {M : Axis → (Axis → Int) → Stuff}
    (hM : SixEdges (fun a p => MatterEdge X a p (M a p) ∧ conductivity (M a p) = 0) q) (n : ℕ) :
    nodeCharge X R (fun a p => permittivity k (M a p)) n q =
      -∑ m ∈ Finset.range n, R.dt * leaving (fun a p => edgeArea X a p * totalCurrent X R.dt (m * R.dt) a.e p) q := by
  induction n with
  | zero =>
    have z : ∀ fc p, value R 0 fc p = 0 := fun _ _ => rfl
    simp [nodeCharge, leaving, z]
  | succ n ih =>
    have := charge_step hk h ho hT hl (n := n) fun a => ⟨(hM a).1.1, (hM a).2.1⟩
    rw [leaving_congr (g := fun a p => edgeArea X a p * totalCurrent X R.dt (n * R.dt) a.e p)
      fun a => ⟨by dsimp only; rw [(hM a).1.2]; ring, by dsimp only; rw [(hM a).2.2]; ring⟩] at this
    rw [Finset.sum_range_succ]
    linear_combination this + ih

include hk h ho hT hl in
/-- C75: without impressed currents nodes between insulators stay uncharged for ever. -/
theorem uncharged {q : Axis → Int} {M : Axis → (Axis → Int) → Stuff}
    (hM : SixEdges (fun a p => MatterEdge X a p (M a p) ∧ conductivity (M a p) = 0 ∧ NoSource X a.e p) q) (n : ℕ) :
    nodeCharge X R (fun a p => permittivity k (M a p)) n q = 0 := by
  rw [charge_carried hk h ho hT hl (fun a => ⟨⟨(hM a).1.1, (hM a).1.2.1⟩, ⟨(hM a).2.1, (hM a).2.2.1⟩⟩) n, neg_eq_zero]
  refine Finset.sum_eq_zero fun m _ => ?_
  rw [leaving_congr (g := fun _ _ => 0) fun a => ⟨by dsimp only; rw [no_current (hM a).1.2.2, mul_zero], by dsimp only; rw [no_current (hM a).2.2.2, mul_zero]⟩]
  unfold leaving; ring

theorem ahead_same (q : Axis → Int) (a : Axis) : ahead q a a = q a + 1 := if_pos rfl
theorem ahead_other (q : Axis → Int) {a b : Axis} (hb : b ≠ a) : ahead q a b = q b := if_neg hb
theorem ahead_ahead (q : Axis → Int) (a b : Axis) : ahead (ahead q a) b = ahead (ahead q b) a := by
  funext c; unfold ahead; split_ifs <;> rfl

theorem leavingCell_congr {f g : Axis → (Axis → Int) → ℝ} {q} (hs : SixSquares (fun a p => f a p = g a p) q) : leavingCell f q = leavingCell g q := by
  unfold leavingCell
  rw [(hs .x).1, (hs .x).2, (hs .y).1, (hs .y).2, (hs .z).1, (hs .z).2]

/-- The voltage along the four edges of a square. -/
noncomputable def loopE (X : Experiment) (F : Fc → (Axis → Int) → ℝ) (a : Axis) (q : Axis → Int) : ℝ :=
  let b := a.next
  let c := b.next
  (F c.e (ahead q b) - F c.e q) * cellLength X c (q c) - (F b.e (ahead q c) - F b.e q) * cellLength X b (q b)

theorem loopE_is_rot (h : setup k J X = some R) (hl : Increasing X) (F : Fc → (Axis → Int) → ℝ) (a : Axis) (q : Axis → Int) :
    loopE X F a q = squareArea X a q * rotE X F a q := by
  have h1 := (length_pos h hl a.next (q a.next)).ne'
  have h2 := (length_pos h hl a.next.next (q a.next.next)).ne'
  unfold loopE squareArea rotE
  dsimp only
  field_simp

theorem div_loopE (F : Fc → (Axis → Int) → ℝ) (q : Axis → Int) : leavingCell (loopE X F) q = 0 := by
  unfold leavingCell loopE
  dsimp only [Axis.next]
  rw [ahead_ahead q .y .x, ahead_ahead q .z .x, ahead_ahead q .z .y]
  simp only [ahead_other q (show Axis.y ≠ Axis.x by decide), ahead_other q (show Axis.z ≠ Axis.x by decide),
    ahead_other q (show Axis.x ≠ Axis.y by decide), ahead_other q (show Axis.z ≠ Axis.y by decide),
    ahead_other q (show Axis.x ≠ Axis.z by decide), ahead_other q (show Axis.y ≠ Axis.z by decide)]
  ring

include hk h ho hT hl in
theorem square_law {a : Axis} {q : Axis → Int} {mu : ℝ} (hm : MatterSquare k X R.dt a q mu) (n : ℕ) :
    squareArea X a q * (mu * (value R (n + 1) a.h q - value R n a.h q) / R.dt + totalCurrent X R.dt ((n + 1 / 2) * R.dt) a.h q) =
      -loopE X (value R (n + 1)) a q := by
  obtain ⟨⟨i1, i2, i3, i4⟩, stuff, hs, hr, rfl⟩ := hm
  have := C72.faraday hk h ho hT i1 i2 i3 i4 hs hr n
  unfold FaradayWithCurrent at this
  rw [loopE_is_rot h hl]
  linear_combination squareArea X a q * this

include hk h ho hT hl in
/-- C75: the magnetic flux out of a cell changes only by impressed magnetic currents. -/
theorem flux_step {n : ℕ} {q : Axis → Int} {mu : Axis → (Axis → Int) → ℝ} (hM : SixSquares (fun a p => MatterSquare k X R.dt a p (mu a p)) q) :
    cellFlux X R mu (n + 1) q - cellFlux X R mu n q =
      -(R.dt * leavingCell (fun a p => squareArea X a p * totalCurrent X R.dt ((n + 1 / 2) * R.dt) a.h p) q) := by
  have nl := div_loopE (X := X) (value R (n + 1)) q
  rw [leavingCell_congr (g := fun a p => -(squareArea X a p * (mu a p * (value R (n + 1) a.h p - value R n a.h p) / R.dt +
      totalCurrent X R.dt ((n + 1 / 2) * R.dt) a.h p)))
    fun a => ⟨by dsimp only; rw [square_law hk h ho hT hl (hM a).1 n, neg_neg], by dsimp only; rw [square_law hk h ho hT hl (hM a).2 n, neg_neg]⟩] at nl
  unfold leavingCell at nl
  unfold cellFlux leavingCell
  have hT' := hT.ne'
  have key : ∀ A e E E' Jx : ℝ, A * (e * (E' - E) / R.dt + Jx) = (A * e * E' - A * e * E) / R.dt + A * Jx := by
    intro A e E E' Jx; ring
  simp only [key] at nl
  field_simp at nl ⊢
  linear_combination -nl

include hk h ho hT hl in
/-- C75: no magnetic charge. -/
theorem no_magnetic_charge {q : Axis → Int} {mu : Axis → (Axis → Int) → ℝ}
    (hM : SixSquares (fun a p => MatterSquare k X R.dt a p (mu a p) ∧ NoSource X a.h p) q) (n : ℕ) : cellFlux X R mu n q = 0 := by
  induction n with
  | zero =>
    have z : ∀ fc p, value R 0 fc p = 0 := fun _ _ => rfl
    simp [cellFlux, leavingCell, z]
  | succ n ih =>
    have := flux_step hk h ho hT hl (n := n) fun a => ⟨(hM a).1.1, (hM a).2.1⟩
    rw [leavingCell_congr (g := fun _ _ => 0)
      fun a => ⟨by dsimp only; rw [no_current (hM a).1.2, mul_zero], by dsimp only; rw [no_current (hM a).2.2, mul_zero]⟩] at this
    unfold leavingCell at this
    linear_combination this + ih

/-! ### Rectangles -/

theorem tele (f : Int → ℝ) (l : Int) (m : ℕ) : ∑ i ∈ Finset.Icc l (l + m - 1), (f i - f (i - 1)) = f (l + m - 1) - f (l - 1) := by
  induction m with
  | zero => simp
  | succ m ih =>
    have : Finset.Icc l (l + (m + 1 : ℕ) - 1) = insert (l + m) (Finset.Icc l (l + m - 1)) := by
      ext x; simp only [Finset.mem_Icc, Finset.mem_insert]; push_cast; omega
    rw [this, Finset.sum_insert (by simp), ih]
    have e : l + ((m + 1 : ℕ) : Int) - 1 = l + m := by push_cast; ring
    rw [e]; ring

theorem tele' (f : Int → ℝ) {l h : Int} (hlh : l ≤ h + 1) : ∑ i ∈ Finset.Icc l h, (f i - f (i - 1)) = f h - f (l - 1) := by
  obtain ⟨m, hm⟩ := Int.eq_ofNat_of_zero_le (show 0 ≤ h + 1 - l by omega)
  have e : h = l + m - 1 := by omega
  rw [e]; exact tele f l m

theorem plane_a (a : Axis) (q : Axis → Int) (i j : Int) : planePoint a q i j a = q a := by simp [planePoint]
theorem plane_b (a : Axis) (q : Axis → Int) (i j : Int) : planePoint a q i j a.next = i := by cases a <;> simp [planePoint, Axis.next]
theorem plane_c (a : Axis) (q : Axis → Int) (i j : Int) : planePoint a q i j a.next.next = j := by cases a <;> simp [planePoint, Axis.next]
theorem plane_back_b (a : Axis) (q : Axis → Int) (i j : Int) : back (planePoint a q i j) a.next = planePoint a q (i - 1) j := by
  funext d; cases a <;> cases d <;> simp [planePoint, Axis.next, back]
theorem plane_back_c (a : Axis) (q : Axis → Int) (i j : Int) : back (planePoint a q i j) a.next.next = planePoint a q i (j - 1) := by
  funext d; cases a <;> cases d <;> simp [planePoint, Axis.next, back]
theorem plane_ahead_b (a : Axis) (q : Axis → Int) (i j : Int) : ahead (planePoint a q i j) a.next = planePoint a q (i + 1) j := by
  funext d; cases a <;> cases d <;> simp [planePoint, Axis.next, ahead]
theorem plane_ahead_c (a : Axis) (q : Axis → Int) (i j : Int) : ahead (planePoint a q i j) a.next.next = planePoint a q i (j + 1) := by
  funext d; cases a <;> cases d <;> simp [planePoint, Axis.next, ahead]

theorem stokes (F : Fc → (Axis → Int) → ℝ) (a : Axis) (q : Axis → Int) {lb hb lc hc : Int} (h1 : lb ≤ hb + 1) (h2 : lc ≤ hc + 1) :
    ∑ i ∈ Finset.Icc lb hb, ∑ j ∈ Finset.Icc lc hc, loopH X F a (planePoint a q i j) = rectangleH X F a q lb hb lc hc := by
  unfold loopH rectangleH
  simp only [plane_b, plane_c, plane_back_b, plane_back_c]
  have split : ∀ f g : Int → Int → ℝ, (∑ i ∈ Finset.Icc lb hb, ∑ j ∈ Finset.Icc lc hc, (f i j - g i j)) =
      (∑ i ∈ Finset.Icc lb hb, ∑ j ∈ Finset.Icc lc hc, f i j) - ∑ i ∈ Finset.Icc lb hb, ∑ j ∈ Finset.Icc lc hc, g i j := by
    intro f g; simp only [Finset.sum_sub_distrib]
  rw [split]
  have e1 : ∑ i ∈ Finset.Icc lb hb, ∑ j ∈ Finset.Icc lc hc,
      (F a.next.next.h (planePoint a q i j) - F a.next.next.h (planePoint a q (i - 1) j)) * middleDistance X a.next.next j =
      ∑ j ∈ Finset.Icc lc hc, (F a.next.next.h (planePoint a q hb j) - F a.next.next.h (planePoint a q (lb - 1) j)) * middleDistance X a.next.next j := by
    rw [Finset.sum_comm]
    refine Finset.sum_congr rfl fun j _ => ?_
    rw [← Finset.sum_mul, tele' (fun i => F a.next.next.h (planePoint a q i j)) h1]
  have e2 : ∑ i ∈ Finset.Icc lb hb, ∑ j ∈ Finset.Icc lc hc,
      (F a.next.h (planePoint a q i j) - F a.next.h (planePoint a q i (j - 1))) * middleDistance X a.next i =
      ∑ i ∈ Finset.Icc lb hb, (F a.next.h (planePoint a q i hc) - F a.next.h (planePoint a q i (lc - 1))) * middleDistance X a.next i := by
    refine Finset.sum_congr rfl fun i _ => ?_
    rw [← Finset.sum_mul, tele' (fun j => F a.next.h (planePoint a q i j)) h2]
  rw [e1, e2]
  simp only [sub_mul, Finset.sum_sub_distrib]
  ring

theorem stokesE (F : Fc → (Axis → Int) → ℝ) (a : Axis) (q : Axis → Int) {lb hb lc hc : Int} (h1 : lb ≤ hb + 1) (h2 : lc ≤ hc + 1) :
    ∑ i ∈ Finset.Icc lb hb, ∑ j ∈ Finset.Icc lc hc, loopE X F a (planePoint a q i j) = rectangleE X F a q lb hb lc hc := by
  unfold loopE rectangleE
  simp only [plane_b, plane_c, plane_ahead_b, plane_ahead_c]
  have split : ∀ f g : Int → Int → ℝ, (∑ i ∈ Finset.Icc lb hb, ∑ j ∈ Finset.Icc lc hc, (f i j - g i j)) =
      (∑ i ∈ Finset.Icc lb hb, ∑ j ∈ Finset.Icc lc hc, f i j) - ∑ i ∈ Finset.Icc lb hb, ∑ j ∈ Finset.Icc lc hc, g i j := by
    intro f g; simp only [Finset.sum_sub_distrib]
  rw [split]
  have e1 : ∑ i ∈ Finset.Icc lb hb, ∑ j ∈ Finset.Icc lc hc,
      (F a.next.next.e (planePoint a q (i + 1) j) - F a.next.next.e (planePoint a q i j)) * cellLength X a.next.next j =
      ∑ j ∈ Finset.Icc lc hc, (F a.next.next.e (planePoint a q (hb + 1) j) - F a.next.next.e (planePoint a q lb j)) * cellLength X a.next.next j := by
    rw [Finset.sum_comm]
    refine Finset.sum_congr rfl fun j _ => ?_
    rw [← Finset.sum_mul]
    have := tele' (fun i => F a.next.next.e (planePoint a q (i + 1) j)) h1
    simp only [sub_add_cancel] at this
    rw [this]
  have e2 : ∑ i ∈ Finset.Icc lb hb, ∑ j ∈ Finset.Icc lc hc,
      (F a.next.e (planePoint a q i (j + 1)) - F a.next.e (planePoint a q i j)) * cellLength X a.next i =
      ∑ i ∈ Finset.Icc lb hb, (F a.next.e (planePoint a q i (hc + 1)) - F a.next.e (planePoint a q i lc)) * cellLength X a.next i := by
    refine Finset.sum_congr rfl fun i _ => ?_
    rw [← Finset.sum_mul]
    have := tele' (fun j => F a.next.e (planePoint a q i (j + 1))) h2
    simp only [sub_add_cancel] at this
    rw [this]
  rw [e1, e2]
  simp only [sub_mul, Finset.sum_sub_distrib]
  ring

include hk h ho hT hl in
/-- C75: Ampere's circuital law: the magnetic field along a rectangle is the sum of the currents through it. -/
theorem rectangle_current {n : ℕ} {a : Axis} {q : Axis → Int} {lb hb lc hc : Int} (h1 : lb ≤ hb) (h2 : lc ≤ hc) {I : Int → Int → ℝ}
    (hI : ∀ i j, lb ≤ i → i ≤ hb → lc ≤ j → j ≤ hc → CurrentIs k X R n a (planePoint a q i j) (I i j)) :
    rectangleH X (value R n) a q lb hb lc hc = ∑ i ∈ Finset.Icc lb hb, ∑ j ∈ Finset.Icc lc hc, I i j := by
  rw [← stokes _ _ _ (by omega) (by omega)]
  refine Finset.sum_congr rfl fun i hi => Finset.sum_congr rfl fun j hj => ?_
  rw [Finset.mem_Icc] at hi hj
  exact edge_loop hk h ho hT hl (hI i j hi.1 hi.2 hj.1 hj.2)

include hk h ho hT hl in
/-- C75: the law of induction: the voltage along a rectangle is minus the rate of change of the magnetic flux through it, less
the impressed magnetic currents. -/
theorem rectangle_voltage {n : ℕ} {a : Axis} {q : Axis → Int} {lb hb lc hc : Int} (h1 : lb ≤ hb) (h2 : lc ≤ hc) {mu : Int → Int → ℝ}
    (hM : ∀ i j, lb ≤ i → i ≤ hb → lc ≤ j → j ≤ hc → MatterSquare k X R.dt a (planePoint a q i j) (mu i j)) :
    rectangleE X (value R (n + 1)) a q lb hb lc hc =
      -((∑ i ∈ Finset.Icc lb hb, ∑ j ∈ Finset.Icc lc hc, squareArea X a (planePoint a q i j) * mu i j * value R (n + 1) a.h (planePoint a q i j)) -
        ∑ i ∈ Finset.Icc lb hb, ∑ j ∈ Finset.Icc lc hc, squareArea X a (planePoint a q i j) * mu i j * value R n a.h (planePoint a q i j)) / R.dt -
      ∑ i ∈ Finset.Icc lb hb, ∑ j ∈ Finset.Icc lc hc, squareArea X a (planePoint a q i j) * totalCurrent X R.dt ((n + 1 / 2) * R.dt) a.h (planePoint a q i j) := by
  rw [← stokesE _ _ _ (by omega) (by omega)]
  have e : ∀ i ∈ Finset.Icc lb hb, ∀ j ∈ Finset.Icc lc hc, loopE X (value R (n + 1)) a (planePoint a q i j) =
      -(squareArea X a (planePoint a q i j) * mu i j * value R (n + 1) a.h (planePoint a q i j) -
        squareArea X a (planePoint a q i j) * mu i j * value R n a.h (planePoint a q i j)) / R.dt -
        squareArea X a (planePoint a q i j) * totalCurrent X R.dt ((n + 1 / 2) * R.dt) a.h (planePoint a q i j) := by
    intro i hi j hj
    rw [Finset.mem_Icc] at hi hj
    have := square_law hk h ho hT hl (hM i j hi.1 hi.2 hj.1 hj.2) n
    linear_combination this
  rw [Finset.sum_congr rfl fun i hi => Finset.sum_congr rfl fun j hj => e i hi j hj]
  simp only [Finset.sum_sub_distrib, neg_sub, ← Finset.sum_div]

end

/-! ### A current in the middle of an empty room -/

open C73

theorem room_side {p : Axis → Int} (r : ∀ a, 1 ≤ p a ∧ p a ≤ 7) (fc : Fc) (f : Face) : ¬ OnPlane (meshBox (room 8 .pec 4)) f fc (p .x) (p .y) (p .z) := by
  have rx := r .x; have ry := r .y; have rz := r .z
  intro hf
  cases fc <;> cases f <;> simp [OnPlane, samplePos, pos2, meshBox, mkBox, room, Face.axis] at hf <;> omega

theorem room_in {p : Axis → Int} (r : ∀ a, 1 ≤ p a ∧ p a ≤ 7) (fc : Fc) : SampleIn (meshBox (room 8 .pec 4)) fc (p .x) (p .y) (p .z) := by
  have rx := r .x; have ry := r .y; have rz := r .z
  cases fc <;> simp [SampleIn, pos2, meshBox, mkBox, room] <;> omega

theorem room_edge {p : Axis → Int} (r : ∀ a, 1 ≤ p a ∧ p a ≤ 7) (a : Axis) : MatterEdge (room 8 .pec 4) a p .vacuum :=
  ⟨⟨room_in r _, by rintro ⟨f, -, hf⟩; exact room_side r _ f hf, room_debye, room_sheets, room_waves, room_currents⟩,
    room_vacuum (room_side r _), trivial⟩

theorem room_square {k : Consts} {T : ℝ} {p : Axis → Int} (r : ∀ a, 1 ≤ p a ∧ p a ≤ 7) (a : Axis) : MatterSquare k (room 8 .pec 4) T a p (1 * k.mu0) :=
  ⟨⟨room_in r _, room_sheets, room_waves, room_currents⟩, .vacuum, room_vacuum (room_side r _), trivial, rfl⟩

theorem room_increasing : Increasing (room 8 .pec 4) := by
  intro a m _ _
  show ((m : Int) : ℝ) < ((m + 1 : Int) : ℝ)
  push_cast; linarith

/-- Where the current ends it leaves its charge. -/
example (k : Consts) (hk : Physical k) (hb : 1 < k.big) (J : Junk) : ∃ R, setup k J (room 8 .pec 4) = some R ∧ ∀ n,
    nodeCharge (room 8 .pec 4) R (fun _ _ => k.eps0) n (fun a => if a = .z then 5 else 4) =
      ∑ m ∈ Finset.range n, R.dt * waveValue R.dt ((room 8 .pec 4).waves "pulse") (m * R.dt) := by
  obtain ⟨R, hR⟩ := room_setup k J (Or.inl ⟨rfl, rfl, rfl⟩)
  refine ⟨R, hR, fun n => ?_⟩
  have hT : 0 < R.dt := C64.step_positive hk hR (by show (0 : ℝ) < 0.5; norm_num) room_increasing (by
    intro a m _ _
    show ((m + 1 : Int) : ℝ) - ((m : Int) : ℝ) < k.big
    push_cast; linarith)
  have := charge_carried hk hR room_blocks hT room_increasing (q := fun a => if a = .z then 5 else 4) (M := fun _ _ => .vacuum)
    (fun a => ⟨⟨room_edge (fun b => by split_ifs <;> omega) a, rfl⟩, ⟨room_edge (fun b => by unfold back; dsimp only; split_ifs <;> omega) a, rfl⟩⟩) n
  simp only [permittivity] at this
  rw [this, ← Finset.sum_neg_distrib]
  refine Finset.sum_congr rfl fun m _ => ?_
  have e := tagOf_spell jz_valid
  rw [jz_spell] at e
  have area : ∀ a p, edgeArea (room 8 .pec 4) a p = 1 := by
    intro a p
    unfold edgeArea middleDistance
    simp only [unit_cell (X := room 8 .pec 4) rfl]
    norm_num
  have off : ∀ (a : Axis) (p : Axis → Int), a ≠ .z → totalCurrent (room 8 .pec 4) R.dt (m * R.dt) a.e p = 0 := by
    intro a p ha
    rw [room_total]
    simp only [impressed, e]
    rw [if_neg]
    rintro ⟨h, -⟩
    cases a
    · exact absurd h (by decide)
    · exact absurd h (by decide)
    · exact ha rfl
  have top : totalCurrent (room 8 .pec 4) R.dt (m * R.dt) Axis.z.e (fun a => if a = .z then 5 else 4) = 0 := by
    rw [room_total]
    simp only [impressed, e]
    rw [if_neg]
    rintro ⟨-, h⟩
    simp [SampleIn, mkBox, pos2, Axis.e] at h
  have bot : totalCurrent (room 8 .pec 4) R.dt (m * R.dt) Axis.z.e (back (fun a => if a = .z then 5 else 4) .z) =
      waveValue R.dt ((room 8 .pec 4).waves "pulse") (m * R.dt) := by
    rw [room_total]
    simp only [impressed, e]
    rw [if_pos ⟨rfl, by simp [SampleIn, mkBox, pos2, back, Axis.e]⟩]
    simp [density, jz]
  unfold leaving
  dsimp only
  rw [off .x _ (by decide), off .x _ (by decide), off .y _ (by decide), off .y _ (by decide), top, bot]
  simp only [area]
  ring

/-- Around the current flows the magnetic field of Ampere's law; no magnetic charge arises. -/
example (k : Consts) (hk : Physical k) (hb : 1 < k.big) (J : Junk) : ∃ R, setup k J (room 8 .pec 4) = some R ∧ ∀ n,
    rectangleH (room 8 .pec 4) (value R n) .z (fun _ => 4) 3 5 3 5 =
      (∑ i ∈ Finset.Icc (3 : Int) 5, ∑ j ∈ Finset.Icc (3 : Int) 5, edgeCurrent k (room 8 .pec 4) R n .z (planePoint .z (fun _ => 4) i j) .vacuum) ∧
    cellFlux (room 8 .pec 4) R (fun _ _ => 1 * k.mu0) n (fun _ => 4) = 0 := by
  obtain ⟨R, hR⟩ := room_setup k J (Or.inl ⟨rfl, rfl, rfl⟩)
  refine ⟨R, hR, fun n => ?_⟩
  have hT : 0 < R.dt := C64.step_positive hk hR (by show (0 : ℝ) < 0.5; norm_num) room_increasing (by
    intro a m _ _
    show ((m + 1 : Int) : ℝ) - ((m : Int) : ℝ) < k.big
    push_cast; linarith)
  have ns : ∀ a p, NoSource (room 8 .pec 4) (Axis.h a) p := by
    intro a p m b nm tag w size delay r hx t ht hs hc
    rcases room_cards hx with h | h
    · cases h
    · injection h with _ _ _ h4
      have e : t = jz := C27.spell_injective ht jz_valid (by rw [hs, h4]; rfl)
      subst e
      cases a <;> exact absurd hc (by decide)
  refine ⟨rectangle_current hk hR room_blocks hT room_increasing (by norm_num) (by norm_num) fun i j h1 h2 h3 h4 => Or.inl ⟨.vacuum, room_edge ?_ _, rfl⟩,
    no_magnetic_charge hk hR room_blocks hT room_increasing (fun a => ⟨⟨room_square (fun b => by omega) a, ns _ _⟩, ⟨room_square (fun b => ?_) a, ns _ _⟩⟩) n⟩
  · intro a
    unfold planePoint
    dsimp only
    split_ifs <;> omega
  · unfold ahead; dsimp only; split_ifs <;> omega

end Vulture.C75
