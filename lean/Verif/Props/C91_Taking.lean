import Verif.Spec.Taking
import Verif.Props.C90_Oven
/- C91: energy in boxes of the mesh that contain passive dispersive media. -/
set_option linter.unusedSimpArgs false
set_option linter.unusedVariables false
set_option linter.unusedSectionVars false
set_option autoImplicit false
namespace Vulture.C91
open Spec Setup Deck CavityLemmas Scaling Finset C90

variable {k : Consts} {J : Junk} {X : Experiment} {R : Setup.Run} {M : Axis → (Axis → Int) → Stuff} {mu : Axis → (Axis → Int) → ℝ} {b : BBox}

theorem inE_smul (c : ℝ) (f : Axis → (Axis → Int) → ℝ) : insideE b (fun a q => c * f a q) = c * insideE b f := by
  unfold insideE; simp only [C80.over_smul]; ring
theorem inH_smul (c : ℝ) (f : Axis → (Axis → Int) → ℝ) : insideH b (fun a q => c * f a q) = c * insideH b f := by
  unfold insideH; simp only [C80.over_smul]; ring
theorem inE_add (f g : Axis → (Axis → Int) → ℝ) : insideE b (fun a q => f a q + g a q) = insideE b f + insideE b g := by
  unfold insideE; simp only [C80.over_add]; ring
theorem inE_zero {f : Axis → (Axis → Int) → ℝ} (hf : ∀ a q, f a q = 0) : insideE b f = 0 := by
  unfold insideE sumOver; simp only [hf, sum_const_zero, add_zero]
theorem inH_zero {f : Axis → (Axis → Int) → ℝ} (hf : ∀ a q, f a q = 0) : insideH b f = 0 := by
  unfold insideH sumOver; simp only [hf, sum_const_zero, add_zero]
theorem inE_nonneg {f : Axis → (Axis → Int) → ℝ} (hf : ∀ a q, (∀ d, q d ∈ innerRange b a.e d) → 0 ≤ f a q) : 0 ≤ insideE b f := by
  have s : ∀ a : Axis, 0 ≤ sumOver (innerRange b a.e) (f a) := by
    intro a
    unfold sumOver
    refine sum_nonneg fun i hi => sum_nonneg fun j hj => sum_nonneg fun l hl => hf a _ fun d => ?_
    cases d
    · exact hi
    · exact hj
    · exact hl
  exact add_nonneg (add_nonneg (s .x) (s .y)) (s .z)

variable (hk : Physical k) (h : setup k J X = some R) (ho : OrdinaryBlocks X.file.cards) (hT : 0 < R.dt) (hl : Increasing X)
  (hb : RelaxingBox k X R.dt b M mu)

include h hl in
theorem volume_pos (a : Axis) (q : Axis → Int) : 0 < edgeVolume X a q :=
  mul_pos (C75.length_pos h hl a (q a)) (mul_pos (C75.middle_pos h hl _ _) (C75.middle_pos h hl _ _))

include hk h ho hT hl hb in
/-- **C91.** Energy in the box at any time: the work of the sources in it, less the ohmic heat, less what has flowed out, less what
the dispersive media have taken, which is never negative and never comes back beyond what they hold: `W` is the energy they hold,
`D` the energy they have lost in each step. -/
theorem energy_taken : ∃ W D : ℕ → ℝ, W 0 = 0 ∧ (∀ n, 0 ≤ W n) ∧ (∀ n, 0 ≤ D n) ∧ ∀ n,
    energyIn X R (fun a q => instantPermittivity k (M a q)) mu b n + W (n + 1) + ∑ m ∈ range (n + 1), D m =
      ∑ m ∈ range (n + 1), (workIn X R b m - heatIn X R (fun a q => staticConductivity (M a q)) b m - flowOut X R b m) := by
  have ex : ∀ (a : Axis) (q : Axis → Int), ∃ W D : ℕ → ℝ, (∀ d, q d ∈ innerRange b a.e d) → W 0 = 0 ∧ (∀ n, 0 ≤ W n) ∧ (∀ n, 0 ≤ D n) ∧ ∀ V n,
      1 / 2 * (V * instantPermittivity k (M a q) * value R (n + 1) a.e q ^ 2) =
      1 / 2 * (V * instantPermittivity k (M a q) * value R n a.e q ^ 2) +
        R.dt * (V * (meanOver R n a.e q * rotH X (value R n) a q)) +
        (-R.dt) * (V * staticConductivity (M a q) * meanOver R n a.e q ^ 2 + V * (meanOver R n a.e q * totalCurrent X R.dt (n * R.dt) a.e q)) +
        ((-1) * (V * (W (n + 1) - W n)) + (-1) * (V * D n)) := by
    intro a q
    by_cases hq : ∀ d, q d ∈ innerRange b a.e d
    · obtain ⟨W, D, hh⟩ := edge_balance hk h ho hT (hb.edges a q hq)
      exact ⟨W, D, fun _ => hh⟩
    · exact ⟨0, 0, fun c => absurd c hq⟩
  choose W D hWD using ex
  have bal : ∀ n, 1 / 2 * insideE b (fun a q => edgeVolume X a q * instantPermittivity k (M a q) * value R (n + 1) a.e q ^ 2) =
      1 / 2 * insideE b (fun a q => edgeVolume X a q * instantPermittivity k (M a q) * value R n a.e q ^ 2) +
      R.dt * insideE b (fun a q => edgeVolume X a q * (meanOver R n a.e q * rotH X (value R n) a q)) -
      heatIn X R (fun a q => staticConductivity (M a q)) b n -
      R.dt * insideE b (fun a q => edgeVolume X a q * (meanOver R n a.e q * totalCurrent X R.dt (n * R.dt) a.e q)) -
      (insideE b (fun a q => edgeVolume X a q * W a q (n + 1)) - insideE b (fun a q => edgeVolume X a q * W a q n) +
        insideE b (fun a q => edgeVolume X a q * D a q n)) := by
    intro n
    have eE := C80.inE_congr (b := b) fun a q hq => (hWD a q hq).2.2.2 (edgeVolume X a q) n
    have sp : insideE b (fun a q => edgeVolume X a q * (W a q (n + 1) - W a q n)) =
        insideE b (fun a q => edgeVolume X a q * W a q (n + 1)) - insideE b (fun a q => edgeVolume X a q * W a q n) := by
      have := inE_add (b := b) (fun a q => edgeVolume X a q * (W a q (n + 1) - W a q n)) (fun a q => edgeVolume X a q * W a q n)
      rw [C80.inE_congr (g := fun a q => edgeVolume X a q * W a q (n + 1)) fun a q _ => by ring] at this
      linarith
    simp only [inE_smul, inE_add] at eE
    rw [sp] at eE
    unfold heatIn
    linear_combination eE
  have w0 : insideE b (fun a q => edgeVolume X a q * W a q 0) = 0 := by
    rw [C80.inE_congr (g := fun _ _ => 0) fun a q hq => by rw [(hWD a q hq).1, mul_zero]]
    exact inE_zero fun _ _ => rfl
  refine ⟨fun n => insideE b fun a q => edgeVolume X a q * W a q n, fun n => insideE b fun a q => edgeVolume X a q * D a q n, w0,
    fun n => inE_nonneg fun a q hq => mul_nonneg (volume_pos h hl a q).le ((hWD a q hq).2.1 n),
    fun n => inE_nonneg fun a q hq => mul_nonneg (volume_pos h hl a q).le ((hWD a q hq).2.2.1 n), fun n => ?_⟩
  dsimp only
  induction n with
  | zero =>
    rw [sum_range_one, sum_range_one]
    have eE := bal 0
    have hc := C80.curls h hl hb.open_box (meanOver R 0) (value R 0)
    have z := C80.start_zero (R := R)
    rw [inE_zero (f := fun a q => edgeVolume X a q * instantPermittivity k (M a q) * value R 0 a.e q ^ 2) fun a q => by rw [z]; ring,
      inE_zero (f := fun a q => edgeVolume X a q * (meanOver R 0 a.e q * rotH X (value R 0) a q)) fun a q => by unfold rotH; simp only [z]; ring, w0] at eE
    unfold energyIn workIn flowOut
    rw [C80.across_zero .x z, C80.across_zero .y z, C80.across_zero .z z,
      inH_zero (f := fun a q => squareVolume X a q * mu a q * (value R 0 a.h q * value R (0 + 1) a.h q)) (fun a q => by rw [z]; ring),
      inH_zero (f := fun a q => squareVolume X a q * (value R 0 a.h q *
        ((totalCurrent X R.dt (((0 : ℕ) - 1 / 2) * R.dt) a.h q + totalCurrent X R.dt (((0 : ℕ) + 1 / 2) * R.dt) a.h q) / 2))) (fun a q => by rw [z]; ring)]
    linear_combination eE
  | succ n ih =>
    rw [sum_range_succ, sum_range_succ (fun m => workIn X R b m - _ - _)]
    have eE := bal (n + 1)
    have hc := C80.curls h hl hb.open_box (meanOver R (n + 1)) (value R (n + 1))
    have eH := C80.inH_congr (b := b) fun a q hq => C80.square_work hk h ho hT hl (hb.squares a q hq) (squareVolume X a q) n
    rw [C80.inH_lin, inH_smul] at eH
    unfold energyIn workIn flowOut at ih ⊢
    linear_combination ih + eE + eH + R.dt * hc

include hk h ho hT hl hb in
/-- **C91.** The energy in the fields of the box is never more than the work of its sources less the ohmic heat and less what has
flowed out. -/
theorem energy_bound (n : ℕ) : energyIn X R (fun a q => instantPermittivity k (M a q)) mu b n ≤
    ∑ m ∈ range (n + 1), (workIn X R b m - heatIn X R (fun a q => staticConductivity (M a q)) b m - flowOut X R b m) := by
  obtain ⟨W, D, -, hW, hD, e⟩ := energy_taken hk h ho hT hl hb
  have := e n
  have := hW (n + 1)
  have := sum_nonneg fun m (_ : m ∈ range (n + 1)) => hD m
  linarith

include hk h ho hT hl hb in
/-- **C91.** Without sources in the box, what has flowed in through its sides is never less than the energy in its fields and the heat. -/
theorem takes (hn : ∀ t fc q, (∀ d, q d ∈ innerRange b fc d) → totalCurrent X R.dt t fc q = 0) (n : ℕ) :
    energyIn X R (fun a q => instantPermittivity k (M a q)) mu b n +
      ∑ m ∈ range (n + 1), heatIn X R (fun a q => staticConductivity (M a q)) b m ≤ ∑ m ∈ range (n + 1), -flowOut X R b m := by
  have e := energy_bound hk h ho hT hl hb n
  have w : ∀ m, workIn X R b m = 0 := by
    intro m
    unfold workIn
    rw [C80.inE_congr (g := fun _ _ => 0) fun a q hq => by rw [hn _ _ _ hq]; ring,
      C80.inH_congr (g := fun _ _ => 0) fun a q hq => by rw [hn _ _ _ hq, hn _ _ _ hq]; ring,
      inE_zero fun _ _ => rfl, inH_zero fun _ _ => rfl]
    ring
  simp only [w] at e
  rw [sum_sub_distrib, sum_sub_distrib] at e
  rw [sum_neg_distrib]
  simp only [sum_const_zero] at e
  linarith

/-! ### The food in the oven -/

def plateBox : BBox := mkBox 1 4 1 4 1 4

/-- The fields around the food in the oven take no energy away from it, in sum: more flows in than is there, at any time. -/
example (k : Consts) (hk : Physical k) (hb : 1 < k.big) (J : Junk) : ∃ R, setup k J oven = some R ∧ InFood .ez (fun _ => 2) ∧
    ∀ n, energyIn oven R (fun a q => instantPermittivity k (ovenStuff a q)) (fun _ _ => k.mu0) plateBox n +
      ∑ m ∈ range (n + 1), heatIn oven R (fun a q => staticConductivity (ovenStuff a q)) plateBox m ≤ ∑ m ∈ range (n + 1), -flowOut oven R plateBox m := by
  obtain ⟨R, hR⟩ := oven_setup k J
  have hl : Increasing oven := by intro a m _ _; show ((m : Int) : ℝ) < ((m + 1 : Int) : ℝ); push_cast; linarith
  have hr : Representable k oven := by intro a m _ _; show ((m + 1 : Int) : ℝ) - ((m : Int) : ℝ) < k.big; push_cast; linarith
  have hT : 0 < R.dt := C64.step_positive hk hR (by show (0 : ℝ) < 0.5; norm_num) hl hr
  have hs := oven_sealed (R := R) hk hT
  have sub : ∀ (fc : Fc) (q : Axis → Int), (∀ d, q d ∈ innerRange plateBox fc d) → ∀ d, q d ∈ meshRange oven fc d := by
    intro fc q hq d
    have := hq d
    have e : cellsOf oven.file d = 7 := by cases d <;> rfl
    have e2 : plateBox d.lo = 1 ∧ plateBox d.hi = 4 := by cases d <;> exact ⟨rfl, rfl⟩
    unfold innerRange at this
    unfold meshRange
    rw [e]
    rw [e2.1, e2.2] at this
    split_ifs at this ⊢ <;> simp at this ⊢ <;> omega
  refine ⟨R, hR, ⟨by decide, by decide +kernel⟩, fun n => takes hk hR oven_blocks hT hl
    ⟨fun a => by cases a <;> decide, fun a q hq => hs.edges a q (sub _ q hq), fun a q hq => hs.squares a q (sub _ q hq)⟩ (fun t fc q hq => ?_) n⟩
  refine C75.no_current (X := oven) ?_ _ _
  intro m b nm tag w size delay r hx t ht hs hc hb
  rcases oven_cards hx with h | h | h | h
  · cases h
  · cases h
  · cases h
  · injection h with _ h2
    rw [h2] at hb
    obtain ⟨⟨b1, b2⟩, -⟩ := hb
    have p2 : pos2 fc .x (q .x) = 2 * q .x ∨ pos2 fc .x (q .x) = 2 * q .x + 1 := by cases fc <;> simp [pos2]
    have := hq .x
    unfold innerRange at this
    simp only [ovenBox, mkBox, plateBox, Axis.lo, Axis.hi] at this b1 b2
    split_ifs at this <;> simp at this <;> omega

end Vulture.C91
