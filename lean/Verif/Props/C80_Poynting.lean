import Verif.Spec.Poynting
import Verif.Props.C75_Circuit
/- C80: energy in any box of the mesh. -/
set_option linter.unusedSimpArgs false
set_option linter.unusedVariables false
set_option linter.unusedSectionVars false
namespace Vulture.C80
open Vulture Spec Setup Deck CavityLemmas Scaling C72 Finset

/-! ### Sums -/

/-- Point with coordinate `m` along `d`, and `i`, `j` along the next axes. -/
def pt (d : Axis) (i j m : Int) : Axis → Int := fun e => if e = d then m else if e = d.next then i else j

theorem over_axis (r : Axis → Finset Int) (f : (Axis → Int) → ℝ) (d : Axis) :
    sumOver r f = ∑ i ∈ r d.next, ∑ j ∈ r d.next.next, ∑ m ∈ r d, f (pt d i j m) := by
  have e : ∀ i j l, (Deck.triple i j l = pt .x j l i) ∧ (Deck.triple i j l = pt .y l i j) ∧ (Deck.triple i j l = pt .z i j l) := by
    intro i j l
    refine ⟨?_, ?_, ?_⟩ <;> funext a <;> cases a <;> rfl
  unfold sumOver
  cases d with
  | x =>
    simp only [Axis.next]
    rw [Finset.sum_comm]
    refine Finset.sum_congr rfl fun j _ => ?_
    rw [Finset.sum_comm]
    exact Finset.sum_congr rfl fun l _ => Finset.sum_congr rfl fun i _ => by rw [(e i j l).1]
  | y =>
    simp only [Axis.next]
    calc _ = ∑ i ∈ r .x, ∑ l ∈ r .z, ∑ j ∈ r .y, f (Deck.triple i j l) := Finset.sum_congr rfl fun i _ => Finset.sum_comm
      _ = ∑ l ∈ r .z, ∑ i ∈ r .x, ∑ j ∈ r .y, f (Deck.triple i j l) := Finset.sum_comm
      _ = _ := Finset.sum_congr rfl fun l _ => Finset.sum_congr rfl fun i _ => Finset.sum_congr rfl fun j _ => by rw [(e i j l).2.1]
  | z =>
    simp only [Axis.next]
    exact Finset.sum_congr rfl fun i _ => Finset.sum_congr rfl fun j _ => Finset.sum_congr rfl fun l _ => by rw [(e i j l).2.2]

theorem over_add (r : Axis → Finset Int) (f g : (Axis → Int) → ℝ) : sumOver r (fun q => f q + g q) = sumOver r f + sumOver r g := by
  simp only [sumOver, Finset.sum_add_distrib]
theorem over_smul (r : Axis → Finset Int) (c : ℝ) (f : (Axis → Int) → ℝ) : sumOver r (fun q => c * f q) = c * sumOver r f := by
  simp only [sumOver, Finset.mul_sum]
theorem over_sub (r : Axis → Finset Int) (f g : (Axis → Int) → ℝ) : sumOver r (fun q => f q - g q) = sumOver r f - sumOver r g := by
  simp only [sumOver, Finset.sum_sub_distrib]
theorem over_congr {r : Axis → Finset Int} {f g : (Axis → Int) → ℝ} (h : ∀ q : Axis → Int, (∀ d, q d ∈ r d) → f q = g q) : sumOver r f = sumOver r g := by
  unfold sumOver
  refine Finset.sum_congr rfl fun i hi => Finset.sum_congr rfl fun j hj => Finset.sum_congr rfl fun l hl => h _ fun d => ?_
  cases d
  · exact hi
  · exact hj
  · exact hl

theorem inE_congr {b : BBox} {f g : Axis → (Axis → Int) → ℝ} (h : ∀ a q, (∀ d, q d ∈ innerRange b a.e d) → f a q = g a q) : insideE b f = insideE b g :=
  congrArg₂ (· + ·) (congrArg₂ (· + ·) (over_congr (h .x)) (over_congr (h .y))) (over_congr (h .z))
theorem inH_congr {b : BBox} {f g : Axis → (Axis → Int) → ℝ} (h : ∀ a q, (∀ d, q d ∈ innerRange b a.h d) → f a q = g a q) : insideH b f = insideH b g :=
  congrArg₂ (· + ·) (congrArg₂ (· + ·) (over_congr (h .x)) (over_congr (h .y))) (over_congr (h .z))

/-- Summation by parts along a line. -/
theorem line_parts (e h : Int → ℝ) (lo : Int) (n : ℕ) :
    ∑ j ∈ Ioo lo (lo + 1 + n), e j * (h j - h (j - 1)) + ∑ j ∈ Ico lo (lo + 1 + n), h j * (e (j + 1) - e j) =
      e (lo + 1 + n) * h (lo + n) - e lo * h lo := by
  induction n with
  | zero =>
    have e1 : Ioo lo (lo + 1 + ((0 : ℕ) : Int)) = ∅ := by ext j; rw [Finset.mem_Ioo]; simp only [Finset.notMem_empty, iff_false]; omega
    have e2 : Ico lo (lo + 1 + ((0 : ℕ) : Int)) = {lo} := by ext j; rw [Finset.mem_Ico, Finset.mem_singleton]; omega
    rw [e1, e2]
    simp
    ring
  | succ n ih =>
    have e1 : Ioo lo (lo + 1 + ((n + 1 : ℕ) : Int)) = insert (lo + 1 + (n : Int)) (Ioo lo (lo + 1 + n)) := by ext j; simp; omega
    have e2 : Ico lo (lo + 1 + ((n + 1 : ℕ) : Int)) = insert (lo + 1 + (n : Int)) (Ico lo (lo + 1 + n)) := by ext j; simp; omega
    rw [e1, e2, Finset.sum_insert (by simp), Finset.sum_insert (by simp)]
    have e3 : lo + 1 + (n : Int) - 1 = lo + n := by ring
    have e4 : lo + ((n + 1 : ℕ) : Int) = lo + 1 + n := by push_cast; ring
    have e5 : lo + 1 + (n : Int) + 1 = lo + 1 + ((n + 1 : ℕ) : Int) := by push_cast; ring
    rw [e3, e4, e5]
    linear_combination ih

theorem line_parts' (e h : Int → ℝ) {lo hi : Int} (hlt : lo < hi) :
    ∑ j ∈ Ioo lo hi, e j * (h j - h (j - 1)) + ∑ j ∈ Ico lo hi, h j * (e (j + 1) - e j) = e hi * h (hi - 1) - e lo * h lo := by
  obtain ⟨n, rfl⟩ : ∃ n : ℕ, hi = lo + 1 + n := ⟨(hi - lo - 1).toNat, by omega⟩
  rw [line_parts]
  congr 2
  congr 1
  omega

theorem next_ne (a : Axis) : a.next ≠ a ∧ a.next.next ≠ a ∧ a.next.next ≠ a.next ∧ a.next.next.next = a := by cases a <;> decide

theorem inner_half {b : BBox} {fc : Fc} {a : Axis} (h : pos2 fc a 0 ≠ 0) : innerRange b fc a = Ico (b a.lo) (b a.hi) := if_neg h
theorem inner_node {b : BBox} {fc : Fc} {a : Axis} (h : pos2 fc a 0 = 0) : innerRange b fc a = Ioo (b a.lo) (b a.hi) := if_pos h

/-- Summation by parts in the box: an electric component on its way along `d` past a magnetic one; `w` does not change along `d`. -/
theorem box_parts {b : BBox} (hb : ∀ a : Axis, b a.lo < b a.hi) (d : Axis) {fe fh : Fc} (he : pos2 fe d 0 = 0) (hh : pos2 fh d 0 ≠ 0)
    (heh : ∀ a, a ≠ d → pos2 fe a 0 = pos2 fh a 0) (w E H : (Axis → Int) → ℝ) (hw : ∀ q q' : Axis → Int, (∀ a, a ≠ d → q a = q' a) → w q = w q') :
    sumOver (innerRange b fe) (fun q => w q * (E q * (H q - H (back q d)))) + sumOver (innerRange b fh) (fun q => w q * (H q * (E (ahead q d) - E q))) =
      onSide b d (b d.hi) fe (fun q => w q * (E q * H (back q d))) - onSide b d (b d.lo) fe (fun q => w q * (E q * H q)) := by
  unfold onSide
  obtain ⟨n1, n2, n3, n4⟩ := next_ne d
  rw [over_axis _ _ d, over_axis _ _ d, over_axis _ _ d, over_axis _ _ d]
  have r1 : innerRange b fh d.next = innerRange b fe d.next := by unfold innerRange; rw [heh _ n1]
  have r2 : innerRange b fh d.next.next = innerRange b fe d.next.next := by unfold innerRange; rw [heh _ n2]
  rw [r1, r2, inner_node he, inner_half hh]
  simp only [if_neg n1, if_neg n2, if_true, Finset.sum_singleton]
  rw [← Finset.sum_add_distrib, ← Finset.sum_sub_distrib]
  refine Finset.sum_congr rfl fun i _ => ?_
  rw [← Finset.sum_add_distrib, ← Finset.sum_sub_distrib]
  refine Finset.sum_congr rfl fun j _ => ?_
  have ew : ∀ m, w (pt d i j m) = w (pt d i j 0) := fun m => hw _ _ fun a ha => by unfold pt; rw [if_neg ha, if_neg ha]
  have eb : ∀ m, back (pt d i j m) d = pt d i j (m - 1) := by
    intro m; funext a; unfold back pt; split_ifs <;> rfl
  have ea : ∀ m, ahead (pt d i j m) d = pt d i j (m + 1) := by
    intro m; funext a; unfold ahead pt; split_ifs <;> rfl
  simp only [ew, eb, ea]
  rw [← Finset.mul_sum, ← Finset.mul_sum, ← mul_add, line_parts' (fun m => E (pt d i j m)) (fun m => H (pt d i j m)) (hb d)]
  ring

section
variable {k : Consts} {J : Junk} {X : Experiment} {R : Setup.Run}

theorem half_e (a : Axis) : pos2 a.e a 0 = 1 ∧ pos2 a.e a.next 0 = 0 ∧ pos2 a.e a.next.next 0 = 0 := by cases a <;> decide
theorem half_h (a : Axis) : pos2 a.h a 0 = 0 ∧ pos2 a.h a.next 0 = 1 ∧ pos2 a.h a.next.next 0 = 1 := by cases a <;> decide

/-- What the curls exchange in the box is what flows across the two sides normal to `d`. -/
theorem across (h : setup k J X = some R) (hl : Increasing X) {b : BBox} (hb : ∀ a : Axis, b a.lo < b a.hi) (E H : Fc → (Axis → Int) → ℝ) (d : Axis) :
    sumOver (innerRange b d.next.next.e) (fun q => edgeVolume X d.next.next q * (E d.next.next.e q * ((H d.next.h q - H d.next.h (back q d)) / middleDistance X d (q d)))) -
    sumOver (innerRange b d.next.e) (fun q => edgeVolume X d.next q * (E d.next.e q * ((H d.next.next.h q - H d.next.next.h (back q d)) / middleDistance X d (q d)))) -
    (sumOver (innerRange b d.next.next.h) (fun q => squareVolume X d.next.next q * (H d.next.next.h q * ((E d.next.e (ahead q d) - E d.next.e q) / cellLength X d (q d)))) -
    sumOver (innerRange b d.next.h) (fun q => squareVolume X d.next q * (H d.next.h q * ((E d.next.next.e (ahead q d) - E d.next.next.e q) / cellLength X d (q d))))) =
    - outAcross X E H b d := by
  obtain ⟨n1, n2, n3, n4⟩ := next_ne d
  have p1 := box_parts hb d (fe := d.next.e) (fh := d.next.next.h) (by cases d <;> decide) (by cases d <;> decide)
    (fun a ha => by cases d <;> cases a <;> first | rfl | exact absurd rfl ha) (edgeStrip X d.next d.next.next) (E d.next.e) (H d.next.next.h)
    (fun q q' hq => by unfold edgeStrip; rw [hq _ n1, hq _ n2])
  have p2 := box_parts hb d (fe := d.next.next.e) (fh := d.next.h) (by cases d <;> decide) (by cases d <;> decide)
    (fun a ha => by cases d <;> cases a <;> first | rfl | exact absurd rfl ha) (edgeStrip X d.next.next d.next) (E d.next.next.e) (H d.next.h)
    (fun q q' hq => by unfold edgeStrip; rw [hq _ n1, hq _ n2])
  have m0 := fun q : Axis → Int => (C75.middle_pos h hl d (q d)).ne'
  have l0 := fun q : Axis → Int => (C75.length_pos h hl d (q d)).ne'
  have a1 : ∀ q, edgeVolume X d.next q * (E d.next.e q * ((H d.next.next.h q - H d.next.next.h (back q d)) / middleDistance X d (q d))) =
      edgeStrip X d.next d.next.next q * (E d.next.e q * (H d.next.next.h q - H d.next.next.h (back q d))) := by
    intro q
    unfold edgeVolume edgeArea edgeStrip
    rw [n4]
    have := m0 q
    field_simp
  have a2 : ∀ q, edgeVolume X d.next.next q * (E d.next.next.e q * ((H d.next.h q - H d.next.h (back q d)) / middleDistance X d (q d))) =
      edgeStrip X d.next.next d.next q * (E d.next.next.e q * (H d.next.h q - H d.next.h (back q d))) := by
    intro q
    unfold edgeVolume edgeArea edgeStrip
    rw [n4]
    have := m0 q
    field_simp
  have a3 : ∀ q, squareVolume X d.next.next q * (H d.next.next.h q * ((E d.next.e (ahead q d) - E d.next.e q) / cellLength X d (q d))) =
      edgeStrip X d.next d.next.next q * (H d.next.next.h q * (E d.next.e (ahead q d) - E d.next.e q)) := by
    intro q
    unfold squareVolume squareArea edgeStrip
    rw [n4]
    have := l0 q
    field_simp
  have a4 : ∀ q, squareVolume X d.next q * (H d.next.h q * ((E d.next.next.e (ahead q d) - E d.next.next.e q) / cellLength X d (q d))) =
      edgeStrip X d.next.next d.next q * (H d.next.h q * (E d.next.next.e (ahead q d) - E d.next.next.e q)) := by
    intro q
    unfold squareVolume squareArea edgeStrip
    rw [n4]
    have := l0 q
    field_simp
  simp only [a1, a2, a3, a4]
  unfold outAcross
  dsimp only
  linarith

theorem curls (h : setup k J X = some R) (hl : Increasing X) {b : BBox} (hb : ∀ a : Axis, b a.lo < b a.hi) (E H : Fc → (Axis → Int) → ℝ) :
    insideE b (fun a q => edgeVolume X a q * (E a.e q * rotH X H a q)) - insideH b (fun a q => squareVolume X a q * (H a.h q * rotE X E a q)) =
      -(outAcross X E H b .x + outAcross X E H b .y + outAcross X E H b .z) := by
  have hx := across h hl hb E H .x
  have hy := across h hl hb E H .y
  have hz := across h hl hb E H .z
  simp only [Axis.next, Axis.e, Axis.h] at hx hy hz
  unfold insideE insideH rotH rotE
  dsimp only [Axis.next, Axis.e, Axis.h]
  simp only [mul_sub, over_sub] at hx hy hz ⊢
  linarith

theorem inE_lin (b : BBox) (c e g : ℝ) (f1 f2 f3 : Axis → (Axis → Int) → ℝ) :
    insideE b (fun a q => c * f1 a q + e * f2 a q + g * f3 a q) = c * insideE b f1 + e * insideE b f2 + g * insideE b f3 := by
  unfold insideE; simp only [over_add, over_smul]; ring
theorem inH_lin (b : BBox) (c e g : ℝ) (f1 f2 f3 : Axis → (Axis → Int) → ℝ) :
    insideH b (fun a q => c * f1 a q + e * f2 a q + g * f3 a q) = c * insideH b f1 + e * insideH b f2 + g * insideH b f3 := by
  unfold insideH; simp only [over_add, over_smul]; ring

variable (hk : Physical k) (h : setup k J X = some R) (ho : OrdinaryBlocks X.file.cards) (hT : 0 < R.dt) (hl : Increasing X)

include hk h ho hT in
theorem edge_work {a : Axis} {q : Axis → Int} {stuff : Stuff} (hm : PlainEdge X a q stuff) (V : ℝ) (n : ℕ) :
    1 / 2 * (V * permittivity k stuff * value R (n + 1) a.e q ^ 2) =
    1 / 2 * (V * permittivity k stuff * value R n a.e q ^ 2) +
      R.dt * (V * (meanOver R n a.e q * rotH X (value R n) a q)) +
      (-R.dt) * (V * conductivity stuff * meanOver R n a.e q ^ 2 + V * (meanOver R n a.e q * totalCurrent X R.dt (n * R.dt) a.e q)) := by
  have hT' := hT.ne'
  unfold meanOver
  rcases hm with hm | ⟨hq, hm, rfl⟩
  · rw [← C75.edge_law hk h ho hT hm n]
    field_simp
    ring
  · rw [C73.metal_zero h ho hq hm, C73.metal_zero h ho hq hm]
    ring

include hk h ho hT hl in
theorem square_work {a : Axis} {q : Axis → Int} {mu : ℝ} (hm : MatterSquare k X R.dt a q mu) (V : ℝ) (n : ℕ) :
    1 / 2 * (V * mu * (value R (n + 1) a.h q * value R (n + 2) a.h q)) =
    1 / 2 * (V * mu * (value R n a.h q * value R (n + 1) a.h q)) +
      (-R.dt) * (V * (value R (n + 1) a.h q * rotE X (meanOver R (n + 1)) a q)) +
      (-R.dt) * (V * (value R (n + 1) a.h q *
      ((totalCurrent X R.dt (((n + 1 : ℕ) - 1 / 2) * R.dt) a.h q + totalCurrent X R.dt (((n + 1 : ℕ) + 1 / 2) * R.dt) a.h q) / 2))) := by
  have hT' := hT.ne'
  obtain ⟨⟨i1, i2, i3, i4⟩, stuff, hs, hr, rfl⟩ := hm
  have s1 := C72.faraday hk h ho hT i1 i2 i3 i4 hs hr n
  have s2 := C72.faraday hk h ho hT i1 i2 i3 i4 hs hr (n + 1)
  unfold FaradayWithCurrent at s1 s2
  have er : rotE X (meanOver R (n + 1)) a q = (rotE X (value R (n + 1)) a q + rotE X (value R (n + 2)) a q) / 2 := by
    unfold rotE meanOver; dsimp only; ring
  have e1 : (((n + 1 : ℕ) : ℝ) - 1 / 2) = n + 1 / 2 := by push_cast; ring
  rw [er, e1]
  set H0 := value R n a.h q
  set H1 := value R (n + 1) a.h q
  set H2 := value R (n + 2) a.h q
  have e2 : value R (n + 1 + 1) a.h q = H2 := rfl
  have e3 : rotE X (value R (n + 1 + 1)) a q = rotE X (value R (n + 2)) a q := rfl
  rw [e3] at s2
  generalize relPermeability stuff * k.mu0 = mu at s1 s2 ⊢
  have t1 : mu * (H1 - H0) = -R.dt * (rotE X (value R (n + 1)) a q + totalCurrent X R.dt ((n + 1 / 2) * R.dt) a.h q) := by
    generalize totalCurrent X R.dt ((n + 1 / 2) * R.dt) a.h q = M at s1 ⊢
    field_simp at s1; linear_combination s1
  have t2 : mu * (H2 - H1) = -R.dt * (rotE X (value R (n + 2)) a q + totalCurrent X R.dt (((n + 1 : ℕ) + 1 / 2) * R.dt) a.h q) := by
    generalize totalCurrent X R.dt (((n + 1 : ℕ) + 1 / 2) * R.dt) a.h q = M at s2 ⊢
    field_simp at s2; linear_combination s2
  linear_combination V * H1 / 2 * (t1 + t2)

include hk h ho hT hl in
/-- **C80.** The energy inside the box changes by the work of the sources in it, less the heat developed in it, less what flows
out through its sides. -/
theorem energy_step {b : BBox} {M : Axis → (Axis → Int) → Stuff} {mu : Axis → (Axis → Int) → ℝ} (hb : PlainBox k X R.dt b M mu) (n : ℕ) :
    energyIn X R (fun a q => permittivity k (M a q)) mu b (n + 1) = energyIn X R (fun a q => permittivity k (M a q)) mu b n +
      workIn X R b (n + 1) - heatIn X R (fun a q => conductivity (M a q)) b (n + 1) - flowOut X R b (n + 1) := by
  obtain ⟨b0, b1, b2⟩ := hb
  have hc := curls h hl b0 (meanOver R (n + 1)) (value R (n + 1))
  unfold energyIn workIn heatIn flowOut
  have eE := inE_congr (b := b) fun a q hq => edge_work hk h ho hT (b1 a q hq) (edgeVolume X a q) (n + 1)
  have eH := inH_congr (b := b) fun a q hq => square_work hk h ho hT hl (b2 a q hq) (squareVolume X a q) n
  rw [inE_lin] at eE
  rw [inH_lin] at eH
  have l1 : ∀ (c : ℝ) f, insideE b (fun a q => c * f a q) = c * insideE b f := by
    intro c f; unfold insideE; simp only [over_smul]; ring
  have l2 : ∀ (c : ℝ) f, insideH b (fun a q => c * f a q) = c * insideH b f := by
    intro c f; unfold insideH; simp only [over_smul]; ring
  have l3 : ∀ f g, insideE b (fun a q => f a q + g a q) = insideE b f + insideE b g := by
    intro f g; unfold insideE; simp only [over_add]; ring
  rw [l1, l3] at eE
  rw [l2] at eH
  linear_combination eE + eH + R.dt * hc

theorem start_zero (fc : Fc) (q : Axis → Int) : value R 0 fc q = 0 := rfl

theorem across_zero {E H : Fc → (Axis → Int) → ℝ} {b : BBox} (d : Axis) (hz : ∀ fc q, H fc q = 0) : outAcross X E H b d = 0 := by
  unfold outAcross onSide sumOver
  simp only [hz, mul_zero, Finset.sum_const_zero, sub_zero]

include hk h ho hT hl in
/-- **C80.** The same for the first step: the run starts without energy. -/
theorem energy_first {b : BBox} {M : Axis → (Axis → Int) → Stuff} {mu : Axis → (Axis → Int) → ℝ} (hb : PlainBox k X R.dt b M mu) :
    energyIn X R (fun a q => permittivity k (M a q)) mu b 0 =
      workIn X R b 0 - heatIn X R (fun a q => conductivity (M a q)) b 0 - flowOut X R b 0 := by
  obtain ⟨b0, b1, b2⟩ := hb
  have hc := curls h hl b0 (meanOver R 0) (value R 0)
  have eE := inE_congr (b := b) fun a q hq => edge_work hk h ho hT (b1 a q hq) (edgeVolume X a q) 0
  rw [inE_lin] at eE
  have l1 : ∀ (c : ℝ) f, insideE b (fun a q => c * f a q) = c * insideE b f := by
    intro c f; unfold insideE; simp only [over_smul]; ring
  have l3 : ∀ f g, insideE b (fun a q => f a q + g a q) = insideE b f + insideE b g := by
    intro f g; unfold insideE; simp only [over_add]; ring
  rw [l1, l3] at eE
  have z1 : ∀ f : Axis → (Axis → Int) → ℝ, (∀ a q, f a q = 0) → insideE b f = 0 := by
    intro f hf; unfold insideE sumOver; simp only [hf, Finset.sum_const_zero, add_zero]
  have z2 : ∀ f : Axis → (Axis → Int) → ℝ, (∀ a q, f a q = 0) → insideH b f = 0 := by
    intro f hf; unfold insideH sumOver; simp only [hf, Finset.sum_const_zero, add_zero]
  unfold energyIn workIn heatIn flowOut
  rw [across_zero .x start_zero, across_zero .y start_zero, across_zero .z start_zero]
  rw [z1 (fun a q => edgeVolume X a q * permittivity k (M a q) * value R 0 a.e q ^ 2) (fun a q => by rw [start_zero]; ring),
    z1 (fun a q => edgeVolume X a q * (meanOver R 0 a.e q * rotH X (value R 0) a q)) (fun a q => by unfold rotH; simp only [start_zero]; ring)] at eE
  rw [z2 (fun a q => squareVolume X a q * mu a q * (value R 0 a.h q * value R (0 + 1) a.h q)) (fun a q => by rw [start_zero]; ring),
    z2 (fun a q => squareVolume X a q * (value R 0 a.h q *
      ((totalCurrent X R.dt (((0 : ℕ) - 1 / 2) * R.dt) a.h q + totalCurrent X R.dt (((0 : ℕ) + 1 / 2) * R.dt) a.h q) / 2))) (fun a q => by rw [start_zero]; ring)]
  linear_combination eE

include hk h ho hT hl in
/-- **C80.** The energy inside the box at any time is what the sources in it have done, less the heat, less what has flowed out. -/
theorem energy_total {b : BBox} {M : Axis → (Axis → Int) → Stuff} {mu : Axis → (Axis → Int) → ℝ} (hb : PlainBox k X R.dt b M mu) (n : ℕ) :
    energyIn X R (fun a q => permittivity k (M a q)) mu b n =
      ∑ m ∈ range (n + 1), (workIn X R b m - heatIn X R (fun a q => conductivity (M a q)) b m - flowOut X R b m) := by
  induction n with
  | zero => rw [Finset.sum_range_one]; exact energy_first hk h ho hT hl hb
  | succ n ih =>
    rw [Finset.sum_range_succ, ← ih, energy_step hk h ho hT hl hb n]
    ring

/-- Edges on the sides of a box, strictly between the edges of the box. -/
def SideEdge (b : BBox) (a : Axis) (q : Axis → Int) : Prop :=
  ∃ d, d ≠ a ∧ (q d = b d.lo ∨ q d = b d.hi) ∧ ∀ e, e ≠ d → q e ∈ innerRange b a.e e

include h ho in
/-- **C80.** Nothing flows through sides of metal. -/
theorem metal_tight {b : BBox} (hm : ∀ a q, SideEdge b a q → OrdinaryE X a q ∧ MadeOf X a.e (q .x) (q .y) (q .z) .metal) (n : ℕ) :
    flowOut X R b n = 0 := by
  have key : ∀ (d u : Axis) (m : Int), u ≠ d → (m = b d.lo ∨ m = b d.hi) → ∀ f : (Axis → Int) → ℝ, onSide b d m u.e (fun q => edgeStrip X u (d) q * 0 + (meanOver R n u.e q) * f q) = 0 := by
    intro d u m hu hm' f
    unfold onSide
    rw [over_congr (g := fun _ => 0)]
    · simp [sumOver]
    · intro q hq
      have hs : SideEdge b u q := by
        refine ⟨d, hu.symm, ?_, fun e he => ?_⟩
        · have := hq d
          rw [if_pos rfl, Finset.mem_singleton] at this
          rw [this]; exact hm'
        · have := hq e
          rwa [if_neg he] at this
      obtain ⟨o, mm⟩ := hm u q hs
      unfold meanOver
      rw [C73.metal_zero h ho o mm, C73.metal_zero h ho o mm]
      ring
  have out : ∀ d, outAcross X (meanOver R n) (value R n) b d = 0 := by
    intro d
    obtain ⟨n1, n2, n3, n4⟩ := next_ne d
    unfold outAcross
    dsimp only
    have k1 := key d d.next (b d.hi) n1 (Or.inr rfl) (fun q => edgeStrip X d.next d.next.next q * value R n d.next.next.h (back q d))
    have k2 := key d d.next.next (b d.hi) n2 (Or.inr rfl) (fun q => edgeStrip X d.next.next d.next q * value R n d.next.h (back q d))
    have k3 := key d d.next (b d.lo) n1 (Or.inl rfl) (fun q => edgeStrip X d.next d.next.next q * value R n d.next.next.h q)
    have k4 := key d d.next.next (b d.lo) n2 (Or.inl rfl) (fun q => edgeStrip X d.next.next d.next q * value R n d.next.h q)
    simp only [mul_zero, zero_add] at k1 k2 k3 k4
    have c : ∀ x y z : ℝ, x * (y * z) = y * (x * z) := fun x y z => by ring
    simp only [c (edgeStrip _ _ _ _)]
    rw [k1, k2, k3, k4]
    ring
  unfold flowOut
  rw [out, out, out]
  ring
end

/-! ### A box around the current in the middle of an empty room -/

open C73 C75

theorem room_plain {k : Consts} {T : ℝ} : PlainBox k (room 8 .pec 4) T (mkBox 2 7 2 6 3 6) (fun _ _ => .vacuum) (fun _ _ => 1 * k.mu0) := by
  have rng : ∀ fc (q : Axis → Int), (∀ d, q d ∈ innerRange (mkBox 2 7 2 6 3 6) fc d) → ∀ a, 1 ≤ q a ∧ q a ≤ 7 := by
    intro fc q hq a
    have := hq a
    unfold innerRange at this
    split_ifs at this <;> cases a <;> simp [mkBox, Axis.lo, Axis.hi] at this <;> omega
  refine ⟨fun a => by cases a <;> (simp only [mkBox, Axis.lo, Axis.hi]; omega), fun a q hq => Or.inl (room_edge (rng _ q hq) a), fun a q hq => room_square (rng _ q hq) a⟩

/-- The current `JZ` between (4,4,4) and (4,4,5) fills the box with energy, some of which flows out. -/
example (k : Consts) (hk : Physical k) (hb : 1 < k.big) (J : Junk) : ∃ R, setup k J (room 8 .pec 4) = some R ∧ ∀ n,
    energyIn (room 8 .pec 4) R (fun _ _ => k.eps0) (fun _ _ => 1 * k.mu0) (mkBox 2 7 2 6 3 6) n =
      ∑ m ∈ range (n + 1), (workIn (room 8 .pec 4) R (mkBox 2 7 2 6 3 6) m - heatIn (room 8 .pec 4) R (fun _ _ => 0) (mkBox 2 7 2 6 3 6) m
        - flowOut (room 8 .pec 4) R (mkBox 2 7 2 6 3 6) m) := by
  obtain ⟨R, hR⟩ := room_setup k J (Or.inl ⟨rfl, rfl, rfl⟩)
  have hT : 0 < R.dt := C64.step_positive hk hR (by show (0 : ℝ) < 0.5; norm_num) room_increasing (by
    intro a m _ _
    show ((m + 1 : Int) : ℝ) - ((m : Int) : ℝ) < k.big
    push_cast; linarith)
  refine ⟨R, hR, fun n => ?_⟩
  have := energy_total hk hR room_blocks hT room_increasing room_plain n
  simp only [permittivity, conductivity] at this
  exact this

end Vulture.C80
