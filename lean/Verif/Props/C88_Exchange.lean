import Verif.Spec.Exchange
import Verif.Props.C87_Hut
import Verif.Props.C45_Reciprocity
/- C88: reciprocity in closed models with conducting, magnetic and periodic sides. -/
set_option linter.unusedSimpArgs false
set_option linter.unusedVariables false
set_option linter.unusedSectionVars false
set_option autoImplicit false
namespace Vulture.C88
open Spec Setup Deck CavityLemmas Scaling Finset Sealed C87

variable {k : Consts} {J J' : Junk} {X Y : Experiment} {R S : Setup.Run} {M : Axis → (Axis → Int) → Stuff} {mu : Axis → (Axis → Int) → ℝ}

/-! ### Sums -/

theorem allE_sum {ι : Type} (s : Finset ι) (f : ι → Axis → (Axis → Int) → ℝ) : ∑ i ∈ s, allE X (f i) = allE X fun a q => ∑ i ∈ s, f i a q := by
  classical
  induction s using Finset.induction_on with
  | empty => simp only [sum_empty]; exact allE_zero.symm
  | insert i s hi ih => rw [sum_insert hi, ih, ← allE_add]; exact allE_congr fun a q _ => by rw [sum_insert hi]
theorem allH_sum {ι : Type} (s : Finset ι) (f : ι → Axis → (Axis → Int) → ℝ) : ∑ i ∈ s, allH X (f i) = allH X fun a q => ∑ i ∈ s, f i a q := by
  classical
  induction s using Finset.induction_on with
  | empty => simp only [sum_empty]; exact allH_zero.symm
  | insert i s hi ih => rw [sum_insert hi, ih, ← allH_add]; exact allH_congr fun a q _ => by rw [sum_insert hi]

/-- Steps forward may be exchanged in a convolution of sequences that begin with zero. -/
theorem shift {f g : ℕ → ℝ} (hf : f 0 = 0) (hg : g 0 = 0) (N : ℕ) :
    ∑ x ∈ antidiagonal N, f x.1 * g (x.2 + 1) = ∑ x ∈ antidiagonal N, g x.1 * f (x.2 + 1) := by
  have a := Finset.Nat.sum_antidiagonal_succ (n := N) (f := fun x : ℕ × ℕ => f x.1 * g x.2)
  have b := Finset.Nat.sum_antidiagonal_succ' (n := N) (f := fun x : ℕ × ℕ => f x.1 * g x.2)
  simp only [hf, hg, zero_mul, mul_zero, zero_add] at a b
  have c : ∑ x ∈ antidiagonal N, f x.1 * g (x.2 + 1) = ∑ x ∈ antidiagonal N, f (x.1 + 1) * g x.2 := by linarith
  rw [c, ← Finset.Nat.sum_antidiagonal_swap]
  exact sum_congr rfl fun x _ => by rw [Prod.fst_swap, Prod.snd_swap, mul_comm]
theorem turn (f g : ℕ → ℝ) (N : ℕ) : ∑ x ∈ antidiagonal N, f x.1 * g x.2 = ∑ x ∈ antidiagonal N, g x.1 * f x.2 := by
  rw [← Finset.Nat.sum_antidiagonal_swap]
  exact sum_congr rfl fun x _ => by rw [Prod.fst_swap, Prod.snd_swap, mul_comm]

/-! ### Two files, one mesh -/

section
variable (hs : SameMesh X Y)
include hs
theorem cells_eq : cellsOf Y.file = cellsOf X.file := funext hs.cells
theorem length_eq : cellLength Y = cellLength X := by funext a m; unfold cellLength; rw [hs.lines, hs.cells]
theorem inside_eq : insideLength Y = insideLength X := by funext a m; unfold insideLength; rw [length_eq hs, hs.cells]
theorem share_eq : edgeShare Y = edgeShare X := by funext a m; unfold edgeShare; rw [length_eq hs, inside_eq hs]
theorem square_eq : squareShare Y = squareShare X := by funext a m; unfold squareShare; rw [length_eq hs, inside_eq hs]
theorem range_eq : meshRange Y = meshRange X := by funext fc a; unfold meshRange; rw [hs.cells]
theorem allE_eq : allE Y = allE X := by funext f; unfold allE; rw [range_eq hs]
theorem allH_eq : allH Y = allH X := by funext f; unfold allH; rw [range_eq hs]
theorem rotE_eq : rotE Y = rotE X := by funext F a q; unfold rotE; rw [length_eq hs]
theorem rotH_eq : rotH Y = rotH X := by funext F a q; unfold rotH middleDistance; rw [length_eq hs]
end

theorem step_eq (h : setup k J X = some R) (h' : setup k J' Y = some S) (hs : SameMesh X Y) (hl : Increasing X) (hb : Representable k X) : S.dt = R.dt := by
  obtain ⟨hv, hn, -⟩ := run_parts h
  have least := fun a => (C18.smallest_largest (c := R.cfg) (a := a) (lines := X.lines a) (big := k.big) (junk := J.edges a) hv
    (fun m h0 h1 => hl a m h0 (by rw [← hn]; exact h1)) (fun m h0 h1 => hb a m h0 (by rw [← hn]; exact h1))).1
  have e : C73.cellSizes Y = C73.cellSizes X := by funext a; unfold C73.cellSizes; rw [hs.cells, hs.lines]
  have e2 : ∀ a, {d | ∃ m, 0 ≤ m ∧ m < R.cfg.n a ∧ d = C18.cellSize (X.lines a) m} = C73.cellSizes X a := by intro a; rw [hn]; rfl
  have hx : ∀ a, ∀ s ∈ C73.cellSizes X a, 0 < s ∧ s < k.big := by
    rintro a s ⟨m, h0, h1, rfl⟩
    exact ⟨sub_pos.2 (hl a m h0 h1), hb a m h0 h1⟩
  refine (C73.same_step h h' hs.courant.symm hx (by rw [e]; exact hx) (l := fun a => (Setup.edges k J X R.cfg a).dmin) (fun a => ?_) (fun a => ?_)).symm
  · rw [← e2]; exact least a
  · rw [e, ← e2]; exact least a

section
variable (h : setup k J X = some R) (hl : Increasing X) (hm : SealedModel k X R.dt M mu) (ho : OrdinaryBlocks X.file.cards)
  (h' : setup k J' Y = some S) (hm' : SealedModel k Y S.dt M mu) (ho' : OrdinaryBlocks Y.file.cards)
  (hs : SameMesh X Y) (hk : Physical k) (hT : 0 < R.dt) (hb : Representable k X)

include hs hl in
theorem rise : Increasing Y := by
  intro a m h0 h1
  rw [hs.lines]
  exact hl a m h0 (by rw [← hs.cells]; exact h1)

include hs in
/-- The curls exchange the fields of both runs. -/
theorem cross_curls' (h : setup k J X = some R) (hl : Increasing X) (sh : Shell k X R mu) (ho : OrdinaryBlocks X.file.cards)
    (h' : setup k J' Y = some S) (sh' : Shell k Y S mu) (ho' : OrdinaryBlocks Y.file.cards) (m n : ℕ) : allE X (fun a q => edgeShare X a q * (value R m a.e q * rotH X (value S n) a q)) =
    allH X (fun a q => squareShare X a q * (value S n a.h q * rotE X (value R m) a q)) := by
  have el : lat h' (rise hl hs) sh' = lat h hl sh := by
    simp only [lat, Lat.mk.injEq]
    refine ⟨cells_eq hs, length_eq hs, ?_, ?_⟩
    · funext d; rw [hs.sides]
    · funext d; rw [hs.sides]
  have := curls h' (rise hl hs) sh' ho' (E := value R m) (by rw [el]; exact value_fits h hl sh ho m) (fun a q hq hp => by
    rw [range_eq hs] at hq
    refine wall_zero h ho sh hq ?_ m
    obtain ⟨f, hf, hp⟩ := hp
    refine ⟨f, by rw [← hs.sides]; exact hf, ?_⟩
    have e : meshBox Y = meshBox X := by
      have x1 : Y.file.nx = X.file.nx := hs.cells .x
      have x2 : Y.file.ny = X.file.ny := hs.cells .y
      have x3 : Y.file.nz = X.file.nz := hs.cells .z
      unfold meshBox
      rw [x1, x2, x3]
    rw [← e]; exact hp) n
  rw [share_eq hs, square_eq hs, allE_eq hs, allH_eq hs, rotE_eq hs, rotH_eq hs] at this
  exact this

include h hl hm ho h' hm' ho' hs in
theorem cross_curls (m n : ℕ) : allE X (fun a q => edgeShare X a q * (value R m a.e q * rotH X (value S n) a q)) =
    allH X (fun a q => squareShare X a q * (value S n a.h q * rotE X (value R m) a q)) :=
  cross_curls' hs h hl (hm.shell h ho) ho h' (hm'.shell h' ho') ho' m n

include h hl hm ho h' hm' ho' hs hk hT hb in
/-- The law of the edges of the second run, tested with the field of the first. -/
theorem tested_e (m n : ℕ) :
    allE X (fun a q => edgeShare X a q * (value R m a.e q * totalCurrent Y R.dt (n * R.dt) a.e q)) =
    allE X (fun a q => edgeShare X a q * (value R m a.e q * rotH X (value S n) a q)) -
    allE X (fun a q => edgeShare X a q * (permittivity k (M a q) / R.dt) * (value R m a.e q * value S (n + 1) a.e q)) +
    allE X (fun a q => edgeShare X a q * (permittivity k (M a q) / R.dt) * (value R m a.e q * value S n a.e q)) -
    allE X (fun a q => edgeShare X a q * (conductivity (M a q) / 2) * (value R m a.e q * value S (n + 1) a.e q)) -
    allE X (fun a q => edgeShare X a q * (conductivity (M a q) / 2) * (value R m a.e q * value S n a.e q)) := by
  have edt := step_eq h h' hs hl hb
  rw [show ∀ A B C D E F : ℝ, (A = B - C + D - E - F) = (A = B + (-1) * C + D + (-1) * E + (-1) * F) from fun A B C D E F => by
    congr 1; ring]
  simp only [← allE_smul, ← allE_add]
  refine allE_congr fun a q hq => ?_
  rcases hm'.edges a q (by rw [range_eq hs]; exact hq) with hm1 | ⟨hq1, hm1, e⟩
  · have l := C75.edge_law hk h' ho' (by rw [edt]; exact hT) hm1 n
    rw [edt, rotH_eq hs] at l
    rw [← l]
    ring
  · have z : value R m a.e q = 0 := by
      rcases hm.edges a q hq with ⟨-, -, x⟩ | ⟨hq2, hm2, -⟩
      · rw [e] at x; exact x.elim
      · exact C73.metal_zero h ho hq2 hm2 m
    rw [z]
    ring

include hk hT in
/-- The law of the squares of the first run, tested with the field of the second. -/
theorem tested_h' (h : setup k J X = some R) (ho : OrdinaryBlocks X.file.cards)
    (sq : ∀ a q, (∀ d, q d ∈ meshRange X a.h d) → MatterSquare k X R.dt a q (mu a q)) (m n : ℕ) :
    allH X (fun a q => squareShare X a q * (value S n a.h q * rotE X (value R (m + 1)) a q)) =
    allH X (fun a q => squareShare X a q * (mu a q / R.dt) * (value S n a.h q * value R m a.h q)) -
    allH X (fun a q => squareShare X a q * (mu a q / R.dt) * (value S n a.h q * value R (m + 1) a.h q)) -
    allH X (fun a q => squareShare X a q * (value S n a.h q * totalCurrent X R.dt ((m + 1 / 2) * R.dt) a.h q)) := by
  rw [show ∀ A B C D : ℝ, (A = B - C - D) = (A = B + (-1) * C + (-1) * D) from fun A B C D => by congr 1; ring]
  simp only [← allH_smul, ← allH_add]
  refine allH_congr fun a q hq => ?_
  obtain ⟨⟨i1, i2, i3, i4⟩, stuff, hst, hr, e⟩ := sq a q hq
  have s1 := C72.faraday hk h ho hT i1 i2 i3 i4 hst hr m
  unfold FaradayWithCurrent at s1
  rw [e]
  generalize relPermeability stuff * k.mu0 = mu at s1 ⊢
  linear_combination (squareShare X a q * value S n a.h q) * s1

include h hl hm ho h' hm' ho' hs hk hT hb in
theorem tested_h (m n : ℕ) :
    allH X (fun a q => squareShare X a q * (value S n a.h q * rotE X (value R (m + 1)) a q)) =
    allH X (fun a q => squareShare X a q * (mu a q / R.dt) * (value S n a.h q * value R m a.h q)) -
    allH X (fun a q => squareShare X a q * (mu a q / R.dt) * (value S n a.h q * value R (m + 1) a.h q)) -
    allH X (fun a q => squareShare X a q * (value S n a.h q * totalCurrent X R.dt ((m + 1 / 2) * R.dt) a.h q)) :=
  tested_h' hk hT h ho hm.squares m n

include h hl hm ho h' hm' ho' hs hk hT hb in
theorem half (N : ℕ) :
    ∑ x ∈ antidiagonal (N + 1), allE X (fun a q => edgeShare X a q * (value R x.1 a.e q * totalCurrent Y R.dt (x.2 * R.dt) a.e q)) +
    ∑ x ∈ antidiagonal N, allH X (fun a q => squareShare X a q * (value S x.1 a.h q * totalCurrent X R.dt ((x.2 + 1 / 2) * R.dt) a.h q)) =
    allH X (fun a q => squareShare X a q * (mu a q / R.dt) * ∑ x ∈ antidiagonal N, value S x.1 a.h q * value R x.2 a.h q) -
    allH X (fun a q => squareShare X a q * (mu a q / R.dt) * ∑ x ∈ antidiagonal N, value S x.1 a.h q * value R (x.2 + 1) a.h q) -
    allE X (fun a q => edgeShare X a q * (permittivity k (M a q) / R.dt) * ∑ x ∈ antidiagonal (N + 1), value R x.1 a.e q * value S (x.2 + 1) a.e q) +
    allE X (fun a q => edgeShare X a q * (permittivity k (M a q) / R.dt) * ∑ x ∈ antidiagonal (N + 1), value R x.1 a.e q * value S x.2 a.e q) -
    allE X (fun a q => edgeShare X a q * (conductivity (M a q) / 2) * ∑ x ∈ antidiagonal (N + 1), value R x.1 a.e q * value S (x.2 + 1) a.e q) -
    allE X (fun a q => edgeShare X a q * (conductivity (M a q) / 2) * ∑ x ∈ antidiagonal (N + 1), value R x.1 a.e q * value S x.2 a.e q) := by
  simp only [tested_e h hl hm ho h' hm' ho' hs hk hT hb, cross_curls h hl hm ho h' hm' ho' hs, sum_sub_distrib, sum_add_distrib]
  have c : ∑ x ∈ antidiagonal (N + 1), allH X (fun a q => squareShare X a q * (value S x.2 a.h q * rotE X (value R x.1) a q)) =
      ∑ x ∈ antidiagonal N, allH X (fun a q => squareShare X a q * (value S x.2 a.h q * rotE X (value R (x.1 + 1)) a q)) := by
    rw [Finset.Nat.sum_antidiagonal_succ (f := fun x : ℕ × ℕ => allH X (fun a q => squareShare X a q * (value S x.2 a.h q * rotE X (value R x.1) a q)))]
    have z : allH X (fun a q => squareShare X a q * (value S (N + 1) a.h q * rotE X (value R 0) a q)) = 0 := by
      rw [← allH_zero (X := X)]
      refine allH_congr fun a q _ => ?_
      have r0 : rotE X (value R 0) a q = 0 := by unfold rotE; simp only [C84.value_zero]; ring
      rw [r0]; ring
    rw [z, zero_add]
  rw [c]
  simp only [tested_h h hl hm ho h' hm' ho' hs hk hT hb, sum_sub_distrib]
  simp only [allE_sum, allH_sum, ← mul_sum]
  have sw : ∀ F : ℕ × ℕ → ℝ, ∑ x ∈ antidiagonal N, F x.swap = ∑ x ∈ antidiagonal N, F x := fun F => Finset.Nat.sum_antidiagonal_swap (f := F)
  have e1 : ∀ a q, ∑ x ∈ antidiagonal N, value S x.2 a q * value R x.1 a q = ∑ x ∈ antidiagonal N, value S x.1 a q * value R x.2 a q :=
    fun a q => sw fun x => value S x.1 a q * value R x.2 a q
  have e2 : ∀ a q, ∑ x ∈ antidiagonal N, value S x.2 a q * value R (x.1 + 1) a q = ∑ x ∈ antidiagonal N, value S x.1 a q * value R (x.2 + 1) a q :=
    fun a q => sw fun x => value S x.1 a q * value R (x.2 + 1) a q
  have e3 : ∀ (a : Axis) q, ∑ x ∈ antidiagonal N, value S x.2 a.h q * totalCurrent X R.dt ((x.1 + 1 / 2) * R.dt) a.h q =
      ∑ x ∈ antidiagonal N, value S x.1 a.h q * totalCurrent X R.dt ((x.2 + 1 / 2) * R.dt) a.h q :=
    fun a q => sw fun x => value S x.1 a.h q * totalCurrent X R.dt ((x.2 + 1 / 2) * R.dt) a.h q
  simp only [e1, e2, e3]
  ring

include h hl hm ho h' hm' ho' hs hk hT hb in
/-- **C88.** The reaction of the fields of one run on the currents of the other is the same both ways. -/
theorem reciprocity (N : ℕ) : reactionOn X R Y N = reactionOn Y S X N := by
  have edt := step_eq h h' hs hl hb
  have a := half h hl hm ho h' hm' ho' hs hk hT hb N
  have hs' : SameMesh Y X := ⟨fun a => (hs.cells a).symm, hs.lines.symm, hs.sides.symm, hs.courant.symm⟩
  have b := half h' (rise hl hs) hm' ho' h hm ho hs' hk (by rw [edt]; exact hT) (by
    intro a i h0 h1; rw [hs.lines]; exact hb a i h0 (by rw [← hs.cells]; exact h1)) N
  unfold reactionOn
  rw [edt, share_eq hs, square_eq hs, allE_eq hs, allH_eq hs] at b
  rw [edt, share_eq hs, square_eq hs, allE_eq hs, allH_eq hs]
  have t1 : ∀ a q, ∑ x ∈ antidiagonal N, value S x.1 a q * value R x.2 a q = ∑ x ∈ antidiagonal N, value R x.1 a q * value S x.2 a q :=
    fun a q => turn (fun n => value S n a q) (fun n => value R n a q) N
  have t2 : ∀ a q, ∑ x ∈ antidiagonal (N + 1), value S x.1 a q * value R x.2 a q = ∑ x ∈ antidiagonal (N + 1), value R x.1 a q * value S x.2 a q :=
    fun a q => turn (fun n => value S n a q) (fun n => value R n a q) (N + 1)
  have t3 : ∀ a q, ∑ x ∈ antidiagonal N, value S x.1 a q * value R (x.2 + 1) a q = ∑ x ∈ antidiagonal N, value R x.1 a q * value S (x.2 + 1) a q :=
    fun a q => shift (f := fun n => value S n a q) (g := fun n => value R n a q) rfl rfl N
  have t4 : ∀ a q, ∑ x ∈ antidiagonal (N + 1), value S x.1 a q * value R (x.2 + 1) a q = ∑ x ∈ antidiagonal (N + 1), value R x.1 a q * value S (x.2 + 1) a q :=
    fun a q => shift (f := fun n => value S n a q) (g := fun n => value R n a q) rfl rfl (N + 1)
  simp only [t2, t4] at b
  simp only [t1, t3] at a
  linarith

/-! ### Currents on single edges -/

theorem over_single {r : Axis → Finset Int} {f : (Axis → Int) → ℝ} {p : Axis → Int} (hp : ∀ d, p d ∈ r d) (hf : ∀ q, q ≠ p → f q = 0) : sumOver r f = f p := by
  have e : p = Deck.triple (p .x) (p .y) (p .z) := by funext d; cases d <;> rfl
  unfold sumOver
  rw [sum_eq_single (p .x), sum_eq_single (p .y), sum_eq_single (p .z), ← e]
  · intro l _ hl; exact hf _ fun c => hl (congrFun c .z)
  · intro c; exact absurd (hp .z) c
  · intro l _ hl; exact sum_eq_zero fun j _ => hf _ fun c => hl (congrFun c .y)
  · intro c; exact absurd (hp .y) c
  · intro l _ hl; exact sum_eq_zero fun j _ => sum_eq_zero fun i _ => hf _ fun c => hl (congrFun c .x)
  · intro c; exact absurd (hp .x) c
theorem over_none {r : Axis → Finset Int} {f : (Axis → Int) → ℝ} (hf : ∀ q, f q = 0) : sumOver r f = 0 := by
  rw [← over_zero r]; exact C80.over_congr fun q _ => hf q

theorem allE_single {f : Axis → (Axis → Int) → ℝ} {a : Axis} {p : Axis → Int} (hp : ∀ d, p d ∈ meshRange X a.e d)
    (hf : ∀ b q, ¬ (b = a ∧ q = p) → f b q = 0) : allE X f = f a p := by
  unfold allE
  have o : ∀ b, b ≠ a → ∀ q, f b q = 0 := fun b hb q => hf b q fun c => hb c.1
  have s := over_single (f := f a) hp fun q hq => hf a q fun c => hq c.2
  cases a
  · rw [over_none (o .y (by decide)), over_none (o .z (by decide))]; simp only [Axis.e] at s; rw [s]; ring
  · rw [over_none (o .x (by decide)), over_none (o .z (by decide))]; simp only [Axis.e] at s; rw [s]; ring
  · rw [over_none (o .x (by decide)), over_none (o .y (by decide))]; simp only [Axis.e] at s; rw [s]; ring

theorem area_pos (h : setup k J X = some R) (hl : Increasing X) (a : Axis) (q : Axis → Int) : 0 < edgeArea X a q :=
  mul_pos (C75.middle_pos h hl _ _) (C75.middle_pos h hl _ _)

theorem inside_part (h : setup k J X = some R) (d : Axis) {i : Int} (h0 : 0 ≤ i) (h1 : i ≤ cellsOf X.file d) :
    insideLength X d i = middleDistance X d i * (if i = 0 ∨ i = cellsOf X.file d then 1 / 2 else 1) := by
  obtain ⟨hv, hn, -⟩ := run_parts h
  have pos : 0 < cellsOf X.file d := by rw [← hn]; exact hv.cells d
  unfold insideLength middleDistance
  rcases h0.lt_or_eq with c0 | c0
  · rcases h1.lt_or_eq with c1 | c1
    · rw [if_pos c0, if_pos c1, if_neg (by omega)]; ring
    · have e : cellLength X d i = cellLength X d (i - 1) := by unfold cellLength; dsimp only; rw [show max 0 (min (cellsOf X.file d - 1) i) = max 0 (min (cellsOf X.file d - 1) (i - 1)) by omega]
      rw [if_pos c0, if_neg (by omega), if_pos (by omega), e]; ring
  · have e : cellLength X d (i - 1) = cellLength X d i := by unfold cellLength; dsimp only; rw [show max 0 (min (cellsOf X.file d - 1) (i - 1)) = max 0 (min (cellsOf X.file d - 1) i) by omega]
    rw [if_neg (by omega), if_pos (by omega), if_pos (by omega), e]; ring

theorem share_part (h : setup k J X = some R) {a : Axis} {q : Axis → Int} (hq : SampleInMesh X a.e q) :
    edgeShare X a q = cellLength X a (q a) * insidePart X a q * edgeArea X a q := by
  obtain ⟨n1, n2, n3, n4⟩ := C80.next_ne a
  have hq := in_mesh.2 hq
  have r : ∀ d, d ≠ a → 0 ≤ q d ∧ q d ≤ cellsOf X.file d := by
    intro d hd
    have := hq d
    unfold meshRange at this
    rw [C81.pos2_e, if_neg hd, if_pos (by norm_num), mem_Icc] at this
    exact this
  unfold edgeShare insidePart edgeArea
  rw [inside_part h _ (r _ n1).1 (r _ n1).2, inside_part h _ (r _ n2).1 (r _ n2).2]
  ring

include hs in
/-- Exchange of source and probe, if the reactions are equal. -/
theorem exchange_of (h : setup k J X = some R) (hl : Increasing X) (edt : S.dt = R.dt)
    (re : ∀ N, reactionOn X R Y N = reactionOn Y S X N) {a1 a2 : Axis} {q1 q2 : Axis → Int} {I : ℝ → ℝ} (i1 : SampleInMesh X a1.e q1) (i2 : SampleInMesh X a2.e q2)
    (d1 : OneEdge X R.dt a1 q1 I) (d2 : OneEdge Y R.dt a2 q2 I) (hI : ∃ n : ℕ, I (n * R.dt) ≠ 0) (n : ℕ) :
    value R n a2.e q2 * (cellLength X a2 (q2 a2) * insidePart X a2 q2) = value S n a1.e q1 * (cellLength X a1 (q1 a1) * insidePart X a1 q1) := by
  have p1 := in_mesh.2 i1
  have p2 := in_mesh.2 i2
  have noH : ∀ {Z : Experiment} {a : Axis} {q : Axis → Int}, OneEdge Z R.dt a q I → ∀ (b : Axis) p t, totalCurrent Z R.dt t b.h p = 0 := by
    intro Z a q hd b p t
    exact (hd t b.h p).2 fun c => by have := c.1; cases a <;> cases b <;> cases this
  have inj : ∀ a b : Axis, a.e = b.e → a = b := by intro a b; cases a <;> cases b <;> decide
  refine congrFun (Energy.cancel (w := fun n : ℕ => I (n * R.dt)) (x := fun n => value R n a2.e q2 * (cellLength X a2 (q2 a2) * insidePart X a2 q2))
    (y := fun n => value S n a1.e q1 * (cellLength X a1 (q1 a1) * insidePart X a1 q1)) hI ?_) n
  intro N
  cases N with
  | zero => simp [C84.value_zero]
  | succ N =>
    have r := re N
    unfold reactionOn at r
    rw [edt, share_eq hs, square_eq hs, allE_eq hs, allH_eq hs] at r
    simp only [noH d1, noH d2, mul_zero, allH_zero, sum_const_zero, sub_zero] at r
    have e2 : ∀ x : ℕ × ℕ, allE X (fun a q => edgeShare X a q * (value R x.1 a.e q * totalCurrent Y R.dt (x.2 * R.dt) a.e q)) =
        I (x.2 * R.dt) * (value R x.1 a2.e q2 * (cellLength X a2 (q2 a2) * insidePart X a2 q2)) := by
      intro x
      rw [allE_single (a := a2) (p := q2) p2 fun b q hb => by
        rw [(d2 _ _ _).2 fun c => hb ⟨inj _ _ c.1, c.2⟩]; ring]
      rw [(d2 _ _ _).1 ⟨rfl, rfl⟩, share_part h i2]
      have ea : edgeArea Y a2 q2 = edgeArea X a2 q2 := by unfold edgeArea middleDistance; rw [length_eq hs]
      have := (area_pos h hl a2 q2).ne'
      rw [ea]
      field_simp
    have e1 : ∀ x : ℕ × ℕ, allE X (fun a q => edgeShare X a q * (value S x.1 a.e q * totalCurrent X R.dt (x.2 * R.dt) a.e q)) =
        I (x.2 * R.dt) * (value S x.1 a1.e q1 * (cellLength X a1 (q1 a1) * insidePart X a1 q1)) := by
      intro x
      rw [allE_single (a := a1) (p := q1) p1 fun b q hb => by
        rw [(d1 _ _ _).2 fun c => hb ⟨inj _ _ c.1, c.2⟩]; ring]
      rw [(d1 _ _ _).1 ⟨rfl, rfl⟩, share_part h i1]
      have := (area_pos h hl a1 q1).ne'
      field_simp
    simp only [e1, e2] at r
    have sw : ∀ F : ℕ × ℕ → ℝ, ∑ x ∈ antidiagonal (N + 1), F x.swap = ∑ x ∈ antidiagonal (N + 1), F x := fun F => Finset.Nat.sum_antidiagonal_swap (f := F)
    rw [← sw, ← sw fun x => I (x.2 * R.dt) * (value S x.1 a1.e q1 * (cellLength X a1 (q1 a1) * insidePart X a1 q1))] at r
    exact r

include h hl hm ho h' hm' ho' hs hk hT hb in
/-- **C88.** Exchange of source and probe: with the same current through edge 1 in one run and through edge 2 in the other, the
voltage along edge 2 in the first run is, in every step, the voltage along edge 1 in the second; an edge in a magnetic side counts
with one half for every such side. -/
theorem exchange {a1 a2 : Axis} {q1 q2 : Axis → Int} {I : ℝ → ℝ} (i1 : SampleInMesh X a1.e q1) (i2 : SampleInMesh X a2.e q2)
    (d1 : OneEdge X R.dt a1 q1 I) (d2 : OneEdge Y R.dt a2 q2 I) (hI : ∃ n : ℕ, I (n * R.dt) ≠ 0) (n : ℕ) :
    value R n a2.e q2 * (cellLength X a2 (q2 a2) * insidePart X a2 q2) = value S n a1.e q1 * (cellLength X a1 (q1 a1) * insidePart X a1 q1) :=
  exchange_of hs h hl (step_eq h h' hs hl hb) (reciprocity h hl hm ho h' hm' ho' hs hk hT hb) i1 i2 d1 d2 hI n

end

/-- The cards of a file with a current through one edge. -/
theorem one_edge {a : Axis} {q : Axis → Int} {w : String} {size delay : ℝ} (hc : OneEdgeCard X a q w size delay) (T : ℝ) :
    OneEdge X T a q fun t => size * waveValue T (X.waves w) (t - delay) := by
  obtain ⟨before, after, m, b, name, r, e, hb, hno⟩ := hc
  intro t fc p
  have zero : ∀ l : List Deck.Card, (∀ c ∈ l, c ∈ before ++ after) → (l.map (impressed X T t fc p)).sum = 0 := by
    intro l hl
    refine List.sum_eq_zero fun y hy => ?_
    obtain ⟨c, hc, rfl⟩ := List.mem_map.1 hy
    cases c with
    | ex m b nm tag w size delay r => exact absurd rfl (hno _ (hl _ hc) m b nm tag w size delay r)
    | _ => rfl
  have tot : totalCurrent X T t fc p = impressed X T t fc p (.ex m b name (currentTag a) w size delay r) := by
    unfold totalCurrent
    rw [e, List.map_append, List.map_cons, List.sum_append, List.sum_cons, zero before fun c hc => by simp [hc], zero after fun c hc => by simp [hc]]
    ring
  have ht : tagOf (currentTag a) = some ⟨false, .I, a, none⟩ := by
    have v : (⟨false, .I, a, none⟩ : Tag).Valid := by cases a <;> decide
    have := C72.tagOf_spell v
    rw [← this]
    cases a <;> rfl
  have co : (⟨false, .I, a, none⟩ : Tag).component = a.e := by cases a <;> rfl
  have inb : SampleIn b a.e (p .x) (p .y) (p .z) ↔ p = q := by
    have iff : SampleIn b a.e (p .x) (p .y) (p .z) ↔ ∀ d : Axis, 2 * b d.lo ≤ pos2 a.e d (p d) ∧ pos2 a.e d (p d) ≤ 2 * b d.hi :=
      ⟨fun ⟨h1, h2, h3⟩ d => by cases d <;> assumption, fun hd => ⟨hd .x, hd .y, hd .z⟩⟩
    rw [iff]
    constructor
    · intro hp
      funext d
      have := hp d
      rw [C81.pos2_e] at this
      have hb := hb d
      by_cases c : d = a
      · rw [if_pos c] at hb this; omega
      · rw [if_neg c] at hb this; omega
    · rintro rfl d
      have := hb d
      rw [C81.pos2_e]
      split <;> rename_i c
      · rw [if_pos c] at this; omega
      · rw [if_neg c] at this; omega
  rw [tot]
  simp only [impressed, ht, co]
  constructor
  · rintro ⟨rfl, rfl⟩
    rw [if_pos ⟨rfl, inb.2 rfl⟩]
    obtain ⟨n1, n2, n3, n4⟩ := C80.next_ne a
    have wd : ∀ d, d ≠ a → boxWidth X b d = middleDistance X d (p d) := by
      intro d hd
      obtain ⟨b1, b2⟩ := hb d
      rw [if_neg hd] at b2
      unfold boxWidth middleDistance
      rw [b1, b2, Icc_self, sum_singleton]
    have : density X ⟨false, .I, a, none⟩ b size r = size / edgeArea X a p := by
      unfold edgeArea
      rw [← wd _ n1, ← wd _ n2]
      rfl
    rw [this]
    ring
  · intro hn
    rw [if_neg]
    rintro ⟨rfl, hi⟩
    exact hn ⟨rfl, inb.1 hi⟩

/-- **C88.** The same for mesh files: move the only `EX` card, for a current through an edge, to another edge. -/
theorem exchange_cards (h : setup k J X = some R) (hl : Increasing X) (hm : SealedModel k X R.dt M mu) (ho : OrdinaryBlocks X.file.cards)
    (h' : setup k J' Y = some S) (hm' : SealedModel k Y S.dt M mu) (ho' : OrdinaryBlocks Y.file.cards)
    (hs : SameMesh X Y) (hw : Y.waves = X.waves) (hk : Physical k) (hT : 0 < R.dt) (hb : Representable k X)
    {a1 a2 : Axis} {q1 q2 : Axis → Int} (i1 : SampleInMesh X a1.e q1) (i2 : SampleInMesh X a2.e q2) {w : String} {size delay : ℝ}
    (c1 : OneEdgeCard X a1 q1 w size delay) (c2 : OneEdgeCard Y a2 q2 w size delay)
    (hI : ∃ n : ℕ, size * waveValue R.dt (X.waves w) (n * R.dt - delay) ≠ 0) (n : ℕ) :
    value R n a2.e q2 * (cellLength X a2 (q2 a2) * insidePart X a2 q2) = value S n a1.e q1 * (cellLength X a1 (q1 a1) * insidePart X a1 q1) := by
  have o2 := one_edge c2 R.dt
  rw [hw] at o2
  exact exchange h hl hm ho h' hm' ho' hs hk hT hb i1 i2 (one_edge c1 R.dt) o2 hI n

end Vulture.C88
