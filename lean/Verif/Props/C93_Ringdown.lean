import Verif.Spec.Ringdown
import Verif.Props.C90_Passive
/- C93: closed models with losses ring down. -/
set_option linter.unusedSimpArgs false
set_option linter.unusedVariables false
set_option linter.unusedSectionVars false
set_option autoImplicit false
namespace Vulture.C93
open Spec Setup Deck CavityLemmas Scaling Finset Sealed C87 Filter

variable {k : Consts} {J : Junk} {X : Experiment} {R : Setup.Run} {M : Axis → (Axis → Int) → Stuff} {mu : Axis → (Axis → Int) → ℝ}

theorem over_fades {r : Axis → Finset Int} {f : ℕ → (Axis → Int) → ℝ} (hf : ∀ q : Axis → Int, (∀ d, q d ∈ r d) → DiesOut fun n => f n q) : DiesOut fun n => sumOver r (f n) := by
  unfold DiesOut sumOver
  rw [show (0 : ℝ) = ∑ i ∈ r .x, ∑ j ∈ r .y, ∑ l ∈ r .z, (0 : ℝ) by simp]
  refine tendsto_finset_sum _ fun i hi => tendsto_finset_sum _ fun j hj => tendsto_finset_sum _ fun l hl => hf _ fun d => ?_
  cases d
  · exact hi
  · exact hj
  · exact hl
theorem allE_fades {f : ℕ → Axis → (Axis → Int) → ℝ} (hf : ∀ (a : Axis) (q : Axis → Int), (∀ d, q d ∈ meshRange X a.e d) → DiesOut fun n => f n a q) :
    DiesOut fun n => allE X (f n) := by
  have := ((over_fades (f := fun n => f n .x) (hf .x)).add (over_fades (f := fun n => f n .y) (hf .y))).add (over_fades (f := fun n => f n .z) (hf .z))
  rw [add_zero, add_zero] at this
  exact this
theorem allH_fades {f : ℕ → Axis → (Axis → Int) → ℝ} (hf : ∀ (a : Axis) (q : Axis → Int), (∀ d, q d ∈ meshRange X a.h d) → DiesOut fun n => f n a q) :
    DiesOut fun n => allH X (f n) := by
  have := ((over_fades (f := fun n => f n .x) (hf .x)).add (over_fades (f := fun n => f n .y) (hf .y))).add (over_fades (f := fun n => f n .z) (hf .z))
  rw [add_zero, add_zero] at this
  exact this

theorem fades_mul {f g : ℕ → ℝ} (hf : ∃ B, ∀ n, |f n| ≤ B) (hg : DiesOut g) : DiesOut fun n => f n * g n := by
  obtain ⟨B, hB⟩ := hf
  refine squeeze_zero_norm (a := fun n => B * |g n|) (fun n => ?_) (by have := hg.abs.const_mul B; simpa using this)
  rw [Real.norm_eq_abs, abs_mul]
  exact mul_le_mul_of_nonneg_right (hB n) (abs_nonneg _)
theorem fades_add {f g : ℕ → ℝ} (hf : DiesOut f) (hg : DiesOut g) : DiesOut fun n => f n + g n := by
  have := Tendsto.add hf hg; rw [add_zero] at this; exact this
theorem fades_smul {f : ℕ → ℝ} (c : ℝ) (hf : DiesOut f) : DiesOut fun n => c * f n := by
  have := Tendsto.const_mul c hf; rw [mul_zero] at this; exact this
theorem fades_shift {f : ℕ → ℝ} (hf : DiesOut f) : DiesOut fun n => f (n + 1) := (tendsto_add_atTop_iff_nat (f := f) 1).2 hf
theorem fades_of_sum {f : ℕ → ℝ} (hf : Summable fun n => |f n|) : DiesOut f :=
  tendsto_zero_iff_abs_tendsto_zero _ |>.2 hf.tendsto_atTop_zero

/-- Pulses fade away. -/
theorem fading (hT : 0 < R.dt) (hw : ∀ n, C56.Pulse (X.waves n)) : Fading X R.dt where
  electric a q _ := (pulses_fade hT hw 0 a.e q).congr fun n => by rw [add_zero]
  magnetic a q _ := (pulses_fade hT hw (1 / 2 * R.dt) a.h q).congr fun n => by rw [← add_mul]

section
variable (h : setup k J X = some R) (hl : Increasing X) (hm : RelaxingModel k X R.dt M mu) (ho : OrdinaryBlocks X.file.cards)
variable (hk : Physical k) (hT : 0 < R.dt) (hcn : 0 < X.cn) (hlt : X.cn < 1) (hb : Representable k X) (hF : Fading X R.dt)

include hk ho hT hl h hm hcn hlt hb hF in
/-- **C93.** Only a finite amount of heat is ever developed in a closed model whose currents fade away. -/
theorem heat_finite : Summable fun n => totalHeat X R (fun a q => staticConductivity (M a q)) n := by
  obtain ⟨W, D, W0, hW, hD, hB⟩ := C90.pools h hl hm ho hk hT
  obtain ⟨B, hbd⟩ := C90.never_blows_up h hl hm ho hk hT hcn hlt hb hF.electric hF.magnetic
  have B0 : 0 ≤ B := (abs_nonneg _).trans (hbd 0 .ez (fun _ => 0) (by
    obtain ⟨hv, hn, -⟩ := run_parts h
    have p := fun d => hv.cells d
    rw [hn] at p
    have px := p .x; have py := p .y; have pz := p .z
    have ex : cellsOf X.file .x = X.file.nx := rfl
    have ey : cellsOf X.file .y = X.file.ny := rfl
    have ez : cellsOf X.file .z = X.file.nz := rfl
    rw [ex] at px; rw [ey] at py; rw [ez] at pz
    refine ⟨?_, ?_, ?_⟩ <;> simp [pos2, meshBox, mkBox] <;> omega))
  have h0 : ∀ n, 0 ≤ totalHeat X R (fun a q => staticConductivity (M a q)) n := by
    intro n
    refine mul_nonneg hT.le (allE_nonneg fun a q hq => ?_)
    have p := share_e_pos h hl (hm.shell h ho) hq
    have := (C90.instant_ge hk (hm.edges a q hq)).2
    positivity
  set G : ℕ → ℝ := fun n => form X R (fun a q => instantPermittivity k (M a q)) mu n + W (n + 1)
  have G0 : ∀ n, 0 ≤ G n := fun n => add_nonneg (form_pos h hl (hm.shell h ho) ho hk (C90.eps_all hm hk) hcn hlt hb n).1 (hW _)
  set P : ℕ → ℝ := fun n => R.dt * (B * allE X (fun a q => edgeShare X a q * |totalCurrent X R.dt ((n + 1 : ℕ) * R.dt) a.e q|)) +
    R.dt * (B * allH X (fun a q => squareShare X a q * |totalCurrent X R.dt ((n + 1 / 2) * R.dt) a.h q|))
  have hP : Summable P := by
    have s1 : ∀ (a : Axis) (q : Axis → Int), (∀ d, q d ∈ meshRange X a.e d) → Summable fun n : ℕ => edgeShare X a q * |totalCurrent X R.dt ((n + 1 : ℕ) * R.dt) a.e q| :=
      fun a q hq => ((summable_nat_add_iff 1).2 (hF.electric a q hq)).mul_left _
    have s2 : ∀ (a : Axis) (q : Axis → Int), (∀ d, q d ∈ meshRange X a.h d) → Summable fun n : ℕ => squareShare X a q * |totalCurrent X R.dt ((n + 1 / 2) * R.dt) a.h q| :=
      fun a q hq => (hF.magnetic a q hq).mul_left _
    refine Summable.add (Summable.mul_left _ (Summable.mul_left _ ?_)) (Summable.mul_left _ (Summable.mul_left _ ?_))
    · exact ((summable_over (s1 .x)).add (summable_over (s1 .y))).add (summable_over (s1 .z))
    · exact ((summable_over (s2 .x)).add (summable_over (s2 .y))).add (summable_over (s2 .z))
  have P0 : ∀ n, 0 ≤ P n := by
    intro n
    refine add_nonneg (mul_nonneg hT.le (mul_nonneg B0 (allE_nonneg fun a q hq => ?_))) (mul_nonneg hT.le (mul_nonneg B0 (allH_nonneg fun a q hq => ?_)))
    · exact mul_nonneg (share_e_pos h hl (hm.shell h ho) hq).le (abs_nonneg _)
    · exact mul_nonneg (share_h_pos h hl (hm.shell h ho) hq).le (abs_nonneg _)
  have step : ∀ n, totalHeat X R (fun a q => staticConductivity (M a q)) (n + 1) ≤ G n - G (n + 1) + P n := by
    intro n
    have hc := mean_curls h hl (hm.shell h ho) ho (n + 1)
    have eE := hB (n + 1)
    have eH := allH_congr (X := X) fun a q hq => square_form h ho hk hT (hm.squares a q hq) (squareShare X a q) n
    simp only [allH_smul, allH_add] at eH
    have d0 := hD (n + 1)
    have hc' := congrArg (R.dt * ·) hc
    have wE : -(R.dt * allE X (fun a q => edgeShare X a q * (meanOver R (n + 1) a.e q * totalCurrent X R.dt ((n + 1 : ℕ) * R.dt) a.e q))) ≤
        R.dt * (B * allE X (fun a q => edgeShare X a q * |totalCurrent X R.dt ((n + 1 : ℕ) * R.dt) a.e q|)) := by
      rw [← mul_neg]
      refine mul_le_mul_of_nonneg_left ?_ hT.le
      rw [show ∀ x : ℝ, -x = (-1) * x from fun x => by ring, ← allE_smul, ← allE_smul]
      refine allE_mono fun a q hq => ?_
      have i := in_mesh.1 hq
      have p := (share_e_pos h hl (hm.shell h ho) hq).le
      have b1 := hbd (n + 1) a.e q i
      have b2 := hbd (n + 1 + 1) a.e q i
      have bm : |meanOver R (n + 1) a.e q| ≤ B := by
        unfold meanOver
        rw [abs_le] at b1 b2 ⊢
        constructor <;> linarith [b1.1, b1.2, b2.1, b2.2]
      have : -(meanOver R (n + 1) a.e q * totalCurrent X R.dt ((n + 1 : ℕ) * R.dt) a.e q) ≤ B * |totalCurrent X R.dt ((n + 1 : ℕ) * R.dt) a.e q| := by
        refine (neg_le_abs _).trans ?_
        rw [abs_mul]
        exact mul_le_mul_of_nonneg_right bm (abs_nonneg _)
      nlinarith [mul_le_mul_of_nonneg_left this p]
    have wH : -(R.dt / 2 * allH X (fun a q => squareShare X a q * ((value R n a.h q + value R (n + 1) a.h q) * totalCurrent X R.dt ((n + 1 / 2) * R.dt) a.h q))) ≤
        R.dt * (B * allH X (fun a q => squareShare X a q * |totalCurrent X R.dt ((n + 1 / 2) * R.dt) a.h q|)) := by
      rw [show ∀ x : ℝ, -(R.dt / 2 * x) = R.dt * ((-(1 / 2)) * x) from fun x => by ring]
      refine mul_le_mul_of_nonneg_left ?_ hT.le
      rw [← allH_smul, ← allH_smul]
      refine allH_mono fun a q hq => ?_
      have i := in_mesh.1 hq
      have p := (share_h_pos h hl (hm.shell h ho) hq).le
      have b1 := hbd n a.h q i
      have b2 := hbd (n + 1) a.h q i
      have bm : |(value R n a.h q + value R (n + 1) a.h q) / 2| ≤ B := by
        rw [abs_le] at b1 b2 ⊢
        constructor <;> linarith [b1.1, b1.2, b2.1, b2.2]
      have : -((value R n a.h q + value R (n + 1) a.h q) / 2 * totalCurrent X R.dt ((n + 1 / 2) * R.dt) a.h q) ≤ B * |totalCurrent X R.dt ((n + 1 / 2) * R.dt) a.h q| := by
        refine (neg_le_abs _).trans ?_
        rw [abs_mul]
        exact mul_le_mul_of_nonneg_right bm (abs_nonneg _)
      nlinarith [mul_le_mul_of_nonneg_left this p]
    simp only [G, P]
    unfold form storedEnergy
    linarith
  refine (summable_nat_add_iff 1).1 (summable_of_sum_range_le (c := G 0 + ∑' n, P n) (fun n => h0 (n + 1)) fun n => ?_)
  have key : ∀ n, ∑ m ∈ range n, totalHeat X R (fun a q => staticConductivity (M a q)) (m + 1) ≤ G 0 - G n + ∑ m ∈ range n, P m := by
    intro n
    induction n with
    | zero => simp
    | succ n ih =>
      rw [sum_range_succ, sum_range_succ]
      linarith [step n]
  have := key n
  have := G0 n
  have := hP.sum_le_tsum (range n) fun m _ => P0 m
  linarith

include hk ho hT hl h hm hcn hlt hb hF in
/-- **C93.** Where the matter conducts, the mean of the electric field over a step dies out. -/
theorem mean_dies {a : Axis} {q : Axis → Int} (hq : SampleInMesh X a.e q) (hs : 0 < staticConductivity (M a q)) : DiesOut fun n => meanOver R n a.e q := by
  have hq := in_mesh.2 hq
  have hh := (heat_finite h hl hm ho hk hT hcn hlt hb hF).tendsto_atTop_zero
  have p := share_e_pos h hl (hm.shell h ho) hq
  have c : 0 < R.dt * (edgeShare X a q * staticConductivity (M a q)) := mul_pos hT (mul_pos p hs)
  have sq : DiesOut fun n => meanOver R n a.e q ^ 2 := by
    refine squeeze_zero (fun n => sq_nonneg _) (g := fun n => (R.dt * (edgeShare X a q * staticConductivity (M a q)))⁻¹ * totalHeat X R (fun a q => staticConductivity (M a q)) n)
      (fun n => ?_) (by have := hh.const_mul (R.dt * (edgeShare X a q * staticConductivity (M a q)))⁻¹; rwa [mul_zero] at this)
    rw [← div_eq_inv_mul, le_div_iff₀ c]
    have t := allE_term (X := X) (f := fun a q => edgeShare X a q * staticConductivity (M a q) * meanOver R n a.e q ^ 2) (fun a q hq => by
      have p := share_e_pos h hl (hm.shell h ho) hq
      have := (C90.instant_ge hk (hm.edges a q hq)).2
      positivity) hq
    have := mul_le_mul_of_nonneg_left t hT.le
    unfold totalHeat
    linarith
  have := sq.sqrt
  simp only [Real.sqrt_sq_eq_abs, Real.sqrt_zero] at this
  exact (tendsto_zero_iff_abs_tendsto_zero _).2 this
end

section
variable (h : setup k J X = some R) (hl : Increasing X) (hm : SealedModel k X R.dt M mu) (ho : OrdinaryBlocks X.file.cards)
variable (hk : Physical k) (hT : 0 < R.dt) (hcn : 0 < X.cn) (hlt : X.cn < 1) (hb : Representable k X) (hF : Fading X R.dt)

include hm in
/-- Models of plain matter are among those of C90. -/
theorem relaxing : RelaxingModel k X R.dt M mu := ⟨hm.sides, hm.ends, fun a q hq => Or.inl (hm.edges a q hq), hm.walls, hm.squares⟩

theorem plain_same {a : Axis} {q : Axis → Int} {stuff : Stuff} (hp : PlainEdge X a q stuff) : staticConductivity stuff = conductivity stuff := by
  cases stuff
  · rfl
  · rfl
  · rfl
  · rcases hp with ⟨-, -, hm⟩ | ⟨-, -, hm⟩
    · exact hm.elim
    · cases hm

include hk ho hT hl h hm hcn hlt hb hF in
theorem metal_dark : ∀ (a : Axis) (q : Axis → Int), (∀ d, q d ∈ meshRange X a.e d) → M a q = .metal → ∀ n, value R n a.e q = 0 := by
  have sh := hm.shell h ho
  have m0 := hk.mu0
  have e0 : 0 < k.eps0 := C90.eps0_pos hk
  have hT' := hT.ne'
  intro a q hq hs n
  have e := hm.edges a q hq
  rw [hs] at e
  rcases e with ⟨-, -, e⟩ | ⟨o, mm, -⟩
  · exact e.elim
  · exact C73.metal_zero h ho o mm n

include hk ho hT hl h hm hcn hlt hb hF in
theorem means_die (hc : Conducting X M) : ∀ (a : Axis) (q : Axis → Int), (∀ d, q d ∈ meshRange X a.e d) → DiesOut fun n => meanOver R n a.e q := by
  have sh := hm.shell h ho
  have m0 := hk.mu0
  have e0 : 0 < k.eps0 := C90.eps0_pos hk
  have hT' := hT.ne'
  intro a q hq
  rcases hc a q hq with e | e
  · have : (fun n => meanOver R n a.e q) = fun _ => 0 := by funext n; unfold meanOver; rw [metal_dark h hl hm ho hk hT hcn hlt hb hF a q hq e, metal_dark h hl hm ho hk hT hcn hlt hb hF a q hq e]; ring
    rw [this]; exact tendsto_const_nhds
  · exact mean_dies h hl (relaxing hm) ho hk hT hcn hlt hb hF (in_mesh.1 hq) (by rw [plain_same (hm.edges a q hq)]; exact e)

include hk ho hT hl h hm hcn hlt hb hF in
theorem tE : ∀ n, 4 / R.dt * allE X (fun a q => edgeShare X a q * permittivity k (M a q) * value R (n + 1) a.e q ^ 2) =
    allE X (fun a q => edgeShare X a q * (value R (n + 1) a.e q * ((2 * permittivity k (M a q) / R.dt + conductivity (M a q)) * meanOver R (n + 1) a.e q +
      (2 * permittivity k (M a q) / R.dt - conductivity (M a q)) * meanOver R n a.e q +
      (totalCurrent X R.dt ((n + 1 : ℕ) * R.dt) a.e q + (-1) * totalCurrent X R.dt (n * R.dt) a.e q)))) -
    (allE X (fun a q => edgeShare X a q * (value R (n + 1) a.e q * rotH X (value R (n + 1)) a q)) -
      allE X (fun a q => edgeShare X a q * (value R (n + 1) a.e q * rotH X (value R n) a q))) := by
  have sh := hm.shell h ho
  have m0 := hk.mu0
  have e0 : 0 < k.eps0 := C90.eps0_pos hk
  have hT' := hT.ne'
  intro n
  rw [show ∀ A B C D : ℝ, (A = B - (C - D)) = (A = B + (-1) * C + D) from fun A B C D => by congr 1; ring]
  simp only [← allE_smul, ← allE_add]
  refine allE_congr fun a q hq => ?_
  rcases hm.edges a q hq with hp | ⟨-, -, hp⟩
  · have l0 := C75.edge_law hk h ho hT hp n
    have l1 := C75.edge_law hk h ho hT hp (n + 1)
    rw [← l0, ← l1]
    unfold meanOver
    field_simp
    ring
  · rw [metal_dark h hl hm ho hk hT hcn hlt hb hF a q hq hp]; ring

include hk ho hT hl h hm hcn hlt hb hF in
theorem tH : ∀ n, allE X (fun a q => edgeShare X a q * (value R (n + 1) a.e q * rotH X (value R (n + 1)) a q)) -
    allE X (fun a q => edgeShare X a q * (value R (n + 1) a.e q * rotH X (value R n) a q)) =
    -(R.dt * allH X (fun a q => squareShare X a q * (1 / mu a q) * rotE X (value R (n + 1)) a q ^ 2)) +
    allH X (fun a q => squareShare X a q * (((value R (n + 1) a.h q + (-1) * value R n a.h q) + R.dt / mu a q * totalCurrent X R.dt ((n + 1 / 2) * R.dt) a.h q) *
      totalCurrent X R.dt ((n + 1 / 2) * R.dt) a.h q)) := by
  have sh := hm.shell h ho
  have m0 := hk.mu0
  have e0 : 0 < k.eps0 := C90.eps0_pos hk
  have hT' := hT.ne'
  intro n
  have c1 := curls h hl sh ho (value_fits h hl sh ho (n + 1)) (fun a q hq hp => wall_zero h ho sh hq hp (n + 1)) (n + 1)
  have c0 := curls h hl sh ho (value_fits h hl sh ho (n + 1)) (fun a q hq hp => wall_zero h ho sh hq hp (n + 1)) n
  rw [c1, c0, show ∀ A B C D : ℝ, (A - B = -(R.dt * C) + D) = (A + (-1) * B = (-R.dt) * C + D) from fun A B C D => by congr 1 <;> ring]
  simp only [← allH_smul, ← allH_add]
  refine allH_congr fun a q hq => ?_
  have hs := hm.squares a q hq
  have mp : 0 < mu a q := lt_of_lt_of_le m0 (mu_ge hk hs)
  obtain ⟨⟨i1, i2, i3, i4⟩, stuff, hst, hr, e⟩ := hs
  have s1 := C72.faraday hk h ho hT i1 i2 i3 i4 hst hr n
  unfold FaradayWithCurrent at s1
  rw [← e] at s1
  generalize mu a q = m at mp s1
  generalize totalCurrent X R.dt ((n + 1 / 2) * R.dt) a.h q = Mc at s1 ⊢
  have er : rotE X (value R (n + 1)) a q = -(m * (value R (n + 1) a.h q - value R n a.h q) / R.dt) - Mc := by
    linear_combination s1
  rw [er]
  have := mp.ne'
  field_simp
  ring

include hk ho hT hl h hm hcn hlt hb hF in
theorem cl : ∀ n, R.dt * allH X (fun a q => squareShare X a q * (1 / mu a q) * rotE X (value R (n + 1)) a q ^ 2) ≤
    X.cn ^ 2 * (4 / R.dt * allE X (fun a q => edgeShare X a q * permittivity k (M a q) * value R (n + 1) a.e q ^ 2)) := by
  have sh := hm.shell h ho
  have m0 := hk.mu0
  have e0 : 0 < k.eps0 := C90.eps0_pos hk
  have hT' := hT.ne'
  intro n
  obtain ⟨m, m1, m2, m3⟩ := smallest h hl hk hcn hb
  have cb := curl_bound (L := lat h hl sh) (m := m) m1 (fun d i h0 h1 => m2 d i h0 h1) (value_fits h hl sh ho (n + 1))
  have cb' : allH X (fun a q => squareShare X a q * rotE X (value R (n + 1)) a q ^ 2) ≤
      4 * (1 / m .x ^ 2 + 1 / m .y ^ 2 + 1 / m .z ^ 2) * allE X (fun a q => edgeShare X a q * value R (n + 1) a.e q ^ 2) := by
    unfold allE allH
    have ex := range_e h hl sh .x
    have ey := range_e h hl sh .y
    have ez := range_e h hl sh .z
    have hx := range_h h hl sh .x
    have hy := range_h h hl sh .y
    have hz := range_h h hl sh .z
    simp only [Axis.e, Axis.h] at ex ey ez hx hy hz
    rw [ex, ey, ez, hx, hy, hz]
    exact cb
  have u1 : allH X (fun a q => squareShare X a q * (1 / mu a q) * rotE X (value R (n + 1)) a q ^ 2) ≤
      1 / k.mu0 * allH X (fun a q => squareShare X a q * rotE X (value R (n + 1)) a q ^ 2) := by
    rw [← allH_smul]
    refine allH_mono fun a q hq => ?_
    have p := (share_h_pos h hl sh hq).le
    have : 1 / mu a q ≤ 1 / k.mu0 := one_div_le_one_div_of_le m0 (mu_ge hk (hm.squares a q hq))
    have r := mul_nonneg p (sq_nonneg (rotE X (value R (n + 1)) a q))
    nlinarith [mul_le_mul_of_nonneg_right this r]
  have u2 : k.eps0 * allE X (fun a q => edgeShare X a q * value R (n + 1) a.e q ^ 2) ≤
      allE X (fun a q => edgeShare X a q * permittivity k (M a q) * value R (n + 1) a.e q ^ 2) := by
    rw [← allE_smul]
    refine allE_mono fun a q hq => ?_
    have p := (share_e_pos h hl sh hq).le
    have := eps_ge hk (hm.edges a q hq)
    have r := mul_nonneg p (sq_nonneg (value R (n + 1) a.e q))
    nlinarith [mul_le_mul_of_nonneg_right this r]
  set S := 1 / m .x ^ 2 + 1 / m .y ^ 2 + 1 / m .z ^ 2
  calc _ ≤ R.dt * (1 / k.mu0 * (4 * S * allE X (fun a q => edgeShare X a q * value R (n + 1) a.e q ^ 2))) :=
        mul_le_mul_of_nonneg_left (u1.trans (mul_le_mul_of_nonneg_left cb' (by positivity))) hT.le
    _ = X.cn ^ 2 * (4 / R.dt * (k.eps0 * allE X (fun a q => edgeShare X a q * value R (n + 1) a.e q ^ 2))) := by
        have : R.dt * (1 / k.mu0 * (4 * S * allE X (fun a q => edgeShare X a q * value R (n + 1) a.e q ^ 2))) =
            (R.dt ^ 2 * S) * (4 / (R.dt * k.mu0) * allE X (fun a q => edgeShare X a q * value R (n + 1) a.e q ^ 2)) := by
          field_simp
        rw [this, m3]
        field_simp
    _ ≤ _ := mul_le_mul_of_nonneg_left (mul_le_mul_of_nonneg_left u2 (by positivity)) (by positivity)

include hk ho hT hl h hm hcn hlt hb hF in
theorem rest_e (hc : Conducting X M) : DiesOut fun n => allE X (fun a q => edgeShare X a q * (value R (n + 1) a.e q * ((2 * permittivity k (M a q) / R.dt + conductivity (M a q)) * meanOver R (n + 1) a.e q +
      (2 * permittivity k (M a q) / R.dt - conductivity (M a q)) * meanOver R n a.e q +
      (totalCurrent X R.dt ((n + 1 : ℕ) * R.dt) a.e q + (-1) * totalCurrent X R.dt (n * R.dt) a.e q)))) := by
  have sh := hm.shell h ho
  have m0 := hk.mu0
  have e0 : 0 < k.eps0 := C90.eps0_pos hk
  have hT' := hT.ne'
  obtain ⟨B, hbd⟩ := never_blows_up h hl hm ho hk hT hcn hlt hb hF.electric hF.magnetic
  have bE : ∀ (a : Axis) (q : Axis → Int), (∀ d, q d ∈ meshRange X a.e d) → ∃ B, ∀ n, |value R (n + 1) a.e q| ≤ B :=
    fun a q hq => ⟨B, fun n => hbd _ _ _ (in_mesh.1 hq)⟩
  refine allE_fades fun a q hq => fades_smul _ (fades_mul (bE a q hq) (fades_add (fades_add (fades_smul _ (fades_shift (means_die h hl hm ho hk hT hcn hlt hb hF hc a q hq))) (fades_smul _ (means_die h hl hm ho hk hT hcn hlt hb hF hc a q hq))) (fades_add ?_ (fades_smul _ ?_))))
  · exact fades_shift (f := fun n : ℕ => totalCurrent X R.dt (n * R.dt) a.e q) (fades_of_sum (hF.electric a q hq))
  · exact fades_of_sum (hF.electric a q hq)

include hk ho hT hl h hm hcn hlt hb hF in
theorem rest_h : DiesOut fun n => allH X (fun a q => squareShare X a q * (((value R (n + 1) a.h q + (-1) * value R n a.h q) + R.dt / mu a q * totalCurrent X R.dt ((n + 1 / 2) * R.dt) a.h q) *
      totalCurrent X R.dt ((n + 1 / 2) * R.dt) a.h q)) := by
  have sh := hm.shell h ho
  have m0 := hk.mu0
  have e0 : 0 < k.eps0 := C90.eps0_pos hk
  have hT' := hT.ne'
  obtain ⟨B, hbd⟩ := never_blows_up h hl hm ho hk hT hcn hlt hb hF.electric hF.magnetic
  have bE : ∀ (a : Axis) (q : Axis → Int), (∀ d, q d ∈ meshRange X a.e d) → ∃ B, ∀ n, |value R (n + 1) a.e q| ≤ B :=
    fun a q hq => ⟨B, fun n => hbd _ _ _ (in_mesh.1 hq)⟩
  refine allH_fades fun a q hq => fades_smul _ (fades_mul ?_ (fades_of_sum (hF.magnetic a q hq)))
  have f := fades_of_sum (hF.magnetic a q hq)
  obtain ⟨C, hC⟩ := (Metric.isBounded_range_of_tendsto _ f).exists_norm_le
  refine ⟨B + B + |R.dt / mu a q| * C, fun n => ?_⟩
  have b1 := hbd n a.h q (in_mesh.1 hq)
  have b2 := hbd (n + 1) a.h q (in_mesh.1 hq)
  have b3 : |totalCurrent X R.dt ((n + 1 / 2) * R.dt) a.h q| ≤ C := hC _ ⟨n, rfl⟩
  refine (abs_add_le _ _).trans (add_le_add ((abs_add_le _ _).trans (add_le_add b2 ?_)) ?_)
  · rw [abs_mul, abs_neg, abs_one, one_mul]; exact b1
  · rw [abs_mul]; exact mul_le_mul_of_nonneg_left b3 (abs_nonneg _)

include hk ho hT hl h hm hcn hlt hb hF in
/-- **C93.** In a closed model in which every edge conducts the electric field dies out everywhere. -/
theorem goes_dark (hc : Conducting X M) {a : Axis} {q : Axis → Int} (hq : SampleInMesh X a.e q) : DiesOut fun n => value R n a.e q := by
  have sh := hm.shell h ho
  have m0 := hk.mu0
  have e0 : 0 < k.eps0 := C90.eps0_pos hk
  have hT' := hT.ne'
  have sum := fades_add (rest_e h hl hm ho hk hT hcn hlt hb hF hc) (fades_smul (-1) (rest_h h hl hm ho hk hT hcn hlt hb hF))
  have c1 : 0 < (1 - X.cn ^ 2) * (4 / R.dt) := mul_pos (by nlinarith) (by positivity)
  have fin : DiesOut fun n => allE X (fun a q => edgeShare X a q * permittivity k (M a q) * value R (n + 1) a.e q ^ 2) := by
    refine squeeze_zero (fun n => allE_nonneg fun a q hq => ?_) (fun n => ?_) (fades_smul ((1 - X.cn ^ 2) * (4 / R.dt))⁻¹ sum)
    · have p := (share_e_pos h hl sh hq).le
      have := e0.le.trans (eps_ge hk (hm.edges a q hq))
      positivity
    · rw [← div_eq_inv_mul, le_div_iff₀ c1]
      have a1 := tE h hl hm ho hk hT hcn hlt hb hF n
      have a2 := tH h hl hm ho hk hT hcn hlt hb hF n
      have a3 := cl h hl hm ho hk hT hcn hlt hb hF n
      rw [a2] at a1
      linarith
  have hq := in_mesh.2 hq
  have p := share_e_pos h hl sh hq
  have ep := lt_of_lt_of_le e0 (eps_ge hk (hm.edges a q hq))
  have sq : DiesOut fun n => value R (n + 1) a.e q ^ 2 := by
    refine squeeze_zero (fun n => sq_nonneg _) (fun n => ?_) (fades_smul (edgeShare X a q * permittivity k (M a q))⁻¹ fin)
    rw [← div_eq_inv_mul, le_div_iff₀ (mul_pos p ep)]
    have t := allE_term (X := X) (f := fun a q => edgeShare X a q * permittivity k (M a q) * value R (n + 1) a.e q ^ 2) (fun a q hq => by
      have p := (share_e_pos h hl sh hq).le
      have := e0.le.trans (eps_ge hk (hm.edges a q hq))
      positivity) hq
    linarith
  have := Filter.Tendsto.sqrt sq
  simp only [Real.sqrt_sq_eq_abs, Real.sqrt_zero] at this
  exact (tendsto_add_atTop_iff_nat (f := fun n => value R n a.e q) 1).1 ((tendsto_zero_iff_abs_tendsto_zero _).2 this)

include hk ho hT hl h hm hcn hlt hb hF in
/-- **C93.** Then the magnetic field becomes static and free of currents: its curl dies out in all matter, its changes die out everywhere. -/
theorem becomes_static (hc : Conducting X M) :
    (∀ (a : Axis) (q : Axis → Int), SampleInMesh X a.e q → M a q ≠ .metal → DiesOut fun n => rotH X (value R n) a q) ∧
    ∀ (a : Axis) (q : Axis → Int), SampleInMesh X a.h q → DiesOut fun n => value R (n + 1) a.h q - value R n a.h q := by
  have sh := hm.shell h ho
  have dark := fun (a : Axis) (q : Axis → Int) (hq : SampleInMesh X a.e q) => goes_dark h hl hm ho hk hT hcn hlt hb hF hc hq
  constructor
  · intro a q hq hn
    rcases hm.edges a q (in_mesh.2 hq) with hp | ⟨-, -, hp⟩
    · have e : (fun n => rotH X (value R n) a q) = fun n => (permittivity k (M a q) / R.dt + conductivity (M a q) / 2) * value R (n + 1) a.e q +
          ((conductivity (M a q) / 2 - permittivity k (M a q) / R.dt) * value R n a.e q + totalCurrent X R.dt (n * R.dt) a.e q) := by
        funext n
        rw [← C75.edge_law hk h ho hT hp n]
        ring
      rw [e]
      have t1 := fades_of_sum (hF.electric a q (in_mesh.2 hq))
      have t2 := dark a q hq
      have t3 := fades_shift t2
      exact fades_add (fades_smul _ t3) (fades_add (fades_smul _ t2) t1)
    · exact absurd hp hn
  · intro a q hq
    have hs := hm.squares a q (in_mesh.2 hq)
    have mp : 0 < mu a q := lt_of_lt_of_le hk.mu0 (mu_ge hk hs)
    obtain ⟨⟨i1, i2, i3, i4⟩, stuff, hst, hr, e⟩ := hs
    have e2 : (fun n => value R (n + 1) a.h q - value R n a.h q) = fun n => (-(R.dt / mu a q)) * (rotE X (value R (n + 1)) a q + totalCurrent X R.dt ((n + 1 / 2) * R.dt) a.h q) := by
      funext n
      have s1 := C72.faraday hk h ho hT i1 i2 i3 i4 hst hr n
      unfold FaradayWithCurrent at s1
      rw [← e] at s1
      have hT' := hT.ne'
      have := mp.ne'
      generalize totalCurrent X R.dt ((n + 1 / 2) * R.dt) a.h q = Mc at s1 ⊢
      field_simp at s1 ⊢
      linear_combination s1
    rw [e2]
    refine fades_smul _ (fades_add ?_ (fades_of_sum (hF.magnetic a q (in_mesh.2 hq))))
    have around : ∀ c d : Axis, c ≠ a → d ≠ a → c ≠ d → DiesOut (fun n => value R (n + 1) c.e q) ∧ DiesOut fun n => value R (n + 1) c.e (ahead q d) := by
      intro c d hca hda hcd
      have hq := in_mesh.2 hq
      have hN : ∀ b : Axis, q b ∈ meshRange X a.h b := hq
      have p1 : ∀ b : Axis, q b ∈ meshRange X c.e b := fun b => by
        have := hN b
        rw [range_h h hl sh] at this
        rw [range_e h hl sh]
        unfold Sealed.hr at this
        unfold Sealed.er
        split_ifs at this ⊢ <;> simp at this ⊢ <;> first | omega | (subst_vars; simp_all)
      have p2 : ∀ b : Axis, ahead q d b ∈ meshRange X c.e b := fun b => by
        have := hN b
        rw [range_h h hl sh] at this
        rw [range_e h hl sh]
        unfold Sealed.hr at this
        unfold Sealed.er ahead
        split_ifs at this ⊢ <;> simp at this ⊢ <;> first | omega | (subst_vars; simp_all)
      have d1 := dark c q (in_mesh.1 p1)
      have d2 := dark c (ahead q d) (in_mesh.1 p2)
      have d3 := fades_shift d1
      have d4 := fades_shift d2
      exact ⟨d3, d4⟩
    obtain ⟨n1, n2, n3, n4⟩ := C80.next_ne a
    obtain ⟨x1, x2⟩ := around a.next.next a.next n2 n1 n3
    obtain ⟨y1, y2⟩ := around a.next a.next.next n1 n2 n3.symm
    have e3 : (fun n => rotE X (value R (n + 1)) a q) = fun n =>
        (1 / cellLength X a.next (q a.next)) * value R (n + 1) a.next.next.e (ahead q a.next) + (-(1 / cellLength X a.next (q a.next))) * value R (n + 1) a.next.next.e q +
        ((-(1 / cellLength X a.next.next (q a.next.next))) * value R (n + 1) a.next.e (ahead q a.next.next) + (1 / cellLength X a.next.next (q a.next.next)) * value R (n + 1) a.next.e q) := by
      funext n
      unfold rotE
      dsimp only
      ring
    rw [e3]
    exact fades_add (fades_add (fades_smul _ x2) (fades_smul _ x1)) (fades_add (fades_smul _ y2) (fades_smul _ y1))
end

end Vulture.C93
