import Verif.Lemmas.Shell
/- C87: closed models with conducting, magnetic and periodic sides. -/
set_option linter.unusedSimpArgs false
set_option linter.unusedVariables false
set_option linter.unusedSectionVars false
set_option autoImplicit false
namespace Vulture.C87
open Spec Setup Deck CavityLemmas Scaling Finset Sealed

variable {k : Consts} {J : Junk} {X : Experiment} {R : Setup.Run} {M : Axis → (Axis → Int) → Stuff} {mu : Axis → (Axis → Int) → ℝ}

theorem _root_.Vulture.Spec.SealedModel.shell (hm : SealedModel k X R.dt M mu) (h : setup k J X = some R) (ho : OrdinaryBlocks X.file.cards) : Shell k X R mu where
  sides := hm.sides
  ends := hm.ends
  walls a q hq hp n := by
    have e := hm.edges a q hq
    rw [hm.walls a q hq hp] at e
    rcases e with ⟨-, -, e⟩ | ⟨o, mm, -⟩
    · exact e.elim
    · exact C73.metal_zero h ho o mm n
  squares := hm.squares

section
variable (h : setup k J X = some R) (hl : Increasing X) (hm : SealedModel k X R.dt M mu) (ho : OrdinaryBlocks X.file.cards)
variable (hk : Physical k) (hT : 0 < R.dt)

include hk hm in
theorem eps_all (a : Axis) (q : Axis → Int) (hq : ∀ d, q d ∈ meshRange X a.e d) : k.eps0 ≤ permittivity k (M a q) :=
  eps_ge hk (hm.edges a q hq)

include hk ho hT hl h hm in
/-- **C87.** The energy in a closed model changes by the work of its currents less the heat developed in it. -/
theorem energy_step (n : ℕ) :
    totalEnergy X R (fun a q => permittivity k (M a q)) mu (n + 1) = totalEnergy X R (fun a q => permittivity k (M a q)) mu n +
      totalWork X R (n + 1) - totalHeat X R (fun a q => conductivity (M a q)) (n + 1) := by
  have hc := mean_curls h hl (hm.shell h ho) ho (n + 1)
  have eE := allE_congr (X := X) fun a q hq => C80.edge_work hk h ho hT (hm.edges a q hq) (edgeShare X a q) (n + 1)
  have eH := allH_congr (X := X) fun a q hq => C80.square_work hk h ho hT hl (hm.squares a q hq) (squareShare X a q) n
  simp only [allE_smul, allE_add] at eE
  simp only [allH_smul, allH_add] at eH
  unfold totalEnergy totalWork totalHeat
  linear_combination eE + eH + R.dt * hc

include hk ho hT hl h hm in
/-- **C87.** The same for the first step: the run starts without energy. -/
theorem energy_first :
    totalEnergy X R (fun a q => permittivity k (M a q)) mu 0 = totalWork X R 0 - totalHeat X R (fun a q => conductivity (M a q)) 0 := by
  have eE := allE_congr (X := X) fun a q hq => C80.edge_work hk h ho hT (hm.edges a q hq) (edgeShare X a q) 0
  simp only [allE_smul, allE_add] at eE
  have z : ∀ fc q, value R 0 fc q = 0 := fun _ _ => rfl
  have r0 : ∀ a q, rotH X (value R 0) a q = 0 := by intro a q; unfold rotH; simp only [z]; ring
  have e1 : allE X (fun a q => edgeShare X a q * permittivity k (M a q) * value R 0 a.e q ^ 2) = 0 := by
    rw [← allE_zero (X := X)]; exact allE_congr fun a q _ => by rw [z]; ring
  have e2 : allE X (fun a q => edgeShare X a q * (meanOver R 0 a.e q * rotH X (value R 0) a q)) = 0 := by
    rw [← allE_zero (X := X)]; exact allE_congr fun a q _ => by rw [r0]; ring
  have e3 : allH X (fun a q => squareShare X a q * mu a q * (value R 0 a.h q * value R (0 + 1) a.h q)) = 0 := by
    rw [← allH_zero (X := X)]; exact allH_congr fun a q _ => by rw [z]; ring
  have e4 : allH X (fun a q => squareShare X a q * (value R 0 a.h q *
      ((totalCurrent X R.dt (((0 : ℕ) - 1 / 2) * R.dt) a.h q + totalCurrent X R.dt (((0 : ℕ) + 1 / 2) * R.dt) a.h q) / 2))) = 0 := by
    rw [← allH_zero (X := X)]; exact allH_congr fun a q _ => by rw [z]; ring
  rw [e1, e2] at eE
  unfold totalEnergy totalWork totalHeat
  rw [e3, e4]
  linear_combination eE

include hk ho hT hl h hm in
/-- **C87.** The energy in a closed model at any time is the work that has been done in it less the heat. -/
theorem energy_total (n : ℕ) :
    totalEnergy X R (fun a q => permittivity k (M a q)) mu n =
      ∑ m ∈ range (n + 1), (totalWork X R m - totalHeat X R (fun a q => conductivity (M a q)) m) := by
  induction n with
  | zero => rw [Finset.sum_range_one]; exact energy_first h hl hm ho hk hT
  | succ n ih =>
    rw [Finset.sum_range_succ, ← ih, energy_step h hl hm ho hk hT n]
    ring

include hk ho hT hl h hm in
theorem form_step (n : ℕ) :
    form X R (fun a q => permittivity k (M a q)) mu (n + 1) = form X R (fun a q => permittivity k (M a q)) mu n
      - totalHeat X R (fun a q => conductivity (M a q)) (n + 1)
      - R.dt * allE X (fun a q => edgeShare X a q * (meanOver R (n + 1) a.e q * totalCurrent X R.dt ((n + 1 : ℕ) * R.dt) a.e q))
      - R.dt / 2 * allH X (fun a q => squareShare X a q * ((value R n a.h q + value R (n + 1) a.h q) * totalCurrent X R.dt ((n + 1 / 2) * R.dt) a.h q)) := by
  have hc := mean_curls h hl (hm.shell h ho) ho (n + 1)
  have eE := allE_congr (X := X) fun a q hq => C80.edge_work hk h ho hT (hm.edges a q hq) (edgeShare X a q) (n + 1)
  have eH := allH_congr (X := X) fun a q hq => square_form h ho hk hT (hm.squares a q hq) (squareShare X a q) n
  simp only [allE_smul, allE_add] at eE
  simp only [allH_smul, allH_add] at eH
  unfold form storedEnergy totalHeat
  linear_combination eE + eH + R.dt * hc

include hk ho hT hl h hm in
theorem heat_nonneg (n : ℕ) : 0 ≤ totalHeat X R (fun a q => conductivity (M a q)) n := by
  refine mul_nonneg hT.le (allE_nonneg fun a q hq => ?_)
  have p := share_e_pos h hl (hm.shell h ho) hq
  have := sigma_ge (hm.edges a q hq)
  positivity

include hk ho hT hl h hm in
/-- **C87.** Below the Courant limit, once the currents have stopped the stored energy of a closed model stays below a fixed multiple
of what it was. -/
theorem silence_bounded (hcn : 0 < X.cn) (hlt : X.cn < 1) (hb : Representable k X) {N : ℕ} (hs : SilentFrom X R.dt (N * R.dt)) (n : ℕ) :
    storedEnergy X R (fun a q => permittivity k (M a q)) mu (N + n) ≤
      (1 + X.cn) / (1 - X.cn) * storedEnergy X R (fun a q => permittivity k (M a q)) mu N := by
  have dec : ∀ n, form X R (fun a q => permittivity k (M a q)) mu (N + n) ≤ form X R (fun a q => permittivity k (M a q)) mu N := by
    intro n
    induction n with
    | zero => exact le_rfl
    | succ n ih =>
      have st := form_step h hl hm ho hk hT (N + n)
      have z1 : allE X (fun a q => edgeShare X a q * (meanOver R (N + n + 1) a.e q * totalCurrent X R.dt ((N + n + 1 : ℕ) * R.dt) a.e q)) = 0 := by
        rw [← allE_zero (X := X)]
        refine allE_congr fun a q _ => ?_
        rw [hs]; · ring
        · push_cast; nlinarith [Nat.cast_nonneg (α := ℝ) n]
      have z2 : allH X (fun a q => squareShare X a q * ((value R (N + n) a.h q + value R (N + n + 1) a.h q) * totalCurrent X R.dt (((N + n : ℕ) + 1 / 2) * R.dt) a.h q)) = 0 := by
        rw [← allH_zero (X := X)]
        refine allH_congr fun a q _ => ?_
        rw [hs]; · ring
        · push_cast; nlinarith [Nat.cast_nonneg (α := ℝ) n]
      rw [z1, z2] at st
      have := heat_nonneg h hl hm ho hk hT (N + n + 1)
      show form X R _ mu (N + n + 1) ≤ _
      linarith
  have a := abs_le.1 (form_near h hl (hm.shell h ho) ho hk (eps_all hm hk) hcn hb (N + n))
  have b := abs_le.1 (form_near h hl (hm.shell h ho) ho hk (eps_all hm hk) hcn hb N)
  have d := dec n
  rw [div_mul_eq_mul_div, le_div_iff₀ (by linarith)]
  linarith [a.1, b.2]

include hk ho hT hl h hm in
/-- **C87.** Without currents and without conductivities the energy of a closed model does not change at all. -/
theorem lossless_conserved {N : ℕ} (hs : SilentFrom X R.dt (N * R.dt)) (h0 : ∀ a q, (∀ d, q d ∈ meshRange X a.e d) → conductivity (M a q) = 0) (n : ℕ) :
    totalEnergy X R (fun a q => permittivity k (M a q)) mu (N + n) = totalEnergy X R (fun a q => permittivity k (M a q)) mu N := by
  induction n with
  | zero => rfl
  | succ n ih =>
    rw [← ih]
    have st := energy_step h hl hm ho hk hT (N + n)
    have z0 : totalHeat X R (fun a q => conductivity (M a q)) (N + n + 1) = 0 := by
      unfold totalHeat
      rw [allE_congr (g := fun _ _ => 0) fun a q hq => by dsimp only; rw [h0 a q hq]; ring, allE_zero, mul_zero]
    have z1 : totalWork X R (N + n + 1) = 0 := by
      unfold totalWork
      have c : ∀ n : ℕ, (0 : ℝ) ≤ n := fun n => Nat.cast_nonneg n
      rw [allE_congr (g := fun _ _ => 0) fun a q hq => by rw [hs _ _ _ (by push_cast; nlinarith [c n])]; ring, allE_zero,
        allH_congr (g := fun _ _ => 0) fun a q hq => by
          rw [hs _ _ _ (by push_cast; nlinarith [c n]), hs _ _ _ (by push_cast; nlinarith [c n])]; ring, allH_zero]
      ring
    rw [z0, z1, add_zero, sub_zero] at st
    exact st

/-! ### Currents that fade away -/

include hk ho hT hl h hm in
/-- **C87.** Below the Courant limit the fields of a closed model stay bounded for ever if the impressed currents fade away. -/
theorem never_blows_up (hcn : 0 < X.cn) (hlt : X.cn < 1) (hb : Representable k X)
    (hJ : ∀ (a : Axis) (q : Axis → Int), (∀ d, q d ∈ meshRange X a.e d) → Summable fun n : ℕ => |totalCurrent X R.dt (n * R.dt) a.e q|)
    (hM : ∀ (a : Axis) (q : Axis → Int), (∀ d, q d ∈ meshRange X a.h d) → Summable fun n : ℕ => |totalCurrent X R.dt ((n + 1 / 2) * R.dt) a.h q|) :
    ∃ B, ∀ (n : ℕ) (fc : Fc) (q : Axis → Int), SampleInMesh X fc q → |value R n fc q| ≤ B :=
  stays_bounded h hl (hm.shell h ho) ho hk hT (eps_all hm hk) (G := form X R (fun a q => permittivity k (M a q)) mu) (fun _ => le_rfl)
    (fun n => by
      have st := form_step h hl hm ho hk hT n
      have := heat_nonneg h hl hm ho hk hT (n + 1)
      linarith) hcn hlt hb hJ hM

include hk ho hT hl h hm in
/-- **C87.** Pulses in a closed model: below the Courant limit no sample ever leaves a fixed range. -/
theorem pulses_stay_bounded (hcn : 0 < X.cn) (hlt : X.cn < 1) (hb : Representable k X) (hw : ∀ n, C56.Pulse (X.waves n)) :
    ∃ B, ∀ (n : ℕ) (fc : Fc) (q : Axis → Int), SampleInMesh X fc q → |value R n fc q| ≤ B := by
  refine never_blows_up h hl hm ho hk hT hcn hlt hb (fun a q _ => ?_) (fun a q _ => ?_)
  · exact (pulses_fade hT hw 0 a.e q).congr fun n => by rw [add_zero]
  · exact (pulses_fade hT hw (1 / 2 * R.dt) a.h q).congr fun n => by rw [← add_mul]

end
end Vulture.C87
