import Verif.Spec.Dispersive
import Verif.Props.C88_Exchange
import Verif.Props.C90_Passive
import Mathlib.RingTheory.PowerSeries.Basic
/- C92: reciprocity with dispersive media. -/
set_option linter.unusedSimpArgs false
set_option linter.unusedVariables false
set_option linter.unusedSectionVars false
set_option autoImplicit false
namespace Vulture.C92
open Spec Setup Deck CavityLemmas Scaling Finset C87 C88

/-! ### Causal answers -/

/-- Answers are exchanged under a convolution. -/
theorem triple {f g : ℕ → ℝ} (hf : f 0 = 0) (hg : g 0 = 0) (K : ℕ → ℝ) (N : ℕ) :
    ∑ x ∈ antidiagonal N, f x.1 * ∑ y ∈ antidiagonal (x.2 + 1), K y.1 * g y.2 =
    ∑ x ∈ antidiagonal N, g x.1 * ∑ y ∈ antidiagonal (x.2 + 1), K y.1 * f y.2 := by
  have key : ∀ f g : ℕ → ℝ, g 0 = 0 → ∑ x ∈ antidiagonal N, f x.1 * ∑ y ∈ antidiagonal (x.2 + 1), K y.1 * g y.2 =
      PowerSeries.coeff (N + 1) (PowerSeries.mk f * (PowerSeries.mk K * PowerSeries.mk g)) := by
    intro f g hg
    simp only [PowerSeries.coeff_mul, PowerSeries.coeff_mk]
    rw [Finset.Nat.sum_antidiagonal_succ' (n := N) (f := fun x : ℕ × ℕ => f x.1 * ∑ y ∈ antidiagonal x.2, K y.1 * g y.2)]
    simp [hg]
  rw [key f g hg, key g f hf]
  congr 1
  ring

/-- The state of a pole is a causal answer to the field. -/
theorem psi_answer (T eps0 : ℝ) (p : ℂ) : ∃ g : ℕ → ℂ, ∀ E : ℕ → ℝ, E 0 = 0 → ∀ n, C90.psi T eps0 p E n = ∑ x ∈ antidiagonal n, g x.1 * E x.2 := by
  set A : ℂ := (1 + T * p / 2) / (1 - T * p / 2)
  set B : ℂ := T * (eps0 / 2) / (1 - T * p / 2)
  refine ⟨fun n => n.rec B fun i y => A * y + if i = 0 then B else 0, fun E h0 n => ?_⟩
  induction n with
  | zero => simp [C90.psi, h0]
  | succ n ih =>
    rw [Finset.Nat.sum_antidiagonal_succ (n := n)]
    dsimp only
    have e : ∀ x : ℕ × ℕ, ((A * (Nat.rec B (fun i y => A * y + if i = 0 then B else 0) x.1 : ℂ) + if x.1 = 0 then B else 0) * (E x.2 : ℂ)) =
        A * ((Nat.rec B (fun i y => A * y + if i = 0 then B else 0) x.1 : ℂ) * E x.2) + if x.1 = 0 then B * E x.2 else 0 := by
      intro x; split_ifs <;> ring
    have s : ∑ x ∈ antidiagonal n, (if x.1 = 0 then B * (E x.2 : ℂ) else 0) = B * E n := by
      rw [sum_eq_single (0, n)]
      · simp
      · rintro ⟨i, j⟩ hx hne
        rw [if_neg]
        rintro rfl
        rw [mem_antidiagonal] at hx
        exact hne (by simpa using hx)
      · intro c; exact absurd (mem_antidiagonal.2 (by simp)) c
    rw [sum_congr rfl fun x _ => e x, sum_add_distrib, s, ← mul_sum, ← ih, C90.psi]
    show _ = B * (E (n + 1) : ℂ) + (A * C90.psi T eps0 p E n + B * E n)
    push_cast
    ring

/-- Real parts of causal answers. -/
theorem re_answer {g : ℕ → ℂ} {E : ℕ → ℝ} (n : ℕ) : (∑ x ∈ antidiagonal n, g x.1 * E x.2).re = ∑ x ∈ antidiagonal n, (g x.1).re * E x.2 := by
  rw [Complex.re_sum]
  exact sum_congr rfl fun x _ => Complex.re_mul_ofReal _ _

/-- The polarisation current of a medium. -/
theorem current_answer (T eps0 : ℝ) : ∀ poles : List DPole, ∃ c : ℕ → ℝ, ∀ E : ℕ → ℝ, E 0 = 0 → ∀ n,
    ((poles.map fun p => p.res * (p.pole * C90.psi T eps0 p.pole E n + eps0 * E n)).map fun z => (z + star z).re).sum =
      ∑ x ∈ antidiagonal n, c x.1 * E x.2
  | [] => ⟨0, fun E _ n => by simp⟩
  | p :: l => by
    obtain ⟨c, hc⟩ := current_answer T eps0 l
    obtain ⟨g, hg⟩ := psi_answer T eps0 p.pole
    refine ⟨fun n => (2 * (p.res * (p.pole * g n + if n = 0 then (eps0 : ℂ) else 0))).re + c n, fun E h0 n => ?_⟩
    simp only [List.map_cons, List.sum_cons, hc E h0 n]
    have s : ∑ x ∈ antidiagonal n, (if x.1 = 0 then (eps0 : ℂ) else 0) * (E x.2 : ℂ) = eps0 * E n := by
      rw [sum_eq_single (0, n)]
      · simp
      · rintro ⟨i, j⟩ hx hne
        rw [if_neg, zero_mul]
        rintro rfl
        rw [mem_antidiagonal] at hx
        exact hne (by simpa using hx)
      · intro c; exact absurd (mem_antidiagonal.2 (by simp)) c
    have e : ∀ z : ℂ, (z + star z).re = (2 * z).re := by intro z; simp; ring
    simp only [add_mul, sum_add_distrib]
    rw [e, ← re_answer (g := fun n => 2 * (p.res * (p.pole * g n + if n = 0 then (eps0 : ℂ) else 0))), hg E h0 n]
    congr 2
    rw [← s, mul_sum, ← sum_add_distrib, mul_sum, mul_sum]
    exact sum_congr rfl fun x _ => by ring

/-- Mean over a step of the polarisation current of a medium. -/
noncomputable def polarisation (k : Consts) (T : ℝ) (stuff : Stuff) (E : ℕ → ℝ) (n : ℕ) : ℝ :=
  match stuff with
  | .dispersive _ _ _ poles => (((poles.map fun p => p.res * (p.pole * C90.psi T k.eps0 p.pole E (n + 1) + k.eps0 * E (n + 1))).map fun z => (z + star z).re).sum +
      ((poles.map fun p => p.res * (p.pole * C90.psi T k.eps0 p.pole E n + k.eps0 * E n)).map fun z => (z + star z).re).sum) / 2
  | _ => 0

/-- Displacement, conduction and polarisation current together: a causal answer that depends on the medium only. -/
theorem medium_answer (k : Consts) (T : ℝ) (stuff : Stuff) : ∃ K : ℕ → ℝ, ∀ E : ℕ → ℝ, E 0 = 0 → ∀ n,
    instantPermittivity k stuff * (E (n + 1) - E n) / T + staticConductivity stuff * (E (n + 1) + E n) / 2 +
      polarisation k T stuff E n = ∑ x ∈ antidiagonal (n + 1), K x.1 * E x.2 := by
  obtain ⟨c, hc⟩ : ∃ c : ℕ → ℝ, ∀ E : ℕ → ℝ, E 0 = 0 → ∀ n, polarisation k T stuff E n = ∑ x ∈ antidiagonal (n + 1), c x.1 * E x.2 := by
    cases stuff with
    | dispersive e s u poles =>
      obtain ⟨c, hc⟩ := current_answer T k.eps0 poles
      refine ⟨fun i => (c i + if i = 0 then 0 else c (i - 1)) / 2, fun E h0 n => ?_⟩
      unfold polarisation
      dsimp only
      rw [hc E h0, hc E h0]
      have s : ∑ x ∈ antidiagonal (n + 1), (if x.1 = 0 then 0 else c (x.1 - 1)) * E x.2 = ∑ x ∈ antidiagonal n, c x.1 * E x.2 := by
        rw [Finset.Nat.sum_antidiagonal_succ (n := n) (f := fun x : ℕ × ℕ => (if x.1 = 0 then 0 else c (x.1 - 1)) * E x.2)]
        simp
      rw [← s, ← sum_add_distrib, sum_div]
      exact sum_congr rfl fun x _ => by ring
    | _ => exact ⟨0, fun E _ n => by simp [polarisation]⟩
  refine ⟨fun i => c i + (if i = 0 then instantPermittivity k stuff / T + staticConductivity stuff / 2 else 0) +
    (if i = 1 then staticConductivity stuff / 2 - instantPermittivity k stuff / T else 0), fun E h0 n => ?_⟩
  rw [hc E h0 n]
  simp only [add_mul, sum_add_distrib]
  have s0 : ∀ v : ℝ, ∑ x ∈ antidiagonal (n + 1), (if x.1 = 0 then v else 0) * E x.2 = v * E (n + 1) := by
    intro v
    rw [sum_eq_single (0, n + 1)]
    · simp
    · rintro ⟨i, j⟩ hx hne
      rw [if_neg, zero_mul]
      rintro rfl
      rw [mem_antidiagonal] at hx
      exact hne (by simpa using hx)
    · intro c; exact absurd (mem_antidiagonal.2 (by simp)) c
  have s1 : ∀ v : ℝ, ∑ x ∈ antidiagonal (n + 1), (if x.1 = 1 then v else 0) * E x.2 = v * E n := by
    intro v
    rw [sum_eq_single (1, n)]
    · simp
    · rintro ⟨i, j⟩ hx hne
      rw [if_neg, zero_mul]
      intro h1
      dsimp only at h1
      subst h1
      rw [mem_antidiagonal] at hx
      exact hne (by simp; omega)
    · intro c; exact absurd (mem_antidiagonal.2 (by simp; omega)) c
  rw [s0, s1]
  ring

noncomputable def answer (k : Consts) (T : ℝ) (stuff : Stuff) : ℕ → ℝ := Classical.choose (medium_answer k T stuff)

variable {k : Consts} {J J' : Junk} {X Y : Experiment} {R S : Setup.Run} {M : Axis → (Axis → Int) → Stuff} {mu : Axis → (Axis → Int) → ℝ}

theorem metal_none (h : setup k J X = some R) (ho : OrdinaryBlocks X.file.cards) {a : Axis} {q : Axis → Int}
    (hm : PlainEdge X a q .metal ∨ MetalEdge X a q .metal ∨ DispersiveEdge k X R.dt a q .metal) (n : ℕ) : value R n a.e q = 0 := by
  rcases hm with (⟨-, -, e⟩ | ⟨o, mm, -⟩) | ⟨hi, hn, hm, hx, -⟩ | ⟨-, -, -, -, -, -, -, -, e, s, u, poles, c, -⟩
  · exact e.elim
  · exact C73.metal_zero h ho o mm n
  · exact C64.metal_dark h ho hi (by cases a <;> simp [Axis.e]) hm (fun f hf ho => hn ⟨f, hf, ho⟩) hx n
  · cases c

/-- The law of an edge: metal, or a causal answer. -/
theorem edge_answer (hk : Physical k) (h : setup k J X = some R) (ho : OrdinaryBlocks X.file.cards) (hT : 0 < R.dt) {a : Axis} {q : Axis → Int} {stuff : Stuff}
    (hm : PlainEdge X a q stuff ∨ MetalEdge X a q stuff ∨ DispersiveEdge k X R.dt a q stuff) (hs : stuff ≠ .metal) (n : ℕ) :
    ∑ x ∈ antidiagonal (n + 1), answer k R.dt stuff x.1 * value R x.2 a.e q + totalCurrent X R.dt (n * R.dt) a.e q = rotH X (value R n) a q := by
  have key := Classical.choose_spec (medium_answer k R.dt stuff) (fun n => value R n a.e q) rfl n
  unfold answer
  rw [← key]
  rcases hm with (hm | ⟨-, -, e⟩) | ⟨-, -, -, -, e⟩ | ⟨hi, hm, hone, hsh, hw, hns, hst, hr, e, s, u, poles, rfl, hp⟩
  · have := C75.edge_law hk h ho hT hm n
    cases stuff with
    | dispersive e s u p => exact hm.2.2.elim
    | metal => exact absurd rfl hs
    | vacuum => simp only [instantPermittivity, staticConductivity, polarisation]; linarith
    | matter e s u => simp only [instantPermittivity, staticConductivity, polarisation]; linarith
  · exact absurd e hs
  · exact absurd e hs
  · obtain ⟨P, P0, hP⟩ := C72.dispersive_ampere hk h ho hT hi hm hone hsh hw hns hst hr hp
    have hPs : ∀ m, (List.range poles.length).map (P m) =
        poles.map fun p => p.res * (p.pole * C90.psi R.dt k.eps0 p.pole (fun n => value R n a.e q) m + k.eps0 * value R m a.e q) := by
      intro m
      refine List.ext_getElem (by simp) fun i h1 h2 => ?_
      have hi : i < poles.length := by simpa using h1
      rw [List.getElem_map, List.getElem_map, List.getElem_range]
      exact C90.current_is (q := ⟨poles[i].res, poles[i].pole⟩) (E := fun n => value R n a.e q) (P := fun n => P n i) hT (hp _ (List.getElem_mem hi)) (P0 i) rfl
        (fun n => (hP n).1 i hi) m
    have am := (hP n).2
    unfold DispersiveAmpere at am
    rw [hPs, hPs] at am
    rw [C75.no_current hns, ← am]
    simp only [instantPermittivity, staticConductivity, polarisation]
    ring

theorem _root_.Vulture.Spec.DispersiveModel.shell (hm : DispersiveModel k X R.dt M mu) (h : setup k J X = some R) (ho : OrdinaryBlocks X.file.cards) : Shell k X R mu where
  sides := hm.sides
  ends := hm.ends
  walls a q hq hp n := by
    have e := hm.edges a q hq
    rw [hm.walls a q hq hp] at e
    exact metal_none h ho e n
  squares := hm.squares

/-- Passive media are among these. -/
theorem of_relaxing (hk : Physical k) (hT : 0 < R.dt) (hm : RelaxingModel k X R.dt M mu) : DispersiveModel k X R.dt M mu where
  sides := hm.sides
  ends := hm.ends
  edges a q hq := by
    rcases hm.edges a q hq with c | c | c
    · exact Or.inl c
    · exact Or.inr (Or.inl c)
    · obtain ⟨e, s, u, poles, hs⟩ := C90.relaxing_stuff c
      rw [hs] at c ⊢
      obtain ⟨i1, i2, i3, i4, i5, i6, i7, e1, s0, u1, hp⟩ := c
      refine Or.inr (Or.inr ⟨i1, i2, i3, i4, i5, i6, i7, ⟨e1, s0, u1, mul_nonneg hT.le (List.sum_nonneg ?_)⟩, e, s, u, poles, rfl, fun p hpm => C90.pole_re (hp p hpm)⟩)
      intro x hx
      obtain ⟨p, hpm, rfl⟩ := List.mem_map.1 hx
      exact C90.instant_term hT (C90.eps0_pos hk) (hp p hpm)
  walls := hm.walls
  squares := hm.squares

section
variable (h : setup k J X = some R) (hl : Increasing X) (hm : DispersiveModel k X R.dt M mu) (ho : OrdinaryBlocks X.file.cards)
  (h' : setup k J' Y = some S) (hm' : DispersiveModel k Y S.dt M mu) (ho' : OrdinaryBlocks Y.file.cards)
  (hs : SameMesh X Y) (hk : Physical k) (hT : 0 < R.dt) (hb : Representable k X)

include h hl hm ho h' hm' ho' hs hk hT hb in
theorem tested_e (m n : ℕ) :
    allE X (fun a q => edgeShare X a q * (value R m a.e q * totalCurrent Y R.dt (n * R.dt) a.e q)) =
    allE X (fun a q => edgeShare X a q * (value R m a.e q * rotH X (value S n) a q)) -
    allE X (fun a q => edgeShare X a q * (value R m a.e q * ∑ x ∈ antidiagonal (n + 1), answer k R.dt (M a q) x.1 * value S x.2 a.e q)) := by
  have edt := step_eq h h' hs hl hb
  rw [show ∀ A B C : ℝ, (A = B - C) = (A = B + (-1) * C) from fun A B C => by congr 1; ring]
  simp only [← allE_smul, ← allE_add]
  refine allE_congr fun a q hq => ?_
  by_cases c : M a q = .metal
  · have e := hm.edges a q hq
    rw [c] at e
    rw [metal_none h ho e]
    ring
  · have l := edge_answer hk h' ho' (by rw [edt]; exact hT) (hm'.edges a q (by rw [range_eq hs]; exact hq)) c n
    rw [edt, rotH_eq hs] at l
    rw [← l]
    ring

include h hl hm ho h' hm' ho' hs hk hT hb in
theorem half (N : ℕ) :
    ∑ x ∈ antidiagonal (N + 1), allE X (fun a q => edgeShare X a q * (value R x.1 a.e q * totalCurrent Y R.dt (x.2 * R.dt) a.e q)) +
    ∑ x ∈ antidiagonal N, allH X (fun a q => squareShare X a q * (value S x.1 a.h q * totalCurrent X R.dt ((x.2 + 1 / 2) * R.dt) a.h q)) =
    allH X (fun a q => squareShare X a q * (mu a q / R.dt) * ∑ x ∈ antidiagonal N, value S x.1 a.h q * value R x.2 a.h q) -
    allH X (fun a q => squareShare X a q * (mu a q / R.dt) * ∑ x ∈ antidiagonal N, value S x.1 a.h q * value R (x.2 + 1) a.h q) -
    allE X (fun a q => edgeShare X a q * ∑ x ∈ antidiagonal (N + 1), value R x.1 a.e q *
      ∑ y ∈ antidiagonal (x.2 + 1), answer k R.dt (M a q) y.1 * value S y.2 a.e q) := by
  simp only [tested_e h hl hm ho h' hm' ho' hs hk hT hb, cross_curls' hs h hl (hm.shell h ho) ho h' (hm'.shell h' ho') ho', sum_sub_distrib, sum_add_distrib]
  have c : ∑ x ∈ antidiagonal (N + 1), allH X (fun a q => squareShare X a q * (value S x.2 a.h q * rotE X (value R x.1) a q)) =
      ∑ x ∈ antidiagonal N, allH X (fun a q => squareShare X a q * (value S x.2 a.h q * rotE X (value R (x.1 + 1)) a q)) := by
    rw [Finset.Nat.sum_antidiagonal_succ (f := fun x : ℕ × ℕ => allH X (fun a q => squareShare X a q * (value S x.2 a.h q * rotE X (value R x.1) a q)))]
    have z : allH X (fun a q => squareShare X a q * (value S (N + 1) a.h q * rotE X (value R 0) a q)) = 0 := by
      rw [← allH_zero (X := X)]
      refine allH_congr fun a q _ => ?_
      have r0 : rotE X (value R 0) a q = 0 := by unfold rotE; simp only [C84.value_zero]; ring
      rw [r0]; ring
    rw [z, zero_add]
  rw [c]
  simp only [tested_h' hk hT h ho hm.squares, sum_sub_distrib]
  simp only [allE_sum, allH_sum, ← mul_sum]
  have sw : ∀ F : ℕ × ℕ → ℝ, ∑ x ∈ antidiagonal N, F x.swap = ∑ x ∈ antidiagonal N, F x := fun F => Finset.Nat.sum_antidiagonal_swap (f := F)
  have e1 : ∀ a q, ∑ x ∈ antidiagonal N, value S x.2 a q * value R x.1 a q = ∑ x ∈ antidiagonal N, value S x.1 a q * value R x.2 a q :=
    fun a q => sw fun x => value S x.1 a q * value R x.2 a q
  have e2 : ∀ a q, ∑ x ∈ antidiagonal N, value S x.2 a q * value R (x.1 + 1) a q = ∑ x ∈ antidiagonal N, value S x.1 a q * value R (x.2 + 1) a q :=
    fun a q => sw fun x => value S x.1 a q * value R (x.2 + 1) a q
  have e3 : ∀ (a : Axis) q, ∑ x ∈ antidiagonal N, value S x.2 a.h q * totalCurrent X R.dt ((x.1 + 1 / 2) * R.dt) a.h q =
      ∑ x ∈ antidiagonal N, value S x.1 a.h q * totalCurrent X R.dt ((x.2 + 1 / 2) * R.dt) a.h q :=
    fun a q => sw fun x => value S x.1 a.h q * totalCurrent X R.dt ((x.2 + 1 / 2) * R.dt) a.h q
  simp only [e1, e2, e3]
  ring

include h hl hm ho h' hm' ho' hs hk hT hb in
/-- **C92.** With dispersive media too the reaction of the fields of one run on the currents of the other is the same both ways. -/
theorem reciprocity (N : ℕ) : reactionOn X R Y N = reactionOn Y S X N := by
  have edt := step_eq h h' hs hl hb
  have a := half h hl hm ho h' hm' ho' hs hk hT hb N
  have hs' : SameMesh Y X := ⟨fun a => (hs.cells a).symm, hs.lines.symm, hs.sides.symm, hs.courant.symm⟩
  have b := half h' (rise hl hs) hm' ho' h hm ho hs' hk (by rw [edt]; exact hT) (by
    intro a i h0 h1; rw [hs.lines]; exact hb a i h0 (by rw [← hs.cells]; exact h1)) N
  unfold reactionOn
  rw [edt, share_eq hs, square_eq hs, allE_eq hs, allH_eq hs] at b
  rw [edt, share_eq hs, square_eq hs, allE_eq hs, allH_eq hs]
  have t1 : ∀ a q, ∑ x ∈ antidiagonal N, value S x.1 a q * value R x.2 a q = ∑ x ∈ antidiagonal N, value R x.1 a q * value S x.2 a q :=
    fun a q => turn (fun n => value S n a q) (fun n => value R n a q) N
  have t3 : ∀ a q, ∑ x ∈ antidiagonal N, value S x.1 a q * value R (x.2 + 1) a q = ∑ x ∈ antidiagonal N, value R x.1 a q * value S (x.2 + 1) a q :=
    fun a q => C88.shift (f := fun n => value S n a q) (g := fun n => value R n a q) rfl rfl N
  have t5 : ∀ a q (K : ℕ → ℝ), ∑ x ∈ antidiagonal (N + 1), value S x.1 a q * ∑ y ∈ antidiagonal (x.2 + 1), K y.1 * value R y.2 a q =
      ∑ x ∈ antidiagonal (N + 1), value R x.1 a q * ∑ y ∈ antidiagonal (x.2 + 1), K y.1 * value S y.2 a q :=
    fun a q K => triple (f := fun n => value S n a q) (g := fun n => value R n a q) rfl rfl K (N + 1)
  simp only [t5] at b
  simp only [t1, t3] at a
  linarith

include h hl hm ho h' hm' ho' hs hk hT hb in
/-- **C92.** Exchange of source and probe (see C88) next to dispersive media. -/
theorem exchange {a1 a2 : Axis} {q1 q2 : Axis → Int} {I : ℝ → ℝ} (i1 : SampleInMesh X a1.e q1) (i2 : SampleInMesh X a2.e q2)
    (d1 : OneEdge X R.dt a1 q1 I) (d2 : OneEdge Y R.dt a2 q2 I) (hI : ∃ n : ℕ, I (n * R.dt) ≠ 0) (n : ℕ) :
    value R n a2.e q2 * (cellLength X a2 (q2 a2) * insidePart X a2 q2) = value S n a1.e q1 * (cellLength X a1 (q1 a1) * insidePart X a1 q1) :=
  exchange_of hs h hl (step_eq h h' hs hl hb) (reciprocity h hl hm ho h' hm' ho' hs hk hT hb) i1 i2 d1 d2 hI n

include h hl hm ho h' hm' ho' hs hk hT hb in
/-- **C92.** The same for mesh files: move the only `EX` card, for a current through an edge, to another edge. -/
theorem exchange_cards (hw : Y.waves = X.waves) {a1 a2 : Axis} {q1 q2 : Axis → Int} (i1 : SampleInMesh X a1.e q1) (i2 : SampleInMesh X a2.e q2)
    {w : String} {size delay : ℝ} (c1 : OneEdgeCard X a1 q1 w size delay) (c2 : OneEdgeCard Y a2 q2 w size delay)
    (hI : ∃ n : ℕ, size * waveValue R.dt (X.waves w) (n * R.dt - delay) ≠ 0) (n : ℕ) :
    value R n a2.e q2 * (cellLength X a2 (q2 a2) * insidePart X a2 q2) = value S n a1.e q1 * (cellLength X a1 (q1 a1) * insidePart X a1 q1) := by
  have o2 := one_edge c2 R.dt
  rw [hw] at o2
  exact exchange h hl hm ho h' hm' ho' hs hk hT hb i1 i2 (one_edge c1 R.dt) o2 hI n
end

end Vulture.C92
