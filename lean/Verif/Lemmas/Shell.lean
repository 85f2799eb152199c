import Verif.Spec.Closed
import Verif.Lemmas.Sealed
import Verif.Props.C84_Plates
import Verif.Props.C56_Cavity
/- Closed models whatever their edges are made of: the parts of C87 that only need the sides and the squares. -/
set_option linter.unusedSimpArgs false
set_option linter.unusedVariables false
set_option linter.unusedSectionVars false
set_option autoImplicit false
namespace Vulture.C87
open Spec Setup Deck CavityLemmas Scaling Finset Sealed

variable {k : Consts} {J : Junk} {X : Experiment} {R : Setup.Run} {mu : Axis → (Axis → Int) → ℝ}

/-- What of a closed model does not depend on what the edges inside are made of. -/
structure Shell (k : Consts) (X : Experiment) (R : Setup.Run) (mu : Axis → (Axis → Int) → ℝ) : Prop where
  sides : ∀ f, X.file.bt f = .pec ∨ X.file.bt f = .pmc ∨ X.file.bt f = .periodic
  ends : ∀ d : Axis, X.file.bt d.lo = .periodic → SameEnds X R.dt d
  walls : ∀ (a : Axis) (q : Axis → Int), (∀ d, q d ∈ meshRange X a.e d) → OnPecSide X a.e (q .x) (q .y) (q .z) → ∀ n, value R n a.e q = 0
  squares : ∀ (a : Axis) (q : Axis → Int), (∀ d, q d ∈ meshRange X a.h d) → MatterSquare k X R.dt a q (mu a q)

/-- The mesh of the model. -/
noncomputable def lat (h : setup k J X = some R) (hl : Increasing X) (hm : Shell k X R mu) : Lat where
  N := cellsOf X.file
  l := cellLength X
  lo d := X.file.bt d.lo
  hi d := X.file.bt d.hi
  pos d := by obtain ⟨hv, hn, -⟩ := run_parts h; rw [← hn]; exact hv.cells d
  types d := by
    obtain ⟨hv, hn, hb, -⟩ := run_parts h
    refine ⟨hm.sides _, hm.sides _, fun e => ?_, fun e => ?_⟩
    · have := hv.paired d.lo (by rw [hb]; exact e)
      rw [hb] at this; cases d <;> exact this
    · have := hv.paired d.hi (by rw [hb]; exact e)
      rw [hb] at this; cases d <;> exact this
  len d i _ _ := C75.length_pos h hl d i
  per d e := (hm.ends d e).cells

section
variable (h : setup k J X = some R) (hl : Increasing X) (hm : Shell k X R mu)

theorem range_e (a : Axis) : meshRange X a.e = er (lat h hl hm) a := by
  funext b
  unfold meshRange er
  rw [C81.pos2_e]
  by_cases c : b = a
  · rw [if_pos c, if_pos c, if_neg (by norm_num)]; rfl
  · rw [if_neg c, if_neg c, if_pos (by norm_num)]; rfl
theorem range_h (a : Axis) : meshRange X a.h = hr (lat h hl hm) a := by
  funext b
  unfold meshRange hr
  rw [C81.pos2_h]
  by_cases c : b = a
  · rw [if_pos c, if_pos c, if_pos (by norm_num)]; rfl
  · rw [if_neg c, if_neg c, if_neg (by norm_num)]; rfl

theorem in_mesh {fc : Fc} {q : Axis → Int} : (∀ d, q d ∈ meshRange X fc d) ↔ SampleInMesh X fc q := by
  unfold SampleInMesh
  rw [C81.in_iff]
  refine forall_congr' fun d => ?_
  unfold meshRange
  have e : pos2 fc d (q d) = 2 * q d + pos2 fc d 0 ∧ (pos2 fc d 0 = 0 ∨ pos2 fc d 0 = 1) := by cases fc <;> cases d <;> simp [pos2]
  rcases e with ⟨e1, e2 | e2⟩
  · rw [if_pos e2, e1, e2, mem_Icc]; omega
  · rw [if_neg (by rw [e2]; norm_num), e1, e2, mem_Ico]; omega

theorem box_is (hm : Shell k X R mu) (f : Face) : gridBox X f = meshBox X f := by
  unfold gridBox
  rw [if_neg, add_zero]
  rcases hm.sides f with e | e | e <;> rw [e] <;> decide

theorem inside_w (d : Axis) (i : Int) : insideLength X d i = w (lat h hl hm) d i := rfl
theorem share_e (a : Axis) (q : Axis → Int) : edgeShare X a q = eShare (lat h hl hm) a q := rfl
theorem share_h (a : Axis) (q : Axis → Int) : squareShare X a q = hShare (lat h hl hm) a q := rfl
theorem rot_curl (F : Fc → (Axis → Int) → ℝ) (a : Axis) (q : Axis → Int) : rotE X F a q = curl (lat h hl hm) (fun a q => F a.e q) a q := rfl

/-- The difference of the magnetic field across an edge. -/
theorem jump_is {a b c : Axis} {q : Axis → Int} (hq : ∀ d, q d ∈ meshRange X a.e d) (hab : a ≠ b) (hbc : b ≠ c) (hac : a ≠ c) (n : ℕ)
    (np : ¬ OnPecSide X a.e (q .x) (q .y) (q .z)) :
    insideLength X c (q c) * ((value R n b.h q - value R n b.h (back q c)) / middleDistance X c (q c)) = Jm (lat h hl hm) c (fun q => value R n b.h q) q := by
  have hi := in_mesh.1 hq
  have nb : ¬ AtBack X a.e q := by rintro ⟨f, hf, -⟩; rcases hm.sides f with e | e | e <;> rw [e] at hf <;> cases hf
  have nm : ¬ OnMurSide X a.e q := by rintro ⟨f, hf, -⟩; rcases hm.sides f with e | e | e <;> rw [e] at hf <;> cases hf
  obtain ⟨⟨s1, q1, v1, -, -, o1, c1⟩, s2, q2, v2, -, -, o2, c2⟩ := C84.reach h (C84.mesh_grid h hi) nb nm hab hbc hac n
  have N1 := (lat h hl hm).pos c
  have eN : (lat h hl hm).N c = cellsOf X.file c := rfl
  rw [eN] at N1
  have rc := hq c
  unfold meshRange at rc
  rw [C81.pos2_e, if_neg hac.symm, if_pos (by norm_num), mem_Icc] at rc
  have g1 : gridBox X c.lo = 0 := (box_is hm _).trans (C81.mesh_lo c)
  have g2 : gridBox X c.hi = cellsOf X.file c := (box_is hm _).trans (C81.mesh_hi c)
  have x := C81.lo_axis c
  have pe : ∀ q' : Axis → Int, (∀ d, d ≠ c → q' d = q d) → q' = C81.put q c (q' c) := by
    intro q' hq'
    funext d
    unfold C81.put
    by_cases e : d = c
    · rw [if_pos e, e]
    · rw [if_neg e]; exact hq' d e
  have bk : back q c = C81.put q c (q c - 1) := by funext d; unfold back C81.put; by_cases e : d = c <;> simp [e]
  have pec : ∀ f, f.axis = c → q c = meshBox X f → X.file.bt f ≠ .pec := by
    intro f hf hqf hp
    refine np ⟨f, hp, ?_⟩
    rw [C84.plane_iff, hf, C81.pos2_e, if_neg hac.symm, hqf]
  have lpos := C75.length_pos h hl c
  have clip : cellLength X c (-1) = cellLength X c 0 ∧ cellLength X c (cellsOf X.file c) = cellLength X c (cellsOf X.file c - 1) := by
    unfold cellLength
    dsimp only
    rw [show max 0 (min (cellsOf X.file c - 1) (-1)) = 0 by omega, show max 0 (min (cellsOf X.file c - 1) 0) = 0 by omega,
      show max 0 (min (cellsOf X.file c - 1) (cellsOf X.file c - 1)) = cellsOf X.file c - 1 by omega,
      show max 0 (min (cellsOf X.file c - 1) (cellsOf X.file c)) = cellsOf X.file c - 1 by omega]
    exact ⟨rfl, rfl⟩
  unfold Jm jump insideLength middleDistance
  show _ = if q c = 0 then (if X.file.bt c.lo = .pmc then value R n b.h (C81.put q c 0) else if X.file.bt c.lo = .periodic then
      (value R n b.h (C81.put q c 0) - value R n b.h (C81.put q c (cellsOf X.file c - 1))) / 2 else 0)
    else if q c = cellsOf X.file c then (if X.file.bt c.hi = .pmc then -value R n b.h (C81.put q c (cellsOf X.file c - 1)) else if X.file.bt c.hi = .periodic then
      (value R n b.h (C81.put q c 0) - value R n b.h (C81.put q c (cellsOf X.file c - 1))) / 2 else 0)
    else value R n b.h (C81.put q c (q c)) - value R n b.h (C81.put q c (q c - 1))
  by_cases c0 : q c = 0
  · have l0 := (lpos 0).ne'
    rcases c2 with ⟨e, -⟩ | ⟨-, im, sg⟩
    · exact absurd (c0.trans g1.symm) e
    · have q2e := pe q2 o2
      have hq0 : C81.put q c 0 = q := by rw [← c0]; exact Sealed.put_self q c
      rw [if_pos c0, v2, sg, q2e, im, hq0]
      have hnp := pec c.lo x.1 (by rw [c0, C81.mesh_lo])
      rw [if_neg (by omega), if_pos (by omega), c0, zero_sub, clip.1]
      unfold C84.imageAt C84.imageSign
      rw [x.2.2.1, x.1, g1, g2]
      simp only [if_true]
      rcases hm.sides c.lo with e | e | e
      · exact absurd e hnp
      · rw [e, if_pos rfl, if_neg (by decide), if_pos rfl, hq0]; field_simp; ring
      · rw [e, if_neg (by decide), if_pos rfl, if_neg (by decide), if_pos rfl]; field_simp; ring
  · by_cases cN : q c = cellsOf X.file c
    · have l0 := (lpos (cellsOf X.file c - 1)).ne'
      rcases c1 with ⟨e, -⟩ | ⟨-, im, sg⟩
      · exact absurd (cN.trans g2.symm) e
      · have q1e := pe q1 o1
        rw [if_neg c0, if_pos cN, v1, sg, q1e, im, bk]
        have hnp := pec c.hi x.2.1 (by rw [cN, C81.mesh_hi])
        rw [if_pos (by omega), if_neg (by omega), cN, clip.2]
        unfold C84.imageAt C84.imageSign
        rw [x.2.2.2, x.2.1, g1, g2]
        simp only [Bool.false_eq_true, if_false]
        rcases hm.sides c.hi with e | e | e
        · exact absurd e hnp
        · rw [e, if_pos rfl, if_neg (by decide), if_pos rfl]; field_simp; ring
        · rw [e, if_neg (by decide), if_pos rfl, if_neg (by decide), if_pos rfl]; field_simp; ring
    · rw [if_neg c0, if_neg cN, if_pos (by omega), if_pos (by omega), ← bk, Sealed.put_self]
      have l1 := lpos (q c - 1)
      have l2 := lpos (q c)
      field_simp

/-! ### The fields fit the sides -/

variable (ho : OrdinaryBlocks X.file.cards)

include h ho in
theorem wall_zero (hm : Shell k X R mu) {a : Axis} {q : Axis → Int} (hq : ∀ d, q d ∈ meshRange X a.e d) (hp : OnPecSide X a.e (q .x) (q .y) (q .z)) (n : ℕ) : value R n a.e q = 0 := by
  exact hm.walls a q hq hp n

include ho in
theorem value_fits (n : ℕ) : FitsAll (lat h hl hm) fun a q => value R n a.e q := by
  intro a d hda q hq
  have N1 := (lat h hl hm).pos d
  have eN : (lat h hl hm).N d = cellsOf X.file d := rfl
  rw [eN] at N1
  have mem : ∀ m, 0 ≤ m → m ≤ cellsOf X.file d → ∀ b, C81.put q d m b ∈ meshRange X a.e b := by
    intro m m0 m1 b
    rw [range_e h hl hm]
    by_cases e : b = d
    · rw [e, Sealed.put_at, er_ne _ hda, mem_Icc]; exact ⟨m0, m1⟩
    · rw [Sealed.put_of _ e]; exact hq b e
  have x := C81.lo_axis d
  refine ⟨fun e => ?_, fun e => ?_, fun e => ?_⟩
  · refine wall_zero h ho hm (mem 0 le_rfl N1.le) ⟨d.lo, e, ?_⟩ n
    rw [C84.plane_iff, x.1, C81.pos2_e, if_neg hda, Sealed.put_at, C81.mesh_lo]
  · refine wall_zero h ho hm (mem _ N1.le le_rfl) ⟨d.hi, e, ?_⟩ n
    rw [C84.plane_iff, x.2.1, C81.pos2_e, if_neg hda, Sealed.put_at, C81.mesh_hi]
  · have pe := (C81.periodic_ends h ho (hm.ends d e) n).1 a (C81.put q d 0) hda.symm (Sealed.put_at _ _ _) (in_mesh.1 (mem 0 le_rfl N1.le))
    have op : opposite X d (C81.put q d 0) = C81.put q d (cellsOf X.file d) := by
      funext b; unfold opposite C81.put; by_cases c : b = d <;> simp [c]
    rw [op] at pe
    exact pe

theorem fits_comb {L : Lat} {E F : Axis → (Axis → Int) → ℝ} (hE : FitsAll L E) (hF : FitsAll L F) : FitsAll L fun a q => (E a q + F a q) / 2 := by
  intro a d hda q hq
  obtain ⟨a1, a2, a3⟩ := hE a d hda q hq
  obtain ⟨b1, b2, b3⟩ := hF a d hda q hq
  exact ⟨fun e => by dsimp only; rw [a1 e, b1 e]; norm_num, fun e => by dsimp only; rw [a2 e, b2 e]; norm_num, fun e => by dsimp only; rw [a3 e, b3 e]⟩

/-! ### What the curls exchange -/

include ho in
theorem across {E : Fc → (Axis → Int) → ℝ} (hE : FitsAll (lat h hl hm) fun a q => E a.e q)
    (hz : ∀ (a : Axis) (q : Axis → Int), (∀ d, q d ∈ meshRange X a.e d) → OnPecSide X a.e (q .x) (q .y) (q .z) → E a.e q = 0) (n : ℕ) (d : Axis) :
    sumOver (meshRange X d.next.next.e) (fun q => edgeShare X d.next.next q * (E d.next.next.e q * ((value R n d.next.h q - value R n d.next.h (back q d)) / middleDistance X d (q d)))) -
    sumOver (meshRange X d.next.e) (fun q => edgeShare X d.next q * (E d.next.e q * ((value R n d.next.next.h q - value R n d.next.next.h (back q d)) / middleDistance X d (q d)))) -
    (sumOver (meshRange X d.next.next.h) (fun q => squareShare X d.next.next q * (value R n d.next.next.h q * ((E d.next.e (ahead q d) - E d.next.e q) / cellLength X d (q d)))) -
    sumOver (meshRange X d.next.h) (fun q => squareShare X d.next q * (value R n d.next.h q * ((E d.next.next.e (ahead q d) - E d.next.next.e q) / cellLength X d (q d))))) = 0 := by
  obtain ⟨n1, n2, n3, n4⟩ := C80.next_ne d
  have key : ∀ c t : Axis, c ≠ d → t ≠ d → t ≠ c →
      sumOver (meshRange X c.e) (fun q => (cellLength X c (q c) * (insideLength X t (q t) * insideLength X d (q d))) * (E c.e q * ((value R n t.h q - value R n t.h (back q d)) / middleDistance X d (q d)))) +
      sumOver (meshRange X t.h) (fun q => (insideLength X t (q t) * (cellLength X c (q c) * cellLength X d (q d))) * (value R n t.h q * ((E c.e (ahead q d) - E c.e q) / cellLength X d (q d)))) = 0 := by
    intro c t hcd htd htc
    have mp := mesh_parts (L := lat h hl hm) (d := d) (c := c) (t := t) hcd.symm htd htc (F := fun q => E c.e q) (fun q => value R n t.h q)
      (W := fun q => cellLength X c (q c) * insideLength X t (q t)) (fun q hq => hE c d hcd.symm q hq)
      (fun q m => by rw [Sealed.put_of _ hcd, Sealed.put_of _ htd])
    rw [← range_e h hl hm, ← range_h h hl hm] at mp
    have e1 : sumOver (meshRange X c.e) (fun q => (cellLength X c (q c) * (insideLength X t (q t) * insideLength X d (q d))) * (E c.e q * ((value R n t.h q - value R n t.h (back q d)) / middleDistance X d (q d)))) =
        sumOver (meshRange X c.e) (fun q => (cellLength X c (q c) * insideLength X t (q t)) * (E c.e q * Jm (lat h hl hm) d (fun q => value R n t.h q) q)) := by
      refine C80.over_congr fun q hq => ?_
      by_cases np : OnPecSide X c.e (q .x) (q .y) (q .z)
      · rw [hz c q hq np]; ring
      · rw [← jump_is h hl hm hq htc.symm htd hcd n np]; ring
    have e2 : sumOver (meshRange X t.h) (fun q => (insideLength X t (q t) * (cellLength X c (q c) * cellLength X d (q d))) * (value R n t.h q * ((E c.e (ahead q d) - E c.e q) / cellLength X d (q d)))) =
        sumOver (meshRange X t.h) (fun q => (cellLength X c (q c) * insideLength X t (q t)) * (value R n t.h q * D d (fun q => E c.e q) q)) := by
      refine C80.over_congr fun q hq => ?_
      have l0 := (C75.length_pos h hl d (q d)).ne'
      unfold D
      field_simp
    rw [e1, e2, mp]
    ring
  have k1 := key d.next d.next.next n1 n2 n3
  have k2 := key d.next.next d.next n2 n1 n3.symm
  have s1 : ∀ q, edgeShare X d.next q = cellLength X d.next (q d.next) * (insideLength X d.next.next (q d.next.next) * insideLength X d (q d)) := by
    intro q; unfold edgeShare; rw [n4]
  have s2 : ∀ q, edgeShare X d.next.next q = cellLength X d.next.next (q d.next.next) * (insideLength X d.next (q d.next) * insideLength X d (q d)) := by
    intro q; unfold edgeShare; rw [n4]; ring
  have s3 : ∀ q, squareShare X d.next q = insideLength X d.next (q d.next) * (cellLength X d.next.next (q d.next.next) * cellLength X d (q d)) := by
    intro q; unfold squareShare; rw [n4]
  have s4 : ∀ q, squareShare X d.next.next q = insideLength X d.next.next (q d.next.next) * (cellLength X d.next (q d.next) * cellLength X d (q d)) := by
    intro q; unfold squareShare; rw [n4]; ring
  simp only [s1, s2, s3, s4]
  linarith

include ho in
theorem curls {E : Fc → (Axis → Int) → ℝ} (hE : FitsAll (lat h hl hm) fun a q => E a.e q)
    (hz : ∀ (a : Axis) (q : Axis → Int), (∀ d, q d ∈ meshRange X a.e d) → OnPecSide X a.e (q .x) (q .y) (q .z) → E a.e q = 0) (n : ℕ) :
    allE X (fun a q => edgeShare X a q * (E a.e q * rotH X (value R n) a q)) = allH X (fun a q => squareShare X a q * (value R n a.h q * rotE X E a q)) := by
  have hx := across h hl hm ho hE hz n .x
  have hy := across h hl hm ho hE hz n .y
  have hz := across h hl hm ho hE hz n .z
  simp only [Axis.next, Axis.e, Axis.h] at hx hy hz
  unfold allE allH rotH rotE
  dsimp only [Axis.next, Axis.e, Axis.h]
  simp only [mul_sub, C80.over_sub] at hx hy hz ⊢
  linarith

/-! ### Sums over the mesh -/

theorem allE_congr {f g : Axis → (Axis → Int) → ℝ} (hf : ∀ (a : Axis) (q : Axis → Int), (∀ d, q d ∈ meshRange X a.e d) → f a q = g a q) : allE X f = allE X g :=
  congrArg₂ (· + ·) (congrArg₂ (· + ·) (C80.over_congr (hf .x)) (C80.over_congr (hf .y))) (C80.over_congr (hf .z))
theorem allH_congr {f g : Axis → (Axis → Int) → ℝ} (hf : ∀ (a : Axis) (q : Axis → Int), (∀ d, q d ∈ meshRange X a.h d) → f a q = g a q) : allH X f = allH X g :=
  congrArg₂ (· + ·) (congrArg₂ (· + ·) (C80.over_congr (hf .x)) (C80.over_congr (hf .y))) (C80.over_congr (hf .z))
theorem allE_smul (c : ℝ) (f : Axis → (Axis → Int) → ℝ) : allE X (fun a q => c * f a q) = c * allE X f := by
  unfold allE; simp only [C80.over_smul]; ring
theorem allH_smul (c : ℝ) (f : Axis → (Axis → Int) → ℝ) : allH X (fun a q => c * f a q) = c * allH X f := by
  unfold allH; simp only [C80.over_smul]; ring
theorem allE_add (f g : Axis → (Axis → Int) → ℝ) : allE X (fun a q => f a q + g a q) = allE X f + allE X g := by
  unfold allE; simp only [C80.over_add]; ring
theorem allH_add (f g : Axis → (Axis → Int) → ℝ) : allH X (fun a q => f a q + g a q) = allH X f + allH X g := by
  unfold allH; simp only [C80.over_add]; ring
theorem over_mono {r : Axis → Finset Int} {f g : (Axis → Int) → ℝ} (hf : ∀ q : Axis → Int, (∀ d, q d ∈ r d) → f q ≤ g q) : sumOver r f ≤ sumOver r g := by
  unfold sumOver
  refine sum_le_sum fun i hi => sum_le_sum fun j hj => sum_le_sum fun l hl => hf _ fun d => ?_
  cases d
  · exact hi
  · exact hj
  · exact hl
theorem allE_mono {f g : Axis → (Axis → Int) → ℝ} (hf : ∀ (a : Axis) (q : Axis → Int), (∀ d, q d ∈ meshRange X a.e d) → f a q ≤ g a q) : allE X f ≤ allE X g :=
  add_le_add (add_le_add (over_mono (hf .x)) (over_mono (hf .y))) (over_mono (hf .z))
theorem allH_mono {f g : Axis → (Axis → Int) → ℝ} (hf : ∀ (a : Axis) (q : Axis → Int), (∀ d, q d ∈ meshRange X a.h d) → f a q ≤ g a q) : allH X f ≤ allH X g :=
  add_le_add (add_le_add (over_mono (hf .x)) (over_mono (hf .y))) (over_mono (hf .z))
theorem over_zero (r : Axis → Finset Int) : sumOver r (fun _ => 0) = 0 := by simp [sumOver]
theorem allE_zero : allE X (fun _ _ => 0) = 0 := by unfold allE; simp only [over_zero]; ring
theorem allH_zero : allH X (fun _ _ => 0) = 0 := by unfold allH; simp only [over_zero]; ring

/-- One term of a sum of non-negative terms. -/
theorem over_term {r : Axis → Finset Int} {f : (Axis → Int) → ℝ} (hf : ∀ q : Axis → Int, (∀ d, q d ∈ r d) → 0 ≤ f q) {q : Axis → Int} (hq : ∀ d, q d ∈ r d) :
    f q ≤ sumOver r f := by
  have e : q = Deck.triple (q .x) (q .y) (q .z) := by funext d; cases d <;> rfl
  have pos : ∀ i j l, i ∈ r .x → j ∈ r .y → l ∈ r .z → 0 ≤ f (Deck.triple i j l) := fun i j l hi hj hl => hf _ fun d => by
    cases d
    · exact hi
    · exact hj
    · exact hl
  unfold sumOver
  calc f q = f (Deck.triple (q .x) (q .y) (q .z)) := by rw [← e]
    _ ≤ ∑ l ∈ r .z, f (Deck.triple (q .x) (q .y) l) :=
        single_le_sum (f := fun l => f (Deck.triple (q .x) (q .y) l)) (fun l hl => pos _ _ _ (hq .x) (hq .y) hl) (hq .z)
    _ ≤ ∑ j ∈ r .y, ∑ l ∈ r .z, f (Deck.triple (q .x) j l) :=
        single_le_sum (f := fun j => ∑ l ∈ r .z, f (Deck.triple (q .x) j l)) (fun j hj => sum_nonneg fun l hl => pos _ _ _ (hq .x) hj hl) (hq .y)
    _ ≤ _ := single_le_sum (f := fun i => ∑ j ∈ r .y, ∑ l ∈ r .z, f (Deck.triple i j l))
        (fun i hi => sum_nonneg fun j hj => sum_nonneg fun l hl => pos _ _ _ hi hj hl) (hq .x)
theorem over_nonneg {r : Axis → Finset Int} {f : (Axis → Int) → ℝ} (hf : ∀ q : Axis → Int, (∀ d, q d ∈ r d) → 0 ≤ f q) : 0 ≤ sumOver r f := by
  rw [← over_zero r]; exact over_mono hf
theorem allE_term {f : Axis → (Axis → Int) → ℝ} (hf : ∀ (a : Axis) (q : Axis → Int), (∀ d, q d ∈ meshRange X a.e d) → 0 ≤ f a q) {a : Axis} {q : Axis → Int} (hq : ∀ d, q d ∈ meshRange X a.e d) :
    f a q ≤ allE X f := by
  have t := over_term (hf a) hq
  have zx := over_nonneg (hf .x)
  have zy := over_nonneg (hf .y)
  have zz := over_nonneg (hf .z)
  unfold allE
  simp only [Axis.e] at zx zy zz
  cases a <;> simp only [Axis.e] at t <;> linarith
theorem allH_term {f : Axis → (Axis → Int) → ℝ} (hf : ∀ (a : Axis) (q : Axis → Int), (∀ d, q d ∈ meshRange X a.h d) → 0 ≤ f a q) {a : Axis} {q : Axis → Int} (hq : ∀ d, q d ∈ meshRange X a.h d) :
    f a q ≤ allH X f := by
  have t := over_term (hf a) hq
  have zx := over_nonneg (hf .x)
  have zy := over_nonneg (hf .y)
  have zz := over_nonneg (hf .z)
  unfold allH
  simp only [Axis.h] at zx zy zz
  cases a <;> simp only [Axis.h] at t <;> linarith
theorem allE_nonneg {f : Axis → (Axis → Int) → ℝ} (hf : ∀ (a : Axis) (q : Axis → Int), (∀ d, q d ∈ meshRange X a.e d) → 0 ≤ f a q) : 0 ≤ allE X f := by
  rw [← allE_zero (X := X)]; exact allE_mono hf
theorem allH_nonneg {f : Axis → (Axis → Int) → ℝ} (hf : ∀ (a : Axis) (q : Axis → Int), (∀ d, q d ∈ meshRange X a.h d) → 0 ≤ f a q) : 0 ≤ allH X f := by
  rw [← allH_zero (X := X)]; exact allH_mono hf

/-! ### Mean fields -/

include h hl hm ho in
theorem mean_curls (n : ℕ) :
    allE X (fun a q => edgeShare X a q * (meanOver R n a.e q * rotH X (value R n) a q)) =
      allH X (fun a q => squareShare X a q * (value R n a.h q * rotE X (meanOver R n) a q)) :=
  curls h hl hm ho (fits_comb (value_fits h hl hm ho n) (value_fits h hl hm ho (n + 1))) (fun a q hq hp => by
    unfold meanOver; rw [wall_zero h ho hm hq hp, wall_zero h ho hm hq hp]; norm_num) n

variable (hk : Physical k) (hT : 0 < R.dt)

/-! ### The form that is conserved -/

/-- Stored energy less half a step of the exchange. -/
noncomputable def form (X : Experiment) (R : Setup.Run) (eps mu : Axis → (Axis → Int) → ℝ) (n : ℕ) : ℝ :=
  storedEnergy X R eps mu n - R.dt / 2 * allH X (fun a q => squareShare X a q * (value R n a.h q * rotE X (value R (n + 1)) a q))

include hk ho hT h in
theorem square_form {a : Axis} {q : Axis → Int} {mu : ℝ} (hs : MatterSquare k X R.dt a q mu) (V : ℝ) (n : ℕ) :
    1 / 2 * (V * mu * value R (n + 1) a.h q ^ 2) =
    1 / 2 * (V * mu * value R n a.h q ^ 2) + (-R.dt / 2) * (V * (value R n a.h q * rotE X (value R (n + 1)) a q)) +
      R.dt / 2 * (V * (value R (n + 1) a.h q * rotE X (value R (n + 2)) a q)) +
      (-R.dt) * (V * (value R (n + 1) a.h q * rotE X (meanOver R (n + 1)) a q)) +
      (-R.dt / 2) * (V * ((value R n a.h q + value R (n + 1) a.h q) * totalCurrent X R.dt ((n + 1 / 2) * R.dt) a.h q)) := by
  have hT' := hT.ne'
  obtain ⟨⟨i1, i2, i3, i4⟩, stuff, hs, hr, rfl⟩ := hs
  have s1 := C72.faraday hk h ho hT i1 i2 i3 i4 hs hr n
  unfold FaradayWithCurrent at s1
  have er : rotE X (meanOver R (n + 1)) a q = (rotE X (value R (n + 1)) a q + rotE X (value R (n + 2)) a q) / 2 := by
    unfold rotE meanOver; dsimp only; ring
  rw [er]
  generalize relPermeability stuff * k.mu0 = mu at s1 ⊢
  generalize totalCurrent X R.dt ((n + 1 / 2) * R.dt) a.h q = Mc at s1 ⊢
  have t1 : mu * (value R (n + 1) a.h q - value R n a.h q) = -R.dt * (rotE X (value R (n + 1)) a q + Mc) := by
    field_simp at s1; linear_combination s1
  linear_combination V * (value R n a.h q + value R (n + 1) a.h q) / 2 * t1

/-! ### The Courant limit -/

include hk h hl in
theorem smallest (hcn : 0 < X.cn) (hb : Representable k X) : ∃ m : Axis → ℝ, (∀ d, 0 < m d) ∧ (∀ d i, 0 ≤ i → i < cellsOf X.file d → m d ≤ cellLength X d i) ∧
    R.dt ^ 2 * (1 / m .x ^ 2 + 1 / m .y ^ 2 + 1 / m .z ^ 2) = X.cn ^ 2 * (k.eps0 * k.mu0) := by
  obtain ⟨hv, hn, -, hdt, -⟩ := run_parts h
  have hi := fun a m (h0 : 0 ≤ m) (h1 : m < R.cfg.n a) => hl a m h0 (by rw [← hn]; exact h1)
  have hbb := fun a m (h0 : 0 ≤ m) (h1 : m < R.cfg.n a) => hb a m h0 (by rw [← hn]; exact h1)
  have hedge := fun a => (C18.all_edges_ge R.cfg hv a (X.lines a) k.big (J.edges a) (hi a) (hbb a) 0).2.2
  refine ⟨fun a => (Setup.edges k J X R.cfg a).dmin, hedge, fun d i h0 h1 => ?_, ?_⟩
  · have := (C18.smallest_largest (c := R.cfg) (a := d) (lines := X.lines d) (big := k.big) (junk := J.edges d) hv (hi d) (hbb d)).1.2
      ⟨i, h0, by rw [hn]; exact h1, rfl⟩
    have e : cellLength X d i = C18.cellSize (X.lines d) i := by
      unfold cellLength
      dsimp only
      rw [show max 0 (min (cellsOf X.file d - 1) i) = i by omega]
      rfl
    rw [e]
    exact this
  · have t := (C18.time_step_courant X.cn k.c0 hk.c0 hcn _ hedge).2.1
    rw [hdt]
    have c0 := hk.c0.ne'
    have m0 := hk.mu0.ne'
    rw [hk.eps0]
    have : Setup.dt k J X R.cfg = timeStep X.cn k.c0 fun a => (initCellEdges R.cfg a (X.lines a) k.big (J.edges a)).dmin := rfl
    rw [this]
    rw [mul_pow] at t
    have e2 : X.cn ^ 2 * (1 / (k.mu0 * k.c0 * k.c0) * k.mu0) = X.cn ^ 2 / k.c0 ^ 2 := by field_simp
    rw [e2, ← t]
    show timeStep X.cn k.c0 _ ^ 2 * (1 / (initCellEdges R.cfg .x (X.lines .x) k.big (J.edges .x)).dmin ^ 2 + 1 / (initCellEdges R.cfg .y (X.lines .y) k.big (J.edges .y)).dmin ^ 2 + 1 / (initCellEdges R.cfg .z (X.lines .z) k.big (J.edges .z)).dmin ^ 2) = _
    field_simp

include hk in
theorem eps_ge {stuff : Stuff} {a : Axis} {q : Axis → Int} (hp : PlainEdge X a q stuff) : k.eps0 ≤ permittivity k stuff := by
  have e0 : 0 < k.eps0 := by rw [hk.eps0]; have := hk.c0; have := hk.mu0; positivity
  cases stuff <;> simp only [permittivity, le_refl]
  rcases hp with ⟨-, -, hp⟩ | ⟨-, -, hp⟩
  · nlinarith [hp.1]
  · cases hp
include hk in
theorem mu_ge {m : ℝ} {a : Axis} {q : Axis → Int} {T : ℝ} (hs : MatterSquare k X T a q m) : k.mu0 ≤ m := by
  obtain ⟨-, stuff, -, hr, rfl⟩ := hs
  have m0 := hk.mu0
  cases stuff <;> simp only [relPermeability, InRange] at hr ⊢
  · linarith
  · linarith
  · nlinarith [hr.2.2]
  · nlinarith [hr.2.2.1]
theorem sigma_ge {stuff : Stuff} {a : Axis} {q : Axis → Int} (hp : PlainEdge X a q stuff) : 0 ≤ conductivity stuff := by
  cases stuff <;> simp only [conductivity, le_refl]
  rcases hp with ⟨-, -, hp⟩ | ⟨-, -, hp⟩
  · exact hp.2.1
  · cases hp

include h hl hm in
theorem share_e_pos {a : Axis} {q : Axis → Int} (hq : ∀ d, q d ∈ meshRange X a.e d) : 0 < edgeShare X a q := by
  obtain ⟨n1, n2, n3, n4⟩ := C80.next_ne a
  rw [range_e h hl hm] at hq
  have h0 := hq a
  have h1 := hq a.next
  have h2 := hq a.next.next
  rw [er_self] at h0
  rw [er_ne _ n1] at h1
  rw [er_ne _ n2] at h2
  exact mul_pos (l_pos _ a h0) (mul_pos (w_pos _ _ h1) (w_pos _ _ h2))
include h hl hm in
theorem share_h_pos {a : Axis} {q : Axis → Int} (hq : ∀ d, q d ∈ meshRange X a.h d) : 0 < squareShare X a q := by
  obtain ⟨n1, n2, n3, n4⟩ := C80.next_ne a
  rw [range_h h hl hm] at hq
  have h0 := hq a
  have h1 := hq a.next
  have h2 := hq a.next.next
  rw [hr_self] at h0
  rw [hr_ne _ n1] at h1
  rw [hr_ne _ n2] at h2
  exact mul_pos (w_pos _ a h0) (mul_pos (l_pos _ _ h1) (l_pos _ _ h2))

variable {eps : Axis → (Axis → Int) → ℝ} (he : ∀ a q, (∀ d, q d ∈ meshRange X a.e d) → k.eps0 ≤ eps a q)

include hk ho hl h hm he in
/-- Below the Courant limit the form is the stored energy up to the fraction `cn` of it. -/
theorem form_near (hcn : 0 < X.cn) (hb : Representable k X) (n : ℕ) :
    |form X R eps mu n - storedEnergy X R eps mu n| ≤
      X.cn * storedEnergy X R eps mu n := by
  obtain ⟨m, m1, m2, m3⟩ := smallest h hl hk hcn hb
  have cb := curl_bound (L := lat h hl hm) (m := m) m1 (fun d i h0 h1 => m2 d i h0 h1) (value_fits h hl hm ho (n + 1))
  have cb' : allH X (fun a q => squareShare X a q * rotE X (value R (n + 1)) a q ^ 2) ≤
      4 * (1 / m .x ^ 2 + 1 / m .y ^ 2 + 1 / m .z ^ 2) * allE X (fun a q => edgeShare X a q * value R (n + 1) a.e q ^ 2) := by
    unfold allE allH
    have ex := range_e h hl hm .x
    have ey := range_e h hl hm .y
    have ez := range_e h hl hm .z
    have hx := range_h h hl hm .x
    have hy := range_h h hl hm .y
    have hz := range_h h hl hm .z
    simp only [Axis.e, Axis.h] at ex ey ez hx hy hz
    rw [ex, ey, ez, hx, hy, hz]
    exact cb
  have m0 := hk.mu0
  have e0 : 0 < k.eps0 := by rw [hk.eps0]; have := hk.c0; positivity
  have young : ∀ (t V H r : ℝ), 0 ≤ V → |t * (V * (H * r))| ≤ X.cn * k.mu0 * (V * H ^ 2) + t ^ 2 / (4 * (X.cn * k.mu0)) * (V * r ^ 2) := by
    intro t V H r hV
    set θ := X.cn * k.mu0
    have hθ : 0 < θ := mul_pos hcn m0
    have k1 : θ * H ^ 2 + t ^ 2 / (4 * θ) * r ^ 2 - t * (H * r) = θ * (H - t / (2 * θ) * r) ^ 2 := by field_simp; ring
    have k2 : θ * H ^ 2 + t ^ 2 / (4 * θ) * r ^ 2 + t * (H * r) = θ * (H + t / (2 * θ) * r) ^ 2 := by field_simp; ring
    have p1 : 0 ≤ V * (θ * (H - t / (2 * θ) * r) ^ 2) := by positivity
    have p2 : 0 ≤ V * (θ * (H + t / (2 * θ) * r) ^ 2) := by positivity
    rw [← k1] at p1
    rw [← k2] at p2
    rw [abs_le]
    constructor <;> nlinarith
  have up : |R.dt * allH X (fun a q => squareShare X a q * (value R n a.h q * rotE X (value R (n + 1)) a q))| ≤
      X.cn * k.mu0 * allH X (fun a q => squareShare X a q * value R n a.h q ^ 2) +
      R.dt ^ 2 / (4 * (X.cn * k.mu0)) * allH X (fun a q => squareShare X a q * rotE X (value R (n + 1)) a q ^ 2) := by
    rw [← allH_smul, ← allH_smul, ← allH_smul, ← allH_add, abs_le]
    constructor
    · rw [show ∀ f, -allH X f = allH X (fun a q => (-1) * f a q) from fun f => by rw [allH_smul]; ring]
      refine allH_mono fun a q hq => ?_
      have := (abs_le.1 (young R.dt (squareShare X a q) (value R n a.h q) (rotE X (value R (n + 1)) a q) (share_h_pos h hl hm hq).le)).1
      linarith
    · refine allH_mono fun a q hq => ?_
      exact (abs_le.1 (young R.dt (squareShare X a q) (value R n a.h q) (rotE X (value R (n + 1)) a q) (share_h_pos h hl hm hq).le)).2
  have wE : k.eps0 * allE X (fun a q => edgeShare X a q * value R (n + 1) a.e q ^ 2) ≤ allE X (fun a q => edgeShare X a q * eps a q * value R (n + 1) a.e q ^ 2) := by
    rw [← allE_smul]
    refine allE_mono fun a q hq => ?_
    have := he a q hq
    have p := mul_nonneg (share_e_pos h hl hm hq).le (sq_nonneg (value R (n + 1) a.e q))
    nlinarith
  have wH : k.mu0 * allH X (fun a q => squareShare X a q * value R n a.h q ^ 2) ≤ allH X (fun a q => squareShare X a q * mu a q * value R n a.h q ^ 2) := by
    rw [← allH_smul]
    refine allH_mono fun a q hq => ?_
    have := mu_ge hk (hm.squares a q hq)
    have p := mul_nonneg (share_h_pos h hl hm hq).le (sq_nonneg (value R n a.h q))
    nlinarith
  set A := allE X (fun a q => edgeShare X a q * value R (n + 1) a.e q ^ 2)
  set B := allH X (fun a q => squareShare X a q * value R n a.h q ^ 2)
  set Q := allH X (fun a q => squareShare X a q * rotE X (value R (n + 1)) a q ^ 2)
  have hQ : R.dt ^ 2 / (4 * (X.cn * k.mu0)) * Q ≤ X.cn * (k.eps0 * A) := by
    have c1 : 0 ≤ R.dt ^ 2 / (4 * (X.cn * k.mu0)) := by positivity
    calc _ ≤ R.dt ^ 2 / (4 * (X.cn * k.mu0)) * (4 * (1 / m .x ^ 2 + 1 / m .y ^ 2 + 1 / m .z ^ 2) * A) := mul_le_mul_of_nonneg_left cb' c1
      _ = (R.dt ^ 2 * (1 / m .x ^ 2 + 1 / m .y ^ 2 + 1 / m .z ^ 2)) / (X.cn * k.mu0) * A := by field_simp
      _ = X.cn * (k.eps0 * A) := by rw [m3]; field_simp
  unfold form storedEnergy
  set Z := allH X (fun a q => squareShare X a q * (value R n a.h q * rotE X (value R (n + 1)) a q))
  have l1 := abs_le.1 up
  rw [abs_le]
  have w1 := mul_le_mul_of_nonneg_left wE hcn.le
  have w2 := mul_le_mul_of_nonneg_left wH hcn.le
  constructor <;> nlinarith [l1.1, l1.2]

/-! ### Currents that fade away -/

include hk ho hl h hm he in
theorem form_pos (hcn : 0 < X.cn) (hlt : X.cn < 1) (hb : Representable k X) (n : ℕ) :
    0 ≤ form X R eps mu n ∧
    (1 - X.cn) * storedEnergy X R eps mu n ≤ form X R eps mu n := by
  have a := (abs_le.1 (form_near h hl hm ho hk he hcn hb n)).1
  have e0 : 0 < k.eps0 := by rw [hk.eps0]; have := hk.c0; have := hk.mu0; positivity
  have s0 : 0 ≤ storedEnergy X R eps mu n := by
    refine add_nonneg (mul_nonneg (by norm_num) (allE_nonneg fun a q hq => ?_)) (mul_nonneg (by norm_num) (allH_nonneg fun a q hq => ?_))
    · have := (share_e_pos h hl hm hq).le
      have := e0.le.trans (he a q hq)
      positivity
    · have := (share_h_pos h hl hm hq).le
      have := hk.mu0.le.trans (mu_ge hk (hm.squares a q hq))
      positivity
  constructor
  · nlinarith
  · linarith

/-- How large the field of an edge, and of a square, can be for a unit of energy. -/
noncomputable def reachE (k : Consts) (X : Experiment) (a : Axis) (q : Axis → Int) : ℝ := √(2 / ((1 - X.cn) * edgeShare X a q * k.eps0))
noncomputable def reachH (k : Consts) (X : Experiment) (a : Axis) (q : Axis → Int) : ℝ := √(2 / ((1 - X.cn) * squareShare X a q * k.mu0))

include hk ho hl h hm he in
theorem sample_e (hcn : 0 < X.cn) (hlt : X.cn < 1) (hb : Representable k X) (n : ℕ) {a : Axis} {q : Axis → Int} (hq : ∀ d, q d ∈ meshRange X a.e d) :
    |value R (n + 1) a.e q| ≤ reachE k X a q * √(form X R eps mu n) := by
  obtain ⟨f0, f1⟩ := form_pos h hl hm ho hk he hcn hlt hb n
  have e0 : 0 < k.eps0 := by rw [hk.eps0]; have := hk.c0; have := hk.mu0; positivity
  have sp := share_e_pos h hl hm hq
  have t := allE_term (X := X) (f := fun a q => edgeShare X a q * eps a q * value R (n + 1) a.e q ^ 2) (fun a q hq => by
    have := (share_e_pos h hl hm hq).le
    have := e0.le.trans (he a q hq)
    positivity) hq
  have u : 0 ≤ allH X (fun a q => squareShare X a q * mu a q * value R n a.h q ^ 2) := allH_nonneg fun a q hq => by
    have := (share_h_pos h hl hm hq).le
    have := hk.mu0.le.trans (mu_ge hk (hm.squares a q hq))
    positivity
  have ge := he a q hq
  unfold storedEnergy at f1
  unfold reachE
  rw [← Real.sqrt_mul (by have : 0 < 1 - X.cn := by linarith
                          positivity)]
  refine Real.abs_le_sqrt ?_
  have c0 : 0 < 1 - X.cn := by linarith
  rw [div_mul_eq_mul_div, le_div_iff₀ (by positivity)]
  have g : edgeShare X a q * k.eps0 * value R (n + 1) a.e q ^ 2 ≤ edgeShare X a q * eps a q * value R (n + 1) a.e q ^ 2 := by gcongr
  have g2 := mul_le_mul_of_nonneg_left (g.trans t) c0.le
  have g3 := mul_nonneg c0.le u
  linarith

include hk ho hl h hm he in
theorem sample_h (hcn : 0 < X.cn) (hlt : X.cn < 1) (hb : Representable k X) (n : ℕ) {a : Axis} {q : Axis → Int} (hq : ∀ d, q d ∈ meshRange X a.h d) :
    |value R n a.h q| ≤ reachH k X a q * √(form X R eps mu n) := by
  obtain ⟨f0, f1⟩ := form_pos h hl hm ho hk he hcn hlt hb n
  have e0 : 0 < k.eps0 := by rw [hk.eps0]; have := hk.c0; have := hk.mu0; positivity
  have m0 := hk.mu0
  have sp := share_h_pos h hl hm hq
  have t := allH_term (X := X) (f := fun a q => squareShare X a q * mu a q * value R n a.h q ^ 2) (fun a q hq => by
    have := (share_h_pos h hl hm hq).le
    have := hk.mu0.le.trans (mu_ge hk (hm.squares a q hq))
    positivity) hq
  have u : 0 ≤ allE X (fun a q => edgeShare X a q * eps a q * value R (n + 1) a.e q ^ 2) := allE_nonneg fun a q hq => by
    have := (share_e_pos h hl hm hq).le
    have := e0.le.trans (he a q hq)
    positivity
  have ge := mu_ge hk (hm.squares a q hq)
  unfold storedEnergy at f1
  unfold reachH
  rw [← Real.sqrt_mul (by have : 0 < 1 - X.cn := by linarith
                          positivity)]
  refine Real.abs_le_sqrt ?_
  have c0 : 0 < 1 - X.cn := by linarith
  rw [div_mul_eq_mul_div, le_div_iff₀ (by positivity)]
  have g : squareShare X a q * k.mu0 * value R n a.h q ^ 2 ≤ squareShare X a q * mu a q * value R n a.h q ^ 2 := by gcongr
  have g2 := mul_le_mul_of_nonneg_left (g.trans t) c0.le
  have g3 := mul_nonneg c0.le u
  linarith

/-- What the currents of step `n + 1` can add to the root of the energy. -/
noncomputable def push (k : Consts) (X : Experiment) (T : ℝ) (n : ℕ) : ℝ :=
  T / 2 * (allE X (fun a q => edgeShare X a q * reachE k X a q * |totalCurrent X T ((n + 1 : ℕ) * T) a.e q|) +
    allH X (fun a q => squareShare X a q * reachH k X a q * |totalCurrent X T ((n + 1 / 2) * T) a.h q|))

/-- `G` bounds the form, and only the currents can increase it. -/
def Driven (X : Experiment) (R : Setup.Run) (G : ℕ → ℝ) : Prop := ∀ n,
  G (n + 1) ≤ G n - R.dt * allE X (fun a q => edgeShare X a q * (meanOver R (n + 1) a.e q * totalCurrent X R.dt ((n + 1 : ℕ) * R.dt) a.e q))
      - R.dt / 2 * allH X (fun a q => squareShare X a q * ((value R n a.h q + value R (n + 1) a.h q) * totalCurrent X R.dt ((n + 1 / 2) * R.dt) a.h q))

variable {G : ℕ → ℝ} (hG : ∀ n, form X R eps mu n ≤ G n) (hst : Driven X R G)

include hk ho hT hl h hm he hG hst in
theorem root_step (hcn : 0 < X.cn) (hlt : X.cn < 1) (hb : Representable k X) (n : ℕ) :
    √(G (n + 1)) ≤ √(G n) + push k X R.dt n := by
  have st := hst n
  have f0 := (form_pos h hl hm ho hk he hcn hlt hb n).1.trans (hG n)
  have f1 := (form_pos h hl hm ho hk he hcn hlt hb (n + 1)).1.trans (hG (n + 1))
  have q0 := Real.sq_sqrt f0
  have q1 := Real.sq_sqrt f1
  have r0 := Real.sqrt_nonneg (G n)
  have r1 := Real.sqrt_nonneg (G (n + 1))
  have sE := fun (a : Axis) (q : Axis → Int) (hq : ∀ d, q d ∈ meshRange X a.e d) => (sample_e h hl hm ho hk he hcn hlt hb n hq).trans (mul_le_mul_of_nonneg_left (Real.sqrt_le_sqrt (hG n)) (Real.sqrt_nonneg _))
  have sE' := fun (a : Axis) (q : Axis → Int) (hq : ∀ d, q d ∈ meshRange X a.e d) => (sample_e h hl hm ho hk he hcn hlt hb (n + 1) hq).trans (mul_le_mul_of_nonneg_left (Real.sqrt_le_sqrt (hG (n + 1))) (Real.sqrt_nonneg _))
  have sH := fun (a : Axis) (q : Axis → Int) (hq : ∀ d, q d ∈ meshRange X a.h d) => (sample_h h hl hm ho hk he hcn hlt hb n hq).trans (mul_le_mul_of_nonneg_left (Real.sqrt_le_sqrt (hG n)) (Real.sqrt_nonneg _))
  have sH' := fun (a : Axis) (q : Axis → Int) (hq : ∀ d, q d ∈ meshRange X a.h d) => (sample_h h hl hm ho hk he hcn hlt hb (n + 1) hq).trans (mul_le_mul_of_nonneg_left (Real.sqrt_le_sqrt (hG (n + 1))) (Real.sqrt_nonneg _))
  set A := √(G n)
  set B := √(G (n + 1))
  have bE : -allE X (fun a q => edgeShare X a q * (meanOver R (n + 1) a.e q * totalCurrent X R.dt ((n + 1 : ℕ) * R.dt) a.e q)) ≤
      (A + B) / 2 * allE X (fun a q => edgeShare X a q * reachE k X a q * |totalCurrent X R.dt ((n + 1 : ℕ) * R.dt) a.e q|) := by
    rw [show ∀ f, -allE X f = allE X (fun a q => (-1) * f a q) from fun f => by rw [allE_smul]; ring, ← allE_smul]
    refine allE_mono fun a q hq => ?_
    have p := (share_e_pos h hl hm hq).le
    have u : |meanOver R (n + 1) a.e q| ≤ reachE k X a q * ((A + B) / 2) := by
      have e : meanOver R (n + 1) a.e q = value R (n + 1) a.e q / 2 + value R (n + 2) a.e q / 2 := by unfold meanOver; ring
      rw [e]
      refine (abs_add_le _ _).trans ?_
      rw [abs_div, abs_div, abs_two]
      have := sE a q hq
      have := sE' a q hq
      linarith
    generalize totalCurrent X R.dt ((n + 1 : ℕ) * R.dt) a.e q = C
    generalize meanOver R (n + 1) a.e q = m at u ⊢
    have v : -(m * C) ≤ reachE k X a q * ((A + B) / 2) * |C| := by
      refine (neg_le_abs _).trans ?_
      rw [abs_mul]
      exact mul_le_mul_of_nonneg_right u (abs_nonneg _)
    have w := mul_le_mul_of_nonneg_left v p
    linarith
  have bH : -allH X (fun a q => squareShare X a q * ((value R n a.h q + value R (n + 1) a.h q) * totalCurrent X R.dt ((n + 1 / 2) * R.dt) a.h q)) ≤
      (A + B) * allH X (fun a q => squareShare X a q * reachH k X a q * |totalCurrent X R.dt ((n + 1 / 2) * R.dt) a.h q|) := by
    rw [show ∀ f, -allH X f = allH X (fun a q => (-1) * f a q) from fun f => by rw [allH_smul]; ring, ← allH_smul]
    refine allH_mono fun a q hq => ?_
    have p := (share_h_pos h hl hm hq).le
    have u : |value R n a.h q + value R (n + 1) a.h q| ≤ reachH k X a q * (A + B) := by
      refine (abs_add_le _ _).trans ?_
      have := sH a q hq
      have := sH' a q hq
      linarith
    generalize totalCurrent X R.dt ((n + 1 / 2) * R.dt) a.h q = C
    generalize value R n a.h q + value R (n + 1) a.h q = m at u ⊢
    have v : -(m * C) ≤ reachH k X a q * (A + B) * |C| := by
      refine (neg_le_abs _).trans ?_
      rw [abs_mul]
      exact mul_le_mul_of_nonneg_right u (abs_nonneg _)
    have w := mul_le_mul_of_nonneg_left v p
    linarith
  have j0 : 0 ≤ push k X R.dt n := by
    refine mul_nonneg (by linarith) (add_nonneg (allE_nonneg fun a q hq => ?_) (allH_nonneg fun a q hq => ?_))
    · have p := (share_e_pos h hl hm hq).le
      unfold reachE
      positivity
    · have p := (share_h_pos h hl hm hq).le
      unfold reachH
      positivity
  have key : B ^ 2 ≤ A ^ 2 + push k X R.dt n * (A + B) := by
    rw [q0, q1]
    have bE' := mul_le_mul_of_nonneg_left bE hT.le
    have bH' := mul_le_mul_of_nonneg_left bH (half_pos hT).le
    unfold push
    linarith
  by_contra hc
  have hc := not_le.1 hc
  nlinarith

theorem summable_over {r : Axis → Finset Int} {f : ℕ → (Axis → Int) → ℝ} (hf : ∀ q : Axis → Int, (∀ d, q d ∈ r d) → Summable fun n => f n q) :
    Summable fun n => sumOver r (f n) := by
  unfold sumOver
  refine summable_sum fun i hi => summable_sum fun j hj => summable_sum fun l hl => hf _ fun d => ?_
  cases d
  · exact hi
  · exact hj
  · exact hl

include hk ho hT hl h hm he hG hst in
theorem stays_bounded (hcn : 0 < X.cn) (hlt : X.cn < 1) (hb : Representable k X)
    (hJ : ∀ (a : Axis) (q : Axis → Int), (∀ d, q d ∈ meshRange X a.e d) → Summable fun n : ℕ => |totalCurrent X R.dt (n * R.dt) a.e q|)
    (hM : ∀ (a : Axis) (q : Axis → Int), (∀ d, q d ∈ meshRange X a.h d) → Summable fun n : ℕ => |totalCurrent X R.dt ((n + 1 / 2) * R.dt) a.h q|) :
    ∃ B, ∀ (n : ℕ) (fc : Fc) (q : Axis → Int), SampleInMesh X fc q → |value R n fc q| ≤ B := by
  have sm : Summable (push k X R.dt) := by
    refine Summable.mul_left _ (Summable.add ?_ ?_)
    · have hJ' : ∀ (a : Axis) (q : Axis → Int), (∀ d, q d ∈ meshRange X a.e d) →
          Summable fun n : ℕ => edgeShare X a q * reachE k X a q * |totalCurrent X R.dt ((n + 1 : ℕ) * R.dt) a.e q| := fun a q hq =>
        ((summable_nat_add_iff 1).2 (hJ a q hq)).mul_left _
      exact ((summable_over (hJ' .x)).add (summable_over (hJ' .y))).add (summable_over (hJ' .z))
    · have hM' : ∀ (a : Axis) (q : Axis → Int), (∀ d, q d ∈ meshRange X a.h d) →
          Summable fun n : ℕ => squareShare X a q * reachH k X a q * |totalCurrent X R.dt ((n + 1 / 2) * R.dt) a.h q| := fun a q hq =>
        (hM a q hq).mul_left _
      exact ((summable_over (hM' .x)).add (summable_over (hM' .y))).add (summable_over (hM' .z))
  have j0 : ∀ n, 0 ≤ push k X R.dt n := fun n => by
    refine mul_nonneg (by linarith) (add_nonneg (allE_nonneg fun a q hq => ?_) (allH_nonneg fun a q hq => ?_))
    · have p := (share_e_pos h hl hm hq).le
      unfold reachE
      positivity
    · have p := (share_h_pos h hl hm hq).le
      unfold reachH
      positivity
  set C := √(G 0) + ∑' n, push k X R.dt n
  have part : ∀ n, √(G n) ≤ √(G 0) + ∑ m ∈ range n, push k X R.dt m := by
    intro n
    induction n with
    | zero => simp
    | succ n ih =>
      rw [sum_range_succ]
      have := root_step h hl hm ho hk hT he hG hst hcn hlt hb n
      linarith
  have bound : ∀ n, √(G n) ≤ C := fun n =>
    (part n).trans (by have := sm.sum_le_tsum (range n) fun i _ => j0 i; linarith)
  have C0 : 0 ≤ C := (Real.sqrt_nonneg _).trans (bound 0)
  have rE := allE_nonneg (X := X) (f := reachE k X) fun a q hq => Real.sqrt_nonneg _
  have rH := allH_nonneg (X := X) (f := reachH k X) fun a q hq => Real.sqrt_nonneg _
  refine ⟨(allE X (reachE k X) + allH X (reachH k X)) * C, fun n fc q hq => ?_⟩
  have el : ∀ (a : Axis) (q : Axis → Int), (∀ d, q d ∈ meshRange X a.e d) → |value R n a.e q| ≤ (allE X (reachE k X) + allH X (reachH k X)) * C := by
    intro a q hq
    cases n with
    | zero => rw [C84.value_zero, abs_zero]; positivity
    | succ n =>
      refine ((sample_e h hl hm ho hk he hcn hlt hb n hq).trans (mul_le_mul_of_nonneg_left (Real.sqrt_le_sqrt (hG n)) (Real.sqrt_nonneg _))).trans ?_
      have t := allE_term (X := X) (f := reachE k X) (fun a q hq => Real.sqrt_nonneg _) hq
      exact mul_le_mul (by linarith) (bound n) (Real.sqrt_nonneg _) (by linarith)
  have ml : ∀ (a : Axis) (q : Axis → Int), (∀ d, q d ∈ meshRange X a.h d) → |value R n a.h q| ≤ (allE X (reachE k X) + allH X (reachH k X)) * C := by
    intro a q hq
    refine ((sample_h h hl hm ho hk he hcn hlt hb n hq).trans (mul_le_mul_of_nonneg_left (Real.sqrt_le_sqrt (hG n)) (Real.sqrt_nonneg _))).trans ?_
    have t := allH_term (X := X) (f := reachH k X) (fun a q hq => Real.sqrt_nonneg _) hq
    exact mul_le_mul (by linarith) (bound n) (Real.sqrt_nonneg _) (by linarith)
  have hq := in_mesh.2 hq
  cases fc
  · exact el .x q hq
  · exact el .y q hq
  · exact el .z q hq
  · exact ml .x q hq
  · exact ml .y q hq
  · exact ml .z q hq

theorem pulses_fade (hT : 0 < R.dt) (hw : ∀ n, C56.Pulse (X.waves n)) (c : ℝ) (fc : Fc) (q : Axis → Int) :
    Summable fun n : ℕ => |totalCurrent X R.dt (n * R.dt + c) fc q| := by
  unfold totalCurrent
  induction X.file.cards with
  | nil => simp [summable_zero]
  | cons x l ih =>
    have hx : Summable fun n : ℕ => |impressed X R.dt (n * R.dt + c) fc q x| := by
      cases x with
      | ex m b nm tag w size delay r =>
        simp only [impressed]
        cases tagOf tag with
        | none => simp [summable_zero]
        | some t =>
          dsimp only
          split
          · have := (C56.wave_summable hT (hw w) (c - delay)).mul_left |density X t b size r|
            refine this.congr fun n => ?_
            rw [abs_mul, add_sub_assoc]
          · simp [summable_zero]
      | _ => simp [impressed, summable_zero]
    refine Summable.of_nonneg_of_le (fun n => abs_nonneg _) (fun n => ?_) (hx.add ih)
    simp only [List.map_cons, List.sum_cons]
    exact abs_add_le _ _

end
end Vulture.C87
