import Verif.Props.C84_Line
/- C84: plane waves between plates are one-dimensional (the induction over the steps, and the theorems). -/
set_option linter.unusedSimpArgs false
set_option linter.unusedVariables false
set_option linter.unusedSectionVars false
namespace Vulture.C84
open Vulture Spec Setup CavityLemmas Scaling C72

section
variable {k : Consts} {J : Junk} {X : Experiment} {R : Setup.Run} {a b c e h p : Axis} {f : Face} {q : Axis → Int}

theorem face_cases (f : Face) : f = f.axis.lo ∨ f = f.axis.hi := by cases f <;> first | exact Or.inl rfl | exact Or.inr rfl

theorem across_box (hm : LineModel k X R.dt e h p) {b : Axis} (hb : b ≠ p) : gridBox X b.lo = 0 ∧ gridBox X b.hi = cellsOf X.file b := by
  obtain ⟨h1, h2⟩ := not_pml hm hb
  unfold gridBox
  rw [if_neg h1, if_neg h2, C81.mesh_lo, C81.mesh_hi]
  exact ⟨add_zero _, add_zero _⟩

theorem mesh_along (hm : LineModel k X R.dt e h p) {fc : Fc} (hq : OnGridBox X fc q) :
    SampleInMesh X fc q ↔ 0 ≤ pos2 fc p (q p) ∧ pos2 fc p (q p) ≤ 2 * cellsOf X.file p := by
  constructor
  · intro hi; exact C81.in_iff.1 hi p
  · intro hp
    refine C81.in_iff.2 fun b => ?_
    by_cases hb : b = p
    · subst hb; exact hp
    · have := grid_iff.1 hq b
      rw [(across_box hm hb).1, (across_box hm hb).2] at this
      omega

theorem back_along (hm : LineModel k X R.dt e h p) {fc : Fc} :
    AtBack X fc q ↔ (X.file.bt p.lo = .pml ∧ pos2 fc p (q p) = 2 * gridBox X p.lo) ∨ (X.file.bt p.hi = .pml ∧ pos2 fc p (q p) = 2 * gridBox X p.hi) := by
  have x := C81.lo_axis p
  constructor
  · rintro ⟨f, hf, hp⟩
    have ef := ends_only hm (Or.inl hf)
    rw [plane_iff, ef] at hp
    rcases face_cases f with e1 | e1
    · rw [ef] at e1; subst e1; exact Or.inl ⟨hf, hp⟩
    · rw [ef] at e1; subst e1; exact Or.inr ⟨hf, hp⟩
  · rintro (⟨hf, hp⟩ | ⟨hf, hp⟩)
    · exact ⟨p.lo, hf, by rw [plane_iff, x.1]; exact hp⟩
    · exact ⟨p.hi, hf, by rw [plane_iff, x.2.1]; exact hp⟩

theorem mur_along (hm : LineModel k X R.dt e h p) {fc : Fc} :
    OnMurSide X fc q ↔ (X.file.bt p.lo = .mur ∧ pos2 fc p (q p) = 0) ∨ (X.file.bt p.hi = .mur ∧ pos2 fc p (q p) = 2 * cellsOf X.file p) := by
  have x := C81.lo_axis p
  constructor
  · rintro ⟨f, hf, hp⟩
    have ef := ends_only hm (Or.inr hf)
    rw [plane_iff, ef] at hp
    rcases face_cases f with e1 | e1
    · rw [ef] at e1; subst e1; rw [C81.mesh_lo] at hp; exact Or.inl ⟨hf, hp⟩
    · rw [ef] at e1; subst e1; rw [C81.mesh_hi] at hp; exact Or.inr ⟨hf, hp⟩
  · rintro (⟨hf, hp⟩ | ⟨hf, hp⟩)
    · exact ⟨p.lo, hf, by rw [plane_iff, x.1, C81.mesh_lo]; exact hp⟩
    · exact ⟨p.hi, hf, by rw [plane_iff, x.2.1, C81.mesh_hi]; exact hp⟩

theorem layer_of (hs : setup k J X = some R) (hm : LineModel k X R.dt e h p) {fc : Fc} (hq : OnGridBox X fc q) (nb : ¬ AtBack X fc q) (ni : ¬ SampleInMesh X fc q) :
    InLayer X fc q ∧ ¬ OnMurSide X fc q := by
  refine ⟨⟨hq, ni, fun f hf hp => nb ⟨f, hf, hp⟩⟩, fun hmur => ni ?_⟩
  rw [mesh_along hm hq]
  have g := (grid_le hs p).2.2
  rcases (mur_along hm).1 hmur with ⟨-, t⟩ | ⟨-, t⟩ <;> rw [t] <;> omega

/-- Samples of a `MUR` end and the samples next to them. -/
theorem mur_sample (hs : setup k J X = some R) (hm : LineModel k X R.dt e h p) (hi : SampleInMesh X a.e q) (hf : X.file.bt f = .mur)
    (hp : OnPlane (meshBox X) f a.e (q .x) (q .y) (q .z)) :
    InMurSide X f a q ∧ SampleInMesh X a.e (inwards f q) ∧ ¬ OnMurSide X a.e (inwards f q) := by
  have ef := ends_only hm (Or.inr hf)
  have g := (grid_le hs p).2.2
  have x := C81.lo_axis p
  have hp' := hp
  rw [plane_iff, ef] at hp'
  have hpa : p ≠ a := by
    rintro rfl
    rw [C81.pos2_e, if_pos rfl] at hp'
    omega
  rw [C81.pos2_e, if_neg hpa] at hp'
  have th := hm.thick f hf
  rw [ef] at th
  have inw : ∀ d, d ≠ p → inwards f q d = q d := by intro d hd; unfold inwards; rw [if_neg (by rw [ef]; exact hd)]
  have inp : inwards f q p = q p + (if f.isLo then 1 else -1) := by unfold inwards; rw [if_pos ef.symm]
  have hi' := C81.in_iff.1 hi
  have inm : SampleInMesh X a.e (inwards f q) := by
    refine C81.in_iff.2 fun d => ?_
    by_cases hd : d = p
    · subst hd
      rw [inp, C81.pos2_e, if_neg hpa]
      rcases face_cases f with e1 | e1
      · rw [ef] at e1; subst e1
        rw [x.2.2.1]; rw [C81.mesh_lo] at hp'
        simp only [if_true]
        omega
      · rw [ef] at e1; subst e1
        rw [x.2.2.2]; rw [C81.mesh_hi] at hp'
        simp only [Bool.false_eq_true, if_false]
        omega
    · rw [inw d hd]; exact hi' d
  refine ⟨⟨hf, hi, hp, fun g hgf hg hgp => ?_, by rw [ef]; exact th⟩, inm, fun hmur => ?_⟩
  · have eg := ends_only hm (Or.inr hg)
    rw [plane_iff, eg, C81.pos2_e, if_neg hpa] at hgp
    rcases face_cases f with e1 | e1 <;> rcases face_cases g with e2 | e2 <;> rw [ef] at e1 <;> rw [eg] at e2 <;> subst e1 <;> subst e2
    · exact hgf rfl
    · rw [C81.mesh_lo] at hp'; rw [C81.mesh_hi] at hgp; omega
    · rw [C81.mesh_hi] at hp'; rw [C81.mesh_lo] at hgp; omega
    · exact hgf rfl
  · have t := (mur_along hm).1 hmur
    rw [inp, C81.pos2_e, if_neg hpa] at t
    have op : p.lo.opposite = p.hi ∧ p.hi.opposite = p.lo := by cases p <;> exact ⟨rfl, rfl⟩
    rcases face_cases f with e1 | e1
    · rw [ef] at e1; subst e1
      rw [x.2.2.1] at t; rw [C81.mesh_lo] at hp'; rw [op.1] at th
      simp only [if_true] at t
      rcases t with ⟨t1, t2⟩ | ⟨t1, t2⟩
      · omega
      · rcases th with th | th
        · omega
        · exact th t1
    · rw [ef] at e1; subst e1
      rw [x.2.2.2] at t; rw [C81.mesh_hi] at hp'; rw [op.2] at th
      simp only [Bool.false_eq_true, if_false] at t
      rcases t with ⟨t1, t2⟩ | ⟨t1, t2⟩
      · rcases th with th | th
        · omega
        · exact th t1
      · omega

theorem leaving_det {c T d E E1 E2 P P' : ℝ} (hc : 0 < c) (hT : 0 < T) (hd : 0 < d) (h1 : LeavingWave c T d E E1 P P') (h2 : LeavingWave c T d E E2 P P') : E1 = E2 := by
  unfold LeavingWave at h1 h2
  have c1 : 0 < 1 / d / 2 + 1 / c * (1 / T / 2) := by positivity
  have : (1 / d / 2 + 1 / c * (1 / T / 2)) * (E1 - E2) = 0 := by linear_combination h2 - h1
  rcases mul_eq_zero.1 this with h' | h'
  · exact absurd h' c1.ne'
  · linarith

section one
variable (hk : Physical k) (hs : setup k J X = some R) (ho : OrdinaryBlocks X.file.cards) (hT : 0 < R.dt) (hg : GoodLayers k X) (hm : LineModel k X R.dt e h p)
include hk hs ho hT hg hm

theorem stays_dark_E {n : ℕ} (hE : ∀ m, m ≤ n → DarkE X R e m) (hH : ∀ m, m ≤ n → DarkH X R h m) (hu : ∀ m, m ≤ n → SameH X X R R e h p e h p m) :
    DarkE X R e (n + 1) := by
  have plain : ∀ a q, a ≠ e → OnGridBox X a.e q → SampleInMesh X a.e q → ¬ OnMurSide X a.e q → value R (n + 1) a.e q = 0 := by
    intro a q ha hq hi nm
    obtain ⟨c1, c2⟩ := hm.clear _ _ hq
    obtain ⟨d1, d2⟩ := hm.darkE a q ha hi (n * R.dt)
    rw [electric_soft hs ho hi nm (hm.simple _ _ hi) c1 c2 (hm.soft _ _ hi) n, hE n le_rfl a q ha hq,
      rotH_dark hs hm (hH n le_rfl) (hu n le_rfl) ha hq (mur_not_back hs hi) nm, d1, d2]
    ring
  intro a q ha hq
  by_cases hb : AtBack X a.e q
  · obtain ⟨f, hf, hp⟩ := hb
    exact C83.metal_behind hs ho (second' hm) hf hq hp (n + 1)
  by_cases hi : SampleInMesh X a.e q
  · by_cases nm : OnMurSide X a.e q
    · obtain ⟨f, hf, hp⟩ := nm
      obtain ⟨m1, m2, m3⟩ := mur_sample hs hm hi hf hp
      obtain ⟨u1, u2⟩ := hm.mur f a q m1
      have sc : 0 < sideCell X f := hg.2.1 _ _
      have lw := C81.mur_side hs ho hk.c0 hT sc m1 u1 u2 n
      have gi := mesh_grid hs m2
      rw [hE n le_rfl a q ha hq, hE n le_rfl a _ ha gi, plain a _ ha gi m2 m3] at lw
      exact leaving_det hk.c0 hT sc lw (by unfold LeavingWave; simp)
    · exact plain a q ha hq hi nm
  · obtain ⟨l1, l2⟩ := layer_of hs hm hq hb hi
    obtain ⟨c1, c2⟩ := hm.clear _ _ hq
    obtain ⟨s, hst, -⟩ := C73.made_exists hs ho (q := continued X a.e q) (C83.continued_in hs (second' hm) l1.inside)
    obtain ⟨r1, r2⟩ := hm.range _ _ l1 s hst
    exact layer_dark_E hk hs ho hT hg (second' hm) l1 c1 c2 hst r1 r2 (hm.lumped _ _ l1) n fun m hmn =>
      rotH_dark hs hm (hH m hmn) (hu m hmn) ha hq hb l2

theorem stays_dark_H {n : ℕ} (hH : ∀ m, m ≤ n → DarkH X R h m) (hE : ∀ m, m ≤ n + 1 → DarkE X R e m) (hu : ∀ m, m ≤ n + 1 → SameE X X R R e p e p m) :
    DarkH X R h (n + 1) := by
  intro a q ha hq hb
  obtain ⟨c1, c2⟩ := hm.clear _ _ hq
  by_cases hi : SampleInMesh X a.h q
  · obtain ⟨d1, d2⟩ := hm.darkH a q ha hi ((n + 1 / 2) * R.dt)
    rw [magnetic_soft hs ho hi c1 c2 (hm.soft _ _ hi) n, hH n le_rfl a q ha hq hb,
      rotE_dark hm (hE (n + 1) le_rfl) (hu (n + 1) le_rfl) ha hq, d1, d2]
    ring
  · obtain ⟨l1, -⟩ := layer_of hs hm hq hb hi
    obtain ⟨s, hst, -⟩ := C73.made_exists hs ho (q := continued X a.h q) (C83.continued_in hs (second' hm) l1.inside)
    obtain ⟨r1, r2⟩ := hm.range _ _ l1 s hst
    exact layer_dark_H hk hs ho hT hg (second' hm) l1 c1 c2 hst r1 (hm.lumped _ _ l1) n fun m hmn =>
      rotE_dark hm (hE (m + 1) (by omega)) (hu (m + 1) (by omega)) ha hq

end one


section two
variable {J' : Junk} {Y : Experiment} {S : Setup.Run} {e' h' p' : Axis} {r : Axis → Int}

theorem same_box {T : ℝ} (hl : SameLine X Y T e h p e' h' p') : gridBox X p.lo = gridBox Y p'.lo ∧ gridBox X p.hi = gridBox Y p'.hi := by
  have x1 := C81.lo_axis p
  have x2 := C81.lo_axis p'
  unfold gridBox
  rw [C81.mesh_lo, C81.mesh_lo, C81.mesh_hi, C81.mesh_hi, hl.low, hl.high, hl.layers.1, hl.layers.2, hl.cells, x1.2.2.1, x1.2.2.2, x2.2.2.1, x2.2.2.2]
  exact ⟨rfl, rfl⟩

theorem same_image {T : ℝ} (hl : SameLine X Y T e h p e' h' p') : imageAt X p.lo = imageAt Y p'.lo ∧ imageAt X p.hi = imageAt Y p'.hi ∧
    imageSign X p.lo = imageSign Y p'.lo ∧ imageSign X p.hi = imageSign Y p'.hi := by
  have x1 := C81.lo_axis p
  have x2 := C81.lo_axis p'
  obtain ⟨b1, b2⟩ := same_box hl
  unfold imageAt imageSign
  rw [hl.low, hl.high, x1.2.2.1, x1.2.2.2, x2.2.2.1, x2.2.2.2, x1.1, x1.2.1, x2.1, x2.2.1, b1, b2]
  exact ⟨rfl, rfl, rfl, rfl⟩

variable (hk : Physical k) (hs : setup k J X = some R) (ho : OrdinaryBlocks X.file.cards) (hT : 0 < R.dt) (hg : GoodLayers k X) (hm : LineModel k X R.dt e h p)
  (hs' : setup k J' Y = some S) (ho' : OrdinaryBlocks Y.file.cards) (hg' : GoodLayers k Y) (hm' : LineModel k Y S.dt e' h' p')
  (hdt : S.dt = R.dt) (hl : SameLine X Y R.dt e h p e' h' p')

include hs hm hs' hm' hl in
theorem rotH_same {n : ℕ} (hd : DarkH X R h n) (hd' : DarkH Y S h' n) (hu : SameH X Y R S e h p e' h' p' n)
    (hq : OnGridBox X e.e q) (nb : ¬ AtBack X e.e q) (nm : ¬ OnMurSide X e.e q)
    (hr : OnGridBox Y e'.e r) (nb' : ¬ AtBack Y e'.e r) (nm' : ¬ OnMurSide Y e'.e r) (hqr : q p = r p') :
    rotH X (value R n) e q = rotH Y (value S n) e' r := by
  obtain ⟨b1, b2⟩ := same_box hl
  obtain ⟨i1, i2, i3, i4⟩ := same_image hl
  obtain ⟨a1, a2, a3⟩ := hm.axes
  obtain ⟨a1', a2', a3'⟩ := hm'.axes
  obtain ⟨⟨s, q1, v, g, n1, o, w⟩, ⟨s2, q2, v2, g2, n2, o2, w2⟩⟩ := reach hs hq nb nm (b := h) (c := p) a1 a2 a3 n
  obtain ⟨⟨s', q1', v', g', n1', o', w'⟩, ⟨s2', q2', v2', g2', n2', o2', w2'⟩⟩ := reach hs' hr nb' nm' (b := h') (c := p') a1' a2' a3' n
  have m : middleDistance X p (q p) = middleDistance Y p' (r p') := by unfold middleDistance; rw [hl.lengths, hl.lengths, hqr]
  have E1 : handed e p * value R n h.h q = handed e' p' * value S n h'.h r := by
    have pp : q1 p = q1' p' ∧ s = s' := by
      rcases w with ⟨w1, w2, w3⟩ | ⟨w1, w2, w3⟩ <;> rcases w' with ⟨u1, u2, u3⟩ | ⟨u1, u2, u3⟩
      · rw [w2, u2, w3, u3]; exact ⟨hqr, rfl⟩
      · exact absurd (by rw [hqr, b2]; exact u1) w1
      · exact absurd (by rw [← hqr, ← b2]; exact w1) u1
      · rw [w2, u2, w3, u3, i2, i4]; exact ⟨rfl, rfl⟩
    have := hu q1 q1' g g' n1 n1' pp.1
    rw [v, v', pp.2]
    linear_combination s' * this
  have E2 : handed e p * value R n h.h (back q p) = handed e' p' * value S n h'.h (back r p') := by
    have pp : q2 p = q2' p' ∧ s2 = s2' := by
      rcases w2 with ⟨w1, w2, w3⟩ | ⟨w1, w2, w3⟩ <;> rcases w2' with ⟨u1, u2, u3⟩ | ⟨u1, u2, u3⟩
      · rw [w2, u2, w3, u3]
        refine ⟨?_, rfl⟩
        unfold back
        rw [if_pos rfl, if_pos rfl, hqr]
      · exact absurd (by rw [hqr, b1]; exact u1) w1
      · exact absurd (by rw [← hqr, ← b1]; exact w1) u1
      · rw [w2, u2, w3, u3, i1, i3]; exact ⟨rfl, rfl⟩
    have := hu q2 q2' g2 g2' n2 n2' pp.1
    rw [v2, v2', pp.2]
    linear_combination s2' * this
  rw [rotH_line hs hm hd hq nb nm, rotH_line hs' hm' hd' hr nb' nm', m]
  linear_combination (1 / middleDistance Y p' (r p')) * (E1 - E2)

include hm hm' hl in
theorem rotE_same {n : ℕ} (hd : DarkE X R e n) (hd' : DarkE Y S e' n) (hu : SameE X Y R S e p e' p' n)
    (hq : OnGridBox X h.h q) (hr : OnGridBox Y h'.h r) (hqr : q p = r p') :
    handed e p * rotE X (value R n) h q = handed e' p' * rotE Y (value S n) h' r := by
  obtain ⟨a1, a2, a3⟩ := hm.axes
  obtain ⟨a1', a2', a3'⟩ := hm'.axes
  obtain ⟨g1, g2⟩ := around_h hq (b := e) (c := p) a1.symm a3 a2
  obtain ⟨g1', g2'⟩ := around_h hr (b := e') (c := p') a1'.symm a3' a2'
  rw [rotE_line hm hd hq, rotE_line hm' hd' hr, hu q r g1 g1' hqr, hu _ _ g2 g2' (by unfold ahead; rw [if_pos rfl, if_pos rfl, hqr]), hl.lengths, hqr]
  have t1 := handed_sq e p
  have t2 := handed_sq e' p'
  linear_combination ((value S n e'.e r - value S n e'.e (ahead r p')) / cellLength Y p' (r p')) * (t1 - t2)

include hk hs ho hT hg hm hs' ho' hg' hm' hdt hl in
theorem stays_same_E {n : ℕ} (hu : ∀ m, m ≤ n → SameE X Y R S e p e' p' m) (hH : ∀ m, m ≤ n → DarkH X R h m) (hH' : ∀ m, m ≤ n → DarkH Y S h' m)
    (hw : ∀ m, m ≤ n → SameH X Y R S e h p e' h' p' m) : SameE X Y R S e p e' p' (n + 1) := by
  have hT' : 0 < S.dt := by rw [hdt]; exact hT
  obtain ⟨b1, b2⟩ := same_box hl
  obtain ⟨a1, a2, a3⟩ := hm.axes
  obtain ⟨a1', a2', a3'⟩ := hm'.axes
  have pe : ∀ {q r : Axis → Int}, q p = r p' → pos2 e.e p (q p) = pos2 e'.e p' (r p') := by
    intro q r hqr
    rw [C81.pos2_e, C81.pos2_e, if_neg a3.symm, if_neg a3'.symm, hqr]
  have back' : ∀ {q r : Axis → Int}, q p = r p' → (AtBack X e.e q ↔ AtBack Y e'.e r) := by
    intro q r hqr
    rw [back_along hm, back_along hm', hl.low, hl.high, b1, b2, pe hqr]
  have mur' : ∀ {q r : Axis → Int}, q p = r p' → (OnMurSide X e.e q ↔ OnMurSide Y e'.e r) := by
    intro q r hqr
    rw [mur_along hm, mur_along hm', hl.low, hl.high, hl.cells, pe hqr]
  have mesh' : ∀ {q r : Axis → Int}, OnGridBox X e.e q → OnGridBox Y e'.e r → q p = r p' → (SampleInMesh X e.e q ↔ SampleInMesh Y e'.e r) := by
    intro q r hq hr hqr
    rw [mesh_along hm hq, mesh_along hm' hr, hl.cells, pe hqr]
  have plain : ∀ q r, OnGridBox X e.e q → OnGridBox Y e'.e r → q p = r p' → SampleInMesh X e.e q → ¬ OnMurSide X e.e q → value R (n + 1) e.e q = value S (n + 1) e'.e r := by
    intro q r hq hr hqr hi nm
    have hi' := (mesh' hq hr hqr).1 hi
    have nm' : ¬ OnMurSide Y e'.e r := fun t => nm ((mur' hqr).2 t)
    obtain ⟨c1, c2⟩ := hm.clear _ _ hq
    obtain ⟨c1', c2'⟩ := hm'.clear _ _ hr
    obtain ⟨d1, d2⟩ := hl.sourceE q r hi hi' hqr (n * R.dt)
    obtain ⟨s, hst, f1, f2, -⟩ := C73.made_exists hs ho hi
    obtain ⟨s', hst', f1', f2', -⟩ := C73.made_exists hs' ho' hi'
    have es := C64.made_unique hs' ho' hst' (hl.stuffE q r hi hi' hqr s hst)
    rw [electric_soft hs ho hi nm (hm.simple _ _ hi) c1 c2 (hm.soft _ _ hi) n, electric_soft hs' ho' hi' nm' (hm'.simple _ _ hi') c1' c2' (hm'.soft _ _ hi') n,
      rotH_same hs hm hs' hm' hl (hH n le_rfl) (hH' n le_rfl) (hw n le_rfl) hq (mur_not_back hs hi) nm hr (mur_not_back hs' hi') nm' hqr,
      hu n le_rfl q r hq hr hqr, hdt, d1, d2, f1, f2, f1', f2', es, hdt]
  intro q r hq hr hqr
  by_cases hb : AtBack X e.e q
  · have hb' := (back' hqr).1 hb
    obtain ⟨f, hf, hp⟩ := hb
    obtain ⟨f', hf', hp'⟩ := hb'
    rw [C83.metal_behind hs ho (second' hm) hf hq hp (n + 1), C83.metal_behind hs' ho' (second' hm') hf' hr hp' (n + 1)]
  have hb' : ¬ AtBack Y e'.e r := fun t => hb ((back' hqr).2 t)
  by_cases hi : SampleInMesh X e.e q
  · have hi' := (mesh' hq hr hqr).1 hi
    by_cases nm : OnMurSide X e.e q
    · -- both samples on the same end
      have x1 := C81.lo_axis p
      have x2 := C81.lo_axis p'
      have key : ∀ f f' : Face, f.axis = p → f'.axis = p' → f.isLo = f'.isLo → X.file.bt f = .mur → Y.file.bt f' = .mur →
          OnPlane (meshBox X) f e.e (q .x) (q .y) (q .z) → OnPlane (meshBox Y) f' e'.e (r .x) (r .y) (r .z) → sideCell X f = sideCell Y f' →
          value R (n + 1) e.e q = value S (n + 1) e'.e r := by
        intro f f' ef ef' il hf hf' hp hp' hsc
        obtain ⟨m1, m2, m3⟩ := mur_sample hs hm hi hf hp
        obtain ⟨m1', m2', m3'⟩ := mur_sample hs' hm' hi' hf' hp'
        obtain ⟨u1, u2⟩ := hm.mur f e q m1
        obtain ⟨u1', u2'⟩ := hm'.mur f' e' r m1'
        have sc : 0 < sideCell X f := hg.2.1 _ _
        have sc' : 0 < sideCell Y f' := hg'.2.1 _ _
        have lw := C81.mur_side hs ho hk.c0 hT sc m1 u1 u2 n
        have lw' := C81.mur_side hs' ho' hk.c0 hT' sc' m1' u1' u2' n
        have gi := mesh_grid hs m2
        have gi' := mesh_grid hs' m2'
        have hin : inwards f q p = inwards f' r p' := by
          unfold inwards
          rw [if_pos ef.symm, if_pos ef'.symm, il, hqr]
        rw [hu n le_rfl q r hq hr hqr, hu n le_rfl _ _ gi gi' hin, plain _ _ gi gi' hin m2 m3, hsc] at lw
        rw [hdt] at lw'
        exact leaving_det hk.c0 hT sc' lw lw'
      rcases (mur_along hm).1 nm with ⟨t1, t2⟩ | ⟨t1, t2⟩
      · refine key p.lo p'.lo x1.1 x2.1 (by rw [x1.2.2.1, x2.2.2.1]) t1 (by rw [← hl.low]; exact t1)
          (by rw [plane_iff, x1.1, C81.mesh_lo]; exact t2) (by rw [plane_iff, x2.1, C81.mesh_lo, ← pe hqr]; exact t2) ?_
        unfold sideCell; rw [x1.1, x2.1, x1.2.2.1, x2.2.2.1]; exact hl.lengths _
      · refine key p.hi p'.hi x1.2.1 x2.2.1 (by rw [x1.2.2.2, x2.2.2.2]) t1 (by rw [← hl.high]; exact t1)
          (by rw [plane_iff, x1.2.1, C81.mesh_hi]; exact t2) (by rw [plane_iff, x2.2.1, C81.mesh_hi, ← pe hqr, ← hl.cells]; exact t2) ?_
        unfold sideCell; rw [x1.2.1, x2.2.1, x1.2.2.2, x2.2.2.2, hl.cells]; exact hl.lengths _
    · exact plain q r hq hr hqr hi nm
  · have hi' : ¬ SampleInMesh Y e'.e r := fun t => hi ((mesh' hq hr hqr).2 t)
    obtain ⟨l1, l2⟩ := layer_of hs hm hq hb hi
    obtain ⟨l1', l2'⟩ := layer_of hs' hm' hr hb' hi'
    obtain ⟨c1, c2⟩ := hm.clear _ _ hq
    obtain ⟨c1', c2'⟩ := hm'.clear _ _ hr
    have ci := C83.continued_in hs (second' hm) l1.inside
    have ci' := C83.continued_in hs' (second' hm') l1'.inside
    obtain ⟨s, hst, -⟩ := C73.made_exists hs ho (q := continued X e.e q) ci
    have cp : continued X e.e q p = continued Y e'.e r p' := by
      unfold continued
      have z1 : pos2 e.e p 0 = 0 := by rw [C81.pos2_e, if_neg a3.symm]; rfl
      have z2 : pos2 e'.e p' 0 = 0 := by rw [C81.pos2_e, if_neg a3'.symm]; rfl
      rw [z1, z2, hqr, hl.cells]
    have hst' := hl.stuffE _ _ ci ci' cp s hst
    obtain ⟨r1, r2⟩ := hm.range _ _ l1 s hst
    obtain ⟨D, D0, eD⟩ := layer_line_E hk hs ho hT hg (second' hm) (p := p) a3.symm (fun b hb => not_pml hm hb) l1 c1 c2 hst (hm.lumped _ _ l1)
    obtain ⟨D', D0', eD'⟩ := layer_line_E hk hs' ho' hT' hg' (second' hm') (p := p') a3'.symm (fun b hb => not_pml hm' hb) l1' c1' c2' hst' (hm'.lumped _ _ l1')
    have st := same_stretch (k := k) hl (fc := e.e) (fc' := e'.e) (q := q) (r := r) (pe hqr)
    have sg := stretch_sign hs hg e.e q p
    have DD : ∀ m, m ≤ n + 1 → D m = D' m := by
      intro m
      induction m with
      | zero => intro _; rw [D0, D0']
      | succ m ih =>
        intro hmn
        have i := ih (by omega)
        have u := (eD m).1
        have u' := (eD' m).1
        rw [rotH_same hs hm hs' hm' hl (hH m (by omega)) (hH' m (by omega)) (hw m (by omega)) hq hb l2 hr hb' l2' hqr, i] at u
        rw [hdt] at u'
        exact ampere_det hk hT r1 r2 u u'
    have v := (eD n).2
    have v' := (eD' n).2
    rw [DD n (by omega), DD (n + 1) le_rfl] at v
    rw [hdt, ← st.1, ← st.2] at v'
    exact rate_det (C83.eps_pos hk) hT sg.1 sg.2 (hu n le_rfl q r hq hr hqr) (v.trans v'.symm)

include hk hs ho hT hg hm hs' ho' hg' hm' hdt hl in
theorem stays_same_H {n : ℕ} (hw : SameH X Y R S e h p e' h' p' n) (hE : DarkE X R e (n + 1)) (hE' : DarkE Y S e' (n + 1))
    (hu : SameE X Y R S e p e' p' (n + 1)) : SameH X Y R S e h p e' h' p' (n + 1) := by
  have hT' : 0 < S.dt := by rw [hdt]; exact hT
  obtain ⟨a1, a2, a3⟩ := hm.axes
  obtain ⟨a1', a2', a3'⟩ := hm'.axes
  have pe : ∀ {q r : Axis → Int}, q p = r p' → pos2 h.h p (q p) = pos2 h'.h p' (r p') := by
    intro q r hqr
    rw [C81.pos2_h, C81.pos2_h, if_neg a2.symm, if_neg a2'.symm, hqr]
  intro q r hq hr hb hb' hqr
  have rot := rotE_same hm hm' hl hE hE' hu hq hr hqr
  obtain ⟨c1, c2⟩ := hm.clear _ _ hq
  obtain ⟨c1', c2'⟩ := hm'.clear _ _ hr
  have hmesh : SampleInMesh X h.h q ↔ SampleInMesh Y h'.h r := by rw [mesh_along hm hq, mesh_along hm' hr, hl.cells, pe hqr]
  have old := hw q r hq hr hb hb' hqr
  by_cases hi : SampleInMesh X h.h q
  · have hi' := hmesh.1 hi
    obtain ⟨d1, d2⟩ := hl.sourceH q r hi hi' hqr ((n + 1 / 2) * R.dt)
    obtain ⟨s, hst, -, -, f3⟩ := C73.made_exists hs ho hi
    obtain ⟨s', hst', -, -, f3'⟩ := C73.made_exists hs' ho' hi'
    have es := C64.made_unique hs' ho' hst' (hl.stuffH q r hi hi' hqr s hst)
    rw [magnetic_soft hs ho hi c1 c2 (hm.soft _ _ hi) n, magnetic_soft hs' ho' hi' c1' c2' (hm'.soft _ _ hi') n, hdt, f3, f3', es, hdt]
    linear_combination old - (C64.coefOf k R.dt s).gamma * (rot + d2) + d1
  · have hi' : ¬ SampleInMesh Y h'.h r := fun t => hi (hmesh.2 t)
    obtain ⟨l1, l2⟩ := layer_of hs hm hq hb hi
    obtain ⟨l1', l2'⟩ := layer_of hs' hm' hr hb' hi'
    have ci := C83.continued_in hs (second' hm) l1.inside
    have ci' := C83.continued_in hs' (second' hm') l1'.inside
    obtain ⟨s, hst, -⟩ := C73.made_exists hs ho (q := continued X h.h q) ci
    have cp : continued X h.h q p = continued Y h'.h r p' := by
      unfold continued
      have z1 : pos2 h.h p 0 = 1 := by rw [C81.pos2_h, if_neg a2.symm]; rfl
      have z2 : pos2 h'.h p' 0 = 1 := by rw [C81.pos2_h, if_neg a2'.symm]; rfl
      rw [z1, z2, hqr, hl.cells]
    have hst' := hl.stuffH _ _ ci ci' cp s hst
    obtain ⟨r1, r2⟩ := hm.range _ _ l1 s hst
    obtain ⟨r1', r2'⟩ := hm'.range _ _ l1' s hst'
    have v := layer_line_H hk hs ho hT hg (second' hm) (p := p) a2.symm (fun b hb => not_pml hm hb) l1 c1 c2 hst r1 (hm.lumped _ _ l1) n
    have v' := layer_line_H hk hs' ho' hT' hg' (second' hm') (p := p') a2'.symm (fun b hb => not_pml hm' hb) l1' c1' c2' hst' r1' (hm'.lumped _ _ l1') n
    have st := same_stretch (k := k) hl (fc := h.h) (fc' := h'.h) (q := q) (r := r) (pe hqr)
    have sg := stretch_sign hs hg h.h q p
    rw [hdt, ← st.1, ← st.2] at v'
    have mu := (mu_pos hk hs ho hT hg (second' hm) r1).ne'
    have lin : ∀ (x κ σ U U' : ℝ), x * stretchedRate k.eps0 R.dt κ σ U U' = stretchedRate k.eps0 R.dt κ σ (x * U) (x * U') := by
      intro x κ σ U U'; unfold stretchedRate; ring
    refine rate_det (C83.eps_pos hk) hT sg.1 sg.2 old ?_
    rw [← lin, ← lin]
    refine mul_left_cancel₀ mu ?_
    linear_combination handed e p * v - handed e' p' * v' - rot

end two


/-! ### The theorems -/

section theorems
variable {J' : Junk} {Y : Experiment} {S : Setup.Run} {e' h' p' : Axis} {r : Axis → Int}

theorem flat (hk : Physical k) (hs : setup k J X = some R) (ho : OrdinaryBlocks X.file.cards) (hT : 0 < R.dt) (hg : GoodLayers k X)
    (hm : LineModel k X R.dt e h p) (hu : Uniform X R.dt e h p) (n : ℕ) :
    ∀ m, m ≤ n → DarkE X R e m ∧ DarkH X R h m ∧ SameE X X R R e p e p m ∧ SameH X X R R e h p e h p m := by
  induction n with
  | zero =>
    intro m hm0
    obtain rfl : m = 0 := by omega
    refine ⟨fun _ _ _ _ => rfl, fun _ _ _ _ _ => rfl, fun _ _ _ _ _ => rfl, fun _ _ _ _ _ _ _ => ?_⟩
    rw [value_zero, value_zero]
  | succ n ih =>
    intro m hmn
    rcases Nat.lt_or_ge m (n + 1) with hlt | hge
    · exact ih m (by omega)
    · obtain rfl : m = n + 1 := by omega
      have E := stays_dark_E hk hs ho hT hg hm (n := n) (fun m hm => (ih m hm).1) (fun m hm => (ih m hm).2.1) (fun m hm => (ih m hm).2.2.2)
      have U := stays_same_E hk hs ho hT hg hm hs ho hg hm rfl hu (n := n) (fun m hm => (ih m hm).2.2.1) (fun m hm => (ih m hm).2.1) (fun m hm => (ih m hm).2.1)
        (fun m hm => (ih m hm).2.2.2)
      have allE : ∀ m, m ≤ n + 1 → DarkE X R e m := by
        intro m hm
        rcases Nat.lt_or_ge m (n + 1) with hlt | hge
        · exact (ih m (by omega)).1
        · obtain rfl : m = n + 1 := by omega
          exact E
      have allU : ∀ m, m ≤ n + 1 → SameE X X R R e p e p m := by
        intro m hm
        rcases Nat.lt_or_ge m (n + 1) with hlt | hge
        · exact (ih m (by omega)).2.2.1
        · obtain rfl : m = n + 1 := by omega
          exact U
      have H := stays_dark_H hk hs ho hT hg hm (n := n) (fun m hm => (ih m hm).2.1) allE allU
      exact ⟨E, H, U, stays_same_H hk hs ho hT hg hm hs ho hg hm rfl hu (ih n le_rfl).2.2.2 E E U⟩

/-- C84: the fields of a uniform line model are those of a plane wave: only the electric component across the plates and the magnetic
component along them are ever different from zero, and they depend on the position along the line only. -/
theorem one_dimensional (hk : Physical k) (hs : setup k J X = some R) (ho : OrdinaryBlocks X.file.cards) (hT : 0 < R.dt) (hg : GoodLayers k X)
    (hm : LineModel k X R.dt e h p) (hu : Uniform X R.dt e h p) (n : ℕ) :
    (∀ a q, a ≠ e → OnGridBox X a.e q → value R n a.e q = 0) ∧
    (∀ a q, a ≠ h → OnGridBox X a.h q → ¬ AtBack X a.h q → value R n a.h q = 0) ∧
    (∀ q r, OnGridBox X e.e q → OnGridBox X e.e r → q p = r p → value R n e.e q = value R n e.e r) ∧
    (∀ q r, OnGridBox X h.h q → OnGridBox X h.h r → q p = r p → value R n h.h q = value R n h.h r) := by
  obtain ⟨f1, f2, f3, f4⟩ := flat hk hs ho hT hg hm hu n n le_rfl
  refine ⟨f1, f2, f3, fun q r hq hr hqr => ?_⟩
  have nb : ∀ q, ¬ AtBack X h.h q := by
    intro q hb
    rw [back_along hm, C81.pos2_h, if_neg hm.axes.2.1.symm] at hb
    omega
  have hne : handed e p ≠ 0 := by unfold handed; split_ifs <;> norm_num
  exact mul_left_cancel₀ hne (f4 q r hq hr (nb _) (nb _) hqr)

/-- C84: two uniform line models that say the same along their lines carry the same waves, whatever their cross sections, sides and
directions are; the magnetic field changes its sign with the handedness of the axes. -/
theorem same_waves (hk : Physical k) (hs : setup k J X = some R) (ho : OrdinaryBlocks X.file.cards) (hT : 0 < R.dt) (hg : GoodLayers k X)
    (hm : LineModel k X R.dt e h p) (hu : Uniform X R.dt e h p)
    (hs' : setup k J' Y = some S) (ho' : OrdinaryBlocks Y.file.cards) (hg' : GoodLayers k Y) (hm' : LineModel k Y S.dt e' h' p') (hu' : Uniform Y S.dt e' h' p')
    (hdt : S.dt = R.dt) (hl : SameLine X Y R.dt e h p e' h' p') (n : ℕ) :
    (∀ q r, OnGridBox X e.e q → OnGridBox Y e'.e r → q p = r p' → value R n e.e q = value S n e'.e r) ∧
    (∀ q r, OnGridBox X h.h q → OnGridBox Y h'.h r → q p = r p' → handed e p * value R n h.h q = handed e' p' * value S n h'.h r) := by
  have hT' : 0 < S.dt := by rw [hdt]; exact hT
  have F := fun n => flat hk hs ho hT hg hm hu n n le_rfl
  have F' := fun n => flat hk hs' ho' hT' hg' hm' hu' n n le_rfl
  have key : ∀ m, m ≤ n → SameE X Y R S e p e' p' m ∧ SameH X Y R S e h p e' h' p' m := by
    induction n with
    | zero =>
      intro m hm0
      obtain rfl : m = 0 := by omega
      refine ⟨fun _ _ _ _ _ => by rw [value_zero, value_zero], fun _ _ _ _ _ _ _ => by rw [value_zero, value_zero, mul_zero, mul_zero]⟩
    | succ n ih =>
      intro m hmn
      rcases Nat.lt_or_ge m (n + 1) with hlt | hge
      · exact ih m (by omega)
      · obtain rfl : m = n + 1 := by omega
        have U := stays_same_E hk hs ho hT hg hm hs' ho' hg' hm' hdt hl (n := n) (fun m hm => (ih m hm).1) (fun m _ => (F m).2.1) (fun m _ => (F' m).2.1)
          (fun m hm => (ih m hm).2)
        exact ⟨U, stays_same_H hk hs ho hT hg hm hs' ho' hg' hm' hdt hl (ih n le_rfl).2 (F (n + 1)).1 (F' (n + 1)).1 U⟩
  obtain ⟨k1, k2⟩ := key n le_rfl
  refine ⟨k1, fun q r hq hr hqr => k2 q r hq hr ?_ ?_ hqr⟩
  · intro hb
    rw [back_along hm, C81.pos2_h, if_neg hm.axes.2.1.symm] at hb
    omega
  · intro hb
    rw [back_along hm', C81.pos2_h, if_neg hm'.axes.2.1.symm] at hb
    omega

/-- C84: the waves obey the equations of a transmission line: the electric field of a sample changes with the difference of the two
magnetic samples before and behind it, through what the sample is made of. -/
theorem line_ampere (hk : Physical k) (hs : setup k J X = some R) (ho : OrdinaryBlocks X.file.cards) (hT : 0 < R.dt) (hg : GoodLayers k X)
    (hm : LineModel k X R.dt e h p) (hu : Uniform X R.dt e h p) (hi : SampleInMesh X e.e q) (nm : ¬ OnMurSide X e.e q)
    {stuff : Stuff} (hst : MadeOf X e.e (q .x) (q .y) (q .z) stuff) (n : ℕ) :
    ∃ E, value R (n + 1) e.e q = E + sourceField X R.dt (n * R.dt) e.e q ∧
      match stuff with
      | .metal => E = -value R n e.e q
      | _ => AmpereIn k R.dt (value R n e.e q) E
        (handed e p * ((value R n h.h q - value R n h.h (back q p)) / middleDistance X p (q p))) (sourceCurrent X R.dt (n * R.dt) e.e q) stuff := by
  have hq := mesh_grid hs hi
  obtain ⟨c1, c2⟩ := hm.clear _ _ hq
  obtain ⟨-, f2, -, -⟩ := flat hk hs ho hT hg hm hu n n le_rfl
  rw [← rotH_line hs hm f2 hq (mur_not_back hs hi) nm]
  exact C76.added_electric hk hs ho hT hi nm (hm.simple _ _ hi) c1 c2 (hm.soft _ _ hi) hst n

/-- C84: and the magnetic field with the difference of the two electric samples before and behind it. -/
theorem line_faraday (hk : Physical k) (hs : setup k J X = some R) (ho : OrdinaryBlocks X.file.cards) (hT : 0 < R.dt) (hg : GoodLayers k X)
    (hm : LineModel k X R.dt e h p) (hu : Uniform X R.dt e h p) (hi : SampleInMesh X h.h q)
    {stuff : Stuff} (hst : MadeOf X h.h (q .x) (q .y) (q .z) stuff) (hr : InRange k R.dt stuff) (n : ℕ) :
    ∃ H, value R (n + 1) h.h q = H + sourceField X R.dt ((n + 1 / 2) * R.dt) h.h q ∧
      FaradayWithCurrent R.dt (relPermeability stuff * k.mu0) (value R n h.h q) H
        (- handed e p * ((value R (n + 1) e.e (ahead q p) - value R (n + 1) e.e q) / cellLength X p (q p))) (sourceCurrent X R.dt ((n + 1 / 2) * R.dt) h.h q) := by
  have hq := mesh_grid hs hi
  obtain ⟨c1, c2⟩ := hm.clear _ _ hq
  obtain ⟨f1, -, -, -⟩ := flat hk hs ho hT hg hm hu (n + 1) (n + 1) le_rfl
  rw [← rotE_line hm f1 hq]
  exact C76.added_magnetic hk hs ho hT hi c1 c2 (hm.soft _ _ hi) hst hr n

end theorems

end
end Vulture.C84
