import Verif.Props.C84_Layer
/- C84: plane waves between plates are one-dimensional. -/
set_option linter.unusedSimpArgs false
set_option linter.unusedVariables false
set_option linter.unusedSectionVars false
namespace Vulture.C84
open Vulture Spec Setup CavityLemmas Scaling C72

section
variable {k : Consts} {J : Junk} {X : Experiment} {R : Setup.Run} {a b c e h p : Axis} {f : Face} {q : Axis → Int}

theorem not_pml (hm : LineModel k X R.dt e h p) {b : Axis} (hb : b ≠ p) : X.file.bt b.lo ≠ .pml ∧ X.file.bt b.hi ≠ .pml := by
  obtain ⟨h1, h2, h3⟩ := hm.axes
  have cov : b = e ∨ b = h := by
    cases e <;> cases h <;> first | exact absurd rfl h1 | (cases p <;> first | exact absurd rfl h2 | exact absurd rfl h3 | (cases b <;> first | exact absurd rfl hb | exact Or.inl rfl | exact Or.inr rfl))
  have x := C81.lo_axis b
  rcases cov with rfl | rfl
  · rcases hm.plates _ x.1 with t | t <;> rcases hm.plates _ x.2.1 with u | u <;> rw [t, u] <;> decide
  · rcases hm.sides _ x.1 with t | t <;> rcases hm.sides _ x.2.1 with u | u <;> rw [t, u] <;> decide

theorem ends_only (hm : LineModel k X R.dt e h p) (hf : X.file.bt f = .pml ∨ X.file.bt f = .mur) : f.axis = p := by
  by_contra hne
  obtain ⟨h1, h2, h3⟩ := hm.axes
  have cov : f.axis = e ∨ f.axis = h := by
    generalize f.axis = b at hne
    cases e <;> cases h <;> first | exact absurd rfl h1 | (cases p <;> first | exact absurd rfl h2 | exact absurd rfl h3 | (cases b <;> first | exact absurd rfl hne | exact Or.inl rfl | exact Or.inr rfl))
  rcases cov with e1 | e1
  · rcases hm.plates f e1 with t | t <;> rw [t] at hf <;> rcases hf with h | h <;> cases h
  · rcases hm.sides f e1 with t | t <;> rw [t] at hf <;> rcases hf with h | h <;> cases h

theorem second' (hm : LineModel k X R.dt e h p) : ∀ b, X.file.bt b.lo = .pml → 2 ≤ cellsOf X.file b := by
  intro b hb
  have := ends_only hm (Or.inl hb)
  rw [(C81.lo_axis b).1] at this
  rw [this] at hb ⊢
  exact hm.second hb

/-- A sample in the plane of a face where the side is neither absorbing. -/
theorem side_type (hs : setup k J X = some R) (hac : a ≠ c) (hf : f.axis = c) (hq : q c = gridBox X f) (nb : ¬ AtBack X a.e q) (nm : ¬ OnMurSide X a.e q) :
    X.file.bt f = .pec ∨ X.file.bt f = .pmc ∨ X.file.bt f = .periodic := by
  have pl : ∀ B : BBox, B f = gridBox X f → OnPlane B f a.e (q .x) (q .y) (q .z) := by
    intro B hB
    rw [plane_iff, hf, C81.pos2_e, if_neg hac.symm, hq, hB]
  rcases hb : X.file.bt f with _ | _ | _ | _ | _
  · exact Or.inl rfl
  · exact Or.inr (Or.inl rfl)
  · exact Or.inr (Or.inr rfl)
  · exact absurd ⟨f, hb, pl _ rfl⟩ nb
  · refine absurd ⟨f, hb, pl _ ?_⟩ nm
    unfold gridBox
    rw [if_neg (by rw [hb]; decide), add_zero]

theorem image_in (hs : setup k J X = some R) (f : Face) : gridBox X f.axis.lo ≤ imageAt X f ∧ imageAt X f < gridBox X f.axis.hi := by
  have g := grid_le hs f.axis
  have x := C81.lo_axis f.axis
  have e : f = f.axis.lo ∨ f = f.axis.hi := by cases f <;> first | exact Or.inl rfl | exact Or.inr rfl
  unfold imageAt
  rcases e with e | e
  · have il : f.isLo = true := by rw [e]; exact x.2.2.1
    rw [il]
    have : gridBox X f = gridBox X f.axis.lo := by rw [← e]
    simp only [if_true]
    split_ifs <;> omega
  · have il : f.isLo = false := by rw [e]; exact x.2.2.2
    rw [il]
    have : gridBox X f = gridBox X f.axis.hi := by rw [← e]
    simp only [Bool.false_eq_true, if_false]
    split_ifs <;> omega

/-- The magnetic samples around an electric one, traced back to samples of the grid. -/
theorem reach (hs : setup k J X = some R) (hq : OnGridBox X a.e q) (nb : ¬ AtBack X a.e q) (nm : ¬ OnMurSide X a.e q)
    (hab : a ≠ b) (hbc : b ≠ c) (hac : a ≠ c) (n : ℕ) :
    (∃ s q', value R n b.h q = s * value R n b.h q' ∧ OnGridBox X b.h q' ∧ ¬ AtBack X b.h q' ∧ (∀ d, d ≠ c → q' d = q d) ∧
      ((q c ≠ gridBox X c.hi ∧ q' = q ∧ s = 1) ∨ (q c = gridBox X c.hi ∧ q' c = imageAt X c.hi ∧ s = imageSign X c.hi))) ∧
    (∃ s q', value R n b.h (back q c) = s * value R n b.h q' ∧ OnGridBox X b.h q' ∧ ¬ AtBack X b.h q' ∧ (∀ d, d ≠ c → q' d = q d) ∧
      ((q c ≠ gridBox X c.lo ∧ q' = back q c ∧ s = 1) ∨ (q c = gridBox X c.lo ∧ q' c = imageAt X c.lo ∧ s = imageSign X c.lo))) := by
  have gq := grid_iff.1 hq
  have bo : ∀ d, d ≠ c → back q c d = q d := by intro d hd; unfold back; rw [if_neg hd]
  -- a magnetic sample with the same coordinates along the other axes is not at the back
  have notback : ∀ q' : Axis → Int, (∀ d, d ≠ c → q' d = q d) → ¬ AtBack X b.h q' := by
    rintro q' hq' ⟨f, hf, hp⟩
    rw [plane_iff, C81.pos2_h] at hp
    by_cases e : f.axis = b
    · rw [if_pos e, e, hq' b hbc] at hp
      refine nb ⟨f, hf, ?_⟩
      rw [plane_iff, e, C81.pos2_e, if_neg hab.symm]
      exact hp
    · rw [if_neg e] at hp; omega
  have ext : ∀ q' : Axis → Int, (∀ d, d ≠ c → q' d = q d) → ∀ d, d ≠ c → gridBox X d.lo - 1 ≤ q' d ∧ q' d ≤ gridBox X d.hi := by
    intro q' hq' d hd
    rw [hq' d hd]
    have := gq d
    rw [C81.pos2_e] at this
    split_ifs at this <;> omega
  have inn : ∀ (q' : Axis → Int), (∀ d, d ≠ c → q' d = q d) → gridBox X c.lo ≤ q' c → q' c < gridBox X c.hi → OnGridBox X b.h q' := by
    intro q' hq' l1 l2
    rw [grid_iff]
    intro d
    rw [C81.pos2_h]
    by_cases hd : d = c
    · subst hd; rw [if_neg hbc.symm]; omega
    · rw [hq' d hd]
      have := gq d
      rw [C81.pos2_e] at this
      by_cases hdb : d = b
      · subst hdb; rw [if_pos rfl]; rw [if_neg hab.symm] at this; omega
      · have : d = a := by
          cases a <;> cases b <;> first | exact absurd rfl hab | (cases c <;> first | exact absurd rfl hac | exact absurd rfl hbc | (cases d <;> first | rfl | exact absurd rfl hd | exact absurd rfl hdb))
        subst this
        rw [if_pos rfl] at *
        rw [if_neg hdb]; omega
  have x := C81.lo_axis c
  obtain ⟨A1, A2⟩ := around hq hab hbc hac
  constructor
  · rcases A1 with g | ⟨g1, g2⟩
    · refine ⟨1, q, (one_mul _).symm, g, notback q fun _ _ => rfl, fun _ _ => rfl, Or.inl ⟨?_, rfl, rfl⟩⟩
      have := grid_iff.1 g c
      rw [C81.pos2_h, if_neg hbc.symm] at this
      omega
    · have t := side_type hs hac x.2.1 g1 nb nm
      have gh := ghost hs t g2 (by rw [x.2.1]; exact ext q fun _ _ => rfl) n
      rw [x.2.1] at gh
      have im := image_in hs c.hi
      rw [x.2.1] at im
      refine ⟨_, _, gh, inn _ (fun d hd => put_other q hd _) (by rw [put_same]; exact im.1) (by rw [put_same]; exact im.2),
        notback _ fun d hd => put_other q hd _, fun d hd => put_other q hd _, Or.inr ⟨g1, put_same _ _ _, rfl⟩⟩
  · rcases A2 with g | ⟨g1, g2⟩
    · refine ⟨1, back q c, (one_mul _).symm, g, notback _ bo, bo, Or.inl ⟨?_, rfl, rfl⟩⟩
      have := grid_iff.1 g c
      have bc : back q c c = q c - 1 := by unfold back; rw [if_pos rfl]
      rw [C81.pos2_h, if_neg hbc.symm, bc] at this
      omega
    · have t := side_type hs hac x.1 g1 nb nm
      have gh := ghost hs t g2 (by rw [x.1]; exact ext _ bo) n
      rw [x.1] at gh
      have im := image_in hs c.lo
      rw [x.1] at im
      have po : ∀ d, d ≠ c → C81.put (back q c) c (imageAt X c.lo) d = q d := fun d hd => (put_other _ hd _).trans (bo d hd)
      refine ⟨_, _, gh, inn _ po (by rw [put_same]; exact im.1) (by rw [put_same]; exact im.2),
        notback _ po, po, Or.inr ⟨g1, put_same _ _ _, rfl⟩⟩

/-! ### What is shown step by step -/

/-- The electric, magnetic components across are dark. -/
def DarkE (X : Experiment) (R : Setup.Run) (e : Axis) (n : ℕ) : Prop := ∀ a q, a ≠ e → OnGridBox X a.e q → value R n a.e q = 0
def DarkH (X : Experiment) (R : Setup.Run) (h : Axis) (n : ℕ) : Prop := ∀ a q, a ≠ h → OnGridBox X a.h q → ¬ AtBack X a.h q → value R n a.h q = 0
/-- Two runs carry the same waves. -/
def SameE (X Y : Experiment) (R S : Setup.Run) (e p e' p' : Axis) (n : ℕ) : Prop :=
  ∀ q r, OnGridBox X e.e q → OnGridBox Y e'.e r → q p = r p' → value R n e.e q = value S n e'.e r
def SameH (X Y : Experiment) (R S : Setup.Run) (e h p e' h' p' : Axis) (n : ℕ) : Prop :=
  ∀ q r, OnGridBox X h.h q → OnGridBox Y h'.h r → ¬ AtBack X h.h q → ¬ AtBack Y h'.h r → q p = r p' →
    handed e p * value R n h.h q = handed e' p' * value S n h'.h r

theorem mur_not_back (hs : setup k J X = some R) {fc : Fc} (hi : SampleInMesh X fc q) : ¬ AtBack X fc q := by
  rintro ⟨f, hf, hp⟩
  exact C83.behind_outside hs hf hp hi

/-- Magnetic components across are also dark half a cell outside. -/
theorem dark_around (hs : setup k J X = some R) {n : ℕ} (hd : DarkH X R h n) (hq : OnGridBox X a.e q) (nb : ¬ AtBack X a.e q) (nm : ¬ OnMurSide X a.e q)
    (hab : a ≠ b) (hbc : b ≠ c) (hac : a ≠ c) (hb : b ≠ h) : value R n b.h q = 0 ∧ value R n b.h (back q c) = 0 := by
  obtain ⟨⟨s, q', v, g, nb', -, -⟩, ⟨s2, q2, v2, g2, nb2, -, -⟩⟩ := reach hs hq nb nm hab hbc hac n
  rw [v, v2, hd b q' hb g nb', hd b q2 hb g2 nb2]
  simp

/-- The curl that drives electric components across is zero. -/
theorem rotH_dark (hs : setup k J X = some R) (hm : LineModel k X R.dt e h p) {n : ℕ} (hd : DarkH X R h n) (hu : SameH X X R R e h p e h p n)
    (ha : a ≠ e) (hq : OnGridBox X a.e q) (nb : ¬ AtBack X a.e q) (nm : ¬ OnMurSide X a.e q) : rotH X (value R n) a q = 0 := by
  obtain ⟨h1, h2, h3⟩ := hm.axes
  by_cases hah : a = h
  · subst hah
    have d1 := dark_around hs hd hq nb nm (b := e) (c := p) h1.symm h3 h2 h1
    have d2 := dark_around hs hd hq nb nm (b := p) (c := e) h2 h3.symm h1.symm h2.symm
    rw [rotH_turn (b := e) (c := p) _ h1.symm h3 h2, d1.1, d1.2, d2.1, d2.2]
    simp
  · have hap : a = p := by
      cases e <;> cases h <;> first | exact absurd rfl h1 | (cases p <;> first | exact absurd rfl h2 | exact absurd rfl h3 | (cases a <;> first | rfl | exact absurd rfl ha | exact absurd rfl hah))
    subst hap
    have d1 := dark_around hs hd hq nb nm (b := e) (c := h) h3.symm h1 h2.symm h1
    have sg : ∀ f : Face, f.axis = e → imageSign X f = 1 := by
      intro f hf
      unfold imageSign
      rcases hm.plates f hf with t | t <;> rw [if_neg (by rw [t]; decide)]
    obtain ⟨⟨s, q', v, g, nb', o, w⟩, ⟨s2, q2, v2, g2, nb2, o2, w2⟩⟩ := reach hs hq nb nm (b := h) (c := e) h2.symm h1.symm h3.symm n
    have s1 : s = 1 := by
      rcases w with ⟨-, -, w⟩ | ⟨-, -, w⟩
      · exact w
      · rw [w]; exact sg _ (C81.lo_axis e).2.1
    have s2' : s2 = 1 := by
      rcases w2 with ⟨-, -, w⟩ | ⟨-, -, w⟩
      · exact w
      · rw [w]; exact sg _ (C81.lo_axis e).1
    have eq := hu q' q2 g g2 nb' nb2 (by rw [o a h3.symm, o2 a h3.symm])
    have hne : handed e a ≠ 0 := by unfold handed; split_ifs <;> norm_num
    have eq := mul_left_cancel₀ hne eq
    rw [rotH_turn (b := e) (c := h) _ h3.symm h1 h2.symm, d1.1, d1.2, v, v2, s1, s2', one_mul, one_mul, eq]
    simp

/-- The curl that drives magnetic components across is zero. -/
theorem rotE_dark (hm : LineModel k X R.dt e h p) {n : ℕ} (hd : DarkE X R e n) (hu : SameE X X R R e p e p n)
    (ha : a ≠ h) (hq : OnGridBox X a.h q) : rotE X (value R n) a q = 0 := by
  obtain ⟨h1, h2, h3⟩ := hm.axes
  by_cases hae : a = e
  · subst hae
    obtain ⟨g1, g2⟩ := around_h hq h1 h2 h3
    obtain ⟨g3, g4⟩ := around_h hq h3 h2.symm h1
    rw [rotE_turn (b := h) (c := p) _ h1 h2 h3, hd h _ h1.symm g1, hd h _ h1.symm g2, hd p _ h3.symm g3, hd p _ h3.symm g4]
    simp
  · have hap : a = p := by
      cases e <;> cases h <;> first | exact absurd rfl h1 | (cases p <;> first | exact absurd rfl h2 | exact absurd rfl h3 | (cases a <;> first | rfl | exact absurd rfl ha | exact absurd rfl hae))
    subst hap
    obtain ⟨g1, g2⟩ := around_h hq h2.symm h1.symm h3.symm
    obtain ⟨g3, g4⟩ := around_h hq h3.symm h1 h2.symm
    have eq := hu (ahead q h) q g4 g3 (by unfold ahead; rw [if_neg h2.symm])
    rw [rotE_turn (b := e) (c := h) _ h3.symm h1 h2.symm, hd h _ h1.symm g1, hd h _ h1.symm g2, eq]
    simp

/-- The curls that drive the waves are differences along the line. -/
theorem rotH_line (hs : setup k J X = some R) (hm : LineModel k X R.dt e h p) {n : ℕ} (hd : DarkH X R h n)
    (hq : OnGridBox X e.e q) (nb : ¬ AtBack X e.e q) (nm : ¬ OnMurSide X e.e q) :
    rotH X (value R n) e q = handed e p * ((value R n h.h q - value R n h.h (back q p)) / middleDistance X p (q p)) := by
  obtain ⟨h1, h2, h3⟩ := hm.axes
  have d := dark_around hs hd hq nb nm (b := p) (c := h) h3 h2.symm h1 h2.symm
  rw [rotH_turn (b := p) (c := h) _ h3 h2.symm h1, d.1, d.2]
  simp

theorem rotE_line (hm : LineModel k X R.dt e h p) {n : ℕ} (hd : DarkE X R e n) (hq : OnGridBox X h.h q) :
    rotE X (value R n) h q = - handed e p * ((value R n e.e (ahead q p) - value R n e.e q) / cellLength X p (q p)) := by
  obtain ⟨h1, h2, h3⟩ := hm.axes
  obtain ⟨g1, g2⟩ := around_h hq (b := p) (c := e) h2 h3.symm h1.symm
  rw [rotE_turn (b := p) (c := e) _ h2 h3.symm h1.symm, hd p _ h3.symm g1, hd p _ h3.symm g2, handed_swap h3 h2.symm h1]
  simp

end
end Vulture.C84
