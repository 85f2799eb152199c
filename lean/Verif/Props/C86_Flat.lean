import Verif.Props.C85_Across
/- C86: models that do not change along an axis are two-dimensional. -/
set_option linter.unusedSimpArgs false
set_option linter.unusedVariables false
set_option linter.unusedSectionVars false
namespace Vulture.C86
open Vulture Spec Setup CavityLemmas Scaling C72 C84 C85

section
variable {k : Consts} {J J' : Junk} {X Y : Experiment} {R S : Setup.Run} {a b c d t : Axis} {f : Face} {q r : Axis → Int} {fc : Fc} {tm : Bool} {T : ℝ}

theorem plain_sides (hp : Plated X T d tm) : PlainSides X d := by
  intro f hf
  rcases hp.plates f hf with h | h
  · exact Or.inr (Or.inr h)
  · cases tm
    · exact Or.inr (Or.inl h)
    · exact Or.inl h

theorem some_h : (∃ b : Axis, b ≠ d ∧ a.h = b.h) ↔ a ≠ d :=
  ⟨fun ⟨b, hb, e⟩ => (by cases a <;> cases b <;> first | exact hb | cases e), fun h => ⟨a, h, rfl⟩⟩
theorem some_e : (∃ b : Axis, b ≠ d ∧ a.e = b.e) ↔ a ≠ d :=
  ⟨fun ⟨b, hb, e⟩ => (by cases a <;> cases b <;> first | exact hb | cases e), fun h => ⟨a, h, rfl⟩⟩
theorem e_h : a.e ≠ b.h := by cases a <;> cases b <;> intro h <;> cases h
theorem e_inj : a.e = b.e ↔ a = b := by cases a <;> cases b <;> decide
theorem h_inj : a.h = b.h ↔ a = b := by cases a <;> cases b <;> decide

theorem lives_e : Lives d tm a.e ↔ if tm then a = d else a ≠ d := by
  cases tm
  · simp only [Lives, Bool.false_eq_true, if_false, some_e]
    exact ⟨fun h => h.resolve_left e_h, Or.inr⟩
  · simp only [Lives, if_true, e_inj]
    exact ⟨fun h => h.resolve_right fun ⟨_, _, e⟩ => e_h e, Or.inl⟩
theorem lives_h : Lives d tm a.h ↔ if tm then a ≠ d else a = d := by
  cases tm
  · simp only [Lives, Bool.false_eq_true, if_false, h_inj]
    exact ⟨fun h => h.resolve_right fun ⟨_, _, e⟩ => e_h e.symm, Or.inl⟩
  · simp only [Lives, if_true, some_h]
    exact ⟨fun h => h.resolve_left (fun e => e_h e.symm), Or.inr⟩

theorem third (h1 : a ≠ d) : ∃ t, t ≠ a ∧ t ≠ d := by
  cases a <;> cases d <;> first | exact absurd rfl h1 | exact ⟨.x, by decide, by decide⟩ | exact ⟨.y, by decide, by decide⟩ | exact ⟨.z, by decide, by decide⟩

/-- What is shown step by step: dark samples, and samples that are the same. -/
def DarkC (X : Experiment) (R : Setup.Run) (fc : Fc) (n : ℕ) : Prop := ∀ q, OnGridBox X fc q → (fc.isE = false → ¬ AtBack X fc q) → value R n fc q = 0
def SameC (X Y : Experiment) (R S : Setup.Run) (d : Axis) (fc : Fc) (n : ℕ) : Prop :=
  ∀ q r, OnGridBox X fc q → OnGridBox Y fc r → (∀ b, b ≠ d → r b = q b) → (fc.isE = false → ¬ AtBack X fc q) → value R n fc q = value S n fc r

/-- Dark magnetic samples around an electric one. -/
theorem dark_near (h : setup k J X = some R) {n : ℕ} (hd : DarkC X R b.h n) (gq : OnGridBox X a.e q) (nb : ¬ AtBack X a.e q) (nm : ¬ OnMurSide X a.e q)
    (hab : a ≠ b) (hbc : b ≠ c) (hac : a ≠ c) : value R n b.h q = 0 ∧ value R n b.h (back q c) = 0 := by
  obtain ⟨⟨s1, q1, v1, g1, n1, -, -⟩, ⟨s2, q2, v2, g2, n2, -, -⟩⟩ := reach h gq nb nm hab hbc hac n
  rw [v1, v2, hd _ g1 (fun _ => n1), hd _ g2 (fun _ => n2), mul_zero, mul_zero]
  exact ⟨rfl, rfl⟩

/-- Living magnetic samples around an electric one, along another axis. -/
theorem same_near (h : setup k J X = some R) (h' : setup k J' Y = some S) (ha : SameAcross X Y d) (hx : PlainSides X d) (hy : PlainSides Y d) {n : ℕ}
    (he : SameC X Y R S d b.h n) (gq : OnGridBox X a.e q) (gr : OnGridBox Y a.e r) (hqr : ∀ b, b ≠ d → r b = q b) (nb : ¬ AtBack X a.e q) (nm : ¬ OnMurSide X a.e q)
    (hab : a ≠ b) (hbc : b ≠ c) (hac : a ≠ c) (hcd : c ≠ d) :
    value R n b.h q = value S n b.h r ∧ value R n b.h (back q c) = value S n b.h (back r c) := by
  have nb' : ¬ AtBack Y a.e r := fun t => nb ((back_same ha hx hy hqr).2 t)
  have nm' : ¬ OnMurSide Y a.e r := fun t => nm ((mur_same ha hx hy hqr).2 t)
  obtain ⟨⟨s1, q1, v1, g1, n1, o1, w1⟩, ⟨s2, q2, v2, g2, n2, o2, w2⟩⟩ := reach h gq nb nm hab hbc hac n
  obtain ⟨⟨s1', r1, v1', g1', -, o1', w1'⟩, ⟨s2', r2, v2', g2', -, o2', w2'⟩⟩ := reach h' gr nb' nm' hab hbc hac n
  have rc := hqr c hcd
  have x := C81.lo_axis c
  have nlo : c.lo.axis ≠ d := by rw [x.1]; exact hcd
  have nhi : c.hi.axis ≠ d := by rw [x.2.1]; exact hcd
  have bl := (box_same ha nlo).1
  have bh := (box_same ha nhi).1
  have il := image_same ha nlo
  have ih := image_same ha nhi
  have c1 : s1 = s1' ∧ q1 c = r1 c := by
    rcases w1 with ⟨w, w0, w1⟩ | ⟨w, w0, w1⟩ <;> rcases w1' with ⟨w', w0', w1'⟩ | ⟨w', w0', w1'⟩
    · exact ⟨by rw [w1, w1'], by rw [w0, w0', rc]⟩
    · exact absurd (by rw [← rc, w', bh]) w
    · exact absurd (by rw [rc, w, bh]) w'
    · exact ⟨by rw [w1, w1', ih.2], by rw [w0, w0', ih.1]⟩
  have c2 : s2 = s2' ∧ q2 c = r2 c := by
    have bq : back q c c = back r c c := by unfold back; rw [if_pos rfl, if_pos rfl, rc]
    rcases w2 with ⟨w, w0, w1⟩ | ⟨w, w0, w1⟩ <;> rcases w2' with ⟨w', w0', w1'⟩ | ⟨w', w0', w1'⟩
    · exact ⟨by rw [w1, w1'], by rw [w0, w0', bq]⟩
    · exact absurd (by rw [← rc, w', bl]) w
    · exact absurd (by rw [rc, w, bl]) w'
    · exact ⟨by rw [w1, w1', il.2], by rw [w0, w0', il.1]⟩
  have cp : ∀ q' r' : Axis → Int, (∀ z, z ≠ c → q' z = q z) → (∀ z, z ≠ c → r' z = r z) → q' c = r' c → ∀ b, b ≠ d → r' b = q' b := by
    intro q' r' h1 h2 h3 z hz
    by_cases hzc : z = c
    · rw [hzc, h3]
    · rw [h1 z hzc, h2 z hzc, hqr z hz]
  rw [v1, v2, v1', v2', c1.1, c2.1, he _ _ g1 g1' (cp _ _ o1 o1' c1.2) (fun _ => n1), he _ _ g2 g2' (cp _ _ o2 o2' c2.2) (fun _ => n2)]
  exact ⟨rfl, rfl⟩

/-- Living magnetic samples before and behind an electric one along `d` are the same between conducting plates. -/
theorem level_near (h : setup k J X = some R) (hp : Plated X T d true) {n : ℕ}
    (he : SameC X X R R d b.h n) (gq : OnGridBox X a.e q) (nb : ¬ AtBack X a.e q) (nm : ¬ OnMurSide X a.e q)
    (hab : a ≠ b) (hbd : b ≠ d) (had : a ≠ d) : value R n b.h q = value R n b.h (back q d) := by
  obtain ⟨⟨s1, q1, v1, g1, n1, o1, w1⟩, ⟨s2, q2, v2, g2, n2, o2, w2⟩⟩ := reach h gq nb nm hab hbd had n
  have x := C81.lo_axis d
  have sg : ∀ f : Face, f.axis = d → imageSign X f = 1 := by
    intro f hf
    unfold imageSign
    rcases hp.plates f hf with t | t <;> rw [t] <;> simp
  have e1 : s1 = 1 := by rcases w1 with ⟨-, -, w⟩ | ⟨-, -, w⟩ <;> rw [w]; exact sg _ x.2.1
  have e2 : s2 = 1 := by rcases w2 with ⟨-, -, w⟩ | ⟨-, -, w⟩ <;> rw [w]; exact sg _ x.1
  rw [v1, v2, e1, e2, one_mul, one_mul]
  exact he _ _ g1 g2 (fun z hz => by rw [o1 z hz, o2 z hz]) fun _ => n1

theorem isE_e {b : Axis} (t : b.e.isE = false) : False := by cases b <;> cases t

/-- The curls of dark components. -/
theorem rotH_dark (h : setup k J X = some R) (hp : Plated X T d tm) {n : ℕ} (hd : ∀ a : Axis, ¬ Lives d tm a.h → DarkC X R a.h n)
    (hu : ∀ a : Axis, Lives d tm a.h → SameC X X R R d a.h n) (hl : ¬ Lives d tm a.e) (gq : OnGridBox X a.e q) (nb : ¬ AtBack X a.e q) (nm : ¬ OnMurSide X a.e q) :
    rotH X (value R n) a q = 0 := by
  rw [lives_e] at hl
  cases tm
  · -- the electric component along d
    have e : a = d := by simpa using hl
    subst e
    have n1 : a ≠ a.next := by cases a <;> decide
    have n2 : a.next ≠ a.next.next := by cases a <;> decide
    have n3 : a ≠ a.next.next := by cases a <;> decide
    have d1 := dark_near h (hd a.next (by rw [lives_h]; simpa using n1.symm)) gq nb nm n1 n2 n3
    have d2 := dark_near h (hd a.next.next (by rw [lives_h]; simpa using n3.symm)) gq nb nm n3 n2.symm n1
    rw [rotH_turn (b := a.next) (c := a.next.next) _ n1 n2 n3, d1.1, d1.2, d2.1, d2.2]
    simp
  · have had : a ≠ d := by simpa using hl
    obtain ⟨t, ta, td⟩ := third had
    have d1 := dark_near h (hd d (by rw [lives_h]; simp)) gq nb nm (c := t) had td.symm ta.symm
    have d2 := level_near h hp (hu t (by rw [lives_h]; simpa using td)) gq nb nm ta.symm td had
    rw [rotH_turn (b := d) (c := t) _ had td.symm ta.symm, d1.1, d1.2, d2]
    simp

theorem rotE_dark {n : ℕ} (hd : ∀ a : Axis, ¬ Lives d tm a.e → DarkC X R a.e n)
    (hu : ∀ a : Axis, Lives d tm a.e → SameC X X R R d a.e n) (hl : ¬ Lives d tm a.h) (gq : OnGridBox X a.h q) :
    rotE X (value R n) a q = 0 := by
  rw [lives_h] at hl
  cases tm
  · have had : a ≠ d := by simpa using hl
    obtain ⟨t, ta, td⟩ := third had
    obtain ⟨g1, g2⟩ := around_h gq (b := d) (c := t) had td.symm ta.symm
    obtain ⟨g3, g4⟩ := around_h gq (b := t) (c := d) ta.symm td had
    have dd := hd d (by rw [lives_e]; simp)
    have uu := hu t (by rw [lives_e]; simpa using td)
    have eq := uu (ahead q d) q g4 g3 (fun z hz => by unfold ahead; rw [if_neg hz]) fun t => (isE_e t).elim
    rw [rotE_turn (b := d) (c := t) _ had td.symm ta.symm, dd _ g1 fun t => (isE_e t).elim, dd _ g2 fun t => (isE_e t).elim, eq]
    simp
  · have e : a = d := by simpa using hl
    subst e
    have n1 : a ≠ a.next := by cases a <;> decide
    have n2 : a.next ≠ a.next.next := by cases a <;> decide
    have n3 : a ≠ a.next.next := by cases a <;> decide
    obtain ⟨g1, g2⟩ := around_h gq n1 n2 n3
    obtain ⟨g3, g4⟩ := around_h gq n3 n2.symm n1
    have d1 := hd a.next (by rw [lives_e]; simpa using n1.symm)
    have d2 := hd a.next.next (by rw [lives_e]; simpa using n3.symm)
    rw [rotE_turn (b := a.next) (c := a.next.next) _ n1 n2 n3, d1 _ g1 fun t => (isE_e t).elim, d1 _ g2 fun t => (isE_e t).elim,
      d2 _ g3 fun t => (isE_e t).elim, d2 _ g4 fun t => (isE_e t).elim]
    simp

/-- The curls of living components. -/
theorem rotH_live (h : setup k J X = some R) (h' : setup k J' Y = some S) (ha : SameAcross X Y d) (hx : PlainSides X d) (hy : PlainSides Y d) {n : ℕ}
    (hd : ∀ a : Axis, ¬ Lives d tm a.h → DarkC X R a.h n) (hd' : ∀ a : Axis, ¬ Lives d tm a.h → DarkC Y S a.h n)
    (hu : ∀ a : Axis, Lives d tm a.h → SameC X Y R S d a.h n) (hl : Lives d tm a.e) (gq : OnGridBox X a.e q) (gr : OnGridBox Y a.e r)
    (hqr : ∀ b, b ≠ d → r b = q b) (nb : ¬ AtBack X a.e q) (nm : ¬ OnMurSide X a.e q) :
    rotH X (value R n) a q = rotH Y (value S n) a r := by
  have nb' : ¬ AtBack Y a.e r := fun t => nb ((back_same ha hx hy hqr).2 t)
  have nm' : ¬ OnMurSide Y a.e r := fun t => nm ((mur_same ha hx hy hqr).2 t)
  have md : ∀ b, b ≠ d → middleDistance X b (q b) = middleDistance Y b (r b) := by
    intro b hb
    unfold middleDistance
    rw [hqr b hb, ha.lengths b hb, ha.lengths b hb]
  rw [lives_e] at hl
  cases tm
  · have had : a ≠ d := by simpa using hl
    obtain ⟨t, ta, td⟩ := third had
    have d1 := dark_near h (hd t (by rw [lives_h]; simpa using td)) gq nb nm (c := d) ta.symm td had
    have d2 := dark_near h' (hd' t (by rw [lives_h]; simpa using td)) gr nb' nm' (c := d) ta.symm td had
    have s1 := same_near h h' ha hx hy (hu d (by rw [lives_h]; simp)) gq gr hqr nb nm (c := t) had td.symm ta.symm td
    rw [rotH_turn (b := d) (c := t) _ had td.symm ta.symm, rotH_turn (b := d) (c := t) _ had td.symm ta.symm, d1.1, d1.2, d2.1, d2.2, s1.1, s1.2, md t td]
    simp
  · have e : a = d := by simpa using hl
    subst e
    have n1 : a ≠ a.next := by cases a <;> decide
    have n2 : a.next ≠ a.next.next := by cases a <;> decide
    have n3 : a ≠ a.next.next := by cases a <;> decide
    have s1 := same_near h h' ha hx hy (hu a.next (by rw [lives_h]; simpa using n1.symm)) gq gr hqr nb nm n1 n2 n3 n3.symm
    have s2 := same_near h h' ha hx hy (hu a.next.next (by rw [lives_h]; simpa using n3.symm)) gq gr hqr nb nm n3 n2.symm n1 n1.symm
    rw [rotH_turn (b := a.next) (c := a.next.next) _ n1 n2 n3, rotH_turn (b := a.next) (c := a.next.next) _ n1 n2 n3, s1.1, s1.2, s2.1, s2.2,
      md _ n1.symm, md _ n3.symm]

theorem rotE_live (ha : SameAcross X Y d) {n : ℕ}
    (hd : ∀ a : Axis, ¬ Lives d tm a.e → DarkC X R a.e n) (hd' : ∀ a : Axis, ¬ Lives d tm a.e → DarkC Y S a.e n)
    (hu : ∀ a : Axis, Lives d tm a.e → SameC X Y R S d a.e n) (hl : Lives d tm a.h) (gq : OnGridBox X a.h q) (gr : OnGridBox Y a.h r)
    (hqr : ∀ b, b ≠ d → r b = q b) : rotE X (value R n) a q = rotE Y (value S n) a r := by
  have cl : ∀ b, b ≠ d → cellLength X b (q b) = cellLength Y b (r b) := by
    intro b hb
    rw [hqr b hb, ha.lengths b hb]
  have ah : ∀ c, ∀ b, b ≠ d → ahead r c b = ahead q c b := by
    intro c b hb
    unfold ahead
    rw [hqr b hb]
  rw [lives_h] at hl
  cases tm
  · have e : a = d := by simpa using hl
    subst e
    have n1 : a ≠ a.next := by cases a <;> decide
    have n2 : a.next ≠ a.next.next := by cases a <;> decide
    have n3 : a ≠ a.next.next := by cases a <;> decide
    obtain ⟨g1, g2⟩ := around_h gq n1 n2 n3
    obtain ⟨g3, g4⟩ := around_h gq n3 n2.symm n1
    obtain ⟨g1', g2'⟩ := around_h gr n1 n2 n3
    obtain ⟨g3', g4'⟩ := around_h gr n3 n2.symm n1
    have u1 := hu a.next (by rw [lives_e]; simpa using n1.symm)
    have u2 := hu a.next.next (by rw [lives_e]; simpa using n3.symm)
    rw [rotE_turn (b := a.next) (c := a.next.next) _ n1 n2 n3, rotE_turn (b := a.next) (c := a.next.next) _ n1 n2 n3,
      u1 _ _ g1 g1' hqr fun t => (isE_e t).elim, u1 _ _ g2 g2' (ah _) fun t => (isE_e t).elim,
      u2 _ _ g3 g3' hqr fun t => (isE_e t).elim, u2 _ _ g4 g4' (ah _) fun t => (isE_e t).elim, cl _ n1.symm, cl _ n3.symm]
  · have had : a ≠ d := by simpa using hl
    obtain ⟨t, ta, td⟩ := third had
    obtain ⟨g1, g2⟩ := around_h gq (b := d) (c := t) had td.symm ta.symm
    obtain ⟨g3, g4⟩ := around_h gq (b := t) (c := d) ta.symm td had
    obtain ⟨g1', g2'⟩ := around_h gr (b := d) (c := t) had td.symm ta.symm
    obtain ⟨g3', g4'⟩ := around_h gr (b := t) (c := d) ta.symm td had
    have d1 := hd t (by rw [lives_e]; simpa using td)
    have d2 := hd' t (by rw [lives_e]; simpa using td)
    have u1 := hu d (by rw [lives_e]; simp)
    rw [rotE_turn (b := d) (c := t) _ had td.symm ta.symm, rotE_turn (b := d) (c := t) _ had td.symm ta.symm,
      d1 _ g3 fun t => (isE_e t).elim, d1 _ g4 fun t => (isE_e t).elim, d2 _ g3' fun t => (isE_e t).elim, d2 _ g4' fun t => (isE_e t).elim,
      u1 _ _ g1 g1' hqr fun t => (isE_e t).elim, u1 _ _ g2 g2' (ah _) fun t => (isE_e t).elim, cl _ td]
    simp

/-! ### The steps -/

def Flat (X : Experiment) (T : ℝ) (d : Axis) (tm : Bool) : Prop := SameSection X X T d tm

/-- Dark components, and living ones that are the same, in a step. -/
def Holds (X : Experiment) (R : Setup.Run) (d : Axis) (tm : Bool) (n : ℕ) : Prop :=
  ∀ a : Axis, (¬ Lives d tm a.e → DarkC X R a.e n) ∧ (¬ Lives d tm a.h → DarkC X R a.h n)
def Same (X Y : Experiment) (R S : Setup.Run) (d : Axis) (tm : Bool) (n : ℕ) : Prop :=
  ∀ a : Axis, (Lives d tm a.e → SameC X Y R S d a.e n) ∧ (Lives d tm a.h → SameC X Y R S d a.h n)

section
variable (hk : Physical k) (hT : 0 < R.dt) (h : setup k J X = some R) (ho : OrdinaryBlocks X.file.cards) (hg : GoodLayers k X) (hm : PlainModel k X R.dt)
  (hp : Plated X R.dt d tm)
include hk hT h ho hg hm hp

theorem dark_E {n : ℕ} (hD : ∀ m, m ≤ n → Holds X R d tm m) (hU : ∀ m, m ≤ n → Same X X R R d tm m) (hl : ¬ Lives d tm a.e) : DarkC X R a.e (n + 1) := by
  intro q gq _
  have self : SameAcross X X d := ⟨fun _ _ => rfl, fun _ _ _ => rfl, fun _ _ => ⟨rfl, rfl, rfl⟩⟩
  have hs := plain_sides hp
  have eq : ∀ q r : Axis → Int, Agree d (fun i j => i = j) q r → q = r := by
    intro q r hqr
    funext b
    by_cases hb : b = d
    · rw [hb]; exact hqr.2
    · exact (hqr.1 b hb).symm
  have := step_E (a := a) (P := fun i j => i = j) hk hT rfl h ho hg hm h ho hg hm self hs hs 0 n
    (fun q r _ _ hqr s hst => by rw [← eq q r hqr]; exact hst)
    (fun q r hi _ _ => by rw [zero_mul, zero_mul]; exact hp.dark _ _ hl hi _)
    (fun m hmn q r gq gr hqr nb nm => by
      rw [zero_mul]; exact rotH_dark h hp (fun a => (hD m hmn a).2) (fun a => (hU m hmn a).2) hl gq nb nm)
    (fun q r gq gr hqr => by rw [zero_mul]; exact (hD n le_rfl a).1 hl q gq fun t => (isE_e t).elim) q q gq gq ⟨fun _ _ => rfl, rfl⟩
  rw [this, zero_mul]

theorem dark_H {n : ℕ} (hD : ∀ m, m ≤ n → Holds X R d tm m) (hDE : ∀ m, m ≤ n + 1 → ∀ a : Axis, ¬ Lives d tm a.e → DarkC X R a.e m)
    (hU : ∀ m, m ≤ n + 1 → ∀ a : Axis, Lives d tm a.e → SameC X X R R d a.e m) (hl : ¬ Lives d tm a.h) : DarkC X R a.h (n + 1) := by
  intro q gq nb
  have isH : a.h.isE = false := by cases a <;> rfl
  have self : SameAcross X X d := ⟨fun _ _ => rfl, fun _ _ _ => rfl, fun _ _ => ⟨rfl, rfl, rfl⟩⟩
  have hs := plain_sides hp
  have eq : ∀ q r : Axis → Int, Agree d (fun i j => i = j) q r → q = r := by
    intro q r hqr
    funext b
    by_cases hb : b = d
    · rw [hb]; exact hqr.2
    · exact (hqr.1 b hb).symm
  have := step_H (a := a) (P := fun i j => i = j) hk hT rfl h ho hg hm h ho hg hm self hs hs 0 n
    (fun q r _ _ hqr s hst => by rw [← eq q r hqr]; exact hst)
    (fun q r hi _ _ => by rw [zero_mul, zero_mul]; exact hp.dark _ _ hl hi _)
    (fun m hmn q r gq gr hqr => by
      rw [zero_mul]; exact rotE_dark (hDE (m + 1) (by omega)) (hU (m + 1) (by omega)) hl gq)
    (fun q r gq gr hqr nb => by rw [zero_mul]; exact (hD n le_rfl a).2 hl q gq fun _ => nb) q q gq gq ⟨fun _ _ => rfl, rfl⟩ (nb isH)
  rw [this, zero_mul]

variable (hdt : S.dt = R.dt) (h' : setup k J' Y = some S) (ho' : OrdinaryBlocks Y.file.cards) (hg' : GoodLayers k Y) (hm' : PlainModel k Y S.dt)
  (hp' : Plated Y S.dt d tm) (hf : SameSection X Y R.dt d tm)
include hdt h' ho' hg' hm' hp' hf

theorem same_E {n : ℕ} (hD : ∀ m, m ≤ n → Holds X R d tm m) (hD' : ∀ m, m ≤ n → Holds Y S d tm m) (hU : ∀ m, m ≤ n → Same X Y R S d tm m)
    (hl : Lives d tm a.e) : SameC X Y R S d a.e (n + 1) := by
  intro q r gq gr hqr _
  rw [← one_mul (value S (n + 1) a.e r)]
  exact step_E (a := a) (P := fun _ _ => True) hk hT hdt h ho hg hm h' ho' hg' hm' hf.across (plain_sides hp) (plain_sides hp') 1 n
    (fun q r hi hi' hqr => hf.stuff _ q r hl hi hi' hqr.1) (fun q r hi hi' hqr => by rw [one_mul, one_mul]; exact hf.source _ q r hl hi hi' hqr.1 _)
    (fun m hmn q r gq gr hqr nb nm => by
      rw [one_mul]; exact rotH_live h h' hf.across (plain_sides hp) (plain_sides hp') (fun a => (hD m hmn a).2) (fun a => (hD' m hmn a).2)
        (fun a => (hU m hmn a).2) hl gq gr hqr.1 nb nm)
    (fun q r gq gr hqr => by rw [one_mul]; exact (hU n le_rfl a).1 hl q r gq gr hqr.1 fun t => (isE_e t).elim) q r gq gr ⟨hqr, trivial⟩

theorem same_H {n : ℕ} (hDE : ∀ m, m ≤ n + 1 → ∀ a : Axis, ¬ Lives d tm a.e → DarkC X R a.e m)
    (hDE' : ∀ m, m ≤ n + 1 → ∀ a : Axis, ¬ Lives d tm a.e → DarkC Y S a.e m) (hU : ∀ m, m ≤ n → Same X Y R S d tm m)
    (hUE : ∀ m, m ≤ n + 1 → ∀ a : Axis, Lives d tm a.e → SameC X Y R S d a.e m)
    (hl : Lives d tm a.h) : SameC X Y R S d a.h (n + 1) := by
  intro q r gq gr hqr nb
  have isH : a.h.isE = false := by cases a <;> rfl
  rw [← one_mul (value S (n + 1) a.h r)]
  exact step_H (a := a) (P := fun _ _ => True) hk hT hdt h ho hg hm h' ho' hg' hm' hf.across (plain_sides hp) (plain_sides hp') 1 n
    (fun q r hi hi' hqr => hf.stuff _ q r hl hi hi' hqr.1) (fun q r hi hi' hqr => by rw [one_mul, one_mul]; exact hf.source _ q r hl hi hi' hqr.1 _)
    (fun m hmn q r gq gr hqr => by
      rw [one_mul]; exact rotE_live hf.across (hDE (m + 1) (by omega)) (hDE' (m + 1) (by omega)) (hUE (m + 1) (by omega)) hl gq gr hqr.1)
    (fun q r gq gr hqr nb => by rw [one_mul]; exact (hU n le_rfl a).2 hl q r gq gr hqr.1 fun _ => nb) q r gq gr ⟨hqr, trivial⟩ (nb isH)
end

theorem upto {P : ℕ → Prop} {n : ℕ} (h : ∀ m, m ≤ n → P m) (h' : P (n + 1)) : ∀ m, m ≤ n + 1 → P m := by
  intro m hm
  rcases Nat.lt_or_ge m (n + 1) with hlt | hge
  · exact h m (by omega)
  · obtain rfl : m = n + 1 := by omega
    exact h'

/-- All steps of one model. -/
theorem all_flat (hk : Physical k) (hT : 0 < R.dt) (h : setup k J X = some R) (ho : OrdinaryBlocks X.file.cards) (hg : GoodLayers k X)
    (hm : PlainModel k X R.dt) (hp : Plated X R.dt d tm) (hf : SameSection X X R.dt d tm) (n : ℕ) :
    ∀ m, m ≤ n → Holds X R d tm m ∧ Same X X R R d tm m := by
  induction n with
  | zero =>
    intro m hm0
    obtain rfl : m = 0 := by omega
    exact ⟨fun a => ⟨fun _ _ _ _ => rfl, fun _ _ _ _ => rfl⟩, fun a => ⟨fun _ _ _ _ _ _ _ => rfl, fun _ _ _ _ _ _ _ => rfl⟩⟩
  | succ n ih =>
    have hD := fun m hm => (ih m hm).1
    have hU := fun m hm => (ih m hm).2
    have E1 : ∀ a : Axis, ¬ Lives d tm a.e → DarkC X R a.e (n + 1) := fun a hl => dark_E hk hT h ho hg hm hp hD hU hl
    have E2 : ∀ a : Axis, Lives d tm a.e → SameC X X R R d a.e (n + 1) := fun a hl => same_E hk hT h ho hg hm hp rfl h ho hg hm hp hf hD hD hU hl
    have A1 := upto (P := fun m => ∀ a : Axis, ¬ Lives d tm a.e → DarkC X R a.e m) (fun m hm a => (hD m hm a).1) E1
    have A2 := upto (P := fun m => ∀ a : Axis, Lives d tm a.e → SameC X X R R d a.e m) (fun m hm a => (hU m hm a).1) E2
    refine upto ih ⟨fun a => ⟨E1 a, fun hl => dark_H hk hT h ho hg hm hp hD A1 A2 hl⟩, fun a => ⟨E2 a, fun hl => ?_⟩⟩
    exact same_H hk hT h ho hg hm hp rfl h ho hg hm hp hf A1 A1 hU A2 hl

/-- C86: the fields of a model whose material and sources do not change along `d` between plates or periodic sides are two-dimensional:
three components are zero in all steps, in the absorbing layers too, and the others do not change along `d`. -/
theorem two_dimensional (hk : Physical k) (hT : 0 < R.dt) (h : setup k J X = some R) (ho : OrdinaryBlocks X.file.cards) (hg : GoodLayers k X)
    (hm : PlainModel k X R.dt) (hp : Plated X R.dt d tm) (hf : SameSection X X R.dt d tm) (n : ℕ) (fc : Fc) :
    (¬ Lives d tm fc → ∀ q, OnGridBox X fc q → (fc.isE = false → ¬ AtBack X fc q) → value R n fc q = 0) ∧
    (Lives d tm fc → ∀ q r, OnGridBox X fc q → OnGridBox X fc r → (∀ b, b ≠ d → r b = q b) → (fc.isE = false → ¬ AtBack X fc q) →
      value R n fc q = value R n fc r) := by
  obtain ⟨h1, h2⟩ := all_flat hk hT h ho hg hm hp hf n n le_rfl
  cases fc
  · exact ⟨(h1 .x).1, (h2 .x).1⟩
  · exact ⟨(h1 .y).1, (h2 .y).1⟩
  · exact ⟨(h1 .z).1, (h2 .z).1⟩
  · exact ⟨(h1 .x).2, (h2 .x).2⟩
  · exact ⟨(h1 .y).2, (h2 .y).2⟩
  · exact ⟨(h1 .z).2, (h2 .z).2⟩

/-- C86: two such models with the same cross section have the same fields, however many cells of whatever sizes they have along `d` and
whether the sides there are plates or periodic. -/
theorem thickness_free (hk : Physical k) (hT : 0 < R.dt) (h : setup k J X = some R) (ho : OrdinaryBlocks X.file.cards) (hg : GoodLayers k X)
    (hm : PlainModel k X R.dt) (hp : Plated X R.dt d tm) (hf : SameSection X X R.dt d tm)
    (hdt : S.dt = R.dt) (h' : setup k J' Y = some S) (ho' : OrdinaryBlocks Y.file.cards) (hg' : GoodLayers k Y)
    (hm' : PlainModel k Y S.dt) (hp' : Plated Y S.dt d tm) (hf' : SameSection Y Y S.dt d tm) (hxy : SameSection X Y R.dt d tm) (n : ℕ) (fc : Fc) (hl : Lives d tm fc)
    (q r : Axis → Int) (hq : OnGridBox X fc q) (hr : OnGridBox Y fc r) (hqr : ∀ b, b ≠ d → r b = q b) (hb : fc.isE = false → ¬ AtBack X fc q) :
    value R n fc q = value S n fc r := by
  have hT' : 0 < S.dt := by rw [hdt]; exact hT
  have F := fun n => (all_flat hk hT h ho hg hm hp hf n n le_rfl).1
  have F' := fun n => (all_flat hk hT' h' ho' hg' hm' hp' hf' n n le_rfl).1
  have key : ∀ m, m ≤ n → Same X Y R S d tm m := by
    induction n with
    | zero =>
      intro m hm0
      obtain rfl : m = 0 := by omega
      exact fun a => ⟨fun _ _ _ _ _ _ _ => by rw [value_zero, value_zero], fun _ _ _ _ _ _ _ => by rw [value_zero, value_zero]⟩
    | succ n ih =>
      have E2 : ∀ a : Axis, Lives d tm a.e → SameC X Y R S d a.e (n + 1) :=
        fun a hl => same_E hk hT h ho hg hm hp hdt h' ho' hg' hm' hp' hxy (fun m _ => F m) (fun m _ => F' m) ih hl
      have A2 := upto (P := fun m => ∀ a : Axis, Lives d tm a.e → SameC X Y R S d a.e m) (fun m hm a => (ih m hm a).1) E2
      refine upto ih fun a => ⟨E2 a, fun hl => ?_⟩
      exact same_H hk hT h ho hg hm hp hdt h' ho' hg' hm' hp' hxy (fun m _ a => (F m a).1) (fun m _ a => (F' m a).1) ih A2 hl
  have K := key n le_rfl
  cases fc
  · exact (K .x).1 hl q r hq hr hqr hb
  · exact (K .y).1 hl q r hq hr hqr hb
  · exact (K .z).1 hl q r hq hr hqr hb
  · exact (K .x).2 hl q r hq hr hqr hb
  · exact (K .y).2 hl q r hq hr hqr hb
  · exact (K .z).2 hl q r hq hr hqr hb

end
end Vulture.C86
