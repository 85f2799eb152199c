import Verif.Props.C85_Across
/- C85: a periodic model stands for an infinite row of copies. -/
set_option linter.unusedSimpArgs false
set_option linter.unusedVariables false
set_option linter.unusedSectionVars false
namespace Vulture.C85
open Vulture Spec Setup CavityLemmas Scaling C72 C84

section
variable {k : Consts} {J J' : Junk} {X Y : Experiment} {R S : Setup.Run} {a b c d : Axis} {f : Face} {q r : Axis → Int} {fc : Fc} {s : Int} {T : ℝ}

theorem per_sides (hp : Repeats X Y T d s) : PlainSides X d ∧ PlainSides Y d := by
  obtain ⟨p1, p2, p3, p4⟩ := hp.periodic
  constructor <;> intro f hf <;> rcases face_cases f with e | e <;> rw [hf] at e <;> subst e <;> right <;> right <;> assumption

/-- The cells of the infinite row. -/
theorem middle_wrap (hN : 0 < cellsOf X.file d) (hs : cellLength X d 0 = cellLength X d (cellsOf X.file d - 1)) {i : Int} (h0 : 0 ≤ i) (h1 : i ≤ cellsOf X.file d) :
    middleDistance X d i = (cellLength X d ((i - 1) % cellsOf X.file d) + cellLength X d (i % cellsOf X.file d)) / 2 := by
  have lo : cellLength X d (0 - 1) = cellLength X d 0 := by
    unfold cellLength; rw [show max 0 (min (cellsOf X.file d - 1) (0 - 1)) = max 0 (min (cellsOf X.file d - 1) 0) by omega]
  have hi : cellLength X d (cellsOf X.file d) = cellLength X d (cellsOf X.file d - 1) := by
    unfold cellLength
    rw [show max 0 (min (cellsOf X.file d - 1) (cellsOf X.file d)) = max 0 (min (cellsOf X.file d - 1) (cellsOf X.file d - 1)) by omega]
  unfold middleDistance
  rcases eq_or_lt_of_le h0 with e | e
  · subst e
    rw [lo, show (0 - 1 : Int) % cellsOf X.file d = cellsOf X.file d - 1 from by
      rw [← Int.add_mul_emod_self_left (0 - 1) (cellsOf X.file d) 1, Int.emod_eq_of_lt (by omega) (by omega)]; ring, Int.zero_emod, ← hs]
  rcases eq_or_lt_of_le h1 with e' | e'
  · rw [e', hi, Int.emod_self, Int.emod_eq_of_lt (by omega) (by omega), hs]
  · rw [Int.emod_eq_of_lt (by omega) (by omega), Int.emod_eq_of_lt (by omega) (by omega)]

theorem length_copy (hp : Repeats X Y T d s) (hN : 0 < cellsOf X.file d) (hN' : 0 < cellsOf Y.file d) {i j : Int} (h : cellsOf X.file d ∣ j - i - s) :
    cellLength X d (i % cellsOf X.file d) = cellLength Y d (j % cellsOf Y.file d) := by
  refine hp.lengths _ _ (Int.emod_nonneg _ (by omega)) (Int.emod_lt_of_pos _ hN) (Int.emod_nonneg _ (by omega)) (Int.emod_lt_of_pos _ hN') ?_
  obtain ⟨m, hm⟩ := h
  obtain ⟨t, ht⟩ := hp.copies
  have e1 := Int.emod_add_mul_ediv i (cellsOf X.file d)
  have e2 := Int.emod_add_mul_ediv j (cellsOf Y.file d)
  refine ⟨m - t * (j / cellsOf Y.file d) + i / cellsOf X.file d, ?_⟩
  have ht' : cellsOf Y.file d * (j / cellsOf Y.file d) = cellsOf X.file d * t * (j / cellsOf Y.file d) := by rw [← ht]
  linear_combination hm + e2 - e1 - ht'

theorem middle_copy (h : setup k J X = some R) (h' : setup k J' Y = some S) (hp : Repeats X Y T d s) {i j : Int} (h0 : 0 ≤ i) (h1 : i ≤ cellsOf X.file d)
    (h2 : 0 ≤ j) (h3 : j ≤ cellsOf Y.file d) (hc : cellsOf X.file d ∣ j - i - s) : middleDistance X d i = middleDistance Y d j := by
  have p : 0 < cellsOf X.file d := by have := (grid_le h d).2.2; omega
  have p' : 0 < cellsOf Y.file d := by have := (grid_le h' d).2.2; omega
  rw [middle_wrap p hp.seam.1 h0 h1, middle_wrap p' hp.seam.2 h2 h3, length_copy hp p p' hc,
    length_copy hp p p' (i := i - 1) (j := j - 1) (by rw [show j - 1 - (i - 1) - s = j - i - s by ring]; exact hc)]

theorem per_image (hd : PlainSides X d) (h1 : X.file.bt d.lo = .periodic) (h2 : X.file.bt d.hi = .periodic) :
    imageAt X d.hi = 0 ∧ imageAt X d.lo = cellsOf X.file d - 1 ∧ imageSign X d.lo = 1 ∧ imageSign X d.hi = 1 := by
  have x := C81.lo_axis d
  obtain ⟨b1, b2⟩ := box_d hd
  refine ⟨?_, ?_, ?_, ?_⟩
  · unfold imageAt; rw [if_pos h2, x.2.1, x.2.2.2, b1]; simp
  · unfold imageAt; rw [if_pos h1, x.1, x.2.2.1, b2]; simp
  · unfold imageSign; rw [h1]; simp
  · unfold imageSign; rw [h2]; simp

/-- What is shown step by step. -/
def Equal (X Y : Experiment) (R S : Setup.Run) (d : Axis) (s : Int) (fc : Fc) (n : ℕ) : Prop :=
  ∀ q r, OnGridBox X fc q → OnGridBox Y fc r → CopyOf (cellsOf X.file d) d s q r → (fc.isE = false → ¬ AtBack X fc q) → value R n fc q = value S n fc r

theorem near_same (h : setup k J X = some R) (h' : setup k J' Y = some S) (hp : Repeats X Y T d s) {n : ℕ} (he : ∀ a : Axis, Equal X Y R S d s a.h n)
    (gq : OnGridBox X a.e q) (gr : OnGridBox Y a.e r) (hqr : CopyOf (cellsOf X.file d) d s q r) (nb : ¬ AtBack X a.e q) (nm : ¬ OnMurSide X a.e q)
    (hab : a ≠ b) (hbc : b ≠ c) (hac : a ≠ c) :
    value R n b.h q = value S n b.h r ∧ value R n b.h (back q c) = value S n b.h (back r c) := by
  obtain ⟨d1, d2⟩ := per_sides hp
  obtain ⟨p1, p2, p3, p4⟩ := hp.periodic
  have nb' : ¬ AtBack Y a.e r := fun t => nb ((back_same hp.across d1 d2 hqr.1).2 t)
  have nm' : ¬ OnMurSide Y a.e r := fun t => nm ((mur_same hp.across d1 d2 hqr.1).2 t)
  obtain ⟨⟨s1, q1, v1, g1, n1, o1, w1⟩, ⟨s2, q2, v2, g2, n2, o2, w2⟩⟩ := reach h gq nb nm hab hbc hac n
  obtain ⟨⟨s1', r1, v1', g1', -, o1', w1'⟩, ⟨s2', r2, v2', g2', -, o2', w2'⟩⟩ := reach h' gr nb' nm' hab hbc hac n
  obtain ⟨m, hm⟩ := hqr.2
  obtain ⟨t, ht⟩ := hp.copies
  by_cases hcd : c = d
  · subst hcd
    obtain ⟨i1, i2, i3, i4⟩ := per_image d1 p1 p2
    obtain ⟨i1', i2', i3', i4'⟩ := per_image d2 p3 p4
    have bx := box_d d1
    have bx' := box_d d2
    have bq : ∀ z : Axis → Int, back z c c = z c - 1 := by intro z; unfold back; rw [if_pos rfl]
    have e1 : s1 = 1 := by rcases w1 with ⟨-, -, w⟩ | ⟨-, -, w⟩ <;> rw [w]; exact i4
    have e2 : s2 = 1 := by rcases w2 with ⟨-, -, w⟩ | ⟨-, -, w⟩ <;> rw [w]; exact i3
    have e1' : s1' = 1 := by rcases w1' with ⟨-, -, w⟩ | ⟨-, -, w⟩ <;> rw [w]; exact i4'
    have e2' : s2' = 1 := by rcases w2' with ⟨-, -, w⟩ | ⟨-, -, w⟩ <;> rw [w]; exact i3'
    have f1 : ∃ u, q1 c = q c + cellsOf X.file c * u := by
      rcases w1 with ⟨-, w, -⟩ | ⟨w, w0, -⟩
      · exact ⟨0, by rw [w]; ring⟩
      · exact ⟨-1, by rw [w, w0, i1, bx.2]; ring⟩
    have f2 : ∃ u, q2 c = q c - 1 + cellsOf X.file c * u := by
      rcases w2 with ⟨-, w, -⟩ | ⟨w, w0, -⟩
      · exact ⟨0, by rw [w, bq]; ring⟩
      · exact ⟨1, by rw [w, w0, i2, bx.1]; ring⟩
    have f1' : ∃ u, r1 c = r c + cellsOf X.file c * u := by
      rcases w1' with ⟨-, w, -⟩ | ⟨w, w0, -⟩
      · exact ⟨0, by rw [w]; ring⟩
      · exact ⟨-t, by rw [w, w0, i1', bx'.2, ht]; ring⟩
    have f2' : ∃ u, r2 c = r c - 1 + cellsOf X.file c * u := by
      rcases w2' with ⟨-, w, -⟩ | ⟨w, w0, -⟩
      · exact ⟨0, by rw [w, bq]; ring⟩
      · exact ⟨t, by rw [w, w0, i2', bx'.1, ht]; ring⟩
    obtain ⟨u1, f1⟩ := f1
    obtain ⟨u2, f2⟩ := f2
    obtain ⟨u1', f1'⟩ := f1'
    obtain ⟨u2', f2'⟩ := f2'
    rw [v1, v2, v1', v2', e1, e2, e1', e2', one_mul, one_mul, one_mul, one_mul]
    constructor
    · refine he b _ _ g1 g1' ⟨fun z hz => by rw [o1 z hz, o1' z hz, hqr.1 z hz], ⟨m + u1' - u1, ?_⟩⟩ (fun _ => n1)
      rw [f1, f1']; linear_combination hm
    · refine he b _ _ g2 g2' ⟨fun z hz => by rw [o2 z hz, o2' z hz, hqr.1 z hz], ⟨m + u2' - u2, ?_⟩⟩ (fun _ => n2)
      rw [f2, f2']; linear_combination hm
  · have rc := hqr.1 c hcd
    have x := C81.lo_axis c
    have nlo : c.lo.axis ≠ d := by rw [x.1]; exact hcd
    have nhi : c.hi.axis ≠ d := by rw [x.2.1]; exact hcd
    have bl := (box_same hp.across nlo).1
    have bh := (box_same hp.across nhi).1
    have il := image_same hp.across nlo
    have ih := image_same hp.across nhi
    have dne : d ≠ c := Ne.symm hcd
    have c1 : s1 = s1' ∧ q1 c = r1 c := by
      rcases w1 with ⟨w, w0, w1⟩ | ⟨w, w0, w1⟩ <;> rcases w1' with ⟨w', w0', w1'⟩ | ⟨w', w0', w1'⟩
      · exact ⟨by rw [w1, w1'], by rw [w0, w0', rc]⟩
      · exact absurd (by rw [← rc, w', bh]) w
      · exact absurd (by rw [rc, w, bh]) w'
      · exact ⟨by rw [w1, w1', ih.2], by rw [w0, w0', ih.1]⟩
    have c2 : s2 = s2' ∧ q2 c = r2 c := by
      have bq : back q c c = back r c c := by unfold back; rw [if_pos rfl, if_pos rfl, rc]
      rcases w2 with ⟨w, w0, w1⟩ | ⟨w, w0, w1⟩ <;> rcases w2' with ⟨w', w0', w1'⟩ | ⟨w', w0', w1'⟩
      · exact ⟨by rw [w1, w1'], by rw [w0, w0', bq]⟩
      · exact absurd (by rw [← rc, w', bl]) w
      · exact absurd (by rw [rc, w, bl]) w'
      · exact ⟨by rw [w1, w1', il.2], by rw [w0, w0', il.1]⟩
    have cp : ∀ q' r' : Axis → Int, (∀ z, z ≠ c → q' z = q z) → (∀ z, z ≠ c → r' z = r z) → q' c = r' c → CopyOf (cellsOf X.file d) d s q' r' := by
      intro q' r' h1 h2 h3
      refine ⟨fun z hz => ?_, ?_⟩
      · by_cases hzc : z = c
        · rw [hzc, h3]
        · rw [h1 z hzc, h2 z hzc, hqr.1 z hz]
      · rw [h1 d dne, h2 d dne]; exact hqr.2
    rw [v1, v2, v1', v2', c1.1, c2.1, he b _ _ g1 g1' (cp _ _ o1 o1' c1.2) (fun _ => n1), he b _ _ g2 g2' (cp _ _ o2 o2' c2.2) (fun _ => n2)]
    exact ⟨rfl, rfl⟩

theorem rotH_copy (h : setup k J X = some R) (h' : setup k J' Y = some S) (hp : Repeats X Y T d s) {n : ℕ} (he : ∀ a : Axis, Equal X Y R S d s a.h n)
    (gq : OnGridBox X a.e q) (gr : OnGridBox Y a.e r) (hqr : CopyOf (cellsOf X.file d) d s q r) (nb : ¬ AtBack X a.e q) (nm : ¬ OnMurSide X a.e q) :
    rotH X (value R n) a q = rotH Y (value S n) a r := by
  have n1 : a ≠ a.next := by cases a <;> decide
  have n2 : a.next ≠ a.next.next := by cases a <;> decide
  have n3 : a ≠ a.next.next := by cases a <;> decide
  obtain ⟨v1, v2⟩ := near_same h h' hp he gq gr hqr nb nm n1 n2 n3
  obtain ⟨v3, v4⟩ := near_same h h' hp he gq gr hqr nb nm n3 n2.symm n1
  have md : ∀ b, middleDistance X b (q b) = middleDistance Y b (r b) := by
    intro b
    by_cases hb : b = d
    · subst hb
      have g1 := grid_iff.1 gq b
      have g2 := grid_iff.1 gr b
      rw [(box_d (per_sides hp).1).1, (box_d (per_sides hp).1).2, C81.pos2_e] at g1
      rw [(box_d (per_sides hp).2).1, (box_d (per_sides hp).2).2, C81.pos2_e] at g2
      exact middle_copy h h' hp (by split_ifs at g1 <;> omega) (by split_ifs at g1 <;> omega) (by split_ifs at g2 <;> omega) (by split_ifs at g2 <;> omega) hqr.2
    · unfold middleDistance
      rw [hqr.1 b hb, hp.across.lengths b hb, hp.across.lengths b hb]
  rw [rotH_turn (b := a.next) (c := a.next.next) _ n1 n2 n3, rotH_turn (b := a.next) (c := a.next.next) _ n1 n2 n3, v1, v2, v3, v4, md, md]

theorem rotE_copy (hp : Repeats X Y T d s) {n : ℕ} (he : ∀ a : Axis, Equal X Y R S d s a.e n)
    (gq : OnGridBox X a.h q) (gr : OnGridBox Y a.h r) (hqr : CopyOf (cellsOf X.file d) d s q r) :
    rotE X (value R n) a q = rotE Y (value S n) a r := by
  have n1 : a ≠ a.next := by cases a <;> decide
  have n2 : a.next ≠ a.next.next := by cases a <;> decide
  have n3 : a ≠ a.next.next := by cases a <;> decide
  have isE : ∀ b : Axis, b.e.isE = false → False := by intro b; cases b <;> intro t <;> cases t
  have ah : ∀ c, CopyOf (cellsOf X.file d) d s (ahead q c) (ahead r c) := by
    intro c
    unfold ahead
    refine ⟨fun b hb => by dsimp only; rw [hqr.1 b hb], ?_⟩
    dsimp only
    have := hqr.2
    split_ifs
    · rw [show r d + 1 - (q d + 1) - s = r d - q d - s by ring]; exact this
    · exact this
  have cl : ∀ b, b ≠ a → cellLength X b (q b) = cellLength Y b (r b) := by
    intro b hba
    by_cases hb : b = d
    · subst hb
      have g1 := grid_iff.1 gq b
      have g2 := grid_iff.1 gr b
      rw [(box_d (per_sides hp).1).1, (box_d (per_sides hp).1).2, C81.pos2_h, if_neg hba] at g1
      rw [(box_d (per_sides hp).2).1, (box_d (per_sides hp).2).2, C81.pos2_h, if_neg hba] at g2
      exact hp.lengths _ _ (by omega) (by omega) (by omega) (by omega) hqr.2
    · rw [hqr.1 b hb, hp.across.lengths b hb]
  have v : ∀ b c, a ≠ b → b ≠ c → a ≠ c → value R n b.e q = value S n b.e r ∧ value R n b.e (ahead q c) = value S n b.e (ahead r c) := by
    intro b c h1 h2 h3
    obtain ⟨g1, g2⟩ := around_h gq h1 h2 h3
    obtain ⟨g1', g2'⟩ := around_h gr h1 h2 h3
    exact ⟨he b _ _ g1 g1' hqr fun t => (isE b t).elim, he b _ _ g2 g2' (ah c) fun t => (isE b t).elim⟩
  rw [rotE_turn (b := a.next) (c := a.next.next) _ n1 n2 n3, rotE_turn (b := a.next) (c := a.next.next) _ n1 n2 n3,
    (v _ _ n1 n2 n3).1, (v _ _ n1 n2 n3).2, (v _ _ n3 n2.symm n1).1, (v _ _ n3 n2.symm n1).2, cl _ n1.symm, cl _ n3.symm]

/-- C85: a model that is periodic along an axis stands for an infinite row: a model of several copies of it, beginning anywhere, gives
the same fields at the same places of all copies. -/
theorem copies_alike (hk : Physical k) (hT : 0 < R.dt) (hdt : S.dt = R.dt)
    (h : setup k J X = some R) (ho : OrdinaryBlocks X.file.cards) (hg : GoodLayers k X) (hm : PlainModel k X R.dt)
    (h' : setup k J' Y = some S) (ho' : OrdinaryBlocks Y.file.cards) (hg' : GoodLayers k Y) (hm' : PlainModel k Y S.dt)
    (hp : Repeats X Y R.dt d s) (n : ℕ) :
    (∀ (a : Axis) (q r : Axis → Int), OnGridBox X a.e q → OnGridBox Y a.e r → CopyOf (cellsOf X.file d) d s q r → value R n a.e q = value S n a.e r) ∧
    (∀ (a : Axis) (q r : Axis → Int), OnGridBox X a.h q → OnGridBox Y a.h r → CopyOf (cellsOf X.file d) d s q r → ¬ AtBack X a.h q → value R n a.h q = value S n a.h r) := by
  obtain ⟨d1, d2⟩ := per_sides hp
  have key : ∀ m, m ≤ n → ∀ a : Axis, Equal X Y R S d s a.e m ∧ Equal X Y R S d s a.h m := by
    induction n with
    | zero =>
      intro m hm0 a
      obtain rfl : m = 0 := by omega
      exact ⟨fun _ _ _ _ _ _ => by rw [value_zero, value_zero], fun _ _ _ _ _ _ => by rw [value_zero, value_zero]⟩
    | succ n ih =>
      intro m hmn
      rcases Nat.lt_or_ge m (n + 1) with hlt | hge
      · exact ih m (by omega)
      obtain rfl : m = n + 1 := by omega
      have E : ∀ a : Axis, Equal X Y R S d s a.e (n + 1) := by
        intro a q r gq gr hqr _
        rw [← one_mul (value S (n + 1) a.e r)]
        refine step_E (P := fun i j => cellsOf X.file d ∣ j - i - s) hk hT hdt h ho hg hm h' ho' hg' hm' hp.across d1 d2 1 n
          (fun q r hi hi' hqr => hp.stuff _ q r hi hi' hqr) (fun q r hi hi' hqr => by rw [one_mul, one_mul]; exact hp.source _ q r hi hi' hqr _)
          (fun m hmn q r gq gr hqr nb nm => by rw [one_mul]; exact rotH_copy h h' hp (fun a => (ih m hmn a).2) gq gr hqr nb nm)
          (fun q r gq gr hqr => by rw [one_mul]; exact (ih n le_rfl a).1 q r gq gr hqr fun t => by cases a <;> cases t) q r gq gr hqr
      refine fun a => ⟨E a, ?_⟩
      intro q r gq gr hqr nb
      have ih' : ∀ m, m ≤ n → ∀ a : Axis, Equal X Y R S d s a.e (m + 1) := by
        intro m hmn a
        rcases Nat.lt_or_ge m n with hlt | hge
        · exact (ih (m + 1) (by omega) a).1
        · obtain rfl : m = n := by omega
          exact E a
      rw [← one_mul (value S (n + 1) a.h r)]
      refine step_H (P := fun i j => cellsOf X.file d ∣ j - i - s) hk hT hdt h ho hg hm h' ho' hg' hm' hp.across d1 d2 1 n
        (fun q r hi hi' hqr => hp.stuff _ q r hi hi' hqr) (fun q r hi hi' hqr => by rw [one_mul, one_mul]; exact hp.source _ q r hi hi' hqr _)
        (fun m hmn q r gq gr hqr => by rw [one_mul]; exact rotE_copy hp (ih' m hmn) gq gr hqr)
        (fun q r gq gr hqr nb => by rw [one_mul]; exact (ih n le_rfl a).2 q r gq gr hqr fun _ => nb) q r gq gr hqr (nb (by cases a <;> rfl))
  exact ⟨fun a q r gq gr hqr => (key n le_rfl a).1 q r gq gr hqr (fun t => by cases a <;> cases t), fun a q r gq gr hqr nb => (key n le_rfl a).2 q r gq gr hqr fun _ => nb⟩

/-- C85: the two ends of a periodic model carry the same fields, whatever its other sides are. -/
theorem ends_alike (hk : Physical k) (hT : 0 < R.dt)
    (h : setup k J X = some R) (ho : OrdinaryBlocks X.file.cards) (hg : GoodLayers k X) (hm : PlainModel k X R.dt)
    (hp : Repeats X X R.dt d 0) (n : ℕ) (ha : a ≠ d) (hq : OnGridBox X a.e q) (h0 : q d = 0) :
    value R n a.e q = value R n a.e (opposite X d q) := by
  obtain ⟨d1, -⟩ := per_sides hp
  have bx := box_d d1
  have g := (grid_le h d).2.2
  refine (copies_alike hk hT rfl h ho hg hm h ho hg hm hp n).1 a q _ hq (grid_iff.2 fun b => ?_) ⟨fun b hb => ?_, ?_⟩
  · have := grid_iff.1 hq b
    unfold opposite
    by_cases hb : b = d
    · subst hb
      rw [if_pos rfl, h0, bx.1, bx.2, C81.pos2_e, if_neg ha.symm]
      omega
    · rw [if_neg hb]; exact this
  · unfold opposite; rw [if_neg hb]
  · unfold opposite
    rw [if_pos rfl]
    exact ⟨1, by ring⟩

end
end Vulture.C85
