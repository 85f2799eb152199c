import Verif.Props.C72_Maxwell
import Verif.Spec.Locality
/- C73: what is far away or behind metal does not matter. -/
set_option linter.unusedSimpArgs false
set_option linter.unusedVariables false
set_option linter.unusedSectionVars false
namespace Vulture.C73
open Vulture Spec Setup Deck CavityLemmas Scaling C72

section
variable {k : Consts} {J J' : Junk} {X Y : Experiment} {R S : Setup.Run} {a : Axis} {q d : Axis → Int}
  (h : setup k J X = some R) (h' : setup k J' Y = some S) (ho : OrdinaryBlocks X.file.cards) (ho' : OrdinaryBlocks Y.file.cards)
  (hT : R.dt = S.dt)

theorem made_exists (h : setup k J X = some R) (ho : OrdinaryBlocks X.file.cards) {fc : Fc} (hi : SampleIn (meshBox X) fc (q .x) (q .y) (q .z)) :
    ∃ s, MadeOf X fc (q .x) (q .y) (q .z) s ∧
      R.coefs (.alpha fc (grid R.cfg q .x) (grid R.cfg q .y) (grid R.cfg q .z)) = (C64.coefOf k R.dt s).alpha ∧
      R.coefs (.beta fc (grid R.cfg q .x) (grid R.cfg q .y) (grid R.cfg q .z)) = (C64.coefOf k R.dt s).beta ∧
      R.coefs (.gamma fc (grid R.cfg q .x) (grid R.cfg q .y) (grid R.cfg q .z)) = (C64.coefOf k R.dt s).gamma := by
  obtain ⟨s, hs, e⟩ := C64.coefficients h ho hi
  obtain ⟨-, -, -, -, hC, -⟩ := run_parts h
  refine ⟨s, hs, ?_, ?_, ?_⟩
  · rw [hC, ← e]; rfl
  · rw [hC, ← e]; rfl
  · rw [hC, ← e]; rfl

include h h' ho ho' hT in
theorem same_coefs {fc : Fc} (hi : SampleIn (meshBox X) fc (q .x) (q .y) (q .z))
    (hi' : SampleIn (meshBox Y) fc (moved q d .x) (moved q d .y) (moved q d .z)) (hs : SaySame X Y d R.dt fc q) :
    R.coefs (.alpha fc (grid R.cfg q .x) (grid R.cfg q .y) (grid R.cfg q .z)) =
      S.coefs (.alpha fc (grid S.cfg (moved q d) .x) (grid S.cfg (moved q d) .y) (grid S.cfg (moved q d) .z)) ∧
    R.coefs (.beta fc (grid R.cfg q .x) (grid R.cfg q .y) (grid R.cfg q .z)) =
      S.coefs (.beta fc (grid S.cfg (moved q d) .x) (grid S.cfg (moved q d) .y) (grid S.cfg (moved q d) .z)) ∧
    R.coefs (.gamma fc (grid R.cfg q .x) (grid R.cfg q .y) (grid R.cfg q .z)) =
      S.coefs (.gamma fc (grid S.cfg (moved q d) .x) (grid S.cfg (moved q d) .y) (grid S.cfg (moved q d) .z)) := by
  obtain ⟨s, hm, e1, e2, e3⟩ := made_exists h ho hi
  obtain ⟨s', hm', e1', e2', e3'⟩ := made_exists h' ho' hi'
  have := C64.made_unique h' ho' ((hs.1 s).1 hm) hm'
  subst this
  rw [e1, e2, e3, e1', e2', e3', hT]
  exact ⟨rfl, rfl, rfl⟩

theorem back_moved (q d : Axis → Int) (b : Axis) : moved (back q b) d = back (moved q d) b := by
  funext c; unfold moved back; dsimp only; split_ifs <;> ring
theorem ahead_moved (q d : Axis → Int) (b : Axis) : moved (ahead q b) d = ahead (moved q d) b := by
  funext c; unfold moved ahead; dsimp only; split_ifs <;> ring

theorem next3 (a : Axis) : a.next ≠ a ∧ a.next.next ≠ a ∧ a.next ≠ a.next.next := by cases a <;> decide

include h h' ho ho' hT in
theorem electric_same (hs : SameE X Y d R.dt a q) {n : ℕ} (he : value R n a.e q = value S n a.e (moved q d))
    (hh : ∀ b c, b ≠ a → c ≠ a → b ≠ c → value R n b.h q = value S n b.h (moved q d) ∧
      value R n b.h (back q c) = value S n b.h (moved (back q c) d)) :
    value R (n + 1) a.e q = value S (n + 1) a.e (moved q d) := by
  obtain ⟨⟨i1, i2, i3, i4, i5, i6⟩, ⟨j1, j2, j3, j4, j5, j6⟩, hss, hl⟩ := hs
  obtain ⟨e1, e2, -⟩ := same_coefs h h' ho ho' hT i1 j1 hss
  rw [electric_step h ho i1 i2 i3 i4 i5 i6 n, electric_step h' ho' j1 j2 j3 j4 j5 j6 n, e1, e2, he, hss.2, hT]
  obtain ⟨n1, n2, n3⟩ := next3 a
  have a1 := hh a.next a.next.next n1 n2 n3
  have a2 := hh a.next.next a.next n2 n1 n3.symm
  congr 2
  unfold rotH
  dsimp only
  rw [back_moved] at a1 a2
  rw [a1.1, a1.2, a2.1, a2.2, hl _ n1, hl _ n2]

include h h' ho ho' hT in
theorem magnetic_same (hs : SameH X Y d R.dt a q) {n : ℕ} (he : value R n a.h q = value S n a.h (moved q d))
    (hh : ∀ b c, b ≠ a → c ≠ a → b ≠ c → value R (n + 1) b.e q = value S (n + 1) b.e (moved q d) ∧
      value R (n + 1) b.e (ahead q c) = value S (n + 1) b.e (moved (ahead q c) d)) :
    value R (n + 1) a.h q = value S (n + 1) a.h (moved q d) := by
  obtain ⟨⟨i1, i2, i3, i4⟩, ⟨j1, j2, j3, j4⟩, hss, hl⟩ := hs
  obtain ⟨-, -, e3⟩ := same_coefs h h' ho ho' hT i1 j1 hss
  rw [magnetic_step h ho i1 i2 i3 i4 n, magnetic_step h' ho' j1 j2 j3 j4 n, e3, he, hss.2, hT]
  obtain ⟨n1, n2, n3⟩ := next3 a
  have a1 := hh a.next a.next.next n1 n2 n3
  have a2 := hh a.next.next a.next n2 n1 n3.symm
  congr 3
  unfold rotE
  dsimp only
  rw [ahead_moved] at a1 a2
  rw [a1.1, a1.2, a2.1, a2.2, hl _ n1, hl _ n2]

theorem all_components {p : Fc → Prop} (he : ∀ a : Axis, p a.e) (hh : ∀ a : Axis, p a.h) : ∀ fc, p fc := by
  intro fc
  cases fc
  · exact he .x
  · exact he .y
  · exact he .z
  · exact hh .x
  · exact hh .y
  · exact hh .z

include h h' ho ho' hT in
/-- C73: two runs agree at a sample for as many steps as there are cells around it in which their files agree. -/
theorem light_cone (n : ℕ) (hs : ∀ p, Close n q p → ∀ b, SameE X Y d R.dt b p ∧ SameH X Y d R.dt b p) :
    ∀ fc, value R n fc q = value S n fc (moved q d) := by
  induction n generalizing q with
  | zero => intro fc; rfl
  | succ n ih =>
    have near : ∀ p, Close 1 q p → ∀ fc, value R n fc p = value S n fc (moved p d) := by
      intro p hp
      refine ih fun p' hp' => hs p' fun b => ?_
      have h1 := hp b; have h2 := hp' b
      rw [abs_le] at h1 h2 ⊢
      push_cast at h1 h2 ⊢
      constructor <;> linarith [h1.1, h1.2, h2.1, h2.2]
    have self : ∀ p, (∀ b, 0 ≤ p b - q b ∧ p b - q b ≤ 1) → Close 1 q p ∧ (∀ c, Close 1 q (back p c)) := by
      intro p hp
      refine ⟨fun b => ?_, fun c b => ?_⟩
      · have := hp b; rw [abs_le]; constructor <;> push_cast <;> linarith [this.1, this.2]
      · have := hp b; unfold back; rw [abs_le]; split_ifs <;> constructor <;> push_cast <;> linarith [this.1, this.2]
    have E : ∀ (b : Axis) p, (∀ b, 0 ≤ p b - q b ∧ p b - q b ≤ 1) → value R (n + 1) b.e p = value S (n + 1) b.e (moved p d) := by
      intro b p hp
      obtain ⟨s1, s2⟩ := self p hp
      refine electric_same h h' ho ho' hT (hs p ?_ b).1 (near p s1 _) fun b' c _ _ _ => ⟨near p s1 _, near _ (s2 c) _⟩
      intro b; have := s1 b; push_cast at this ⊢; have : (0 : ℤ) ≤ n := Int.natCast_nonneg n; linarith
    have E0 : ∀ b : Axis, value R (n + 1) b.e q = value S (n + 1) b.e (moved q d) := fun b => E b q fun c => by simp
    refine all_components E0 fun b => ?_
    refine magnetic_same h h' ho ho' hT (hs q (fun b => by simp; positivity) b).2 (near q (fun b => by simp) _) fun b' c _ _ _ => ⟨E0 b', E b' _ fun c' => ?_⟩
    unfold ahead; split_ifs <;> simp

include h ho in
theorem metal_zero (hq : OrdinaryE X a q) (hm : MadeOf X a.e (q .x) (q .y) (q .z) .metal) (n : ℕ) : value R n a.e q = 0 := by
  obtain ⟨i1, i2, i3, i4, i5, i6⟩ := hq
  obtain ⟨s, hs, e1, e2, -⟩ := made_exists h ho i1
  rw [C64.made_unique h ho hs hm] at e1 e2
  induction n with
  | zero => rfl
  | succ n ih =>
    rw [electric_step h ho i1 i2 i3 i4 i5 i6 n, ih, e2]
    show _ + (0 : ℝ) * _ = 0
    ring

include h h' ho ho' hT in
/-- C73: what is behind metal does not matter, for ever. -/
theorem shielding {P : Fc → (Axis → Int) → Prop} (hP : Enclosed X Y d R.dt P) (n : ℕ) :
    ∀ fc q, P fc q → value R n fc q = value S n fc (moved q d) := by
  induction n with
  | zero => intro fc q _; rfl
  | succ n ih =>
    have E : ∀ (b : Axis) q, P b.e q → value R (n + 1) b.e q = value S (n + 1) b.e (moved q d) := by
      intro b q hq
      rcases hP.electric b q hq with ⟨o1, m1, o2, m2⟩ | ⟨hs, hn⟩
      · rw [metal_zero h ho o1 m1, metal_zero h' ho' o2 m2]
      · exact electric_same h h' ho ho' hT hs (ih _ _ hq) fun c c' h1 h2 h3 => ⟨ih _ _ (hn c c' h1 h2 h3).1, ih _ _ (hn c c' h1 h2 h3).2⟩
    refine all_components E fun b q hq => ?_
    obtain ⟨hs, hn⟩ := hP.magnetic b q hq
    exact magnetic_same h h' ho ho' hT hs (ih _ _ hq) fun c c' h1 h2 h3 => ⟨E _ _ (hn c c' h1 h2 h3).1, E _ _ (hn c c' h1 h2 h3).2⟩
end

end Vulture.C73
