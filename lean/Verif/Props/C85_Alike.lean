import Verif.Props.C84_Plates
import Verif.Spec.Repeat
/- C85, first part: samples of two runs whose surroundings agree up to a factor. -/
set_option linter.unusedSimpArgs false
set_option linter.unusedVariables false
set_option linter.unusedSectionVars false
namespace Vulture.C85
open Vulture Spec Setup CavityLemmas Scaling C72 C84

section
variable {k : Consts} {J J' : Junk} {X Y : Experiment} {R S : Setup.Run} {a b c : Axis} {f : Face} {q r : Axis → Int}

theorem rate_scale (x eps0 T κ σ U U' : ℝ) : x * stretchedRate eps0 T κ σ U U' = stretchedRate eps0 T κ σ (x * U) (x * U') := by
  unfold stretchedRate; ring

theorem ampere_scale (x : ℝ) (k : Consts) (T D D' c : ℝ) {s : Stuff} (h : AmpereIn k T D D' c 0 s) : AmpereIn k T (x * D) (x * D') (x * c) 0 s := by
  cases s with
  | vacuum => unfold AmpereIn AmpereWithCurrent at *; linear_combination x * h
  | metal => unfold AmpereIn at *; rw [h, mul_zero]
  | matter e s u => unfold AmpereIn AmpereWithCurrent at *; intro h1 h2 h3; linear_combination x * h h1 h2 h3
  | dispersive e s u poles => trivial

theorem leaving_scale (x c T d E E' P P' : ℝ) (h : LeavingWave c T d E E' P P') : LeavingWave c T d (x * E) (x * E') (x * P) (x * P') := by
  unfold LeavingWave at *; linear_combination x * h

variable (hk : Physical k) (hT : 0 < R.dt) (hdt : S.dt = R.dt)
  (h : setup k J X = some R) (ho : OrdinaryBlocks X.file.cards) (hg : GoodLayers k X) (hm : PlainModel k X R.dt)
  (h' : setup k J' Y = some S) (ho' : OrdinaryBlocks Y.file.cards) (hg' : GoodLayers k Y) (hm' : PlainModel k Y S.dt)

include hk hT hdt h ho hg hm h' ho' hg' hm'

/-- A step of an electric sample inside the mesh. -/
theorem mesh_E (hi : SampleInMesh X a.e q) (hi' : SampleInMesh Y a.e r) (nm : ¬ OnMurSide X a.e q) (nm' : ¬ OnMurSide Y a.e r)
    (hst : ∀ s, MadeOf X a.e (q .x) (q .y) (q .z) s → MadeOf Y a.e (r .x) (r .y) (r .z) s) (x : ℝ) (n : ℕ)
    (hc : sourceField X R.dt (n * R.dt) a.e q = x * sourceField Y R.dt (n * R.dt) a.e r ∧
      sourceCurrent X R.dt (n * R.dt) a.e q = x * sourceCurrent Y R.dt (n * R.dt) a.e r)
    (hrot : rotH X (value R n) a q = x * rotH Y (value S n) a r) (hold : value R n a.e q = x * value S n a.e r) :
    value R (n + 1) a.e q = x * value S (n + 1) a.e r := by
  obtain ⟨c1, c2⟩ := hm.clear _ _ (mesh_grid h hi)
  obtain ⟨c1', c2'⟩ := hm'.clear _ _ (mesh_grid h' hi')
  obtain ⟨s, ms, f1, f2, -⟩ := C73.made_exists h ho hi
  obtain ⟨s', ms', f1', f2', -⟩ := C73.made_exists h' ho' hi'
  have es := C64.made_unique h' ho' ms' (hst s ms)
  rw [electric_soft h ho hi nm (hm.simple _ _ hi) c1 c2 (hm.soft _ _ hi) n, electric_soft h' ho' hi' nm' (hm'.simple _ _ hi') c1' c2' (hm'.soft _ _ hi') n,
    hrot, hold, hdt, hc.1, hc.2, f1, f2, f1', f2', es, hdt]
  ring

/-- A step of a magnetic sample inside the mesh. -/
theorem mesh_H (hi : SampleInMesh X a.h q) (hi' : SampleInMesh Y a.h r)
    (hst : ∀ s, MadeOf X a.h (q .x) (q .y) (q .z) s → MadeOf Y a.h (r .x) (r .y) (r .z) s) (x : ℝ) (n : ℕ)
    (hc : sourceField X R.dt ((n + 1 / 2) * R.dt) a.h q = x * sourceField Y R.dt ((n + 1 / 2) * R.dt) a.h r ∧
      sourceCurrent X R.dt ((n + 1 / 2) * R.dt) a.h q = x * sourceCurrent Y R.dt ((n + 1 / 2) * R.dt) a.h r)
    (hrot : rotE X (value R (n + 1)) a q = x * rotE Y (value S (n + 1)) a r) (hold : value R n a.h q = x * value S n a.h r) :
    value R (n + 1) a.h q = x * value S (n + 1) a.h r := by
  obtain ⟨c1, c2⟩ := hm.clear _ _ (mesh_grid h hi)
  obtain ⟨c1', c2'⟩ := hm'.clear _ _ (mesh_grid h' hi')
  obtain ⟨s, ms, -, -, f3⟩ := C73.made_exists h ho hi
  obtain ⟨s', ms', -, -, f3'⟩ := C73.made_exists h' ho' hi'
  have es := C64.made_unique h' ho' ms' (hst s ms)
  rw [magnetic_soft h ho hi c1 c2 (hm.soft _ _ hi) n, magnetic_soft h' ho' hi' c1' c2' (hm'.soft _ _ hi') n,
    hrot, hold, hdt, hc.1, hc.2, f3, f3', es, hdt]
  ring

/-- A step of an electric sample of the layers. -/
theorem layer_E (hq : InLayer X a.e q) (hr : InLayer Y a.e r)
    (hst : ∀ s, MadeOf X a.e (continued X a.e q .x) (continued X a.e q .y) (continued X a.e q .z) s →
      MadeOf Y a.e (continued Y a.e r .x) (continued Y a.e r .y) (continued Y a.e r .z) s)
    (hl : ∀ b, kappaAt X a.e q b = kappaAt Y a.e r b ∧ sigmaAt k X a.e q b = sigmaAt k Y a.e r b) (x : ℝ) (n : ℕ)
    (hrot : ∀ m, m ≤ n → rotH X (value R m) a q = x * rotH Y (value S m) a r) :
    value R (n + 1) a.e q = x * value S (n + 1) a.e r := by
  have hT' : 0 < S.dt := by rw [hdt]; exact hT
  obtain ⟨c1, c2⟩ := hm.clear _ _ hq.inside
  obtain ⟨c1', c2'⟩ := hm'.clear _ _ hr.inside
  obtain ⟨s, ms, -⟩ := C73.made_exists h ho (q := continued X a.e q) (C83.continued_in h hm.second hq.inside)
  obtain ⟨r1, r2⟩ := hm.range _ _ hq s ms
  obtain ⟨D, P, D0, P0, e⟩ := C83.layer_ampere hk h ho hT hg hm.second hq c1 c2 ms (hm.lumped _ _ hq)
  obtain ⟨D', P', D0', P0', e'⟩ := C83.layer_ampere hk h' ho' hT' hg' hm'.second hr c1' c2' (hst s ms) (hm'.lumped _ _ hr)
  rw [hdt] at e'
  have he := C83.eps_pos hk
  have s1 := stretch_sign h hg a.e q a.next
  have s2 := stretch_sign h hg a.e q a.next.next
  have key : ∀ m, m ≤ n + 1 → D m = x * D' m ∧ P m = x * P' m ∧ value R m a.e q = x * value S m a.e r := by
    intro m
    induction m with
    | zero => intro _; rw [D0, P0, D0', P0', value_zero, value_zero, mul_zero]; exact ⟨rfl, rfl, rfl⟩
    | succ m ih =>
      intro hmn
      obtain ⟨i1, i2, i3⟩ := ih (by omega)
      obtain ⟨e1, e2, e3⟩ := e m
      obtain ⟨e1', e2', e3'⟩ := e' m
      rw [hrot m (by omega), i1] at e1
      have d1 : D (m + 1) = x * D' (m + 1) := ampere_det hk hT r1 r2 e1 (ampere_scale x _ _ _ _ _ e1')
      have d2 : P (m + 1) = x * P' (m + 1) := by
        refine rate_det he hT s1.1 s1.2 i2 (e2.trans ?_)
        rw [(hl a.next).1, (hl a.next).2, ← rate_scale, e2', d1, i1]
        ring
      refine ⟨d1, d2, rate_det he hT s2.1 s2.2 i3 (e3.trans ?_)⟩
      rw [(hl a.next.next).1, (hl a.next.next).2, ← rate_scale, e3', (hl a).1, (hl a).2, d2, i2, rate_scale]
  exact (key (n + 1) le_rfl).2.2

/-- A step of a magnetic sample of the layers. -/
theorem layer_H (hq : InLayer X a.h q) (hr : InLayer Y a.h r)
    (hst : ∀ s, MadeOf X a.h (continued X a.h q .x) (continued X a.h q .y) (continued X a.h q .z) s →
      MadeOf Y a.h (continued Y a.h r .x) (continued Y a.h r .y) (continued Y a.h r .z) s)
    (hl : ∀ b, kappaAt X a.h q b = kappaAt Y a.h r b ∧ sigmaAt k X a.h q b = sigmaAt k Y a.h r b) (x : ℝ) (n : ℕ)
    (hrot : ∀ m, m ≤ n → rotE X (value R (m + 1)) a q = x * rotE Y (value S (m + 1)) a r) :
    value R (n + 1) a.h q = x * value S (n + 1) a.h r := by
  have hT' : 0 < S.dt := by rw [hdt]; exact hT
  obtain ⟨c1, c2⟩ := hm.clear _ _ hq.inside
  obtain ⟨c1', c2'⟩ := hm'.clear _ _ hr.inside
  obtain ⟨s, ms, -⟩ := C73.made_exists h ho (q := continued X a.h q) (C83.continued_in h hm.second hq.inside)
  obtain ⟨r1, r2⟩ := hm.range _ _ hq s ms
  obtain ⟨r1', r2'⟩ := hm'.range _ _ hr s (hst s ms)
  obtain ⟨B, B0, e⟩ := C83.layer_faraday hk h ho hT hg hm.second hq c1 c2 ms r1 (hm.lumped _ _ hq)
  obtain ⟨B', B0', e'⟩ := C83.layer_faraday hk h' ho' hT' hg' hm'.second hr c1' c2' (hst s ms) r1' (hm'.lumped _ _ hr)
  rw [hdt] at e'
  have he := C83.eps_pos hk
  have mu := (mu_pos hk h ho hT hg hm.second r1).ne'
  have s1 := stretch_sign h hg a.h q a.next
  have s2 := stretch_sign h hg a.h q a.next.next
  have key : ∀ m, m ≤ n + 1 → B m = x * B' m ∧ value R m a.h q = x * value S m a.h r := by
    intro m
    induction m with
    | zero => intro _; rw [B0, B0', value_zero, value_zero, mul_zero]; exact ⟨rfl, rfl⟩
    | succ m ih =>
      intro hmn
      obtain ⟨i1, i2⟩ := ih (by omega)
      obtain ⟨e1, e2⟩ := e m
      obtain ⟨e1', e2'⟩ := e' m
      have d1 : B (m + 1) = x * B' (m + 1) := by
        refine rate_det he hT s1.1 s1.2 i1 (mul_left_cancel₀ mu ?_)
        rw [e1, hrot m (by omega), (hl a.next).1, (hl a.next).2, ← rate_scale]
        linear_combination - x * e1'
      refine ⟨d1, rate_det he hT s2.1 s2.2 i2 (e2.trans ?_)⟩
      rw [(hl a.next.next).1, (hl a.next.next).2, ← rate_scale, e2', (hl a).1, (hl a).2, d1, i1, rate_scale]
  exact (key (n + 1) le_rfl).2

/-- A step of an electric sample in a `MUR` side. -/
theorem mur_E (hq : InMurSide X f a q) (hr : InMurSide Y f a r) (hc : sideCell X f = sideCell Y f) (x : ℝ) (n : ℕ)
    (hold : value R n a.e q = x * value S n a.e r) (hin : value R n a.e (inwards f q) = x * value S n a.e (inwards f r))
    (hin' : value R (n + 1) a.e (inwards f q) = x * value S (n + 1) a.e (inwards f r)) : value R (n + 1) a.e q = x * value S (n + 1) a.e r := by
  have hT' : 0 < S.dt := by rw [hdt]; exact hT
  obtain ⟨u1, u2⟩ := hm.mur f a q hq
  obtain ⟨u1', u2'⟩ := hm'.mur f a r hr
  have sc : 0 < sideCell X f := hg.2.1 _ _
  have sc' : 0 < sideCell Y f := hg'.2.1 _ _
  have lw := C81.mur_side h ho hk.c0 hT sc hq u1 u2 n
  have lw' := leaving_scale x _ _ _ _ _ _ _ (C81.mur_side h' ho' hk.c0 hT' sc' hr u1' u2' n)
  rw [hold, hin, hin', hc] at lw
  rw [hdt] at lw'
  exact leaving_det hk.c0 hT sc' lw lw'

end

section one
variable {k : Consts} {J : Junk} {X : Experiment} {R : Setup.Run} {a b c : Axis} {f : Face} {q r : Axis → Int}

/-- Samples of a `MUR` side: on an edge of two of them, or in one of them with a neighbour inside. -/
theorem mur_cases (h : setup k J X = some R) (hm : PlainModel k X R.dt) (hi : SampleInMesh X a.e q) (hf : X.file.bt f = .mur)
    (hp : OnPlane (meshBox X) f a.e (q .x) (q .y) (q .z)) :
    OnMurEdges X a q ∨ (InMurSide X f a q ∧ SampleInMesh X a.e (inwards f q) ∧ ¬ OnMurSide X a.e (inwards f q)) := by
  by_cases he : ∃ g, g.axis ≠ f.axis ∧ X.file.bt g = .mur ∧ OnPlane (meshBox X) g a.e (q .x) (q .y) (q .z)
  · obtain ⟨g, g1, g2, g3⟩ := he
    exact Or.inl ⟨hi, f, g, g1.symm, hf, g2, hp, g3⟩
  right
  have gr := (grid_le h f.axis).2.2
  have x := C81.lo_axis f.axis
  have hp' := hp
  rw [plane_iff] at hp'
  have hpa : f.axis ≠ a := by
    intro hfa
    rw [C81.pos2_e, if_pos hfa] at hp'
    omega
  rw [C81.pos2_e, if_neg hpa] at hp'
  have th := hm.thick f hf
  have inw : ∀ d, d ≠ f.axis → inwards f q d = q d := by intro d hd; unfold inwards; rw [if_neg hd]
  have inp : inwards f q f.axis = q f.axis + (if f.isLo then 1 else -1) := by unfold inwards; rw [if_pos rfl]
  have hi' := C81.in_iff.1 hi
  have op : ∀ p : Axis, p.lo.opposite = p.hi ∧ p.hi.opposite = p.lo := by intro p; cases p <;> exact ⟨rfl, rfl⟩
  have inm : SampleInMesh X a.e (inwards f q) := by
    refine C81.in_iff.2 fun d => ?_
    by_cases hd : d = f.axis
    · subst hd
      rw [inp, C81.pos2_e, if_neg hpa]
      rcases face_cases f with e1 | e1
      · have il : f.isLo = true := by rw [e1]; exact x.2.2.1
        rw [e1, C81.mesh_lo] at hp'
        rw [← e1] at hp'
        rw [il]
        simp only [if_true]
        omega
      · have il : f.isLo = false := by rw [e1]; exact x.2.2.2
        rw [e1, C81.mesh_hi] at hp'
        rw [← e1] at hp'
        rw [il]
        simp only [Bool.false_eq_true, if_false]
        omega
    · rw [inw d hd]; exact hi' d
  refine ⟨⟨hf, hi, hp, fun g hgf hg hgp => ?_, th⟩, inm, ?_⟩
  · have eg : g.axis = f.axis := by
      by_contra hne
      exact he ⟨g, hne, hg, hgp⟩
    rw [plane_iff, eg, C81.pos2_e, if_neg hpa] at hgp
    rcases face_cases f with e1 | e1 <;> rcases face_cases g with e2 | e2 <;> rw [eg] at e2
    · exact hgf (e2.trans e1.symm)
    · rw [e2, C81.mesh_hi] at hgp; rw [e1, C81.mesh_lo] at hp'; rw [← e1] at hp'; omega
    · rw [e2, C81.mesh_lo] at hgp; rw [e1, C81.mesh_hi] at hp'; rw [← e1] at hp'; omega
    · exact hgf (e2.trans e1.symm)
  · rintro ⟨g, hg, hgp⟩
    rw [plane_iff] at hgp
    by_cases eg : g.axis = f.axis
    · rw [eg, inp, C81.pos2_e, if_neg hpa] at hgp
      rcases face_cases f with e1 | e1 <;> rcases face_cases g with e2 | e2 <;> rw [eg] at e2
      · have il : f.isLo = true := by rw [e1]; exact x.2.2.1
        rw [e2, C81.mesh_lo, il] at hgp; rw [e1, C81.mesh_lo] at hp'; rw [← e1] at hp'
        simp only [if_true] at hgp
        omega
      · have il : f.isLo = true := by rw [e1]; exact x.2.2.1
        rw [e2, C81.mesh_hi, il] at hgp; rw [e1, C81.mesh_lo] at hp'; rw [← e1] at hp'
        simp only [if_true] at hgp
        rcases th with th | th
        · omega
        · refine th ?_
          rw [e1, (op _).1, ← e2]; exact hg
      · have il : f.isLo = false := by rw [e1]; exact x.2.2.2
        rw [e2, C81.mesh_lo, il] at hgp; rw [e1, C81.mesh_hi] at hp'; rw [← e1] at hp'
        simp only [Bool.false_eq_true, if_false] at hgp
        rcases th with th | th
        · omega
        · refine th ?_
          rw [e1, (op _).2, ← e2]; exact hg
      · have il : f.isLo = false := by rw [e1]; exact x.2.2.2
        rw [e2, C81.mesh_hi, il] at hgp; rw [e1, C81.mesh_hi] at hp'; rw [← e1] at hp'
        simp only [Bool.false_eq_true, if_false] at hgp
        omega
    · refine he ⟨g, eg, hg, ?_⟩
      rw [plane_iff]
      rw [inw _ eg] at hgp
      exact hgp

/-- Where there are `MUR` sides there are no layers. -/
theorem mur_no_layers (h : setup k J X = some R) (hm : PlainModel k X R.dt) (hf : X.file.bt f = .mur) {fc : Fc} (hq : OnGridBox X fc q) : SampleInMesh X fc q := by
  refine C81.in_iff.2 fun b => ?_
  have := (grid_iff.1 hq) b
  have e1 : gridBox X b.lo = 0 := by
    unfold gridBox; rw [if_neg (hm.unmixed f _ hf), C81.mesh_lo, add_zero]
  have e2 : gridBox X b.hi = cellsOf X.file b := by
    unfold gridBox; rw [if_neg (hm.unmixed f _ hf), C81.mesh_hi, add_zero]
  omega

end one
end Vulture.C85
