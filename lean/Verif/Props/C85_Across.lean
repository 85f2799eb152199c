import Verif.Props.C85_Alike
/- C85, second part: models that agree across an axis. -/
set_option linter.unusedSimpArgs false
set_option linter.unusedVariables false
set_option linter.unusedSectionVars false
namespace Vulture.C85
open Vulture Spec Setup CavityLemmas Scaling C72 C84

/-- The sides across `d` are ordinary ones. -/
def PlainSides (X : Experiment) (d : Axis) : Prop := ∀ f, f.axis = d → X.file.bt f = .pec ∨ X.file.bt f = .pmc ∨ X.file.bt f = .periodic

/-- Places that differ along `d` only, where they are related by `P`. -/
def Agree (d : Axis) (P : Int → Int → Prop) (q r : Axis → Int) : Prop := (∀ b, b ≠ d → r b = q b) ∧ P (q d) (r d)

section
variable {k : Consts} {J J' : Junk} {X Y : Experiment} {R S : Setup.Run} {a b c d : Axis} {f : Face} {q r : Axis → Int} {fc : Fc} {P : Int → Int → Prop}

theorem plain_not (hd : PlainSides X d) (hf : f.axis = d) : X.file.bt f ≠ .pml ∧ X.file.bt f ≠ .mur := by
  rcases hd f hf with t | t | t <;> rw [t] <;> decide

theorem box_d (hd : PlainSides X d) : gridBox X d.lo = 0 ∧ gridBox X d.hi = cellsOf X.file d := by
  have x := C81.lo_axis d
  unfold gridBox
  rw [if_neg (plain_not hd x.1).1, if_neg (plain_not hd x.2.1).1, C81.mesh_lo, C81.mesh_hi]
  exact ⟨add_zero _, add_zero _⟩

theorem box_same (ha : SameAcross X Y d) (hf : f.axis ≠ d) : gridBox X f = gridBox Y f ∧ meshBox X f = meshBox Y f := by
  obtain ⟨s1, s2, s3⟩ := ha.sides f hf
  have m : meshBox X f = meshBox Y f := by
    have c := ha.cells f.axis hf
    rcases face_cases f with e | e <;> rw [e]
    · rw [C81.mesh_lo, C81.mesh_lo]
    · rw [C81.mesh_hi, C81.mesh_hi, c]
  refine ⟨?_, m⟩
  unfold gridBox
  rw [m, s1, s2]

theorem image_same (ha : SameAcross X Y d) (hf : f.axis ≠ d) : imageAt X f = imageAt Y f ∧ imageSign X f = imageSign Y f := by
  have x := C81.lo_axis f.axis
  obtain ⟨s1, -⟩ := ha.sides f hf
  unfold imageAt imageSign
  rw [s1, (box_same ha hf).1, (box_same ha (f := f.axis.lo) (by rw [x.1]; exact hf)).1, (box_same ha (f := f.axis.hi) (by rw [x.2.1]; exact hf)).1]
  exact ⟨rfl, rfl⟩

theorem back_same (ha : SameAcross X Y d) (hd : PlainSides X d) (hd' : PlainSides Y d) (hq : ∀ b, b ≠ d → r b = q b) : AtBack X fc q ↔ AtBack Y fc r := by
  constructor
  · rintro ⟨f, hf, hp⟩
    have ne : f.axis ≠ d := fun e => (plain_not hd e).1 hf
    refine ⟨f, (ha.sides f ne).1 ▸ hf, ?_⟩
    rw [plane_iff] at hp ⊢
    rw [hq _ ne, ← (box_same ha ne).1]; exact hp
  · rintro ⟨f, hf, hp⟩
    have ne : f.axis ≠ d := fun e => (plain_not hd' e).1 hf
    refine ⟨f, (ha.sides f ne).1.symm ▸ hf, ?_⟩
    rw [plane_iff] at hp ⊢
    rw [← hq _ ne, (box_same ha ne).1]; exact hp

theorem mur_plane (ha : SameAcross X Y d) (hd : PlainSides X d) (hq : ∀ b, b ≠ d → r b = q b) (hf : X.file.bt f = .mur)
    (hp : OnPlane (meshBox X) f fc (q .x) (q .y) (q .z)) : Y.file.bt f = .mur ∧ OnPlane (meshBox Y) f fc (r .x) (r .y) (r .z) ∧ f.axis ≠ d := by
  have ne : f.axis ≠ d := fun e => (plain_not hd e).2 hf
  refine ⟨(ha.sides f ne).1 ▸ hf, ?_, ne⟩
  rw [plane_iff] at hp ⊢
  rw [hq _ ne, ← (box_same ha ne).2]; exact hp

theorem symm_across (ha : SameAcross X Y d) : SameAcross Y X d :=
  ⟨fun b hb => (ha.cells b hb).symm, fun b hb i => (ha.lengths b hb i).symm, fun f hf => ⟨(ha.sides f hf).1.symm, (ha.sides f hf).2.1.symm, (ha.sides f hf).2.2.symm⟩⟩

theorem mur_same (ha : SameAcross X Y d) (hd : PlainSides X d) (hd' : PlainSides Y d) (hq : ∀ b, b ≠ d → r b = q b) : OnMurSide X fc q ↔ OnMurSide Y fc r := by
  constructor
  · rintro ⟨f, hf, hp⟩
    obtain ⟨h1, h2, -⟩ := mur_plane ha hd hq hf hp
    exact ⟨f, h1, h2⟩
  · rintro ⟨f, hf, hp⟩
    obtain ⟨h1, h2, -⟩ := mur_plane (symm_across ha) hd' (fun b hb => (hq b hb).symm) hf hp
    exact ⟨f, h1, h2⟩

theorem mesh_same (ha : SameAcross X Y d) (hd : PlainSides X d) (hd' : PlainSides Y d) (hq : ∀ b, b ≠ d → r b = q b)
    (gq : OnGridBox X fc q) (gr : OnGridBox Y fc r) : SampleInMesh X fc q ↔ SampleInMesh Y fc r := by
  have key : ∀ {X Y : Experiment} {q r : Axis → Int}, SameAcross X Y d → PlainSides Y d → (∀ b, b ≠ d → r b = q b) → OnGridBox Y fc r →
      SampleInMesh X fc q → SampleInMesh Y fc r := by
    intro X Y q r ha hd' hq gr hi
    refine C81.in_iff.2 fun b => ?_
    by_cases hb : b = d
    · subst hb
      have := grid_iff.1 gr b
      rw [(box_d hd').1, (box_d hd').2] at this
      omega
    · have := C81.in_iff.1 hi b
      rw [hq b hb, ← ha.cells b hb]; exact this
  exact ⟨key ha hd' hq gr, key (symm_across ha) hd (fun b hb => (hq b hb).symm) gq⟩

theorem continued_d (hd : PlainSides X d) (gq : OnGridBox X fc q) : continued X fc q d = q d := by
  have := grid_iff.1 gq d
  rw [(box_d hd).1, (box_d hd).2] at this
  have p : pos2 fc d (q d) = 2 * q d + pos2 fc d 0 := by cases fc <;> cases d <;> simp [pos2]
  have p0 : 0 ≤ pos2 fc d 0 ∧ pos2 fc d 0 ≤ 1 := by cases fc <;> cases d <;> simp [pos2]
  unfold continued
  rw [if_neg (by omega), if_neg (by omega)]

theorem continued_other (ha : SameAcross X Y d) (hq : ∀ b, b ≠ d → r b = q b) (hb : b ≠ d) : continued Y fc r b = continued X fc q b := by
  unfold continued
  rw [hq b hb, ha.cells b hb]

theorem side_same (ha : SameAcross X Y d) (hf : f.axis ≠ d) : sideCell X f = sideCell Y f := by
  unfold sideCell
  rw [ha.lengths _ hf, ha.cells _ hf]

theorem stretch_same (ha : SameAcross X Y d) (hd : PlainSides X d) (hd' : PlainSides Y d) (hq : ∀ b, b ≠ d → r b = q b) (b : Axis) :
    kappaAt X fc q b = kappaAt Y fc r b ∧ sigmaAt k X fc q b = sigmaAt k Y fc r b := by
  have x := C81.lo_axis b
  by_cases hb : b = d
  · subst hb
    obtain ⟨p1, p2⟩ := plain_axis (k := k) (fc := fc) (q := q) (plain_not hd x.1).1 (plain_not hd x.2.1).1
    obtain ⟨p3, p4⟩ := plain_axis (k := k) (fc := fc) (q := r) (plain_not hd' x.1).1 (plain_not hd' x.2.1).1
    rw [p1, p2, p3, p4]; exact ⟨rfl, rfl⟩
  · have n1 : b.lo.axis ≠ d := by rw [x.1]; exact hb
    have n2 : b.hi.axis ≠ d := by rw [x.2.1]; exact hb
    have o : ∀ f : Face, f.axis = b → outwards X f fc q = outwards Y f fc r := by
      intro f hf
      unfold outwards
      rw [side_same ha (by rw [hf]; exact hb), hf, hq b hb, ha.cells b hb]
    have t : ∀ f : Face, f.axis ≠ d → layerThickness X f = layerThickness Y f := by
      intro f hf
      unfold layerThickness
      rw [side_same ha hf, (ha.sides f hf).2.1]
    unfold kappaAt sigmaAt
    rw [o _ x.1, o _ x.2.1, t _ n1, t _ n2, side_same ha n1, side_same ha n2, (ha.sides _ n1).1, (ha.sides _ n2).1, (ha.sides _ n1).2.2, (ha.sides _ n2).2.2]
    exact ⟨rfl, rfl⟩

theorem agree_continued (ha : SameAcross X Y d) (hd : PlainSides X d) (hd' : PlainSides Y d) (gq : OnGridBox X fc q) (gr : OnGridBox Y fc r)
    (hq : Agree d P q r) : Agree d P (continued X fc q) (continued Y fc r) := by
  refine ⟨fun b hb => continued_other ha hq.1 hb, ?_⟩
  rw [continued_d hd gq, continued_d hd' gr]; exact hq.2

theorem agree_inwards (hf : f.axis ≠ d) (hq : Agree d P q r) : Agree d P (inwards f q) (inwards f r) := by
  refine ⟨fun b hb => ?_, ?_⟩
  · unfold inwards; rw [hq.1 b hb]
  · unfold inwards; rw [if_neg (Ne.symm hf), if_neg (Ne.symm hf)]; exact hq.2

/-! ### One step -/

variable (hk : Physical k) (hT : 0 < R.dt) (hdt : S.dt = R.dt)
  (h : setup k J X = some R) (ho : OrdinaryBlocks X.file.cards) (hg : GoodLayers k X) (hm : PlainModel k X R.dt)
  (h' : setup k J' Y = some S) (ho' : OrdinaryBlocks Y.file.cards) (hg' : GoodLayers k Y) (hm' : PlainModel k Y S.dt)
  (ha : SameAcross X Y d) (hd : PlainSides X d) (hd' : PlainSides Y d)
include hk hT hdt h ho hg hm h' ho' hg' hm' ha hd hd'

theorem step_E (x : ℝ) (n : ℕ)
    (hst : ∀ q r, SampleInMesh X a.e q → SampleInMesh Y a.e r → Agree d P q r → ∀ s, MadeOf X a.e (q .x) (q .y) (q .z) s → MadeOf Y a.e (r .x) (r .y) (r .z) s)
    (hc : ∀ q r, SampleInMesh X a.e q → SampleInMesh Y a.e r → Agree d P q r →
      sourceField X R.dt (n * R.dt) a.e q = x * sourceField Y R.dt (n * R.dt) a.e r ∧
      sourceCurrent X R.dt (n * R.dt) a.e q = x * sourceCurrent Y R.dt (n * R.dt) a.e r)
    (hrot : ∀ m, m ≤ n → ∀ q r, OnGridBox X a.e q → OnGridBox Y a.e r → Agree d P q r → ¬ AtBack X a.e q → ¬ OnMurSide X a.e q →
      rotH X (value R m) a q = x * rotH Y (value S m) a r)
    (hold : ∀ q r, OnGridBox X a.e q → OnGridBox Y a.e r → Agree d P q r → value R n a.e q = x * value S n a.e r) :
    ∀ q r, OnGridBox X a.e q → OnGridBox Y a.e r → Agree d P q r → value R (n + 1) a.e q = x * value S (n + 1) a.e r := by
  have plain : ∀ q r, OnGridBox X a.e q → OnGridBox Y a.e r → Agree d P q r → SampleInMesh X a.e q → ¬ OnMurSide X a.e q →
      value R (n + 1) a.e q = x * value S (n + 1) a.e r := by
    intro q r gq gr hqr hi nm
    have hi' := (mesh_same ha hd hd' hqr.1 gq gr).1 hi
    exact mesh_E hk hT hdt h ho hg hm h' ho' hg' hm' hi hi' nm (fun t => nm ((mur_same ha hd hd' hqr.1).2 t)) (hst q r hi hi' hqr) x n (hc q r hi hi' hqr)
      (hrot n le_rfl q r gq gr hqr (mur_not_back h hi) nm) (hold q r gq gr hqr)
  intro q r gq gr hqr
  by_cases hb : AtBack X a.e q
  · have hb' := (back_same ha hd hd' hqr.1).1 hb
    obtain ⟨f, hf, hp⟩ := hb
    obtain ⟨f', hf', hp'⟩ := hb'
    rw [C83.metal_behind h ho hm.second hf gq hp (n + 1), C83.metal_behind h' ho' hm'.second hf' gr hp' (n + 1), mul_zero]
  have hb' : ¬ AtBack Y a.e r := fun t => hb ((back_same ha hd hd' hqr.1).2 t)
  by_cases hmur : OnMurSide X a.e q
  · obtain ⟨f, hf, hp⟩ := hmur
    have hi := mur_no_layers h hm hf gq
    have hi' := (mesh_same ha hd hd' hqr.1 gq gr).1 hi
    obtain ⟨hf', hp', nf⟩ := mur_plane ha hd hqr.1 hf hp
    rcases mur_cases h hm hi hf hp with me | ⟨m1, m2, m3⟩
    · have me' : OnMurEdges Y a r := by
        obtain ⟨-, f, g, e0, e1, e2, e3, e4⟩ := me
        obtain ⟨t1, t2, -⟩ := mur_plane ha hd hqr.1 e1 e3
        obtain ⟨t3, t4, -⟩ := mur_plane ha hd hqr.1 e2 e4
        exact ⟨hi', f, g, e0, t1, t3, t2, t4⟩
      rw [C81.mur_edge h ho me (hm.murEdge _ _ me) (n + 1), C81.mur_edge h' ho' me' (hm'.murEdge _ _ me') (n + 1), mul_zero]
    · rcases mur_cases h' hm' hi' hf' hp' with me' | ⟨m1', m2', m3'⟩
      · have me : OnMurEdges X a q := by
          obtain ⟨-, f, g, e0, e1, e2, e3, e4⟩ := me'
          obtain ⟨t1, t2, -⟩ := mur_plane (symm_across ha) hd' (fun b hb => (hqr.1 b hb).symm) e1 e3
          obtain ⟨t3, t4, -⟩ := mur_plane (symm_across ha) hd' (fun b hb => (hqr.1 b hb).symm) e2 e4
          exact ⟨hi, f, g, e0, t1, t3, t2, t4⟩
        rw [C81.mur_edge h ho me (hm.murEdge _ _ me) (n + 1), C81.mur_edge h' ho' me' (hm'.murEdge _ _ me') (n + 1), mul_zero]
      · have ai := agree_inwards nf hqr
        exact mur_E hk hT hdt h ho hg hm h' ho' hg' hm' m1 m1' (side_same ha nf) x n (hold q r gq gr hqr)
          (hold _ _ (mesh_grid h m2) (mesh_grid h' m2') ai) (plain _ _ (mesh_grid h m2) (mesh_grid h' m2') ai m2 m3)
  by_cases hi : SampleInMesh X a.e q
  · exact plain q r gq gr hqr hi hmur
  · have hi' : ¬ SampleInMesh Y a.e r := fun t => hi ((mesh_same ha hd hd' hqr.1 gq gr).2 t)
    have l1 : InLayer X a.e q := ⟨gq, hi, fun f hf hp => hb ⟨f, hf, hp⟩⟩
    have l1' : InLayer Y a.e r := ⟨gr, hi', fun f hf hp => hb' ⟨f, hf, hp⟩⟩
    exact layer_E hk hT hdt h ho hg hm h' ho' hg' hm' l1 l1'
      (hst _ _ (C83.continued_in h hm.second gq) (C83.continued_in h' hm'.second gr) (agree_continued ha hd hd' gq gr hqr))
      (fun b => stretch_same ha hd hd' hqr.1 b) x n (fun m hmn => hrot m hmn q r gq gr hqr hb hmur)

theorem step_H (x : ℝ) (n : ℕ)
    (hst : ∀ q r, SampleInMesh X a.h q → SampleInMesh Y a.h r → Agree d P q r → ∀ s, MadeOf X a.h (q .x) (q .y) (q .z) s → MadeOf Y a.h (r .x) (r .y) (r .z) s)
    (hc : ∀ q r, SampleInMesh X a.h q → SampleInMesh Y a.h r → Agree d P q r →
      sourceField X R.dt ((n + 1 / 2) * R.dt) a.h q = x * sourceField Y R.dt ((n + 1 / 2) * R.dt) a.h r ∧
      sourceCurrent X R.dt ((n + 1 / 2) * R.dt) a.h q = x * sourceCurrent Y R.dt ((n + 1 / 2) * R.dt) a.h r)
    (hrot : ∀ m, m ≤ n → ∀ q r, OnGridBox X a.h q → OnGridBox Y a.h r → Agree d P q r → rotE X (value R (m + 1)) a q = x * rotE Y (value S (m + 1)) a r)
    (hold : ∀ q r, OnGridBox X a.h q → OnGridBox Y a.h r → Agree d P q r → ¬ AtBack X a.h q → value R n a.h q = x * value S n a.h r) :
    ∀ q r, OnGridBox X a.h q → OnGridBox Y a.h r → Agree d P q r → ¬ AtBack X a.h q → value R (n + 1) a.h q = x * value S (n + 1) a.h r := by
  intro q r gq gr hqr hb
  have hb' : ¬ AtBack Y a.h r := fun t => hb ((back_same ha hd hd' hqr.1).2 t)
  by_cases hi : SampleInMesh X a.h q
  · have hi' := (mesh_same ha hd hd' hqr.1 gq gr).1 hi
    exact mesh_H hk hT hdt h ho hg hm h' ho' hg' hm' hi hi' (hst q r hi hi' hqr) x n (hc q r hi hi' hqr) (hrot n le_rfl q r gq gr hqr) (hold q r gq gr hqr hb)
  · have hi' : ¬ SampleInMesh Y a.h r := fun t => hi ((mesh_same ha hd hd' hqr.1 gq gr).2 t)
    have l1 : InLayer X a.h q := ⟨gq, hi, fun f hf hp => hb ⟨f, hf, hp⟩⟩
    have l1' : InLayer Y a.h r := ⟨gr, hi', fun f hf hp => hb' ⟨f, hf, hp⟩⟩
    exact layer_H hk hT hdt h ho hg hm h' ho' hg' hm' l1 l1'
      (hst _ _ (C83.continued_in h hm.second gq) (C83.continued_in h' hm'.second gr) (agree_continued ha hd hd' gq gr hqr))
      (fun b => stretch_same ha hd hd' hqr.1 b) x n (fun m hmn => hrot m hmn q r gq gr hqr)

end
end Vulture.C85
