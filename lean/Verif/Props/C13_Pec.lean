import Verif.Lemmas.Zero
import Verif.Props.C19_Media
import Mathlib.Algebra.Field.Rat
import Mathlib.Tactic.FieldSimp
/-
C13: samples in a perfect conductor stay zero.
-/
set_option linter.unusedSimpArgs false
namespace Vulture.C13
open Spec
variable {K : Type*} [CommRing K] {C : CRef → K}

/-- The field samples in the conductor and their PML auxiliary quantities. -/
def ZSet (c : Cfg) (Pec : Fc → Int → Int → Int → Prop) : Loc → Prop
  | .fld fc i j k => Pec fc i j k
  | .pp r fc i j k => Pec fc (i + c.fplim r fc .xlo) (j + c.fplim r fc .ylo) (k + c.fplim r fc .zlo)
  | .p r fc i j k => Pec fc (i + c.fplim r fc .xlo) (j + c.fplim r fc .ylo) (k + c.fplim r fc .zlo)
  | _ => False

/-- A set of electric samples that behaves as a perfect conductor in a run: they are samples of the
outer grid with `beta = 0`; a Mur face extrapolates from samples of the set only; no field source
(which assigns the field directly) acts on it. -/
structure Conductor (S : Sim) (C : CRef → K) (Pec : Fc → Int → Int → Int → Prop) : Prop where
  electric : ∀ fc i j k, Pec fc i j k → fc = .ex ∨ fc = .ey ∨ fc = .ez
  inside : ∀ fc i j k, Pec fc i j k → SampleIn S.cfg.gobox fc i j k
  beta : ∀ fc i j k, Pec fc i j k → C (.beta fc i j k) = 0
  mur : ∀ f fc i j k, S.cfg.bt f = .mur → fc ∈ murComponents f → InLim (S.cfg.fmlim f fc) i j k →
    Pec fc i j k → Pec fc (inward f i j k).1 (inward f i j k).2.1 (inward f i j k).2.2
  nosource : ∀ s ∈ S.srcs, s.kind = .efield → ∀ i j k, InLim (s.flim s.field) i j k → ¬ Pec s.field i j k

variable {S : Sim} {Pec : Fc → Int → Int → Int → Prop}

/-- Unfold an assignment and use `beta = 0`. -/
macro "zeros" hc:ident h:ident : tactic => `(tactic| (
  simp [ZSet, PPr, Pr] at $h:ident
  have hb := ($hc).beta _ _ _ _ $h
  simp [Expr.ZeroOn, ampereX, ampereY, ampereZ, EX, EY, EZ, ZSet, PPr, Pr, hb, ($h)]))

theorem keeps_gridE (hc : Conductor S C Pec) : Keeps C (ZSet S.cfg Pec) (updateGridEfield S.cfg) := by
  refine (Keeps.append (Keeps.append ?_ ?_) ?_) <;>
  · apply Keeps.loop
    intro i j k _ a ha hz
    simp only [List.mem_singleton] at ha
    subst ha
    zeros hc hz

theorem keeps_pmlE (hc : Conductor S C Pec) : Keeps C (ZSet S.cfg Pec) (updatePmlEfield S.cfg) := by
  apply Keeps.flatMap
  intro r _
  unfold pmlRegionE
  split
  · refine (Keeps.append (Keeps.append ?_ ?_) ?_) <;>
    · apply Keeps.loop
      intro i j k _ a ha hz
      simp only [pmlExBlock, pmlEyBlock, pmlEzBlock, List.mem_cons, List.not_mem_nil, or_false] at ha
      rcases ha with rfl | rfl | rfl <;> zeros hc hz
  · exact Keeps.nil

theorem keeps_murE (hc : Conductor S C Pec) : Keeps C (ZSet S.cfg Pec) (updateMurEfield S.cfg) := by
  apply Keeps.flatMap
  intro f _
  split
  · rename_i hf
    apply Keeps.flatMap
    intro fc hfc
    apply Keeps.loop
    intro i j k hi a ha hz
    simp only [murE, List.mem_singleton] at ha
    subst ha
    simp only [ZSet] at hz
    have hm := hc.mur f fc i j k hf hfc hi hz
    have hb := hc.beta _ _ _ _ hm
    have : fc = .ex ∨ fc = .ey ∨ fc = .ez := hc.electric _ _ _ _ hz
    rcases this with rfl | rfl | rfl <;>
      simp [Expr.ZeroOn, ampere, ampereX, ampereY, ampereZ, EX, EY, EZ, ZSet, hb, hm, hz]
  · exact Keeps.nil

theorem keeps_debye (hc : Conductor S C Pec) : Keeps C (ZSet S.cfg Pec) (updateDebye S.debye) := by
  apply Keeps.flatMap
  intro x _
  apply Keeps.flatMap
  intro fc _
  apply Keeps.loop
  intro i j k _ a ha hz
  simp only [debyeBlock, List.mem_cons, List.mem_flatMap, List.not_mem_nil, or_false] at ha
  rcases ha with rfl | rfl | ⟨p, _, rfl | rfl⟩
  · simp only [ZSet] at hz
    have hb := hc.beta _ _ _ _ hz
    simp [debyeE, Expr.ZeroOn, ZSet, hz, hb]
  · exact absurd hz (by simp [ZSet])
  · exact absurd hz (by simp [ZSet])
  · exact absurd hz (by simp [ZSet])

theorem keeps_sibcE : Keeps C (ZSet S.cfg Pec) (updateSibcE S.sibc) := by
  apply Keeps.flatMap
  intro x _
  apply Keeps.loop
  intro i j k _ a ha hz
  simp only [sibcEBlock, List.mem_append, List.mem_cons, List.mem_flatMap, List.not_mem_nil, or_false,
    List.mem_map] at ha
  rcases ha with ((rfl | rfl | rfl | rfl) | ⟨m, _, rfl⟩) | ⟨p, _, q, _, rfl | ⟨m, _, rfl | rfl⟩⟩
  all_goals first
    | (simp only [Expr.ZeroOn]; done)
    | exact absurd hz (by simp [ZSet])

theorem keeps_srcE (hc : Conductor S C Pec) : Keeps C (ZSet S.cfg Pec) (updateSourcesE S.srcs) := by
  apply Keeps.flatMap
  intro x hx
  split
  · apply Keeps.loop
    intro i j k hi a ha hz
    have hm : x.1 ∈ S.srcs := by
      obtain ⟨h1, h2, h3⟩ := List.mem_zipIdx hx
      rw [h3]; exact List.getElem_mem _
    unfold srcEBlock at ha
    cases e : x.1.kind <;> simp only [e, List.mem_singleton] at ha <;> subst ha <;>
      simp only [ZSet] at hz
    · exact absurd hz (hc.nosource _ hm e i j k hi)
    all_goals
      have hb := hc.beta _ _ _ _ hz
      simp [Expr.ZeroOn, ZSet, hz, hb]
  · exact Keeps.nil

theorem keeps_pwE (hc : Conductor S C Pec) : Keeps C (ZSet S.cfg Pec) (updatePlaneWavesE S.cfg S.pws) := by
  apply Keeps.flatMap
  intro x _
  refine Keeps.append ?_ ?_
  · cases x.1.aux with
    | none => exact Keeps.nil
    | some g =>
      apply Keeps.of_writes
      intro b hb a ha
      simp only [auxE, List.mem_append, List.mem_map, List.mem_singleton] at hb
      rcases hb with (⟨i, _, rfl⟩ | ⟨i, _, rfl⟩) | rfl <;>
        simp only [List.mem_cons, List.not_mem_nil, or_false] at ha
      · subst ha; simp [ZSet]
      · rcases ha with rfl | rfl | rfl <;> simp [ZSet]
      · subst ha; simp [ZSet]
  · apply Keeps.flatMap
    intro r _
    split
    · apply Keeps.loop
      intro i j k _ a ha hz
      simp only [pwEBlock, List.mem_singleton] at ha
      subst ha
      simp only [ZSet] at hz
      have hb := hc.beta _ _ _ _ hz
      split <;> simp [Expr.ZeroOn, ZSet, hz, hb]
    · exact Keeps.nil

theorem keeps_ghostE (hc : Conductor S C Pec) :
    Keeps C (ZSet S.cfg Pec) (updateGhostEfield S.cfg) := by
  apply Keeps.flatMap
  intro f _
  unfold ghostFace
  have key : ∀ neg : Bool, Keeps C (ZSet S.cfg Pec)
      ((boxLoop (ghostFaceLim S.cfg f.axis (ghostTarget S.cfg f))).flatMap fun q =>
        (ghostEcomps f).map fun fc =>
          [⟨fldAt fc q, ghostVal neg (fldAt fc (setAx f.axis (ghostSource S.cfg f) q))⟩]) := by
    intro neg
    apply Keeps.of_writes
    intro b hb a ha
    obtain ⟨⟨i, j, k⟩, hq, hb⟩ := List.mem_flatMap.1 hb
    obtain ⟨fc, hfc, rfl⟩ := List.mem_map.1 hb
    simp only [List.mem_singleton] at ha
    subst ha
    have hq := mem_boxLoop.1 hq
    intro hz
    simp only [ZSet, fldAt] at hz
    obtain ⟨h1, h2, h3⟩ := hc.inside _ _ _ _ hz
    cases f <;> simp [ghostEcomps] at hfc <;> subst hfc <;>
      simp [ghostFaceLim, ghostTarget, Face.axis, Face.isLo, pos2] at hq h1 h2 h3 <;> omega
  cases e : S.cfg.bt f with
  | pml => exact Keeps.nil
  | mur => exact Keeps.nil
  | pec => exact key _
  | pmc => exact key _
  | periodic => exact key _

/-- A program that assigns no electric sample and none of the electric PML quantities. -/
theorem keeps_H (hc : Conductor S C Pec) {p : Prog}
    (h : ∀ b ∈ p, ∀ a ∈ b, match a.tgt with
      | .fld fc _ _ _ => fc.isE = false | .pp .. => False | .p .. => False | _ => True) :
    Keeps C (ZSet S.cfg Pec) p := by
  apply Keeps.of_writes
  intro b hb a ha hz
  have := h b hb a ha
  revert this hz
  cases a.tgt <;> simp [ZSet]
  intro hz
  rcases hc.electric _ _ _ _ hz with rfl | rfl | rfl <;> simp [Fc.isE]

theorem keeps_stepH (hc : Conductor S C Pec) : Keeps C (ZSet S.cfg Pec) S.stepH := by
  apply keeps_H hc
  have loopH : ∀ {lim : Face → Int} {body : Int → Int → Int → Block},
      (∀ i j k, ∀ a ∈ body i j k, match a.tgt with
        | .fld fc _ _ _ => fc.isE = false | .pp .. => False | .p .. => False | _ => True) →
      ∀ b ∈ loopOver lim body, ∀ a ∈ b, match a.tgt with
        | .fld fc _ _ _ => fc.isE = false | .pp .. => False | .p .. => False | _ => True := by
    intro lim body hb b hbm a ha
    obtain ⟨t, _, rfl⟩ := List.mem_map.1 hbm
    exact hb _ _ _ a ha
  intro b hb
  simp only [Sim.stepH, List.mem_append] at hb
  rcases hb with (((((hb | hb) | hb) | hb) | hb) | hb) | hb
  · obtain ⟨r, _, hb⟩ := List.mem_flatMap.1 hb
    unfold pmlRegionH at hb
    split at hb
    · simp only [List.mem_append] at hb
      rcases hb with (hb | hb) | hb <;>
        · refine loopH ?_ b hb
          intro i j k a ha
          simp only [pmlHxBlock, pmlHyBlock, pmlHzBlock, List.mem_cons, List.not_mem_nil, or_false] at ha
          rcases ha with rfl | rfl <;> simp [Br, Fc.isE]
    · cases hb
  · obtain ⟨f, _, hb⟩ := List.mem_flatMap.1 hb
    split at hb
    · refine loopH ?_ b hb
      intro i j k a ha
      simp only [List.mem_singleton] at ha
      subst ha
      cases f <;> simp [murNormal, Fc.isE]
    · cases hb
  · simp only [updateGridHfield, List.mem_append] at hb
    rcases hb with (hb | hb) | hb <;>
      · refine loopH ?_ b hb
        intro i j k a ha
        simp only [List.mem_singleton] at ha
        subst ha
        simp [Fc.isE]
  · simp only [updateSibcH, List.mem_append] at hb
    rcases hb with hb | hb
    · obtain ⟨x, _, hb⟩ := List.mem_flatMap.1 hb
      refine loopH ?_ b hb
      intro i j k a ha
      simp only [sibcHBlock, sibcAdj, List.mem_append, List.mem_cons, List.not_mem_nil, or_false] at ha
      rcases ha with (rfl | rfl | rfl | rfl | rfl | rfl | rfl | rfl | rfl) | ha
      iterate 9 (cases x.1.normal <;> simp [fldAt, sibcCorr, Axis.h, Axis.next, Fc.isE])
      cases e : x.1.normal <;> simp only [e, List.mem_cons, List.not_mem_nil, or_false] at ha <;>
        rcases ha with rfl | rfl | rfl | rfl <;> simp [fldAt, sibcCorr, Axis.h, Axis.next, Fc.isE]
    · obtain ⟨x, _, hb⟩ := List.mem_flatMap.1 hb
      refine loopH ?_ b hb
      intro i j k a ha
      simp only [List.mem_singleton] at ha
      subst ha
      cases x.1.normal <;> simp [fldAt, Axis.h, Fc.isE]
  · obtain ⟨x, _, hb⟩ := List.mem_flatMap.1 hb
    split at hb
    · rename_i hx
      refine loopH ?_ b hb
      intro i j k a ha
      unfold srcHBlock at ha
      cases e : x.1.kind <;> simp only [e, List.mem_singleton] at ha <;> subst ha <;> exact hx.2
    · cases hb
  · obtain ⟨x, _, hb⟩ := List.mem_flatMap.1 hb
    rcases List.mem_append.1 hb with hb | hb
    · cases e : x.1.aux with
      | none => simp [e] at hb
      | some g =>
        simp only [e, auxH, List.mem_append, List.mem_map] at hb
        intro a ha
        rcases hb with ⟨i, _, rfl⟩ | ⟨i, _, rfl⟩ <;>
          simp only [List.mem_cons, List.not_mem_nil, or_false] at ha
        · subst ha; simp
        · rcases ha with rfl | rfl <;> simp
    · obtain ⟨r, hr, hb⟩ := List.mem_flatMap.1 hb
      split at hb
      · refine loopH ?_ b hb
        intro i j k a ha
        simp only [pwHBlock, List.mem_singleton] at ha
        subst ha
        simp only [pwTableH, List.mem_cons, List.not_mem_nil, or_false] at hr
        rcases hr with rfl | rfl | rfl | rfl | rfl | rfl | rfl | rfl | rfl | rfl | rfl | rfl <;>
          simp [Fc.isE]
      · cases hb
  · obtain ⟨f, _, hb⟩ := List.mem_flatMap.1 hb
    unfold ghostFace at hb
    have key : ∀ neg : Bool, b ∈ (boxLoop (ghostFaceLim S.cfg f.axis (ghostTarget S.cfg f))).flatMap
        (fun q => (ghostHcomps f).map fun fc =>
          ([⟨fldAt fc q, ghostVal neg (fldAt fc (setAx f.axis (ghostSource S.cfg f) q))⟩] : Block)) →
        ∀ a ∈ b, match a.tgt with
        | .fld fc _ _ _ => fc.isE = false | .pp .. => False | .p .. => False | _ => True := by
      intro neg hb a ha
      obtain ⟨q, _, hb⟩ := List.mem_flatMap.1 hb
      obtain ⟨fc, hfc, rfl⟩ := List.mem_map.1 hb
      simp only [List.mem_singleton] at ha
      subst ha
      cases f <;> simp [ghostHcomps] at hfc <;> rcases hfc with rfl | rfl <;> simp [fldAt, Fc.isE]
    cases e : S.cfg.bt f <;> simp only [e] at hb
    · exact key _ hb
    · exact key _ hb
    · exact key _ hb
    · cases hb
    · cases hb

/-- **C13**: every sample of a perfect conductor is zero at every step of a run from the cleared grid,
with any excitation, whatever else (PML, Debye blocks, impedance surfaces, current sources, plane waves,
periodic or magnetic walls) is in the model. -/
theorem conductor_field_free (hc : Conductor S C Pec) (u : Nat → Loc → K) (n : Nat)
    (fc : Fc) (i j k : Int) (hp : Pec fc i j k) : S.state C u (fun _ => 0) n (.fld fc i j k) = 0 := by
  suffices H : ∀ l, ZSet S.cfg Pec l → S.state C u (fun _ => 0) n l = 0 from H (.fld fc i j k) hp
  induction n with
  | zero => intro l _; rfl
  | succ n ih =>
    have hs : ∀ l, ZSet S.cfg Pec l → setInputs (u n) (S.state C u (fun _ => 0) n) l = 0 := by
      intro l hl
      have : l.isInput = false := by revert hl; cases l <;> simp [ZSet, Loc.isInput]
      unfold setInputs
      rw [this]
      exact ih l hl
    have hk : Keeps C (ZSet S.cfg Pec) S.step :=
      ((((((((keeps_pmlE hc).append (keeps_murE hc)).append (keeps_gridE hc)).append
        (keeps_debye hc)).append keeps_sibcE).append (keeps_srcE hc)).append (keeps_pwE hc)).append
        (keeps_ghostE hc)).append (keeps_stepH hc)
    exact hk.run hs


/-! ### From the mesh file to the fields -/

/-- **C13**, user view: in a model without Mur faces and field sources, let a sample of the user region
have a perfect conductor as the last item (block, wire, surface, outer wall, ideal source) containing
it. Then its electric field is zero at every step. -/
theorem pec_item_field_free_partial {K : Type*} [Field K] (S : Sim) (hv : ValidCfg S.cfg)
    (hmur : ∀ f, S.cfg.bt f ≠ .mur) (hsrc : ∀ s ∈ S.srcs, s.kind ≠ .efield)
    (dt eps0 mu0 : K) (pecMed : Medium K) (MS : MedSetup (Coef K)) (junk : MArr (Coef K)) (rest : CRef → K)
    (fc : Fc) (i j k : Int) (hfc : fc = .ex ∨ fc = .ey ∨ fc = .ez) (hin : SampleIn S.cfg.gibox fc i j k)
    (hlast : C19.Spec.LastWins (initMediaFill S.cfg MS :: (blockFills S.cfg MS ++ lineFills S.cfg MS ++
      surfaceFills S.cfg MS ++ externalFills S.cfg MS) ++ resistFills S.cfg MS) (junk fc i j k) fc i j k
      (mediumCoef dt eps0 mu0 1 pecMed))
    (u : Nat → Loc → K) (n : Nat) :
    S.state (coefRef (mediaArrays S.cfg MS junk) rest) u (fun _ => 0) n (.fld fc i j k) = 0 := by
  have e : mediaArrays S.cfg MS junk fc i j k = mediumCoef dt eps0 mu0 1 pecMed :=
    C19.lastWins_unique _ _ _ _ _ _ _ _ (C19.setup_media_partial hv MS junk fc i j k hin) hlast
  have hg := gibox_within hv
  refine conductor_field_free (Pec := fun fc' i' j' k' => fc' = fc ∧ i' = i ∧ j' = j ∧ k' = k)
    ⟨?_, ?_, ?_, ?_, ?_⟩ u n fc i j k ⟨rfl, rfl, rfl, rfl⟩
  · rintro _ _ _ _ ⟨rfl, rfl, rfl, rfl⟩; exact hfc
  · rintro _ _ _ _ ⟨rfl, rfl, rfl, rfl⟩
    obtain ⟨h1, h2, h3⟩ := hin
    have a := hg .x; have b := hg .y; have c := hg .z
    simp only [Axis.lo, Axis.hi] at a b c
    exact ⟨by omega, by omega, by omega⟩
  · rintro _ _ _ _ ⟨rfl, rfl, rfl, rfl⟩
    simp [coefRef, e, mediumCoef]
  · intro f _ _ _ _ hf; exact absurd hf (hmur f)
  · intro s hs hk; exact absurd hk (hsrc s hs)

/-- **C13 fails** for a medium the user declares with type `PEC`: whatever numbers follow on the card
and whatever its (later) number, its coefficients are those of free space. -/
theorem named_pec_is_free_space {K : Type*} [Field K] [LT K] [DecidableLT K] (h2 : (2 : K) ≠ 0)
    (dt eps0 mu0 : K) (he : eps0 ≠ 0) (vals : List K) (m m0 : Medium K) (n : Nat) (hn : 2 ≤ n)
    (hm : parseMT .pec vals = some m) : mediumCoef dt eps0 mu0 n m = mediumCoef dt eps0 mu0 0 m0 := by
  simp only [parseMT, Option.some.injEq] at hm
  subst hm
  have h0 : n ≠ 0 := by omega
  have h1 : n ≠ 1 := by omega
  simp only [mediumCoef, h0, h1, if_false, if_true, calcCoeff]
  congr 1
  · simp [h2, he]
  · simp; rw [mul_div_mul_left _ _ h2]
  · rw [one_mul]

/-- A one-cell box with PMC walls filled with a block of a medium declared `PEC` by the user, one soft
current source on one edge. -/
def named : Sim :=
  { cfg := ⟨fun _ => 1, fun _ => .pmc, fun _ => 0⟩
    debye := [], sibc := [], pws := []
    srcs := [⟨.ecurr, .ex, mkBox 1 2 1 1 1 1⟩] }
def namedMedia : MedSetup (Coef ℚ) where
  free := mediumCoef 1 1 1 0 ⟨.simple, 1, 0, 1, 0⟩
  pec := mediumCoef 1 1 1 1 ⟨.pec, 1, 0, 1, 0⟩
  blocks := [(mkBox 0 1 0 1 0 1, fun _ => true, mediumCoef 1 1 1 2 ⟨.pec, 1, 0, 1, 0⟩)]
  lines := []
  surfaces := []
  resist := []

/-- The sample is inside the block, the block's medium is what `MT name PEC` declares, the source is
elsewhere, and yet the field is not zero after two steps. -/
theorem named_pec_carries_field :
    parseMT (K := ℚ) .pec [] = some ⟨.pec, 1, 0, 1, 0⟩ ∧
    Contains (mkBox 1 2 1 2 1 2) (fun _ => true) .ex 1 2 1 ∧
    named.state (coefRef (mediaArrays named.cfg namedMedia fun _ _ _ _ => ⟨0, 0, 0⟩) fun _ => 1)
      (fun _ _ => 1) (fun _ => 0) 2 (.fld .ex 1 2 1) ≠ 0 := by
  refine ⟨rfl, by decide, by decide +kernel⟩

/-- The same model with the predefined PEC medium: the hypotheses of `pec_item_field_free_partial` hold. -/
def properMedia : MedSetup (Coef ℚ) :=
  { namedMedia with blocks := [(mkBox 0 1 0 1 0 1, fun _ => true, mediumCoef 1 1 1 1 ⟨.pec, 1, 0, 1, 0⟩)] }
example (n : Nat) : named.state (coefRef (mediaArrays named.cfg properMedia fun _ _ _ _ => ⟨0, 0, 0⟩) fun _ => 1)
      (fun _ _ => 1) (fun _ => 0) n (.fld .ex 1 2 1) = 0 := by
  refine pec_item_field_free_partial named ⟨by decide, by decide, by decide, by decide⟩ (by decide) (by decide) 1 1 1
    ⟨.pec, 1, 0, 1, 0⟩ properMedia _ _ .ex 1 2 1 (Or.inl rfl) (by decide) ?_ _ n
  exact Or.inl ⟨[initMediaFill named.cfg properMedia],
    ⟨offsetBoundingBox (mkBox 0 1 0 1 0 1) named.cfg.gibox, fun _ => true,
      mediumCoef 1 1 1 1 ⟨.pec, 1, 0, 1, 0⟩⟩, [], rfl, by decide, rfl, by simp⟩

/-- **C13 fails** on a Mur face: a PEC plate lying in the plane of a Mur boundary does not keep the
tangential field at zero, because the boundary update overwrites it. 2x1x1 mesh, Mur at low x, PEC
surface on that plane, soft source one cell inside. -/
def plate : Sim :=
  { cfg := ⟨fun a => if a = .x then 2 else 1, fun f => if f = .xlo then .mur else .pmc, fun _ => 0⟩
    debye := [], sibc := [], pws := []
    srcs := [⟨.ecurr, .ey, mkBox 2 2 1 2 1 1⟩] }
def plateMedia : MedSetup (Coef ℚ) :=
  { namedMedia with blocks := [], surfaces := [(mkBox 0 0 0 1 0 1, mediumCoef 1 1 1 1 ⟨.pec, 1, 0, 1, 0⟩)] }

theorem plate_on_mur_carries_field :
    mediaArrays plate.cfg plateMedia (fun _ _ _ _ => ⟨0, 0, 0⟩) .ey 1 1 1 = ⟨-1, 0, 1⟩ ∧
    plate.state (coefRef (mediaArrays plate.cfg plateMedia fun _ _ _ _ => ⟨0, 0, 0⟩) fun _ => 1/2)
      (fun _ _ => 1) (fun _ => 0) 2 (.fld .ey 1 1 1) ≠ 0 := by
  refine ⟨by decide +kernel, by decide +kernel⟩

end Vulture.C13
