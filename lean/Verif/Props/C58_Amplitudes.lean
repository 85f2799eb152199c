import Verif.Spec.Amplitudes
import Verif.Lemmas.Amplitude
import Verif.Props.C48_Timing
import Verif.Props.C54_Memory
set_option linter.unusedSimpArgs false
set_option linter.unusedVariables false
/-
C58 The fields are linear in the amplitudes on the cards: the run of a file whose `EX` and `PW` cards carry the amplitudes
a z1 + b z2 gives a times the fields of the file with z1 plus b times those of the file with z2, in every step, for sources
of all kinds and for plane waves on all meshes.
-/
namespace Vulture.C58
open Spec Setup Deck Scaling Amplitude

/-- Sources and waves with other amplitudes. -/
def srcSized (z : ℝ) (x : SrcItem) : SrcItem := { x with size := z }
def pwSized (z : ℝ) (x : PwItem) : PwItem := { x with size := z }

/-- What has been read from the cards with amplitudes `f z1 z2`. -/
noncomputable def stateOf (f : ℚ → ℚ → ℚ) (S : List (SrcItem × ℚ × ℚ)) (P : List (PwItem × ℚ × ℚ)) (s : Deck.State) : Deck.State :=
  { s with
    srcs := S.map fun t => srcSized (f t.2.1 t.2.2 : ℚ) t.1
    pws := P.map fun t => pwSized (f t.2.1 t.2.2 : ℚ) t.1 }

/-- Names as the parsers look them up do not depend on the amplitudes. -/
theorem names (f : ℚ → ℚ → ℚ) (S : List (SrcItem × ℚ × ℚ)) (P : List (PwItem × ℚ × ℚ)) (s : Deck.State) :
    (stateOf f S P s).srcs.map SrcItem.name = S.map (fun t => t.1.name) ∧
    (stateOf f S P s).pws.map PwItem.name = P.map (fun t => t.1.name) ∧ (stateOf f S P s).srcs.length = S.length := by
  refine ⟨?_, ?_, by simp [stateOf]⟩ <;> simp only [stateOf, List.map_map] <;> rfl

/-- One card: what it adds does not depend on the amplitude, besides the amplitude itself. -/
theorem card_sized (c : Deck.Card) (hc : HasSize c) (S : List (SrcItem × ℚ × ℚ)) (P : List (PwItem × ℚ × ℚ)) (s : Deck.State) (z1 z2 : ℚ)
    (f0 : ℚ → ℚ → ℚ) {t : Deck.State} (h0 : (stateOf f0 S P s).card (sized (f0 z1 z2) c) = some t) :
    ∃ S' P' s', ∀ f t', (stateOf f S P s).card (sized (f z1 z2) c) = some t' → t' = stateOf f S' P' s' := by
  cases c with
  | mt n m =>
    refine ⟨S, P, { s with media := s.media ++ [(n, m)] }, fun f t' h => ?_⟩
    simp only [sized, State.card] at h; split at h <;> simp at h; exact h.symm
  | bt n m =>
    refine ⟨S, P, { s with bnds := s.bnds ++ [(n, m)] }, fun f t' h => ?_⟩
    simp only [sized, State.card] at h; split at h <;> simp at h; exact h.symm
  | wt n =>
    refine ⟨S, P, { s with wires := s.wires ++ [n] }, fun f t' h => ?_⟩
    simp only [sized, State.card] at h; split at h <;> simp at h; exact h.symm
  | wf n =>
    refine ⟨S, P, { s with waves := s.waves ++ [n] }, fun f t' h => ?_⟩
    simp only [sized, State.card] at h; split at h <;> simp at h; exact h.symm
  | tw c =>
    refine ⟨S, P, { s with lines := s.lines ++ [⟨c.bbox, c.wire == "FREE_SPACE"⟩] }, fun f t' h => ?_⟩
    simp only [sized, State.card] at h; split at h <;> simp at h; exact h.symm
  | op c =>
    refine ⟨S, P, { s with obs := s.obs ++ [obsOf s c] }, fun f t' h => ?_⟩
    simp only [sized, State.card] at h; split at h <;> simp at h; exact h.symm
  | mb c =>
    simp only [sized, State.card] at h0
    cases hm : find s.media c.medium with
    | none =>
      have : find (stateOf f0 S P s).media c.medium = none := hm
      rw [this] at h0; simp at h0
    | some m =>
      refine ⟨S, P, { s with blocks := s.blocks ++ [⟨c.bbox, m, mbMask c⟩] }, fun f t' h => ?_⟩
      have : find (stateOf f S P s).media c.medium = some m := hm
      simp only [sized, State.card, this] at h
      split at h <;> simp at h; exact h.symm
  | tb c =>
    simp only [sized, State.card] at h0
    cases hm : find s.bnds c.boundary with
    | none =>
      have : find (stateOf f0 S P s).bnds c.boundary = none := hm
      rw [this] at h0; simp at h0
    | some m =>
      refine ⟨S, P, { s with surfs := s.surfs ++ [⟨c.bbox, m, c.orient, (c.angle : ℝ)⟩] }, fun f t' h => ?_⟩
      have : find (stateOf f S P s).bnds c.boundary = some m := hm
      simp only [sized, State.card, this] at h
      split at h <;> simp at h; exact h.symm
  | ex q b n tag w size delay resist =>
    simp only [sized, State.card] at h0
    cases hl : Source.lookup tag with
    | none => rw [hl] at h0; simp at h0
    | some i =>
      refine ⟨S ++ [(⟨b, n, i, w, 0, delay, resist⟩, z1, z2)], P, { s with
        media := if (exCard q b n tag w).lumped then
            s.media ++ [(String.ofList (Names.resistName S.length), Med.simple 1 0 1)] else s.media }, fun f t' h => ?_⟩
      simp only [sized, State.card, hl, (names f S P s).2.2] at h
      split at h <;> simp at h
      rw [← h]
      simp [stateOf, srcSized]
  | pw c delay =>
    refine ⟨S, P ++ [(⟨c.bbox, c.name, pwActive c, c.theta, c.phi, c.eta, 0, delay, c.waveform⟩, z1, z2)], s, fun f t' h => ?_⟩
    have hc' : 13 ≤ c.numScanned := hc
    simp only [sized, State.card] at h
    split at h <;> simp at h
    rw [← h]
    simp [stateOf, pwSized, hc', pwActive]

theorem read_sized : ∀ (l : List (Deck.Card × ℚ × ℚ)) (hl : ∀ t ∈ l, HasSize t.1) (S : List (SrcItem × ℚ × ℚ)) (P : List (PwItem × ℚ × ℚ))
    (s : Deck.State) (f0 : ℚ → ℚ → ℚ) {t : Deck.State}
    (_ : Deck.read (stateOf f0 S P s) (l.map fun t => sized (f0 t.2.1 t.2.2) t.1) = some t),
    ∃ S' P' s', ∀ f t', Deck.read (stateOf f S P s) (l.map fun t => sized (f t.2.1 t.2.2) t.1) = some t' → t' = stateOf f S' P' s'
  | [], _, S, P, s, f0, t, _ => ⟨S, P, s, fun f t' h => by simp [Deck.read] at h; exact h.symm⟩
  | (c, z1, z2) :: l, hl, S, P, s, f0, t, h0 => by
    rw [List.map_cons, C47.read_cons] at h0
    obtain ⟨u, hu, h0⟩ := Option.bind_eq_some_iff.1 h0
    obtain ⟨S1, P1, s1, k1⟩ := card_sized c (hl (c, z1, z2) (by simp)) S P s z1 z2 f0 hu
    rw [k1 f0 u hu] at h0
    obtain ⟨S2, P2, s2, k2⟩ := read_sized l (fun t ht => hl t (by simp [ht])) S1 P1 s1 f0 h0
    refine ⟨S2, P2, s2, fun f t' h => ?_⟩
    rw [List.map_cons, C47.read_cons] at h
    obtain ⟨v, hv, h⟩ := Option.bind_eq_some_iff.1 h
    rw [k1 f v hv] at h
    exact k2 f t' h

/-- `initSource` is linear in the amplitude; the rest of its result does not depend on it. -/
theorem initSource_linear (de dh : Axis → Int → ℝ) (b : BBox) (t : Source.SType) (pol norm : Axis) (R z1 z2 a b' : ℝ) :
    (Source.initSource de dh b t pol norm (a * z1 + b' * z2) R).size =
      a * (Source.initSource de dh b t pol norm z1 R).size + b' * (Source.initSource de dh b t pol norm z2 R).size := by
  by_cases hR : R > Source.minResistance <;>
    cases t <;> simp only [Source.initSource, Source.initThevenin, hR, if_true, if_false] <;> ring

theorem initSource_rest (de dh : Axis → Int → ℝ) (b : BBox) (t : Source.SType) (pol norm : Axis) (R z z' : ℝ) :
    (Source.initSource de dh b t pol norm z R).kind = (Source.initSource de dh b t pol norm z' R).kind ∧
    (Source.initSource de dh b t pol norm z R).med = (Source.initSource de dh b t pol norm z' R).med := by
  by_cases hR : R > Source.minResistance <;>
    cases t <;> simp only [Source.initSource, Source.initThevenin, hR, if_true, if_false, and_self]

theorem finc_linear (eta0 a b z1 z2 th ph et : ℝ) (fc : Fc) :
    PlaneWave.finc eta0 (a * z1 + b * z2) th ph et fc = a * PlaneWave.finc eta0 z1 th ph et fc + b * PlaneWave.finc eta0 z2 th ph et fc := by
  cases fc <;> simp only [PlaneWave.finc] <;> ring

section
variable {k : Consts} {J : Junk} {X : Experiment}

/-- The amplitudes do not enter the geometry, the media, the items. -/
theorem same_sim (l l' : List Deck.Card) (c : Cfg) (f : ℚ → ℚ → ℚ) (S : List (SrcItem × ℚ × ℚ)) (P : List (PwItem × ℚ × ℚ)) (s : Deck.State)
    (g : ℚ → ℚ → ℚ) (h1 : (withCards X l).file.stored = some (stateOf f S P s)) (h2 : (withCards X l').file.stored = some (stateOf g S P s)) :
    (fileOf k J (withCards X l) c).sim (Setup.de k J (withCards X l) c) (Setup.dh k J (withCards X l) c) =
    (fileOf k J (withCards X l') c).sim (Setup.de k J (withCards X l') c) (Setup.dh k J (withCards X l') c) := by
  unfold File.sim
  have e1 : (fileOf k J (withCards X l) c).stored = some (stateOf f S P s) := h1
  have e2 : (fileOf k J (withCards X l') c).stored = some (stateOf g S P s) := h2
  rw [e1, e2]
  simp only [Option.bind_some]
  have a1 : initExternalSurfaceParameters (fileOf k J (withCards X l) c).cells (fileOf k J (withCards X l) c).bt
      (fileOf k J (withCards X l) c).layers = initExternalSurfaceParameters (fileOf k J (withCards X l') c).cells (fileOf k J (withCards X l') c).bt
      (fileOf k J (withCards X l') c).layers := rfl
  have a2 : (fileOf k J (withCards X l) c).cubic = (fileOf k J (withCards X l') c).cubic := rfl
  rw [a1, a2]
  congr 1
  funext c'
  have e3 : (stateOf f S P s).pws.mapM (pwItem (fileOf k J (withCards X l') c).cubic c') =
      (stateOf g S P s).pws.mapM (pwItem (fileOf k J (withCards X l') c).cubic c') := by
    simp only [stateOf, List.mapM_map]
    rfl
  rw [e3]
  have e4 : ((stateOf f S P s).srcs.map (srcItem (Setup.de k J (withCards X l) c) (Setup.dh k J (withCards X l) c) c')).map Prod.fst =
      ((stateOf g S P s).srcs.map (srcItem (Setup.de k J (withCards X l') c) (Setup.dh k J (withCards X l') c) c')).map Prod.fst := by
    simp only [stateOf, List.map_map]
    refine List.map_congr_left fun t _ => ?_
    simp only [Function.comp, srcItem, srcSized, (initSource_rest _ _ _ _ _ _ _ (f t.2.1 t.2.2 : ℚ) (g t.2.1 t.2.2 : ℚ)).1]
    rfl
  rw [e4]
  rfl

/-- The media do not depend on the amplitudes. -/
theorem same_media (l l' : List Deck.Card) (c : Cfg) (f g : ℚ → ℚ → ℚ) (S : List (SrcItem × ℚ × ℚ)) (P : List (PwItem × ℚ × ℚ)) (s : Deck.State) :
    medSetup k J (withCards X l) c (stateOf f S P s) = medSetup k J (withCards X l') c (stateOf g S P s) := by
  have : (stateOf f S P s).srcs.filterMap (srcFill k J (withCards X l) c (Setup.dt k J (withCards X l) c)) =
      (stateOf g S P s).srcs.filterMap (srcFill k J (withCards X l') c (Setup.dt k J (withCards X l') c)) := by
    simp only [stateOf, List.filterMap_map]
    refine List.filterMap_congr fun t _ => ?_
    simp only [Function.comp, srcFill, srcSized, (initSource_rest _ _ _ _ _ _ _ (f t.2.1 t.2.2 : ℚ) (g t.2.1 t.2.2 : ℚ)).2]
    rfl
  unfold medSetup
  dsimp only
  rw [this]
  rfl

/-- Coefficients: those that depend on the amplitudes are combined, the others the same. -/
theorem coefs_mix (l l1 l2 : List Deck.Card) (c : Cfg) (a b : ℚ) (S : List (SrcItem × ℚ × ℚ)) (P : List (PwItem × ℚ × ℚ)) (s : Deck.State) (q : CRef) :
    Mix a b (cdeg q) (coefs k J (withCards X l) c (stateOf (fun z1 z2 => a * z1 + b * z2) S P s) q)
      (coefs k J (withCards X l1) c (stateOf (fun z1 _ => z1) S P s) q) (coefs k J (withCards X l2) c (stateOf (fun _ z2 => z2) S P s) q) := by
  unfold coefs
  rw [same_media l1 l c (fun z1 _ => z1) (fun z1 z2 => a * z1 + b * z2), same_media l2 l c (fun _ z2 => z2) (fun z1 z2 => a * z1 + b * z2)]
  cases q with
  | soft m =>
    refine ⟨?_, ?_⟩ <;>
    · simp only [coefRef, otherCoef, stateOf, List.getElem?_map]
      cases S[m]? <;> rfl
  | auxW m hi fc i j l' =>
    simp only [Mix, cdeg, if_true, coefRef, otherCoef, waveWeight, ofWave, stateOf, List.getElem?_map]
    cases P[m]? with
    | none => simp
    | some t =>
      simp only [Option.map_some, pwSized]
      cases PlaneWave.ijk0 t.1.theta t.1.phi (Deck.place c t.1.mbbox) with
      | none => simp
      | some q0 =>
        simp only [PlaneWave.auxWeight]
        push_cast
        rw [finc_linear]; ring
  | auxBeta m =>
    refine ⟨?_, ?_⟩ <;>
    · simp only [coefRef, otherCoef, ofWave, stateOf, List.getElem?_map]
      cases P[m]? <;> rfl
  | auxGamma m =>
    refine ⟨?_, ?_⟩ <;>
    · simp only [coefRef, otherCoef, ofWave, stateOf, List.getElem?_map]
      cases P[m]? <;> rfl
  | _ => exact ⟨rfl, rfl⟩

/-- Driving values likewise. -/
theorem drive_mix (l l1 l2 : List Deck.Card) (c : Cfg) (a b : ℚ) (S : List (SrcItem × ℚ × ℚ)) (P : List (PwItem × ℚ × ℚ)) (s : Deck.State) (n : ℕ)
    (x : Loc) (hx : x.isInput = true) :
    Mix a b (ldeg x) (drive (env k J (withCards X l) c) (gridType k J (withCards X l) c == .cubic) c (stateOf (fun z1 z2 => a * z1 + b * z2) S P s) n x)
      (drive (env k J (withCards X l1) c) (gridType k J (withCards X l1) c == .cubic) c (stateOf (fun z1 _ => z1) S P s) n x)
      (drive (env k J (withCards X l2) c) (gridType k J (withCards X l2) c == .cubic) c (stateOf (fun _ z2 => z2) S P s) n x) := by
  have g1 : gridType k J (withCards X l1) c = gridType k J (withCards X l) c := rfl
  have g2 : gridType k J (withCards X l2) c = gridType k J (withCards X l) c := rfl
  have v1 : env k J (withCards X l1) c = env k J (withCards X l) c := rfl
  have v2 : env k J (withCards X l2) c = env k J (withCards X l) c := rfl
  rw [g1, g2, v1, v2]
  generalize (gridType k J (withCards X l) c == GridType.cubic) = cubic
  have hv : ∀ z w, (env k J (withCards X l) c).v (pwSized z w) = (env k J (withCards X l) c).v w := fun _ _ => rfl
  generalize env k J (withCards X l) c = e at hv
  cases x with
  | src h m =>
    simp only [Mix, ldeg, if_true, drive, stateOf, List.getElem?_map]
    cases S[m]? with
    | none => simp
    | some t =>
      simp only [Option.map_some, srcItem, srcSized]
      push_cast
      rw [initSource_linear]; ring
  | wav m =>
    simp only [Mix, ldeg, drive, stateOf, List.getElem?_map]
    cases cubic <;> cases P[m]? <;> simp [pwSized]
  | inc h m fc i j l' =>
    simp only [Mix, ldeg, if_true, drive, stateOf, List.getElem?_map]
    cases P[m]? with
    | none => cases cubic <;> simp
    | some t =>
      cases cubic
      · simp only [Option.map_some, hv]
        simp only [pwSized]
        cases PlaneWave.ijk0 t.1.theta t.1.phi (Deck.place c t.1.mbbox) with
        | none => simp
        | some q0 =>
          simp only [PlaneWave.analytic]
          push_cast
          rw [finc_linear]; ring
      · simp
  | _ => simp [Loc.isInput] at hx

/-- C58: fields of all steps are linear in the amplitudes on the cards. -/
theorem linear_in_amplitudes (l : List (Deck.Card × ℚ × ℚ)) (hl : ∀ t ∈ l, HasSize t.1) (a b : ℚ) {R R1 R2 : Run}
    (h : setup k J (withCards X (l.map fun t => sized (a * t.2.1 + b * t.2.2) t.1)) = some R)
    (h1 : setup k J (withCards X (l.map fun t => sized t.2.1 t.1)) = some R1)
    (h2 : setup k J (withCards X (l.map fun t => sized t.2.2 t.1)) = some R2) :
    R1.cfg = R.cfg ∧ R2.cfg = R.cfg ∧ R1.dt = R.dt ∧ R2.dt = R.dt ∧ ∀ n fc i j m,
      R.fields n (.fld fc i j m) = a * R1.fields n (.fld fc i j m) + b * R2.fields n (.fld fc i j m) := by
  obtain ⟨s, e1, e2, e3, e4⟩ := setup_parts h
  obtain ⟨s1, f1, f2, f3, f4⟩ := setup_parts h1
  obtain ⟨s2, g1, g2, g3, g4⟩ := setup_parts h2
  have rd := (C47.stored_parts e1).2
  have rd1 := (C47.stored_parts f1).2
  have rd2 := (C47.stored_parts g1).2
  have st : ∀ f B, stateOf f [] [] (State.init B) = State.init B := fun _ _ => rfl
  obtain ⟨S, P, t, key⟩ := read_sized l hl [] [] (State.init (mkBox 0 X.file.nx 0 X.file.ny 0 X.file.nz)) (fun z1 z2 => a * z1 + b * z2)
    (t := s) rd
  obtain rfl := key (fun z1 z2 => a * z1 + b * z2) s rd
  obtain rfl := key (fun z1 _ => z1) s1 rd1
  obtain rfl := key (fun _ z2 => z2) s2 rd2
  have c1 : R1.cfg = R.cfg := by
    have q : initExternalSurfaceParameters X.file.cells X.file.bt X.file.layers = some R.cfg := e2
    have q1 : initExternalSurfaceParameters X.file.cells X.file.bt X.file.layers = some R1.cfg := f2
    exact Option.some.inj (q1.symm.trans q)
  have c2 : R2.cfg = R.cfg := by
    have q : initExternalSurfaceParameters X.file.cells X.file.bt X.file.layers = some R.cfg := e2
    have q1 : initExternalSurfaceParameters X.file.cells X.file.bt X.file.layers = some R2.cfg := g2
    exact Option.some.inj (q1.symm.trans q)
  have sm1 : R1.sim = R.sim := by
    rw [c1, same_sim _ _ _ _ S P t _ f1 e1, e3] at f3; exact (Option.some.inj f3).symm
  have sm2 : R2.sim = R.sim := by
    rw [c2, same_sim _ _ _ _ S P t _ g1 e1, e3] at g3; exact (Option.some.inj g3).symm
  refine ⟨c1, c2, ?_, ?_, ?_⟩
  · rw [f4, e4, c1]; rfl
  · rw [g4, e4, c2]; rfl
  intro n fc i j m
  have C := coefs_mix (k := k) (J := J) (X := X) (l.map fun t => sized (a * t.2.1 + b * t.2.2) t.1) (l.map fun t => sized t.2.1 t.1)
    (l.map fun t => sized t.2.2 t.1) R.cfg a b S P t
  have D := drive_mix (k := k) (J := J) (X := X) (l.map fun t => sized (a * t.2.1 + b * t.2.2) t.1) (l.map fun t => sized t.2.1 t.1)
    (l.map fun t => sized t.2.2 t.1) R.cfg a b S P t
  have M := state_mix C R.sim D n (.fld fc i j m)
  unfold Run.fields
  rw [sm1, sm2, f4, g4, e4, c1, c2]
  exact M

end

/-! ### A sample -/

/-- A waveform, a resistive voltage source and a plane wave, with amplitudes 1, 0 and 0, 1. -/
noncomputable def cards : List (Deck.Card × ℚ × ℚ) :=
  [(.wf "pulse", 0, 0), (.ex 9 (mkBox 2 2 2 2 1 2) "feed" ['V', 'R', 'Z'] "pulse" 0 0 50, 1, 0),
   (.pw ⟨13, mkBox 1 5 1 4 1 3, "wave", "pulse", 45, 30, 0, "111111".toList, 0⟩ 0, 0, 1)]

theorem wave_ok (z : ℚ) (hz : 0 ≤ z) : parsePW (mkBox 0 6 0 5 0 4) (fun n => ([] : List String).contains n) (fun n => ["pulse"].contains n)
    ⟨13, mkBox 1 5 1 4 1 3, "wave", "pulse", 45, 30, 0, "111111".toList, z⟩ = true := by
  have h1 : parsePW (mkBox 0 6 0 5 0 4) (fun n => ([] : List String).contains n) (fun n => ["pulse"].contains n)
    ⟨13, mkBox 1 5 1 4 1 3, "wave", "pulse", 45, 30, 0, "111111".toList, 1⟩ = true := by decide +kernel
  unfold parsePW at h1 ⊢
  rw [Bool.and_eq_true] at h1 ⊢
  exact ⟨h1.1, by simp [not_lt.2 hz]⟩

theorem sample_setup (k : Consts) (J : Junk) (d : ℝ) (y z : ℚ) (hz : 0 ≤ z) :
    ∃ R, setup k J (withCards (C54.sample d) [.wf "pulse", .ex 9 (mkBox 2 2 2 2 1 2) "feed" ['V', 'R', 'Z'] "pulse" y 0 50,
      .pw ⟨13, mkBox 1 5 1 4 1 3, "wave", "pulse", 45, 30, 0, "111111".toList, z⟩ 0]) = some R ∧ R.sim.pws.length = 1 := by
  let X := withCards (C54.sample d) [.wf "pulse", .ex 9 (mkBox 2 2 2 2 1 2) "feed" ['V', 'R', 'Z'] "pulse" y 0 50,
      .pw ⟨13, mkBox 1 5 1 4 1 3, "wave", "pulse", 45, 30, 0, "111111".toList, z⟩ 0]
  have hst : ∃ s, X.file.stored = some s ∧ ∃ w, s.pws = [w] ∧ w.theta = 45 ∧ w.phi = 30 := by
    have e : X.file.stored = Deck.read (State.init (mkBox 0 6 0 5 0 4)) [.wf "pulse", .ex 9 (mkBox 2 2 2 2 1 2) "feed" ['V', 'R', 'Z'] "pulse" y 0 50,
      .pw ⟨13, mkBox 1 5 1 4 1 3, "wave", "pulse", 45, 30, 0, "111111".toList, z⟩ 0] := rfl
    rw [e, C47.read_cons, C47.card_wf (by decide +kernel), Option.bind_some, C47.read_cons]
    have hl : Source.lookup ['V', 'R', 'Z'] = some ⟨.thevenin, .z, none, .ez, true⟩ := by decide +kernel
    obtain ⟨s', h', e1, e2, e3, e4, e5, e6⟩ := C47.card_ex (s := { State.init (mkBox 0 6 0 5 0 4) with
        waves := (State.init (mkBox 0 6 0 5 0 4)).waves ++ ["pulse"] })
      (k := 9) (b := mkBox 2 2 2 2 1 2) (n := "feed") (w := "pulse") (size := (y : ℝ)) (delay := 0) (resist := 50)
      hl (by decide +kernel)
    rw [h', Option.bind_some, C47.read_cons, C47.card_pw, Option.bind_some]
    · refine ⟨_, rfl, ?_⟩
      simp only [e5, State.init, List.nil_append]
      exact ⟨_, rfl, by norm_num, by norm_num⟩
    · rw [e1, e5, e4]
      exact wave_ok z hz
  obtain ⟨s, hs, w, hw, ht, hf⟩ := hst
  obtain ⟨c, hc⟩ : ∃ c, initExternalSurfaceParameters X.file.cells X.file.bt X.file.layers = some c := by
    have : (initExternalSurfaceParameters (C47.sampleFile false).cells (C47.sampleFile false).bt
      (C47.sampleFile false).layers).isSome = true := by decide +kernel
    exact Option.isSome_iff_exists.1 this
  have hq : ∃ q, PlaneWave.ijk0 w.theta w.phi (place c w.mbbox) = some q := by
    simp only [PlaneWave.ijk0, PlaneWave.originCorner, ht, hf]
    norm_num
  obtain ⟨q, hq⟩ := hq
  have hS : ∃ S, (fileOf k J X c).sim (Setup.de k J X c) (Setup.dh k J X c) = some S ∧ S.pws.length = 1 := by
    have a1 : (fileOf k J X c).stored = some s := hs
    have a2 : initExternalSurfaceParameters (fileOf k J X c).cells (fileOf k J X c).bt (fileOf k J X c).layers = some c := hc
    simp only [File.sim, a1, a2, hw, Option.bind_some, List.mapM_cons, List.mapM_nil, pwItem, hq, Option.map_some,
      Option.pure_def, Option.bind_eq_bind]
    exact ⟨_, rfl, rfl⟩
  obtain ⟨S, hS, hl⟩ := hS
  exact ⟨_, setup_of hc hs hS, hl⟩

/-- The run with 2 V and a wave of 3 V/m is twice the run with 1 V and no wave plus three times the run with the wave alone;
the mesh is cubic or not. -/
example (k : Consts) (J : Junk) (d : ℝ) : ∃ R R1 R2,
    setup k J (withCards (C54.sample d) (cards.map fun t => sized (2 * t.2.1 + 3 * t.2.2) t.1)) = some R ∧
    setup k J (withCards (C54.sample d) (cards.map fun t => sized t.2.1 t.1)) = some R1 ∧
    setup k J (withCards (C54.sample d) (cards.map fun t => sized t.2.2 t.1)) = some R2 ∧
    ∀ n fc i j m, R.fields n (.fld fc i j m) = (2 : ℚ) * R1.fields n (.fld fc i j m) + (3 : ℚ) * R2.fields n (.fld fc i j m) := by
  obtain ⟨R, h, -⟩ := sample_setup k J d (2 * 1 + 3 * 0) (2 * 0 + 3 * 1) (by norm_num)
  obtain ⟨R1, h1, -⟩ := sample_setup k J d 1 0 (by norm_num)
  obtain ⟨R2, h2, -⟩ := sample_setup k J d 0 1 (by norm_num)
  refine ⟨R, R1, R2, h, h1, h2, ?_⟩
  refine (linear_in_amplitudes cards ?_ 2 3 h h1 h2).2.2.2.2
  intro t ht
  simp only [cards, List.mem_cons, List.not_mem_nil, or_false] at ht
  rcases ht with rfl | rfl | rfl <;> simp [HasSize]

end Vulture.C58
