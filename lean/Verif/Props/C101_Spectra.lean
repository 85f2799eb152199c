import Verif.Props.C101_Absorbing
import Verif.Props.C70_Transfer
/-
C101: the spectra recorded on a far side.
-/
set_option linter.unusedSimpArgs false
set_option linter.unusedSectionVars false
set_option linter.unusedVariables false
namespace Vulture.C101
open Vulture.Spec Vulture.Setup Vulture.Deck

section
variable {k : Consts} {J : Junk} {X : Experiment} {R : Setup.Run} {Q : Request} {fs : List (String × Contents)}
  {c c' : OPCard} {d : Axis}

theorem transform_times (s : ℝ) (l : List ℕ) (v w : ℕ → ℝ) (T dt : ℝ) (h : ∀ q, v q = s * w q) :
    transform l v T dt = s * transform l w T dt := by
  have : v = fun q => s * w q := funext h
  rw [this]
  exact C70.transform_scaled s l w T dt

/-- The rows of two frequency-domain probes with the same reference waveform. -/
theorem rows (h : Leaves k J X Q fs) (hR : setup k J X = some R) (hc : FrequencyProbe X c) (hc' : FrequencyProbe X c')
    (hw : dividedBy X.file c = dividedBy X.file c') (s : ℝ)
    (hv : ∀ fc q, HalfWay fc d → value R q fc (node c) = s * value R q fc (node c')) :
    ∃ n at1 at2 z z', dividedBy X.file c = some n ∧ ("eh_" ++ c.name ++ "_fd.asc", Contents.freq at1 (spectralRows Q R.dt z)) ∈ fs ∧
      ("eh_" ++ c'.name ++ "_fd.asc", Contents.freq at2 (spectralRows Q R.dt z')) ∈ fs ∧
      ∀ m < frequencyCount Q, Excited X Q R.dt n m → ∀ i fc, sixComponents[i]? = some fc → HalfWay fc d →
        asComplex (z m i) = s * asComplex (z' m i) := by
  obtain ⟨n, z, e1, -, f1, g1⟩ := C61.transfer_file h hR hc.1 hc.2.1 hc.2.2
  obtain ⟨n', z', e2, -, f2, g2⟩ := C61.transfer_file h hR hc'.1 hc'.2.1 hc'.2.2
  have en : n' = n := by rw [hw, e2] at e1; exact Option.some.inj e1
  subst en
  refine ⟨n', _, _, z, z', e1, f1, f2, fun m hm hx i fc hi hh => ?_⟩
  rw [g1 m hm i fc hi hx, g2 m hm i fc hi hx, transform_times s _ (fun q => atNode R q fc (corner c)) (fun q => atNode R q fc (corner c')) _ _ fun q => hv fc q hh]
  ring

/-- **C101.** The spectra on a conducting far side are those one node further inside. -/
theorem conducting_spectra (h : Leaves k J X Q fs) (hf : X.file.bt d.hi = .pec) (hc : FrequencyProbe X c) (hc' : FrequencyProbe X c')
    (hw : dividedBy X.file c = dividedBy X.file c')
    (hi : NodeInMesh X c) (hd : c.bbox d.lo = cellsOf X.file d) (hb : NextTo c c' d (cellsOf X.file d - 1)) :
    ∃ R n at1 at2 z z', setup k J X = some R ∧ dividedBy X.file c = some n ∧
      ("eh_" ++ c.name ++ "_fd.asc", Contents.freq at1 (spectralRows Q R.dt z)) ∈ fs ∧
      ("eh_" ++ c'.name ++ "_fd.asc", Contents.freq at2 (spectralRows Q R.dt z')) ∈ fs ∧
      ∀ m < frequencyCount Q, Excited X Q R.dt n m → ∀ i fc, sixComponents[i]? = some fc → HalfWay fc d →
        asComplex (z m i) = asComplex (z' m i) := by
  obtain ⟨R, hR⟩ := C61.setup_of_leaves h
  obtain ⟨n, a1, a2, z, z', e, f1, f2, g⟩ := rows (d := d) h hR hc hc' hw 1 (fun fc q hh => by
    rw [one_mul]
    exact C81.conducting_side_image hR hf (outside hd hh) (extended hi) (image hd hb hh) q)
  refine ⟨R, n, a1, a2, z, z', hR, e, f1, f2, fun m hm hx i fc hi hh => ?_⟩
  rw [g m hm hx i fc hi hh]
  simp

/-- **C101.** On a magnetic far side: minus those. -/
theorem magnetic_spectra (h : Leaves k J X Q fs) (hf : X.file.bt d.hi = .pmc) (hc : FrequencyProbe X c) (hc' : FrequencyProbe X c')
    (hw : dividedBy X.file c = dividedBy X.file c')
    (hi : NodeInMesh X c) (hd : c.bbox d.lo = cellsOf X.file d) (hb : NextTo c c' d (cellsOf X.file d - 1)) :
    ∃ R n at1 at2 z z', setup k J X = some R ∧ dividedBy X.file c = some n ∧
      ("eh_" ++ c.name ++ "_fd.asc", Contents.freq at1 (spectralRows Q R.dt z)) ∈ fs ∧
      ("eh_" ++ c'.name ++ "_fd.asc", Contents.freq at2 (spectralRows Q R.dt z')) ∈ fs ∧
      ∀ m < frequencyCount Q, Excited X Q R.dt n m → ∀ i fc, sixComponents[i]? = some fc → HalfWay fc d →
        asComplex (z m i) = - asComplex (z' m i) := by
  obtain ⟨R, hR⟩ := C61.setup_of_leaves h
  obtain ⟨n, a1, a2, z, z', e, f1, f2, g⟩ := rows (d := d) h hR hc hc' hw (-1) (fun fc q hh => by
    rw [neg_one_mul]
    exact C81.magnetic_side hR hf (outside hd hh) (extended hi) (image hd hb hh) q)
  refine ⟨R, n, a1, a2, z, z', hR, e, f1, f2, fun m hm hx i fc hi hh => ?_⟩
  rw [g m hm hx i fc hi hh]
  simp

/-- **C101.** On a periodic far side: those on the near side. -/
theorem periodic_spectra (h : Leaves k J X Q fs) (hf : X.file.bt d.hi = .periodic) (hc : FrequencyProbe X c) (hc' : FrequencyProbe X c')
    (hw : dividedBy X.file c = dividedBy X.file c')
    (hi : NodeInMesh X c) (hd : c.bbox d.lo = cellsOf X.file d) (hb : NextTo c c' d 0) :
    ∃ R n at1 at2 z z', setup k J X = some R ∧ dividedBy X.file c = some n ∧
      ("eh_" ++ c.name ++ "_fd.asc", Contents.freq at1 (spectralRows Q R.dt z)) ∈ fs ∧
      ("eh_" ++ c'.name ++ "_fd.asc", Contents.freq at2 (spectralRows Q R.dt z')) ∈ fs ∧
      ∀ m < frequencyCount Q, Excited X Q R.dt n m → ∀ i fc, sixComponents[i]? = some fc → HalfWay fc d →
        asComplex (z m i) = asComplex (z' m i) := by
  obtain ⟨R, hR⟩ := C61.setup_of_leaves h
  obtain ⟨n, a1, a2, z, z', e, f1, f2, g⟩ := rows (d := d) h hR hc hc' hw 1 (fun fc q hh => by
    rw [one_mul]
    exact C81.periodic_side hR hf (outside hd hh) (extended hi) (period hd hb hh) q)
  refine ⟨R, n, a1, a2, z, z', hR, e, f1, f2, fun m hm hx i fc hi hh => ?_⟩
  rw [g m hm hx i fc hi hh]
  simp

/-- **C101.** On an absorbing far side, without sheets and plane waves: zero. -/
theorem absorbing_spectra (h : Leaves k J X Q fs) (hz : ThirdSidesOrdered X.file.cards) (hs : ∀ n pr, Deck.Card.bt n (.sibc pr) ∉ X.file.cards)
    (hw : ∀ c t, Deck.Card.pw c t ∉ X.file.cards) (hf : X.file.bt d.hi = .mur) (hc : FrequencyProbe X c)
    (hd : c.bbox d.lo = cellsOf X.file d) :
    ∃ R n at1 z, setup k J X = some R ∧ dividedBy X.file c = some n ∧
      ("eh_" ++ c.name ++ "_fd.asc", Contents.freq at1 (spectralRows Q R.dt z)) ∈ fs ∧
      ∀ m < frequencyCount Q, Excited X Q R.dt n m → ∀ i fc, sixComponents[i]? = some fc → HalfWay fc d → asComplex (z m i) = 0 := by
  obtain ⟨R, hR⟩ := C61.setup_of_leaves h
  obtain ⟨n, a1, a2, z, z', e, f1, f2, g⟩ := rows (d := d) h hR hc hc rfl 0 (fun fc q hh => by
    rw [zero_mul]
    exact outside_mur hR hz hs hw hf hh hd q)
  refine ⟨R, n, a1, z, hR, e, f1, fun m hm hx i fc hi hh => ?_⟩
  rw [g m hm hx i fc hi hh]
  simp

end

/-! ### A case -/

/-- The cards of `farBox` with frequency-domain probes. -/
noncomputable def spectralCards : List Deck.Card :=
  [.wf "pulse", .op ⟨8, mkBox 6 6 2 2 1 1, "wall", true, true, 1, 1, 1, "", true⟩,
   .op ⟨8, mkBox 5 5 2 2 1 1, "inside", true, true, 1, 1, 1, "", true⟩,
   .ex 9 (mkBox 2 2 2 2 1 2) "feed" ['V', 'R', 'Z'] "pulse" 1 0 50]

noncomputable def spectralBox (d : ℝ) : Experiment := { farBox d with file := { (farBox d).file with cards := spectralCards } }

theorem spectral_stored (cubic : Bool) : ∃ s, ({ (spectralBox 1).file with cubic := cubic }).stored = some s ∧ s.pws = [] := by
  have e : ({ (spectralBox 1).file with cubic := cubic }).stored = Deck.read (State.init (mkBox 0 6 0 5 0 4)) spectralCards := rfl
  rw [e, spectralCards]
  rw [C47.read_cons, C47.card_wf (by decide +kernel), Option.bind_some]
  rw [C47.read_cons, C61.card_op (by decide +kernel), Option.bind_some]
  rw [C47.read_cons, C61.card_op (by decide +kernel), Option.bind_some]
  have hl : Source.lookup ['V', 'R', 'Z'] = some ⟨.thevenin, .z, none, .ez, true⟩ := by decide +kernel
  rw [C47.read_cons]
  have key : ∀ s : Deck.State, parseEX s.mbox (fun n => (s.srcs.map SrcItem.name).contains n) (fun n => s.waves.contains n)
      (exCard 9 (mkBox 2 2 2 2 1 2) "feed" ['V', 'R', 'Z'] "pulse") = true → s.pws = [] →
      ∃ s', ((s.card (.ex 9 (mkBox 2 2 2 2 1 2) "feed" ['V', 'R', 'Z'] "pulse" 1 0 50)).bind fun s => Deck.read s []) = some s' ∧ s'.pws = [] := by
    intro s hp h0
    obtain ⟨s', h', -, -, -, -, e5, -⟩ := C47.card_ex (size := 1) (delay := 0) (resist := 50) hl hp
    rw [h', Option.bind_some]
    exact ⟨s', rfl, by rw [e5, h0]⟩
  refine key _ ?_ rfl
  decide +kernel

theorem spectral_setup (k : Consts) (J : Junk) (d : ℝ) : ∃ R, setup k J (spectralBox d) = some R := by
  obtain ⟨s, hs, -⟩ := spectral_stored false
  have hc : ∃ c, initExternalSurfaceParameters (spectralBox d).file.cells (spectralBox d).file.bt (spectralBox d).file.layers = some c := by
    have : (initExternalSurfaceParameters (spectralBox 1).file.cells (spectralBox 1).file.bt (spectralBox 1).file.layers).isSome = true := by decide +kernel
    exact Option.isSome_iff_exists.1 this
  obtain ⟨c, hc⟩ := hc
  obtain ⟨s', hs', hw⟩ := spectral_stored (gridType k J (spectralBox d) c == .cubic)
  have hS : ∃ S, (fileOf k J (spectralBox d) c).sim (Setup.de k J (spectralBox d) c) (Setup.dh k J (spectralBox d) c) = some S := by
    have ef : (fileOf k J (spectralBox d) c).stored = some s' := hs'
    have ec : initExternalSurfaceParameters (fileOf k J (spectralBox d) c).cells (fileOf k J (spectralBox d) c).bt
      (fileOf k J (spectralBox d) c).layers = some c := hc
    simp only [File.sim, ef, ec, hw, Option.bind_some, List.mapM_nil, Option.pure_def]
    exact ⟨_, rfl⟩
  obtain ⟨S, hS⟩ := hS
  have hs2 : (spectralBox d).file.stored = some s := hs
  exact ⟨_, Scaling.setup_of hc hs2 hS⟩

/-- A Gaussian pulse has something at frequency zero. -/
theorem pulse_excited (d dt : ℝ) : Excited (spectralBox d) ⟨100, none, none⟩ dt "pulse" 0 := by
  have e : frequency ⟨100, none, none⟩ dt 0 = 0 := by simp [frequency]
  have hp : ∀ t, 0 < waveValue dt ((spectralBox d).waves "pulse") t := by
    intro t
    show 0 < Waveform.value _ t 0
    simp only [spectralBox, farBox, Waveform.value, Waveform.initWaveform, Waveform.shape, Waveform.gaussianPulse, Waveform.dflt]
    norm_num
    positivity
  have hs : transform (List.range (100 : BitVec 64).toNat) (fun q => waveValue dt ((spectralBox d).waves "pulse") (q * dt)) 0 dt =
      ((((List.range 100).map fun q : ℕ => waveValue dt ((spectralBox d).waves "pulse") (q * dt)).sum : ℝ) : ℂ) := by
    have : (100 : BitVec 64).toNat = 100 := by decide
    rw [this]
    unfold transform
    generalize List.range 100 = l
    induction l with
    | nil => simp
    | cons a l ih => rw [List.map_cons, List.sum_cons, List.map_cons, List.sum_cons, ih]; push_cast; simp
  unfold Excited
  rw [e, mul_zero]
  refine (congrArg (· ≠ 0) hs).mpr ?_
  rw [Ne, Complex.ofReal_eq_zero]
  refine ne_of_gt (List.sum_pos _ (fun x hx => ?_) (by simp))
  obtain ⟨q, -, rfl⟩ := List.mem_map.1 hx
  exact hp _

/-- Its run ends, and the values of `ex`, `hy` and `hz` at frequency zero of the two probes are equal. -/
example (k : Consts) (J : Junk) (d : ℝ) : ∃ fs, Leaves k J (spectralBox d) ⟨100, none, none⟩ fs ∧
    ∃ dt at1 at2 z z', ("eh_wall_fd.asc", Contents.freq at1 (spectralRows ⟨100, none, none⟩ dt z)) ∈ fs ∧
      ("eh_inside_fd.asc", Contents.freq at2 (spectralRows ⟨100, none, none⟩ dt z')) ∈ fs ∧
      asComplex (z 0 0) = asComplex (z' 0 0) ∧ asComplex (z 0 4) = asComplex (z' 0 4) ∧ asComplex (z 0 5) = asComplex (z' 0 5) := by
  obtain ⟨R, hR⟩ := spectral_setup k J d
  obtain ⟨fs, h⟩ := C61.run_leaves (Q := ⟨100, none, none⟩) hR
    ⟨by decide, by simp, by simp⟩ (by decide) (by
      intro c hc hb a
      rw [C61.mem_probes] at hc
      simp only [spectralBox, spectralCards, List.mem_cons, List.not_mem_nil, or_false, reduceCtorEq, Deck.Card.op.injEq, false_or, or_false] at hc
      rcases hc with rfl | rfl <;> simp at hb) (by intro _ e; simp [waveNames, spectralBox, spectralCards, waveOf] at e)
  refine ⟨fs, h, ?_⟩
  obtain ⟨R, n, a1, a2, z, z', -, e, h1, h2, h3⟩ := conducting_spectra (d := .x)
    (c := ⟨8, mkBox 6 6 2 2 1 1, "wall", true, true, 1, 1, 1, "", true⟩)
    (c' := ⟨8, mkBox 5 5 2 2 1 1, "inside", true, true, 1, 1, 1, "", true⟩) h (by rfl)
    ⟨List.mem_cons_of_mem _ List.mem_cons_self, rfl, rfl⟩
    ⟨List.mem_cons_of_mem _ (List.mem_cons_of_mem _ List.mem_cons_self), rfl, rfl⟩ rfl
    (by
      intro a
      have key : ∀ a : Axis, 0 ≤ (mkBox 6 6 2 2 1 1) a.lo ∧ (mkBox 6 6 2 2 1 1) a.lo ≤ (match a with | .x => 6 | .y => 5 | .z => 4 : Int) := by decide
      have := key a
      cases a <;> exact this) rfl (by intro a; cases a <;> rfl)
  have en : n = "pulse" := by
    have : dividedBy (spectralBox d).file ⟨8, mkBox 6 6 2 2 1 1, "wall", true, true, 1, 1, 1, "", true⟩ = some "pulse" := by
      simp [dividedBy, waveNames, spectralBox, spectralCards, waveOf, List.filterMap_cons]
    rw [this] at e
    exact (Option.some.inj e).symm
  subst en
  have g := h3 0 (by simp [frequencyCount]) (pulse_excited d R.dt)
  exact ⟨R.dt, a1, a2, z, z', h1, h2, g 0 .ex rfl rfl, g 4 .hy rfl rfl, g 5 .hz rfl rfl⟩

end Vulture.C101
