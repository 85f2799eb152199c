import Verif.Spec.Probes
import Verif.Props.C61_Output
/-
C67: observing does not disturb. Inputs that differ in their `OP` cards only compute the same fields, and every file of a
card they share is the same.
-/
set_option linter.unusedSimpArgs false
set_option linter.unusedSectionVars false
set_option linter.unusedVariables false
namespace Vulture.C67
open Vulture.Spec Vulture.Setup Vulture.Deck
open _root_.Vulture.Run hiding body

/-! ### Reading -/

/-- What has been read, with other observers. -/
def swap (o : List ObsItem) (s : Deck.State) : Deck.State := { s with obs := o }

theorem card_other (s : Deck.State) (o : List ObsItem) {c : Deck.Card} (h : notProbe c = true) :
    (swap o s).card c = (s.card c).map (swap o) := by
  cases c <;> simp only [notProbe] at h <;> simp only [State.card, swap]
  all_goals first
    | contradiction
    | ((repeat' split) <;> first | rfl | simp_all [swap])

theorem card_probe {s t : Deck.State} {c : OPCard} (o : List ObsItem) (h : s.card (.op c) = some t) : swap o t = swap o s := by
  simp only [State.card] at h
  split at h
  · simp at h; subst h; rfl
  · simp at h

theorem read_other (o : List ObsItem) : ∀ (l : List Deck.Card) (s t : Deck.State), Deck.read s l = some t →
    Deck.read (swap o s) (l.filter notProbe) = some (swap o t)
  | [], s, t, h => by simp [Deck.read] at h ⊢; rw [h]
  | c :: l, s, t, h => by
    rw [C47.read_cons] at h
    obtain ⟨u, hu, h⟩ := Option.bind_eq_some_iff.1 h
    have ih := read_other o l u t h
    by_cases hc : notProbe c = true
    · rw [List.filter_cons_of_pos hc, C47.read_cons, card_other s o hc, hu]
      exact ih
    · rw [List.filter_cons_of_neg hc]
      cases c <;> simp [notProbe] at hc
      rw [← card_probe o hu]
      exact ih

theorem read_same {l l' : List Deck.Card} {s t t' : Deck.State} (he : SameButProbes l l') (h : Deck.read s l = some t)
    (h' : Deck.read s l' = some t') : t' = swap t'.obs t := by
  have a := read_other t'.obs l s t h
  have b := read_other t'.obs l' s t' h'
  unfold SameButProbes at he
  rw [he, b] at a
  exact Option.some.inj a

theorem read_fewer (keep : OPCard → Bool) : ∀ (l : List Deck.Card) (s t : Deck.State) (o : List ObsItem),
    Deck.read s l = some t → (∀ x ∈ o, x.name ∈ s.obs.map ObsItem.name) →
    ∃ o', Deck.read (swap o s) (keepProbes keep l) = some (swap o' t)
  | [], s, t, o, h, hn => by simp [Deck.read] at h; subst h; exact ⟨o, by simp [Deck.read, keepProbes]⟩
  | c :: l, s, t, o, h, hn => by
    rw [C47.read_cons] at h
    obtain ⟨u, hu, h2⟩ := Option.bind_eq_some_iff.1 h
    have hobs := (C61.card_waves hu).2
    have hsub : ∀ x ∈ o, x.name ∈ u.obs.map ObsItem.name := by
      intro x hx
      rw [hobs, List.map_append]
      exact List.mem_append_left _ (hn x hx)
    by_cases hc : notProbe c = true
    · obtain ⟨o', ho'⟩ := read_fewer keep l u t o h2 hsub
      refine ⟨o', ?_⟩
      have hk : keepProbes keep (c :: l) = c :: keepProbes keep l := by
        unfold keepProbes
        rw [List.filter_cons_of_pos]
        cases c <;> simp [notProbe] at hc ⊢
      rw [hk, C47.read_cons, card_other s o hc, hu]
      exact ho'
    · cases c <;> simp [notProbe] at hc
      rename_i c
      by_cases hk : keep c = true
      · have hp : parseOP s.mbox (fun n => (s.obs.map ObsItem.name).contains n) (fun n => s.waves.contains n) c = true := by
          simp only [State.card] at hu
          split at hu
          · assumption
          · simp at hu
        have hp' : parseOP (swap o s).mbox (fun n => ((swap o s).obs.map ObsItem.name).contains n)
            (fun n => (swap o s).waves.contains n) c = true := by
          simp only [parseOP, Bool.and_eq_true, Bool.not_eq_true'] at hp ⊢
          obtain ⟨⟨⟨⟨⟨⟨p1, p2⟩, p3⟩, p4⟩, p5⟩, p6⟩, p7⟩ := hp
          refine ⟨⟨⟨⟨⟨⟨p1, ?_⟩, p3⟩, p4⟩, p5⟩, p6⟩, p7⟩
          rw [← Bool.not_eq_true, List.contains_iff_mem] at p2 ⊢
          intro hm
          obtain ⟨x, hx, e⟩ := List.mem_map.1 hm
          exact p2 (e ▸ hn x hx)
        have hsub' : ∀ x ∈ o ++ [obsOf s c], x.name ∈ u.obs.map ObsItem.name := by
          intro x hx
          rcases List.mem_append.1 hx with hx | hx
          · exact hsub x hx
          · simp only [List.mem_singleton] at hx
            subst hx
            rw [hobs, List.map_append]
            exact List.mem_append_right _ (by simp)
        obtain ⟨o', ho'⟩ := read_fewer keep l u t _ h2 hsub'
        refine ⟨o', ?_⟩
        have hl : keepProbes keep (.op c :: l) = .op c :: keepProbes keep l := by
          unfold keepProbes
          rw [List.filter_cons_of_pos]
          exact hk
        rw [hl, C47.read_cons, C61.card_op hp', Option.bind_some]
        have : ({ swap o s with obs := (swap o s).obs ++ [obsOf (swap o s) c] } : Deck.State) = swap (o ++ [obsOf s c]) u := by
          rw [card_probe _ hu]; rfl
        rw [this]
        exact ho'
      · obtain ⟨o', ho'⟩ := read_fewer keep l u t o h2 hsub
        refine ⟨o', ?_⟩
        have hl : keepProbes keep (.op c :: l) = keepProbes keep l := by
          unfold keepProbes
          rw [List.filter_cons_of_neg]
          exact hk
        rw [hl, ← card_probe o hu]
        exact ho'

/-! ### Set-up -/

section
variable {k : Consts} {J : Junk} {X : Experiment} {Q : Request} {fs fs' : List (String × Contents)} {R R' : Setup.Run}
  {l : List Deck.Card}

theorem sim_swap (k : Consts) (J : Junk) (X : Experiment) (c : Cfg) (l : List Deck.Card) {s : Deck.State} {o : List ObsItem}
    (hs : X.file.stored = some s) (hs' : (withCards X l).file.stored = some (swap o s)) :
    (fileOf k J (withCards X l) c).sim (Setup.de k J (withCards X l) c) (Setup.dh k J (withCards X l) c) =
      (fileOf k J X c).sim (Setup.de k J X c) (Setup.dh k J X c) := by
  have e1 : (fileOf k J (withCards X l) c).stored = some (swap o s) := hs'
  have e2 : (fileOf k J X c).stored = some s := hs
  unfold File.sim
  rw [e1, e2]
  rfl

/-- The run set up from an input with other observers. -/
theorem run_swap (hR : setup k J X = some R) {o : List ObsItem} (hs' : (withCards X l).file.stored = some (swap o R.state)) :
    setup k J (withCards X l) = some { R with state := swap o R.state } := by
  obtain ⟨s, hs, hc, hS, e⟩ := Scaling.setup_parts hR
  have es : R.state = s := by rw [e]
  rw [es] at hs' ⊢
  have hS' := sim_swap k J X R.cfg l hs hs'
  rw [hS] at hS'
  have := Scaling.setup_of (X := withCards X l) (c := R.cfg) hc hs' hS'
  rw [this, e]
  rfl

/-- **C67.** Inputs that differ in their `OP` cards only make the same run: the same time step and the same value of every
field sample before every step. -/
theorem fields_unchanged (hR : setup k J X = some R) (hl : SameButProbes X.file.cards l)
    (hR' : setup k J (withCards X l) = some R') :
    R'.dt = R.dt ∧ R'.cfg = R.cfg ∧ ∀ n, R'.fields n = R.fields n := by
  obtain ⟨s, hs, hc, hS, e⟩ := Scaling.setup_parts hR
  obtain ⟨s', hs', hc', hS', e'⟩ := Scaling.setup_parts hR'
  obtain ⟨-, hr⟩ := C47.stored_parts hs
  obtain ⟨-, hr'⟩ := C47.stored_parts hs'
  have es : s' = swap s'.obs s := read_same hl hr hr'
  have e1 : R.state = s := by rw [e]
  have hx := run_swap (l := l) (o := s'.obs) hR (by rw [e1, ← es]; exact hs')
  rw [hR'] at hx
  rw [Option.some.inj hx]
  exact ⟨rfl, rfl, fun _ => rfl⟩

/-- Leaving out `OP` cards does not make an accepted input unacceptable. -/
theorem probes_removable (hR : setup k J X = some R) (keep : OPCard → Bool) :
    ∃ R', setup k J (withCards X (keepProbes keep X.file.cards)) = some R' := by
  obtain ⟨s, hs, hc, hS, e⟩ := Scaling.setup_parts hR
  have e1 : R.state = s := by rw [e]
  obtain ⟨hd, hr⟩ := C47.stored_parts hs
  obtain ⟨o, ho⟩ := read_fewer keep _ _ _ [] hr (by simp)
  have h0 : swap [] (State.init (mkBox 0 X.file.nx 0 X.file.ny 0 X.file.nz)) = State.init (mkBox 0 X.file.nx 0 X.file.ny 0 X.file.nz) := rfl
  refine ⟨_, run_swap (o := o) hR ?_⟩
  rw [e1]
  have h2 : X.file.stored = (parseDM X.file.nx X.file.ny X.file.nz).bind fun m => Deck.read (State.init m) X.file.cards := rfl
  have hm : parseDM X.file.nx X.file.ny X.file.nz = some (mkBox 0 X.file.nx 0 X.file.ny 0 X.file.nz) := by
    unfold parseDM
    rw [if_neg (by omega)]
  show ((parseDM X.file.nx X.file.ny X.file.nz).bind fun m => Deck.read (State.init m) _) = _
  rw [hm, Option.bind_some]
  exact ho

theorem same_keep (keep : OPCard → Bool) (l : List Deck.Card) : SameButProbes l (keepProbes keep l) := by
  unfold SameButProbes keepProbes
  rw [List.filter_filter]
  refine List.filter_congr fun c _ => ?_
  cases c <;> simp [notProbe]

/-! ### Files -/

theorem waves_same {l l' : List Deck.Card} (h : SameButProbes l l') : l'.filterMap waveOf = l.filterMap waveOf := by
  have key : ∀ l : List Deck.Card, l.filterMap waveOf = (l.filter notProbe).filterMap waveOf := by
    intro l
    induction l with
    | nil => rfl
    | cons c l ih => cases c <;> simp [List.filterMap_cons, List.filter_cons, waveOf, notProbe, ih]
  rw [key l', key l, h]

theorem names_same (hl : SameButProbes X.file.cards l) : waveNames (withCards X l).file = waveNames X.file := waves_same hl

/-- A complex number as two real ones. -/
def pair (z : ℂ) : ℝ × ℝ := (z.re, z.im)

theorem pair_of {p : ℝ × ℝ} {z : ℂ} (h : C33.cplx p = z) : p = pair z := by rw [← h]; rfl

/-- The transform of a waveform over the run. -/
noncomputable def waveSpectrum (X : Experiment) (Q : Request) (R : Setup.Run) (n : String) (m : Nat) : ℝ × ℝ :=
  pair (transform (List.range Q.steps.toNat) (fun q => waveValue R.dt (X.waves n) (q * R.dt)) (2 * Real.pi * frequency Q R.dt m) R.dt)

/-- The transform of a component at a card's node over the recorded steps. -/
noncomputable def fieldSpectrum (Q : Request) (R : Setup.Run) (c : OPCard) (fc : Fc) (m : Nat) : ℝ × ℝ :=
  pair (transform (observed Q) (fun q => atNode R q fc (corner c)) (2 * Real.pi * frequency Q R.dt m) R.dt)

/-- The whole contents of a frequency-domain file. -/
theorem transfer_exact (h : Leaves k J X Q fs) (hR : setup k J X = some R) {c : OPCard} (hc : Deck.Card.op c ∈ X.file.cards)
    (ha : c.ascii = true) (hf : c.freq = true) : ∃ n, dividedBy X.file c = some n ∧
      ("eh_" ++ c.name ++ "_fd.asc", Contents.freq (some ⟨fun a => c.bbox a.lo, fun a => X.lines a (c.bbox a.lo)⟩)
        ((List.range (frequencyCount Q)).map fun m =>
          (frequency Q R.dt m, [Fc.ex, .ey, .ez, .hx, .hy, .hz].map fun fc =>
            quotient (fieldSpectrum Q R c fc m) (waveSpectrum X Q R n m)))) ∈ fs := by
  obtain ⟨-, hN, hwe, out, ho, rfl⟩ := C61.leaves_parts h hR
  obtain ⟨hw, hob, hnd, -, hp⟩ := C61.stored_obs hR
  obtain ⟨o, hc'⟩ := List.getElem?_of_mem (C61.mem_probes.2 hc)
  have hk : kindOf (C61.itemOf (waveNames X.file) c) = .asciiFreq := by simp [kindOf, C61.itemOf, ha, hf]
  have hom : C61.itemOf (waveNames X.file) c ∈ R.state.obs := by
    rw [hob]; exact List.mem_map_of_mem (C61.mem_probes.2 hc)
  have hlt := (hwe _ hom).1 hk
  obtain ⟨w, hwd⟩ : ∃ w, w = (C61.itemOf (waveNames X.file) c).wave := ⟨_, rfl⟩
  rw [← hwd] at hlt
  have hlt' : w < (waveNames X.file).length := by rw [← hw]; exact hlt
  have hdiv : dividedBy X.file c = some (waveNames X.file)[w] := by
    unfold dividedBy
    by_cases hn : c.waveform = ""
    · rw [if_pos hn]
      have : w = 0 := by rw [hwd]; simp [C61.itemOf, hn]
      simp only [this]
      rw [List.head?_eq_getElem?, List.getElem?_eq_getElem]
    · rw [if_neg hn]
      have hv : w = (waveNames X.file).idxOf c.waveform := by rw [hwd]; simp [C61.itemOf, hn]
      simp only [hv]
      rw [List.getElem_idxOf]
  refine ⟨(waveNames X.file)[w], hdiv, C61.obs_file_mem hR out hc' ?_⟩
  have hwl : ∀ m < frequencyCount Q, out.dft (reference R.state w) 0 m = waveSpectrum X Q R (waveNames X.file)[w] m := by
    intro m hm
    have hi := (C61.item_wave (R.state.obs.map (obsItem R.cfg)) R.state.waves.length hlt).2
    rw [List.length_map] at hi
    have hwl := C33.waveform_transform _ _ _ _ _ _ ho hi rfl (f := m) (by rw [C61.count_eq]; exact hm)
    rw [C61.omega_eq] at hwl
    have hwv : ∀ q : Nat, (obsEnv X R Q).wave w (q * R.dt) = waveValue R.dt (X.waves (waveNames X.file)[w]) (q * R.dt) := by
      intro q
      show (match R.state.waves[w]? with | some n => _ | none => _) = _
      rw [hw, List.getElem?_eq_getElem hlt']
    simp only [hwv] at hwl
    exact pair_of hwl
  have hfl : ∀ m < frequencyCount Q, ∀ (comp : Nat) (fc : Fc), [Fc.ex, .ey, .ez, .hx, .hy, .hz][comp]? = some fc →
      out.dft o comp m = fieldSpectrum Q R c fc m := by
    intro m hm comp fc hfc
    have hfl := C33.field_transform _ _ _ _ _ _ (Nat.le_of_lt Q.steps.isLt) ho (C61.probe_item (Q := Q) hR hc') hk (comp := comp)
      (f := m) (fc := fc) hfc (by rw [C61.count_eq]; exact hm)
    rw [C61.observed_eq hN, C61.omega_eq] at hfl
    refine pair_of (hfl.trans ?_)
    congr 1
  unfold obsFile fieldRows
  simp only [hk, C61.frequency_eq, C61.count_eq, ← hwd]
  refine congrArg some (Prod.ext rfl ?_)
  show Contents.freq _ _ = Contents.freq _ _
  refine congrArg₂ _ rfl (List.map_congr_left fun m hm => ?_)
  rw [List.mem_range] at hm
  rw [hwl m hm]
  simp only [show List.range 6 = [0, 1, 2, 3, 4, 5] from rfl, List.map_cons, List.map_nil]
  rw [hfl m hm 0 .ex rfl, hfl m hm 1 .ey rfl, hfl m hm 2 .ez rfl, hfl m hm 3 .hx rfl, hfl m hm 4 .hy rfl, hfl m hm 5 .hz rfl]

theorem only_one {α β : Type} : ∀ {l : List (α × β)}, (l.map Prod.fst).Nodup → ∀ {n : α} {a b : β}, (n, a) ∈ l → (n, b) ∈ l → a = b
  | [], _, _, _, _, ha, _ => by cases ha
  | (m, c) :: l, h, n, a, b, ha, hb => by
    simp only [List.map_cons, List.nodup_cons] at h
    have hm : ∀ {d}, (m, d) ∈ l → False := fun hd => h.1 (List.mem_map_of_mem hd)
    rcases List.mem_cons.1 ha with ha' | ha' <;> rcases List.mem_cons.1 hb with hb' | hb'
    · rw [Prod.mk.injEq] at ha' hb'; rw [ha'.2, hb'.2]
    · rw [Prod.mk.injEq] at ha'; obtain ⟨rfl, -⟩ := ha'; exact (hm hb').elim
    · rw [Prod.mk.injEq] at hb'; obtain ⟨rfl, -⟩ := hb'; exact (hm ha').elim
    · exact only_one h.2 ha' hb'

/-- A file with given contents is in both or its contents in neither. -/
theorem file_iff (h : Leaves k J X Q fs) (h' : Leaves k J (withCards X l) Q fs') {n : String} {K : Contents} (hn : (n, K) ∈ fs)
    (hn' : (n, K) ∈ fs') (K' : Contents) : (n, K') ∈ fs ↔ (n, K') ∈ fs' := by
  constructor
  · intro hk
    rw [only_one (C61.names_distinct h) hk hn]; exact hn'
  · intro hk
    rw [only_one (C61.names_distinct h') hk hn']; exact hn

/-- **C67.** The file of an `OP` card with text output, in time or in frequency, does not depend on the other `OP` cards. -/
theorem probe_unchanged (h : Leaves k J X Q fs) (hl : SameButProbes X.file.cards l) (h' : Leaves k J (withCards X l) Q fs')
    {c : OPCard} (hc : Deck.Card.op c ∈ X.file.cards) (hc' : Deck.Card.op c ∈ l) (ha : c.ascii = true) :
    ∃ K, (probeFile c, K) ∈ fs ∧ (probeFile c, K) ∈ fs' := by
  obtain ⟨R, hR⟩ := C61.setup_of_leaves h
  obtain ⟨R', hR'⟩ := C61.setup_of_leaves h'
  obtain ⟨hdt, hcfg, hfld⟩ := fields_unchanged hR hl hR'
  have hat : ∀ q fc t, atNode R' q fc t = atNode R q fc t := by
    intro q fc t; unfold atNode; rw [hfld, hcfg]
  unfold probeFile
  by_cases hf : c.freq = true
  · rw [if_pos hf]
    obtain ⟨n, hn, hm⟩ := transfer_exact h hR hc ha hf
    obtain ⟨n', hn', hm'⟩ := transfer_exact h' hR' (c := c) hc' ha hf
    have : n' = n := by
      have e : dividedBy (withCards X l).file c = dividedBy X.file c := by
        unfold dividedBy; rw [names_same hl]
      rw [e, hn] at hn'
      exact (Option.some.inj hn').symm
    subst this
    refine ⟨_, hm, ?_⟩
    have e1 : ∀ fc m, fieldSpectrum Q R' c fc m = fieldSpectrum Q R c fc m := by
      intro fc m; unfold fieldSpectrum; simp only [hat, hdt]
    have e2 : ∀ m, waveSpectrum (withCards X l) Q R' n' m = waveSpectrum X Q R n' m := by
      intro m; unfold waveSpectrum; rw [hdt]; rfl
    simp only [e1, e2, hdt] at hm'
    exact hm'
  · rw [if_neg hf]
    have hf : c.freq = false := by simpa using hf
    refine ⟨_, C61.probe_file h hR hc ha hf, ?_⟩
    have := C61.probe_file h' hR' (c := c) hc' ha hf
    unfold sixAt at this ⊢
    simp only [hat, hdt] at this
    exact this

/-- The two files of a `WF` card do not depend on the `OP` cards. -/
theorem waveform_unchanged (h : Leaves k J X Q fs) (hl : SameButProbes X.file.cards l) (h' : Leaves k J (withCards X l) Q fs')
    {n : String} (hn : Deck.Card.wf n ∈ X.file.cards) :
    (∃ K, ("wf_" ++ n ++ "_td.asc", K) ∈ fs ∧ ("wf_" ++ n ++ "_td.asc", K) ∈ fs') ∧
    ∃ K, ("wf_" ++ n ++ "_fd.asc", K) ∈ fs ∧ ("wf_" ++ n ++ "_fd.asc", K) ∈ fs' := by
  obtain ⟨R, hR⟩ := C61.setup_of_leaves h
  obtain ⟨R', hR'⟩ := C61.setup_of_leaves h'
  obtain ⟨hdt, hcfg, hfld⟩ := fields_unchanged hR hl hR'
  have hn' : Deck.Card.wf n ∈ (withCards X l).file.cards := by
    rw [← C61.mem_waveNames, names_same hl, C61.mem_waveNames]; exact hn
  constructor
  · refine ⟨_, C61.waveform_file h hR hn, ?_⟩
    have := C61.waveform_file h' hR' hn'
    rw [hdt] at this
    exact this
  · obtain ⟨z, hz, ez⟩ := C61.waveform_spectrum h hR hn
    obtain ⟨z', hz', ez'⟩ := C61.waveform_spectrum h' hR' hn'
    refine ⟨_, hz, ?_⟩
    have : ∀ m < frequencyCount Q, z' m = z m := by
      intro m hm
      have a := ez m hm
      have b := ez' m hm
      rw [hdt] at b
      have c : asComplex (z' m) = asComplex (z m) := b.trans a.symm
      exact (pair_of (z := asComplex (z m)) c)
    rw [hdt] at hz'
    have e : ((List.range (frequencyCount Q)).map fun m => (frequency Q R.dt m, [z' m])) =
        (List.range (frequencyCount Q)).map fun m => (frequency Q R.dt m, [z m]) := by
      refine List.map_congr_left fun m hm => ?_
      rw [this m (List.mem_range.1 hm)]
    rw [e] at hz'
    exact hz'

/-- The file of excitation values does not depend on the `OP` cards, if there is one. -/
theorem excite_unchanged (h : Leaves k J X Q fs) (hl : SameButProbes X.file.cards l) (h' : Leaves k J (withCards X l) Q fs')
    {c c' : OPCard} (hc : Deck.Card.op c ∈ X.file.cards) (hb : c.ascii = false) (hc' : Deck.Card.op c' ∈ l) (hb' : c'.ascii = false) :
    ∃ K, ("excite.dat", K) ∈ fs ∧ ("excite.dat", K) ∈ fs' := by
  obtain ⟨R, hR⟩ := C61.setup_of_leaves h
  obtain ⟨R', hR'⟩ := C61.setup_of_leaves h'
  obtain ⟨hdt, hcfg, hfld⟩ := fields_unchanged hR hl hR'
  obtain ⟨n, hn, hm⟩ := C61.excite_file h hR hc hb
  obtain ⟨n', hn', hm'⟩ := C61.excite_file h' hR' (c := c') hc' hb'
  rw [names_same hl, hn] at hn'
  obtain rfl := Option.some.inj hn'
  refine ⟨_, hm, ?_⟩
  rw [hdt] at hm'
  exact hm'

/-- The binary record file depends on the binary `OP` cards only. -/
theorem impulse_unchanged (h : Leaves k J X Q fs) (hl : SameButProbes X.file.cards l) (h' : Leaves k J (withCards X l) Q fs')
    (hb : (probes (withCards X l).file).filter (fun c => !c.ascii) = (probes X.file).filter (fun c => !c.ascii))
    (hne : (probes X.file).filter (fun c => !c.ascii) ≠ []) :
    ∃ K, ("impulse.dat", K) ∈ fs ∧ ("impulse.dat", K) ∈ fs' := by
  obtain ⟨R, hR⟩ := C61.setup_of_leaves h
  obtain ⟨R', hR'⟩ := C61.setup_of_leaves h'
  obtain ⟨hdt, hcfg, hfld⟩ := fields_unchanged hR hl hR'
  obtain ⟨-, hN, -, out, ho, rfl⟩ := C61.leaves_parts h hR
  obtain ⟨-, -, -, out', ho', rfl⟩ := C61.leaves_parts h' hR'
  have hr := C32.binary_records _ _ _ _ _ _ (Nat.le_of_lt Q.steps.isLt) ho
  have hr' := C32.binary_records _ _ _ _ _ _ (Nat.le_of_lt Q.steps.isLt) ho'
  rw [C61.observed_eq hN, C61.binary_items hR] at hr
  rw [C61.observed_eq hN, C61.binary_items hR', hb, names_same hl] at hr'
  have any1 : anyBinary R.state = true := by
    rw [C61.any_binary hR, List.any_eq_true]
    obtain ⟨c, hc⟩ := List.exists_mem_of_ne_nil _ hne
    exact ⟨c, (List.mem_filter.1 hc).1, (List.mem_filter.1 hc).2⟩
  have any2 : anyBinary R'.state = true := by
    rw [C61.any_binary hR', List.any_eq_true]
    rw [← hb] at hne
    obtain ⟨c, hc⟩ := List.exists_mem_of_ne_nil _ hne
    exact ⟨c, (List.mem_filter.1 hc).1, (List.mem_filter.1 hc).2⟩
  refine ⟨.impulse (numOut (window Q.times Q.steps)) out.impulse, ?_, ?_⟩
  · unfold filesOf
    rw [if_pos any1]
    exact List.mem_append_right _ (List.mem_cons_self ..)
  · have e : out'.impulse = out.impulse := by
      rw [hr, hr']
      refine List.flatMap_congr fun q _ => ?_
      rw [List.flatMap_map, List.flatMap_map]
      refine List.flatMap_congr fun c _ => ?_
      unfold C32.nodeRecs
      have hf : ∀ t, fieldsAt (R'.sim.state R'.coefs R'.drive (fun _ => 0) q) t = fieldsAt (R.sim.state R.coefs R.drive (fun _ => 0) q) t := by
        intro t; exact congrArg (fun m => fieldsAt m t) (hfld q)
      simp only [hf, obsEnv, hcfg]
    rw [← e]
    unfold filesOf
    rw [if_pos any2]
    exact List.mem_append_right _ (List.mem_cons_self ..)

/-! ### Leaving out observers -/

theorem recs_some {e : Run.Env} {t : BitVec 64} {m : Loc → ℝ} : ∀ {l : List Item},
    (∃ r, C32.allRecs e t m l = some r) ↔ ∀ x ∈ l, ∃ r, C32.newRecs e t m x = some r
  | [] => by simp [C32.allRecs]
  | x :: l => by
    have ih := recs_some (e := e) (t := t) (m := m) (l := l)
    simp only [C32.allRecs, List.forall_mem_cons, ← ih]
    constructor
    · rintro ⟨r, hr⟩
      obtain ⟨a, ha, hr⟩ := Option.bind_eq_some_iff.1 hr
      obtain ⟨b, hb, -⟩ := Option.map_eq_some_iff.1 hr
      exact ⟨⟨a, ha⟩, b, hb⟩
    · rintro ⟨⟨a, ha⟩, b, hb⟩
      exact ⟨a ++ b, by rw [ha, hb]; rfl⟩

/-- A run with fewer observers ends if the run with more does. -/
theorem outputs_fewer {S : Sim} {C : CRef → ℝ} {u : Nat → Loc → ℝ} {e e' : Run.Env} {dt : ℝ} {s0 : Loc → ℝ}
    (hi : ∀ x ∈ e'.items, x ∈ e.items) (hw : e'.win = e.win) (hg : e'.giboxLo = e.giboxLo) : ∀ (n : Nat) {out : Out},
    C35.outputs S C u e dt s0 n = some out → ∃ out', C35.outputs S C u e' dt s0 n = some out'
  | 0, _, _ => ⟨_, rfl⟩
  | n + 1, out, h => by
    obtain ⟨o, r, ho, hr, -⟩ := C32.outputs_succ S C u e dt s0 h
    obtain ⟨o', ho'⟩ := outputs_fewer hi hw hg n ho
    have hx := recs_some.1 ⟨r, hr⟩
    obtain ⟨r', hr'⟩ := (recs_some (e := e') (t := BitVec.ofNat 64 n) (m := S.state C u s0 n) (l := e'.items)).2 fun x hxm => by
      obtain ⟨a, ha⟩ := hx x (hi x hxm)
      refine ⟨a, ?_⟩
      unfold C32.newRecs records at ha ⊢
      rw [hw, hg]
      exact ha
    have e1 : C35.outputs S C u e' dt s0 (n + 1) = (C35.outputs S C u e' dt s0 n).bind fun o =>
      updateObservers e' (BitVec.ofNat 64 n) (n * dt) (S.state C u s0 n) o := rfl
    rw [e1, ho', Option.bind_some]
    unfold updateObservers
    rw [C32.updateItems_eq, hr']
    exact ⟨_, rfl⟩

theorem probes_keep (keep : OPCard → Bool) (X : Experiment) :
    probes (withCards X (keepProbes keep X.file.cards)).file = (probes X.file).filter keep := by
  show (keepProbes keep X.file.cards).filterMap probeOf = (X.file.cards.filterMap probeOf).filter keep
  induction X.file.cards with
  | nil => rfl
  | cons c l ih =>
    unfold keepProbes at ih ⊢
    cases c with
    | op c =>
      by_cases hk : keep c = true
      · rw [List.filter_cons_of_pos (by exact hk), List.filterMap_cons, List.filterMap_cons]
        simp only [probeOf]
        rw [List.filter_cons_of_pos hk, ← ih]
      · rw [List.filter_cons_of_neg (by exact hk), List.filterMap_cons]
        simp only [probeOf]
        rw [List.filter_cons_of_neg hk, ← ih]
    | _ => rw [List.filter_cons_of_pos (by rfl), List.filterMap_cons, List.filterMap_cons]; simpa only [probeOf] using ih

/-- **C67.** If a run ends, so does the run of the same input with some of its `OP` cards left out. -/
theorem fewer_probes_run (h : Leaves k J X Q fs) (keep : OPCard → Bool) :
    ∃ fs', Leaves k J (withCards X (keepProbes keep X.file.cards)) Q fs' := by
  obtain ⟨R, hR⟩ := C61.setup_of_leaves h
  obtain ⟨R', hR'⟩ := probes_removable hR keep
  obtain ⟨hdt, hcfg, hfld⟩ := fields_unchanged hR (same_keep keep _) hR'
  obtain ⟨hq, hN, hwe, out, ho, -⟩ := C61.leaves_parts h hR
  obtain ⟨hw, hob, -⟩ := C61.stored_obs hR
  obtain ⟨hw', hob', -⟩ := C61.stored_obs hR'
  rw [probes_keep, names_same (same_keep keep _)] at hob'
  rw [names_same (same_keep keep _)] at hw'
  have hsub : ∀ x ∈ R'.state.obs, x ∈ R.state.obs := by
    intro x hx
    rw [hob'] at hx
    rw [hob]
    obtain ⟨c, hc, rfl⟩ := List.mem_map.1 hx
    exact List.mem_map_of_mem (List.mem_filter.1 hc).1
  have hwx : WavesExist R'.state := by
    intro o hm
    rw [hw', ← hw]
    exact hwe o (hsub o hm)
  have hi : ∀ x ∈ (obsEnv (withCards X (keepProbes keep X.file.cards)) R' Q).items, x ∈ (obsEnv X R Q).items := by
    intro x hx
    have hx' : x ∈ allItems (R'.state.obs.map (obsItem R'.cfg)) R'.state.waves.length := hx
    show x ∈ allItems (R.state.obs.map (obsItem R.cfg)) R.state.waves.length
    unfold allItems at hx' ⊢
    rw [hcfg, hw', ← hw] at hx'
    rcases List.mem_append.1 hx' with hm | hm
    · obtain ⟨o, hm2, rfl⟩ := List.mem_map.1 hm
      exact List.mem_append_left _ (List.mem_map_of_mem (hsub o hm2))
    · exact List.mem_append_right _ hm
  have hfld' : ∀ n, R'.sim.state R'.coefs R'.drive (fun _ => 0) n = R.sim.state R.coefs R.drive (fun _ => 0) n := hfld
  have hout : ∃ out', C35.outputs R'.sim R'.coefs R'.drive (obsEnv (withCards X (keepProbes keep X.file.cards)) R' Q) R'.dt
      (fun _ => 0) Q.steps.toNat = some out' := by
    obtain ⟨out', ho'⟩ := outputs_fewer hi rfl (by funext a; show R'.cfg.gibox _ = R.cfg.gibox _; rw [hcfg]) _ ho
    refine ⟨out', ?_⟩
    have : ∀ n, C35.outputs R'.sim R'.coefs R'.drive (obsEnv (withCards X (keepProbes keep X.file.cards)) R' Q) R'.dt (fun _ => 0) n =
        C35.outputs R.sim R.coefs R.drive (obsEnv (withCards X (keepProbes keep X.file.cards)) R' Q) R.dt (fun _ => 0) n := by
      intro n
      induction n with
      | zero => rfl
      | succ n ih =>
        show (C35.outputs _ _ _ _ _ _ n).bind _ = (C35.outputs _ _ _ _ _ _ n).bind _
        rw [ih, hfld', hdt]
    rw [this, ho']
  obtain ⟨out', ho'⟩ := hout
  exact ⟨_, hq, R', hR', hwx, _, out', (C35.run_result _ _ _ _ _ hN _ _ _).2 ⟨rfl, ho'⟩, rfl⟩

end

/-! ### A case -/

/-- The dipole of C61 without its other observers: the probe `near` writes the same file. -/
example (k : Consts) (J : Junk) (d : ℝ) (fs : List (String × Contents))
    (h : Leaves k J (C61.dipole d) ⟨100, some (10, 90), none⟩ fs) :
    ∃ fs', Leaves k J (withCards (C61.dipole d) (keepProbes (fun c => c.name == "near") (C61.dipole d).file.cards))
        ⟨100, some (10, 90), none⟩ fs' ∧
      fs'.map Prod.fst = ["eh_near_td.asc", "wf_pulse_td.asc", "wf_pulse_fd.asc"] ∧
      ∃ K, ("eh_near_td.asc", K) ∈ fs ∧ ("eh_near_td.asc", K) ∈ fs' := by
  obtain ⟨fs', h'⟩ := fewer_probes_run h (fun c => c.name == "near")
  have hk : keepProbes (fun c => c.name == "near") (C61.dipole d).file.cards = [.wf "pulse",
      .op ⟨8, mkBox 3 3 2 2 1 1, "near", true, true, 1, 1, 1, "", false⟩,
      .ex 9 (mkBox 2 2 2 2 1 2) "feed" ['V', 'R', 'Z'] "pulse" 1 0 50] := by
    show keepProbes _ C61.dipoleCards = _
    unfold C61.dipoleCards keepProbes
    rw [List.filter_cons_of_pos (by rfl), List.filter_cons_of_pos (by rfl), List.filter_cons_of_neg (by simp),
      List.filter_cons_of_neg (by simp), List.filter_cons_of_pos (by rfl)]
    rfl
  refine ⟨fs', h', ?_, ?_⟩
  · rw [C61.file_names h']
    have : (withCards (C61.dipole d) (keepProbes (fun c => c.name == "near") (C61.dipole d).file.cards)).file.cards = _ := hk
    unfold C61.expected probes waveNames
    rw [this]
    rfl
  · exact probe_unchanged h (same_keep _ _) h' (c := ⟨8, mkBox 3 3 2 2 1 1, "near", true, true, 1, 1, 1, "", false⟩)
      (List.mem_cons_of_mem _ List.mem_cons_self) (by rw [hk]; exact List.mem_cons_of_mem _ List.mem_cons_self) rfl

end Vulture.C67
