import Verif.Spec.Output
import Verif.Props.C32_Record
import Verif.Props.C33_Transform
import Verif.Props.C34_Binary
import Verif.Props.C50_Reader
import Verif.Props.C54_Memory
/-
C61: from the mesh file to the output files. Every file an accepted input leaves behind is named after the card that asks
for it and holds the fields of the run at the node the card names.
-/
set_option linter.unusedSimpArgs false
set_option linter.unusedSectionVars false
set_option linter.unusedVariables false
namespace Vulture.C61
open Vulture.Spec Vulture.Setup Vulture.Deck
open _root_.Vulture.Run hiding body

/-! ### Cards and stored observers -/

theorem card_waves {s s' : Deck.State} {c : Deck.Card} (h : s.card c = some s') :
    s'.waves = s.waves ++ (match c with | .wf n => [n] | _ => []) ∧
    s'.obs = s.obs ++ (match c with | .op c => [obsOf s c] | _ => []) := by
  cases c <;> simp only [State.card] at h <;> (repeat' split at h) <;> simp at h <;> subst h <;> simp

theorem card_fresh {s s' : Deck.State} {c : Deck.Card} (h : s.card c = some s') (k : s.waves.Nodup ∧ (s.obs.map ObsItem.name).Nodup) :
    s'.waves.Nodup ∧ (s'.obs.map ObsItem.name).Nodup := by
  obtain ⟨e1, e2⟩ := card_waves h
  rw [e1, e2]
  cases c with
  | wf n =>
    simp only [State.card] at h
    split at h
    · simp at h
    · rename_i hn
      simp only [List.append_nil]
      exact ⟨List.nodup_append.2 ⟨k.1, by simp, by rintro a ha b hb rfl; simp at hb; subst hb; exact hn (by simpa using ha)⟩, k.2⟩
  | op c =>
    simp only [State.card] at h
    split at h
    · rename_i hn
      simp only [List.append_nil, List.map_append, List.map_cons, List.map_nil]
      refine ⟨k.1, List.nodup_append.2 ⟨k.2, by simp, ?_⟩⟩
      rintro a ha b hb rfl
      simp [obsOf] at hb
      subst hb
      simp only [parseOP, Bool.and_eq_true, Bool.not_eq_true'] at hn
      have := hn.1.1.1.1.1.2
      simp at this ha
      obtain ⟨x, hx, e⟩ := ha
      exact this x hx e
    · simp at h
  | _ => simpa using k

/-- The stored observer of a card, in terms of the whole file. -/
def itemOf (waves : List String) (c : OPCard) : ObsItem :=
  ⟨c.name, c.bbox, c.ascii, c.freq, fun a => if c.ascii then 1 else strideOf c a,
   if c.waveform = "" then 0 else waves.idxOf c.waveform⟩

theorem read_obs : ∀ (l : List Deck.Card) (s s' : Deck.State), Deck.read s l = some s' → s.waves.Nodup ∧ (s.obs.map ObsItem.name).Nodup →
    s'.waves = s.waves ++ l.filterMap waveOf ∧
    s'.obs = s.obs ++ (l.filterMap probeOf).map (itemOf s'.waves) ∧
    (∀ c, Deck.Card.op c ∈ l → parseOP s.mbox (fun n => n = n && false) (fun n => s'.waves.contains n) c = true) ∧
    s'.waves.Nodup ∧ (s'.obs.map ObsItem.name).Nodup
  | [], s, s', h, k => by
    simp [Deck.read] at h; subst h; simp; exact k
  | c :: l, s, s', h, k => by
    rw [C47.read_cons] at h
    obtain ⟨t, ht, h⟩ := Option.bind_eq_some_iff.1 h
    obtain ⟨a1, a2, a3, a4⟩ := read_obs l t s' h (card_fresh ht k)
    obtain ⟨b1, b2⟩ := card_waves ht
    have hm := C47.card_mbox ht
    have hop : ∀ c', c = .op c' → parseOP s.mbox (fun n => (s.obs.map ObsItem.name).contains n) (fun n => s.waves.contains n) c' = true := by
      rintro c' rfl
      simp only [State.card] at ht
      split at ht
      · assumption
      · simp at ht
    refine ⟨?_, ?_, ?_, a4⟩
    · rw [a1, b1]; cases c <;> simp [waveOf, List.filterMap_cons]
    · rw [a2, b2]
      cases c with
      | op c =>
        simp only [List.filterMap_cons, probeOf, List.map_cons, List.append_assoc, List.cons_append, List.nil_append]
        congr 2
        unfold obsOf itemOf
        congr 1
        by_cases hw : c.waveform = ""
        · rw [if_pos hw, if_pos hw]
        · rw [if_neg hw, if_neg hw, a1, b1]
          have := hop c rfl
          simp only [parseOP, Bool.and_eq_true, Bool.or_eq_true, decide_eq_true_eq, hw, false_or] at this
          have hin : c.waveform ∈ s.waves := by simpa using this.2
          rw [List.append_nil, List.idxOf_append_of_mem hin]
      | _ => simp [probeOf, List.filterMap_cons]
    · intro c' hc'
      rcases List.mem_cons.1 hc' with e | e
      · have := hop c' e.symm
        simp only [parseOP, Bool.and_eq_true, Bool.or_eq_true, decide_eq_true_eq, Bool.not_eq_true', Bool.and_false] at this ⊢
        obtain ⟨⟨⟨⟨⟨⟨p1, p2⟩, p3⟩, p4⟩, p5⟩, p6⟩, p7⟩ := this
        refine ⟨⟨⟨⟨⟨⟨p1, trivial⟩, p3⟩, p4⟩, p5⟩, p6⟩, ?_⟩
        rcases p7 with p7 | p7
        · exact Or.inl p7
        · right
          rw [a1, b1]
          simp only [List.contains_iff_mem, List.mem_append] at p7 ⊢
          exact Or.inl (Or.inl p7)
      · have := a3 c' e
        rwa [hm] at this

/-! ### Parts of a run -/

section
variable {k : Consts} {J : Junk} {X : Experiment} {Q : Request} {fs : List (String × Contents)} {R : Setup.Run}

/-- What the run of an accepted file has stored. -/
theorem stored_obs (hR : setup k J X = some R) :
    R.state.waves = waveNames X.file ∧ R.state.obs = (probes X.file).map (itemOf (waveNames X.file)) ∧
    (waveNames X.file).Nodup ∧ ((probes X.file).map OPCard.name).Nodup ∧
    ∀ c ∈ probes X.file, parseOP (mkBox 0 X.file.nx 0 X.file.ny 0 X.file.nz) (fun n => n = n && false)
      (fun n => (waveNames X.file).contains n) c = true := by
  obtain ⟨s, hs, -, -, e⟩ := Scaling.setup_parts hR
  have es : R.state = s := by rw [e]
  rw [es]
  obtain ⟨-, hr⟩ := C47.stored_parts hs
  obtain ⟨a1, a2, a3, a4, a5⟩ := read_obs _ _ _ hr ⟨by simp [State.init], by simp [State.init]⟩
  have w : s.waves = waveNames X.file := by rw [a1]; simp [State.init, waveNames]
  have o : s.obs = (probes X.file).map (itemOf (waveNames X.file)) := by rw [a2, w]; simp [State.init, probes]
  refine ⟨w, o, w ▸ a4, ?_, ?_⟩
  · rw [o, List.map_map] at a5
    exact a5
  · intro c hc
    rw [← w]
    refine a3 c ?_
    unfold probes at hc
    obtain ⟨d, hd, e⟩ := List.mem_filterMap.1 hc
    cases d <;> simp [probeOf, waveOf] at e
    subst e; exact hd

theorem mem_probes {f : Deck.File} {c : OPCard} : c ∈ probes f ↔ Deck.Card.op c ∈ f.cards := by
  unfold probes
  rw [List.mem_filterMap]
  constructor
  · rintro ⟨d, hd, e⟩
    cases d <;> simp [probeOf, waveOf] at e
    subst e; exact hd
  · intro h
    exact ⟨_, h, rfl⟩

theorem mem_waveNames {f : Deck.File} {n : String} : n ∈ waveNames f ↔ Deck.Card.wf n ∈ f.cards := by
  unfold waveNames
  rw [List.mem_filterMap]
  constructor
  · rintro ⟨d, hd, e⟩
    cases d <;> simp [probeOf, waveOf] at e
    subst e; exact hd
  · intro h
    exact ⟨_, h, rfl⟩

/-- What `Leaves` says. -/
theorem leaves_parts (h : Leaves k J X Q fs) (hR : setup k J X = some R) :
    Q.Accepted ∧ Q.steps ≠ 0 ∧ WavesExist R.state ∧ ∃ out,
      C35.outputs R.sim R.coefs R.drive (obsEnv X R Q) R.dt (fun _ => 0) Q.steps.toNat = some out ∧ fs = filesOf X R Q out := by
  obtain ⟨ha, R', hR', hw, m, out, he, hf⟩ := h
  rw [hR] at hR'
  obtain rfl := Option.some.inj hR'
  have hN : Q.steps ≠ 0 := by
    intro h0
    rw [h0] at he
    exact C35.zero_steps_never_end _ _ _ he
  exact ⟨ha, hN, hw, out, ((C35.run_result _ _ _ _ _ hN _ _ _).1 he).2, hf⟩

theorem setup_of_leaves (h : Leaves k J X Q fs) : ∃ R, setup k J X = some R := by
  obtain ⟨-, R, hR, -⟩ := h; exact ⟨R, hR⟩

theorem observed_eq (hN : Q.steps ≠ 0) :
    stepsIn (obsEnv X R Q).win.1.toNat (obsEnv X R Q).win.2.toNat Q.steps.toNat = observed Q := by
  show stepsIn (window Q.times Q.steps).1.toNat (window Q.times Q.steps).2.toNat _ = _
  unfold observed
  cases Q.times with
  | none => exact C32.default_window hN
  | some t => rfl

/-! ### Positions in the list of observers -/

theorem item_user (user : List Item) (n : Nat) {o : Nat} {x : Item} (h : user[o]? = some x) :
    (allItems user n)[o]? = some x := by
  unfold allItems
  rw [List.getElem?_append_left (List.getElem?_eq_some_iff.1 h).1, h]

theorem item_wave (user : List Item) (n : Nat) {w : Nat} (h : w < n) :
    (allItems user n)[user.length + 2 * w]? = some ⟨.wfTime, fun _ => 0, fun _ => 0, w⟩ ∧
    (allItems user n)[user.length + 2 * w + 1]? = some ⟨.wfFreq, fun _ => 0, fun _ => 0, w⟩ := by
  unfold allItems
  have g := fun r hr => C50.get_uniform (fun w => [(⟨.wfTime, fun _ => 0, fun _ => 0, w⟩ : Item), ⟨.wfFreq, fun _ => 0, fun _ => 0, w⟩])
    (List.range n) 2 (fun _ _ => rfl) w r (by simpa using h) hr
  constructor
  · rw [List.getElem?_append_right (by omega), show user.length + 2 * w - user.length = w * 2 + 0 by omega, g 0 (by omega)]
    simp
  · rw [List.getElem?_append_right (by omega), show user.length + 2 * w + 1 - user.length = w * 2 + 1 by omega, g 1 (by omega)]
    simp

theorem probe_item (hR : setup k J X = some R) {o : Nat} {c : OPCard} (h : (probes X.file)[o]? = some c) :
    (obsEnv X R Q).items[o]? = some (obsItem R.cfg (itemOf (waveNames X.file) c)) := by
  obtain ⟨-, ho, -⟩ := stored_obs hR
  refine item_user _ _ ?_
  rw [List.getElem?_map, ho, List.getElem?_map, h]; rfl

theorem fields_eq (R : Setup.Run) (n : Nat) : R.sim.state R.coefs R.drive (fun _ => 0) n = R.fields n := rfl

theorem corner_node (R : Setup.Run) (w : List String) (c : OPCard) (q : Nat) :
    fieldsAt (R.fields q) (obsItem R.cfg (itemOf w c)).node = sixAt R q (corner c) := by
  have h := C47.place_moved R.cfg c.bbox
  unfold fieldsAt Item.node obsItem sixAt atNode corner fieldList itemOf
  simp only [List.map_cons, List.map_nil]
  have hx : place R.cfg c.bbox .xlo = c.bbox .xlo + R.cfg.gibox .xlo := by have := (h .x).1; simp only [Axis.lo] at this; omega
  have hy : place R.cfg c.bbox .ylo = c.bbox .ylo + R.cfg.gibox .ylo := by have := (h .y).1; simp only [Axis.lo] at this; omega
  have hz : place R.cfg c.bbox .zlo = c.bbox .zlo + R.cfg.gibox .zlo := by have := (h .z).1; simp only [Axis.lo] at this; omega
  rw [hx, hy, hz]

/-! ### The files of the cards -/

theorem obs_file_mem (hR : setup k J X = some R) (out : Out) {o : Nat} {c : OPCard} (h : (probes X.file)[o]? = some c)
    {f : String × Contents} (hf : obsFile X R Q (obsEnv X R Q) out (itemOf (waveNames X.file) c, o) = some f) :
    f ∈ filesOf X R Q out := by
  obtain ⟨-, ho, -⟩ := stored_obs hR
  unfold filesOf
  refine List.mem_append_left _ (List.mem_append_left _ (List.mem_filterMap.2 ⟨_, ?_, hf⟩))
  rw [List.mem_zipIdx_iff_getElem?, ho, List.getElem?_map, h]; rfl

/-- **C61.** A time-domain `OP` card leaves a file named after it: the node, its position in metres, and for every recorded
step its number, its time and the six field components the run has at that node before the step. -/
theorem probe_file (h : Leaves k J X Q fs) (hR : setup k J X = some R) {c : OPCard} (hc : Deck.Card.op c ∈ X.file.cards)
    (ha : c.ascii = true) (hf : c.freq = false) :
    ("eh_" ++ c.name ++ "_td.asc", Contents.time (some ⟨fun a => c.bbox a.lo, fun a => X.lines a (c.bbox a.lo)⟩)
      ((observed Q).map fun q => ⟨BitVec.ofNat 64 q, q * R.dt, sixAt R q (corner c)⟩)) ∈ fs := by
  obtain ⟨-, hN, -, out, ho, rfl⟩ := leaves_parts h hR
  obtain ⟨o, hc'⟩ := List.getElem?_of_mem (mem_probes.2 hc)
  refine obs_file_mem hR out hc' ?_
  have hk : kindOf (itemOf (waveNames X.file) c) = .asciiTime := by simp [kindOf, itemOf, ha, hf]
  have hl := C32.time_lines _ _ _ _ _ _ (Nat.le_of_lt Q.steps.isLt) ho (probe_item (Q := Q) hR hc') hk
  rw [observed_eq hN] at hl
  unfold obsFile
  simp only [hk, hl]
  simp only [fields_eq, corner_node]
  rfl

/-- The two files of a `WF` card: its value at every step of the run, whatever the window. -/
theorem waveform_file (h : Leaves k J X Q fs) (hR : setup k J X = some R) {n : String} (hn : Deck.Card.wf n ∈ X.file.cards) :
    ("wf_" ++ n ++ "_td.asc", Contents.time none ((List.range Q.steps.toNat).map fun (q : Nat) =>
      ⟨BitVec.ofNat 64 q, q * R.dt, [waveValue R.dt (X.waves n) (q * R.dt)]⟩)) ∈ fs := by
  obtain ⟨-, hN, -, out, ho, rfl⟩ := leaves_parts h hR
  obtain ⟨hw, hob, -⟩ := stored_obs hR
  obtain ⟨w, hw'⟩ := List.getElem?_of_mem (mem_waveNames.2 hn)
  have hlt : w < R.state.waves.length := by rw [hw]; exact (List.getElem?_eq_some_iff.1 hw').1
  unfold filesOf
  refine List.mem_append_left _ (List.mem_append_right _ (List.mem_flatMap.2 ⟨(n, w), ?_, ?_⟩))
  · rw [List.mem_zipIdx_iff_getElem?, hw, hw']
  have hi := (item_wave (R.state.obs.map (obsItem R.cfg)) R.state.waves.length hlt).1
  rw [List.length_map] at hi
  have hl := C32.waveform_lines _ _ _ _ _ _ ho hi rfl
  unfold waveFiles
  simp only [hl]
  have he : ∀ t, (obsEnv X R Q).wave w t = waveValue R.dt (X.waves n) t := by
    intro t
    show (match R.state.waves[w]? with | some n => _ | none => _) = _
    rw [hw, hw']
  simp only [he]
  exact List.mem_cons_self

theorem frequency_eq (m : Nat) : startFreq Q + m * stepFreq R Q = frequency Q R.dt m := by
  unfold startFreq stepFreq stepFreqOf frequency
  cases Q.freqs with
  | none => simp; ring
  | some f => rfl

theorem count_eq : (obsEnv X R Q).numFreq = frequencyCount Q := by
  show numFreqOf _ _ = _
  unfold numFreqOf frequencyCount
  cases Q.freqs <;> rfl

theorem omega_eq (m : Nat) : (obsEnv X R Q).omega m = 2 * Real.pi * frequency Q R.dt m := by
  show omegaOf _ _ m = _
  unfold omegaOf
  rw [frequency_eq]

/-- The other file of a `WF` card: its transform over the run at every requested frequency. -/
theorem waveform_spectrum (h : Leaves k J X Q fs) (hR : setup k J X = some R) {n : String} (hn : Deck.Card.wf n ∈ X.file.cards) :
    ∃ z : Nat → ℝ × ℝ, ("wf_" ++ n ++ "_fd.asc", Contents.freq none ((List.range (frequencyCount Q)).map fun m =>
        (frequency Q R.dt m, [z m]))) ∈ fs ∧
      ∀ m < frequencyCount Q, asComplex (z m) = transform (List.range Q.steps.toNat)
        (fun q => waveValue R.dt (X.waves n) (q * R.dt)) (2 * Real.pi * frequency Q R.dt m) R.dt := by
  obtain ⟨-, hN, -, out, ho, rfl⟩ := leaves_parts h hR
  obtain ⟨hw, hob, -⟩ := stored_obs hR
  obtain ⟨w, hw'⟩ := List.getElem?_of_mem (mem_waveNames.2 hn)
  have hlt : w < R.state.waves.length := by rw [hw]; exact (List.getElem?_eq_some_iff.1 hw').1
  refine ⟨fun m => out.dft (reference R.state w) 0 m, ?_, ?_⟩
  · unfold filesOf
    refine List.mem_append_left _ (List.mem_append_right _ (List.mem_flatMap.2 ⟨(n, w), ?_, ?_⟩))
    · rw [List.mem_zipIdx_iff_getElem?, hw, hw']
    unfold waveFiles waveRows
    simp only [frequency_eq, count_eq]
    exact List.mem_cons_of_mem _ List.mem_cons_self
  · intro m hm
    have hi := (item_wave (R.state.obs.map (obsItem R.cfg)) R.state.waves.length hlt).2
    rw [List.length_map] at hi
    have hl := C33.waveform_transform _ _ _ _ _ _ ho hi rfl (f := m) (by rw [count_eq]; exact hm)
    rw [omega_eq] at hl
    refine hl.trans ?_
    congr 1
    funext q
    show (match R.state.waves[w]? with | some n => _ | none => _) = _
    rw [hw, hw']

/-- A frequency-domain `OP` card leaves, for every requested frequency and every component, the transform of the recorded
field divided by the transform of its waveform. -/
theorem transfer_file (h : Leaves k J X Q fs) (hR : setup k J X = some R) {c : OPCard} (hc : Deck.Card.op c ∈ X.file.cards)
    (ha : c.ascii = true) (hf : c.freq = true) :
    ∃ (n : String) (z : Nat → Nat → ℝ × ℝ), dividedBy X.file c = some n ∧ Deck.Card.wf n ∈ X.file.cards ∧
      ("eh_" ++ c.name ++ "_fd.asc", Contents.freq (some ⟨fun a => c.bbox a.lo, fun a => X.lines a (c.bbox a.lo)⟩)
        ((List.range (frequencyCount Q)).map fun m =>
          (frequency Q R.dt m, [z m 0, z m 1, z m 2, z m 3, z m 4, z m 5]))) ∈ fs ∧
      ∀ m < frequencyCount Q, ∀ (comp : Nat) (fc : Fc), [Fc.ex, .ey, .ez, .hx, .hy, .hz][comp]? = some fc →
        let T := 2 * Real.pi * frequency Q R.dt m
        let W := transform (List.range Q.steps.toNat) (fun q => waveValue R.dt (X.waves n) (q * R.dt)) T R.dt
        W ≠ 0 → asComplex (z m comp) = transform (observed Q) (fun q => atNode R q fc (corner c)) T R.dt / W := by
  obtain ⟨-, hN, hwe, out, ho, rfl⟩ := leaves_parts h hR
  obtain ⟨hw, hob, hnd, -, hp⟩ := stored_obs hR
  obtain ⟨o, hc'⟩ := List.getElem?_of_mem (mem_probes.2 hc)
  have hk : kindOf (itemOf (waveNames X.file) c) = .asciiFreq := by simp [kindOf, itemOf, ha, hf]
  have hom : itemOf (waveNames X.file) c ∈ R.state.obs := by
    rw [hob]; exact List.mem_map_of_mem (mem_probes.2 hc)
  have hlt := (hwe _ hom).1 hk
  set w := (itemOf (waveNames X.file) c).wave with hwd
  have hlt' : w < (waveNames X.file).length := by rw [← hw]; exact hlt
  have hdiv : dividedBy X.file c = some (waveNames X.file)[w] := by
    unfold dividedBy
    by_cases hn : c.waveform = ""
    · rw [if_pos hn]
      have : w = 0 := by rw [hwd]; simp [itemOf, hn]
      simp only [this]
      rw [List.head?_eq_getElem?, List.getElem?_eq_getElem]
    · rw [if_neg hn]
      have hv : w = (waveNames X.file).idxOf c.waveform := by rw [hwd]; simp [itemOf, hn]
      simp only [hv]
      rw [List.getElem_idxOf]
  refine ⟨(waveNames X.file)[w], fun m comp => quotient (out.dft o comp m) (out.dft (reference R.state w) 0 m), hdiv,
    mem_waveNames.1 (List.getElem_mem hlt'), ?_, ?_⟩
  · refine obs_file_mem hR out hc' ?_
    unfold obsFile fieldRows
    simp only [hk, frequency_eq, count_eq, ← hwd]
    rfl
  · intro m hm comp fc hfc T W hW
    have hfl := C33.field_transform _ _ _ _ _ _ (Nat.le_of_lt Q.steps.isLt) ho (probe_item (Q := Q) hR hc') hk (comp := comp)
      (f := m) (fc := fc) hfc (by rw [count_eq]; exact hm)
    rw [observed_eq hN, omega_eq] at hfl
    have hi := (item_wave (R.state.obs.map (obsItem R.cfg)) R.state.waves.length hlt).2
    rw [List.length_map] at hi
    have hwl := C33.waveform_transform _ _ _ _ _ _ ho hi rfl (f := m) (by rw [count_eq]; exact hm)
    rw [omega_eq] at hwl
    have hwv : ∀ q : Nat, (obsEnv X R Q).wave w (q * R.dt) = waveValue R.dt (X.waves (waveNames X.file)[w]) (q * R.dt) := by
      intro q
      show (match R.state.waves[w]? with | some n => _ | none => _) = _
      rw [hw, List.getElem?_eq_getElem hlt']
    simp only [hwv] at hwl
    have hW' : C33.cplx (out.dft (reference R.state w) 0 m) = W := hwl
    show C33.cplx _ = _
    rw [C33.quotient_div _ _ (by rw [hW']; exact hW), hW']
    congr 1

/-! ### Binary files -/

theorem binary_items (hR : setup k J X = some R) :
    ((obsEnv X R Q).items.filter fun x => x.kind = .binary) =
      ((probes X.file).filter fun c => !c.ascii).map fun c => obsItem R.cfg (itemOf (waveNames X.file) c) := by
  obtain ⟨-, ho, -⟩ := stored_obs hR
  show (allItems _ _).filter _ = _
  unfold allItems
  rw [List.filter_append, ho]
  have h2 : ((List.range R.state.waves.length).flatMap fun w =>
    [(⟨.wfTime, fun _ => 0, fun _ => 0, w⟩ : Item), ⟨.wfFreq, fun _ => 0, fun _ => 0, w⟩]).filter (fun x => x.kind = .binary) = [] := by
    rw [List.filter_eq_nil_iff]
    intro x hx
    obtain ⟨w, -, hx⟩ := List.mem_flatMap.1 hx
    simp at hx
    rcases hx with rfl | rfl <;> simp
  rw [h2, List.append_nil, List.map_map, List.filter_map]
  congr 1
  refine List.filter_congr fun c _ => ?_
  simp only [Function.comp, obsItem, kindOf, itemOf]
  by_cases h1 : c.ascii = true <;> by_cases h2 : c.freq = true <;> simp [h1, h2]

theorem any_binary (hR : setup k J X = some R) : anyBinary R.state = (probes X.file).any fun c => !c.ascii := by
  obtain ⟨-, ho, -⟩ := stored_obs hR
  unfold anyBinary
  rw [ho, List.any_map]; rfl

/-- The records of one binary card at one step. -/
theorem card_records (R : Setup.Run) (e : Run.Env) (he : ∀ a : Axis, e.giboxLo a = R.cfg.gibox a.lo) (w : List String) (c : OPCard) (hb : c.ascii = false)
    (hs : ∀ a, 1 ≤ strideOf c a) (q : Nat) :
    C32.nodeRecs R.sim R.coefs R.drive e (fun _ => 0) (obsItem R.cfg (itemOf w c)) q =
      (fileNodes (fun a => c.bbox a.lo) (fun a => c.bbox a.hi) (strideOf c)).map fun t => ⟨t, sixAt R q t⟩ := by
  have hst : (obsItem R.cfg (itemOf w c)).step = strideOf c := by
    funext a; simp [obsItem, itemOf, hb]
  have hm := C47.place_moved R.cfg c.bbox
  have hn := C34.record_nodes R.sim R.coefs R.drive e (fun _ => 0) (x := obsItem R.cfg (itemOf w c)) (by rw [hst]; exact hs) q
  have e1 : (fun a => (obsItem R.cfg (itemOf w c)).gbbox a.lo - e.giboxLo a) = fun a => c.bbox a.lo := by
    funext a; rw [he]; exact (hm a).1
  have e2 : (fun a => (obsItem R.cfg (itemOf w c)).gbbox a.hi - e.giboxLo a) = fun a => c.bbox a.hi := by
    funext a; rw [he]; exact (hm a).2
  rw [e1, e2, hst] at hn
  rw [← hn, List.map_map]
  unfold C32.nodeRecs
  rw [List.map_map]
  refine List.map_congr_left fun t _ => ?_
  simp only [Function.comp, sixAt, atNode, fieldsAt, fieldList, List.map_cons, List.map_nil, he, Axis.lo, sub_add_cancel, fields_eq]

/-- Binary `OP` cards with positive steps leave one file: at every recorded step, for every such card in file order, the
nodes of its box at its steps with their six components. -/
theorem impulse_file (h : Leaves k J X Q fs) (hR : setup k J X = some R) {c : OPCard} (hc : Deck.Card.op c ∈ X.file.cards)
    (hb : c.ascii = false) (hs : ∀ c ∈ probes X.file, c.ascii = false → ∀ a, 1 ≤ strideOf c a) :
    ∃ n, ("impulse.dat", Contents.impulse n ((observed Q).flatMap fun q =>
      ((probes X.file).filter fun c => !c.ascii).flatMap fun c =>
        (fileNodes (fun a => c.bbox a.lo) (fun a => c.bbox a.hi) (strideOf c)).map fun t => ⟨t, sixAt R q t⟩)) ∈ fs ∧
      ((observed Q).length < 2 ^ 64 → (∀ t, Q.times = some t → t.2.toNat < Q.steps.toNat) → n.toNat = (observed Q).length) := by
  obtain ⟨hacc, hN, -, out, ho, rfl⟩ := leaves_parts h hR
  have hany : anyBinary R.state = true := by
    rw [any_binary hR, List.any_eq_true]
    exact ⟨c, mem_probes.2 hc, by simp [hb]⟩
  refine ⟨numOut (obsEnv X R Q).win, ?_, ?_⟩
  · unfold filesOf
    refine List.mem_append_right _ ?_
    rw [if_pos hany]
    have hr := C32.binary_records _ _ _ _ _ _ (Nat.le_of_lt Q.steps.isLt) ho
    rw [observed_eq hN, binary_items hR] at hr
    rw [hr]
    refine List.mem_cons.2 (Or.inl ?_)
    congr 2
    refine List.flatMap_congr fun q _ => ?_
    rw [List.flatMap_map]
    refine List.flatMap_congr fun d hd => ?_
    obtain ⟨hd, hd2⟩ := List.mem_filter.1 hd
    have hd3 : d.ascii = false := by simpa using hd2
    exact (card_records R _ (fun _ => rfl) _ d hd3 (hs d hd hd3) q).symm
  · intro hlen hin
    have key : (obsEnv X R Q).win.1.toNat ≤ (obsEnv X R Q).win.2.toNat ∧ (obsEnv X R Q).win.2.toNat < Q.steps.toNat := by
      show (window Q.times Q.steps).1.toNat ≤ (window Q.times Q.steps).2.toNat ∧ (window Q.times Q.steps).2.toNat < _
      cases ht : Q.times with
      | none =>
        have hp : 0 < Q.steps.toNat := Nat.pos_of_ne_zero fun h => hN (BitVec.eq_of_toNat_eq (by simpa using h))
        have := Q.steps.isLt
        have e : (Q.steps - 1).toNat = Q.steps.toNat - 1 := by
          rw [BitVec.toNat_sub, show (1 : BitVec 64).toNat = 1 from rfl]
          omega
        simp only [window, Option.getD_none, e]
        rw [show (0 : BitVec 64).toNat = 0 from rfl]
        omega
      | some t =>
        have h1 := hacc.2.1 t ht
        rw [C32.card_window] at h1
        split at h1
        · rename_i h2; exact ⟨h2, hin t ht⟩
        · simp at h1
    have hl := C32.window_count key.1 key.2
    rw [observed_eq hN] at hl
    rw [C34.numOut_toNat _ key.1 (by omega), hl]

/-- They also leave the first waveform at every step of the run. -/
theorem excite_file (h : Leaves k J X Q fs) (hR : setup k J X = some R) {c : OPCard} (hc : Deck.Card.op c ∈ X.file.cards)
    (hb : c.ascii = false) : ∃ n, (waveNames X.file).head? = some n ∧
      ("excite.dat", Contents.excite ((List.range Q.steps.toNat).map fun (q : Nat) => waveValue R.dt (X.waves n) (q * R.dt))) ∈ fs := by
  obtain ⟨hacc, hN, hwe, out, ho, rfl⟩ := leaves_parts h hR
  obtain ⟨hw, hob, hnd, -, hp⟩ := stored_obs hR
  have hany : anyBinary R.state = true := by
    rw [any_binary hR, List.any_eq_true]
    exact ⟨c, mem_probes.2 hc, by simp [hb]⟩
  have hom : itemOf (waveNames X.file) c ∈ R.state.obs := by
    rw [hob]; exact List.mem_map_of_mem (mem_probes.2 hc)
  have h0 := (hwe _ hom).2 (by simp [kindOf, itemOf, hb])
  rw [hw] at h0
  have hai : (obsEnv X R Q).items.any (fun x => x.kind = .binary) = true := by
    rw [List.any_eq_true]
    have : obsItem R.cfg (itemOf (waveNames X.file) c) ∈ (obsEnv X R Q).items.filter fun x => x.kind = .binary := by
      rw [binary_items hR]
      exact List.mem_map_of_mem (List.mem_filter.2 ⟨mem_probes.2 hc, by simp [hb]⟩)
    exact ⟨_, List.mem_of_mem_filter this, (List.mem_filter.1 this).2⟩
  refine ⟨(waveNames X.file)[0], by rw [List.head?_eq_getElem?, List.getElem?_eq_getElem], ?_⟩
  unfold filesOf
  refine List.mem_append_right _ ?_
  rw [if_pos hany, C32.excite_values _ _ _ _ _ _ ho, if_pos hai]
  refine List.mem_cons_of_mem _ (List.mem_singleton.2 ?_)
  congr 2
  refine List.map_congr_left fun q _ => ?_
  show _ = (match R.state.waves[0]? with | some n => _ | none => _)
  rw [hw, List.getElem?_eq_getElem h0]

/-! ### Names -/

theorem tail_eq {p q : List Char} {a b : List Char} (hl : a.length = b.length) (h : p ++ a = q ++ b) : p = q ∧ a = b := by
  have := List.append_inj' h hl
  exact this

theorem name_inj (p q : String) (a b : String) (x y : String) (hp : p.toList.length = q.toList.length) (ha : a.toList.length = b.toList.length)
    (h : p ++ x ++ a = q ++ y ++ b) : p = q ∧ x = y ∧ a = b := by
  have h' := congrArg String.toList h
  simp only [String.toList_append] at h'
  obtain ⟨h1, h2⟩ := tail_eq ha h'
  obtain ⟨h3, h4⟩ := List.append_inj h1 hp
  exact ⟨String.toList_inj.1 h3, String.toList_inj.1 h4, String.toList_inj.1 h2⟩

/-- The names of the files of a run, in terms of the cards. -/
def expected (f : Deck.File) : List String :=
  ((probes f).filter fun c => c.ascii).map (fun c => "eh_" ++ c.name ++ (if c.freq then "_fd.asc" else "_td.asc")) ++
  (waveNames f).flatMap (fun n => ["wf_" ++ n ++ "_td.asc", "wf_" ++ n ++ "_fd.asc"]) ++
  if (probes f).any (fun c => !c.ascii) then ["impulse.dat", "excite.dat"] else []

theorem zipIdx_filterMap {α β : Type} (g : α → Option β) (h : α × Nat → Option β) (e : ∀ x, h x = g x.1) :
    ∀ (l : List α) (n : Nat), (l.zipIdx n).filterMap h = l.filterMap g
  | [], _ => rfl
  | x :: l, n => by
    rw [List.zipIdx_cons, List.filterMap_cons, List.filterMap_cons, e, zipIdx_filterMap g h e l]

/-- The files left are those the cards ask for, no others. -/
theorem file_names (h : Leaves k J X Q fs) : fs.map Prod.fst = expected X.file := by
  obtain ⟨R, hR⟩ := setup_of_leaves h
  obtain ⟨-, hN, -, out, ho, rfl⟩ := leaves_parts h hR
  obtain ⟨hw, hob, -⟩ := stored_obs hR
  unfold filesOf expected
  rw [List.map_append, List.map_append, List.map_filterMap, List.map_flatMap, any_binary hR, hw, hob]
  congr 1
  · congr 1
    · rw [zipIdx_filterMap (fun o : ObsItem => if o.ascii then some ("eh_" ++ o.name ++ (if o.freq then "_fd.asc" else "_td.asc")) else none)]
      · rw [List.filterMap_map]
        induction probes X.file with
        | nil => rfl
        | cons c l ih =>
          rw [List.filterMap_cons, List.filter_cons, ih]
          by_cases hc : c.ascii = true <;> simp [itemOf, hc]
      · intro x
        unfold obsFile kindOf
        by_cases h1 : x.1.ascii = true <;> by_cases h2 : x.1.freq = true <;> simp [h1, h2]
    · have : ∀ (l : List String) (n : Nat), ((l.zipIdx n).flatMap fun x => (waveFiles R Q (obsEnv X R Q) out x).map Prod.fst) =
          l.flatMap fun n => ["wf_" ++ n ++ "_td.asc", "wf_" ++ n ++ "_fd.asc"] := by
        intro l
        induction l with
        | nil => intro n; rfl
        | cons x l ih =>
          intro n
          rw [List.zipIdx_cons, List.flatMap_cons, List.flatMap_cons, ih]
          rfl
      exact this _ _
  · split <;> rfl

/-- No two of them share a name: no output overwrites another. -/
theorem names_distinct (h : Leaves k J X Q fs) : (fs.map Prod.fst).Nodup := by
  obtain ⟨R, hR⟩ := setup_of_leaves h
  rw [file_names h]
  obtain ⟨-, -, hn, hp, -⟩ := stored_obs hR
  have eh : (((probes X.file).filter fun c => c.ascii).map (fun c => "eh_" ++ c.name ++ (if c.freq then "_fd.asc" else "_td.asc"))).Nodup := by
    have hp' : (((probes X.file).filter fun c => c.ascii).map OPCard.name).Nodup :=
      hp.sublist (List.Sublist.map _ List.filter_sublist)
    refine List.Nodup.of_map (fun s => s) ?_
    rw [List.map_id']
    revert hp'
    generalize (probes X.file).filter (fun c => c.ascii) = l
    intro hp'
    rw [List.Nodup, List.pairwise_map] at hp' ⊢
    refine hp'.imp fun {a b} hab e => hab ?_
    exact (name_inj "eh_" "eh_" _ _ a.name b.name rfl (by split <;> split <;> rfl) e).2.1
  have wf : ((waveNames X.file).flatMap (fun n => ["wf_" ++ n ++ "_td.asc", "wf_" ++ n ++ "_fd.asc"])).Nodup := by
    rw [List.nodup_flatMap]
    refine ⟨fun n _ => ?_, ?_⟩
    · simp only [List.nodup_cons, List.mem_singleton, List.not_mem_nil, not_false_eq_true, List.nodup_nil, and_true]
      intro e
      have := (name_inj "wf_" "wf_" "_td.asc" "_fd.asc" n n rfl rfl e).2.2
      exact absurd this (by decide)
    · refine hn.imp fun {a b} hab => ?_
      intro x hx hy
      simp only [List.mem_cons, List.not_mem_nil, or_false] at hx hy
      rcases hx with rfl | rfl <;> rcases hy with hy | hy <;>
        exact hab (name_inj "wf_" "wf_" _ _ a b rfl (by rfl) hy).2.1
  have dat : (if (probes X.file).any (fun c => !c.ascii) then ["impulse.dat", "excite.dat"] else []).Nodup := by
    split <;> decide
  unfold expected
  refine List.nodup_append.2 ⟨List.nodup_append.2 ⟨eh, wf, ?_⟩, dat, ?_⟩
  · rintro x hx y hy rfl
    obtain ⟨c, -, rfl⟩ := List.mem_map.1 hx
    obtain ⟨n, -, hy⟩ := List.mem_flatMap.1 hy
    simp only [List.mem_cons, List.not_mem_nil, or_false] at hy
    rcases hy with hy | hy
    · exact absurd (name_inj "eh_" "wf_" _ _ _ _ rfl (by split <;> rfl) hy).1 (by decide)
    · exact absurd (name_inj "eh_" "wf_" _ _ _ _ rfl (by split <;> rfl) hy).1 (by decide)
  · rintro x hx y hy rfl
    have hd : x = "impulse.dat" ∨ x = "excite.dat" := by
      split at hy
      · simpa using hy
      · simp at hy
    have hx2 : ∃ p z : String, (p = "eh_" ∨ p = "wf_") ∧ x = p ++ z := by
      rcases List.mem_append.1 hx with hx | hx
      · obtain ⟨c, -, rfl⟩ := List.mem_map.1 hx
        exact ⟨_, _, Or.inl rfl, String.append_assoc⟩
      · obtain ⟨n, -, hy⟩ := List.mem_flatMap.1 hx
        simp only [List.mem_cons, List.not_mem_nil, or_false] at hy
        rcases hy with rfl | rfl
        · exact ⟨_, _, Or.inr rfl, String.append_assoc⟩
        · exact ⟨_, _, Or.inr rfl, String.append_assoc⟩
    obtain ⟨p, z, hp, rfl⟩ := hx2
    have key : ∀ s t : String, (s ++ z = t) → t.toList.take s.toList.length = s.toList := by
      rintro s t rfl
      rw [String.toList_append, List.take_left]
    rcases hp with rfl | rfl <;> rcases hd with hd | hd <;> exact absurd (key _ _ hd) (by decide)

/-! ### The run ends -/

/-- The observers that need a waveform have one exactly when the file has a `WF` card. -/
theorem waves_exist (hR : setup k J X = some R)
    (hw : (∃ c ∈ probes X.file, c.ascii = false ∨ c.freq = true) → waveNames X.file ≠ []) : WavesExist R.state := by
  obtain ⟨e1, e2, -, -, hp⟩ := stored_obs hR
  intro o ho
  rw [e2] at ho
  obtain ⟨c, hc, rfl⟩ := List.mem_map.1 ho
  have pos : (c.ascii = false ∨ c.freq = true) → 0 < R.state.waves.length := by
    intro h
    rw [e1]
    exact List.length_pos_iff.2 (hw ⟨c, hc, h⟩)
  constructor
  · intro hk
    have hf : c.freq = true := by
      by_contra h
      unfold kindOf itemOf at hk
      by_cases ha : c.ascii = true <;> simp [ha, h] at hk
    have := pos (Or.inr hf)
    simp only [itemOf]
    split
    · exact this
    · rename_i hn
      have hq := hp c hc
      simp only [parseOP, Bool.and_eq_true, Bool.or_eq_true, decide_eq_true_eq, hn, false_or] at hq
      rw [e1]
      exact List.idxOf_lt_length_of_mem (by simpa using hq.2)
  · intro hk
    refine pos (Or.inl ?_)
    unfold kindOf itemOf at hk
    by_contra h
    have ha : c.ascii = true := by simpa using h
    simp only [ha, if_true] at hk
    split at hk <;> simp at hk

/-- **C61.** Every accepted input with at least one step, positive strides, and a waveform if a binary or frequency observer
needs one, runs to its end and leaves its files. -/
theorem run_leaves (hR : setup k J X = some R) (hq : Q.Accepted) (hN : Q.steps ≠ 0)
    (hs : ∀ c ∈ probes X.file, c.ascii = false → ∀ a, 1 ≤ strideOf c a)
    (hw : (∃ c ∈ probes X.file, c.ascii = false ∨ c.freq = true) → waveNames X.file ≠ []) :
    ∃ fs, Leaves k J X Q fs := by
  have hs' : ∀ x ∈ (obsEnv X R Q).items, x.kind = .binary → ∀ a, 1 ≤ x.step a := by
    intro x hx hk a
    have : x ∈ (obsEnv X R Q).items.filter fun x => x.kind = .binary := List.mem_filter.2 ⟨hx, by simpa using hk⟩
    rw [binary_items hR] at this
    obtain ⟨c, hc, rfl⟩ := List.mem_map.1 this
    obtain ⟨hc, hb⟩ := List.mem_filter.1 hc
    have hb : c.ascii = false := by simpa using hb
    have := hs c hc hb a
    simpa [obsItem, itemOf, hb] using this
  obtain ⟨out, h⟩ := C32.run_ends R.sim R.coefs R.drive (obsEnv X R Q) R.dt (fun _ => 0) hN hs'
  exact ⟨_, hq, R, hR, waves_exist hR hw, _, out, h, rfl⟩

/-- The files are determined by the input. -/
theorem leaves_unique {fs' : List (String × Contents)} (h : Leaves k J X Q fs) (h' : Leaves k J X Q fs') : fs = fs' := by
  obtain ⟨R, hR⟩ := setup_of_leaves h
  obtain ⟨-, -, -, out, ho, rfl⟩ := leaves_parts h hR
  obtain ⟨-, -, -, out', ho', rfl⟩ := leaves_parts h' hR
  rw [ho] at ho'
  rw [Option.some.inj ho']

/-! ### Bounds -/

/-- Every sample an observer reads is an element of the field arrays. -/
theorem probes_in_bounds (hR : setup k J X = some R) (hz : ThirdSidesOrdered X.file.cards) {c : OPCard}
    (hc : Deck.Card.op c ∈ X.file.cards) {t : Int × Int × Int} (ht : ∀ a, c.bbox a.lo ≤ coord a t ∧ coord a t ≤ c.bbox a.hi) :
    InGrid R.cfg (t.1 + R.cfg.gibox .xlo) (t.2.1 + R.cfg.gibox .ylo) (t.2.2 + R.cfg.gibox .zlo) := by
  obtain ⟨s, hs, hcfg, hS, e⟩ := Scaling.setup_parts hR
  obtain ⟨hn, -⟩ := C47.stored_parts hs
  obtain ⟨ec, eb⟩ := C47.outer_cells hcfg
  have hv : ValidCfg R.cfg := C07.setup_valid _ _ _ _ (fun a => by cases a; exacts [hn.1, hn.2.1, hn.2.2]) hcfg
  obtain ⟨-, -, -, -, hp⟩ := stored_obs hR
  have hq := hp c (mem_probes.2 hc)
  simp only [parseOP, Bool.and_eq_true] at hq
  have hno := hq.1.1.1.1.2
  have hwi := hq.1.1.1.2
  have hzz : c.bbox .zlo ≤ c.bbox .zhi := hz (.op c) hc _ (by simp [boxOf])
  have hord := C47.normal_sides hno hzz
  have hwn := C47.place_within (c := R.cfg) (b := c.bbox) (m := mkBox 0 X.file.nx 0 X.file.ny 0 X.file.nz) (by rw [ec]; rfl) hord hwi
  have hin := gibox_within hv
  have hm := C47.place_moved R.cfg c.bbox
  have key : ∀ a : Axis, 0 ≤ coord a t + R.cfg.gibox a.lo ∧ coord a t + R.cfg.gibox a.lo < R.cfg.numCells a := by
    intro a
    have h1 := ht a; have h2 := hwn a; have h3 := hin a; have h4 := hm a
    have f := cfg_facts hv a
    omega
  exact ⟨key .x, key .y, key .z⟩

/-! ### The same input gives the same files -/

theorem forStep_mem {lo hi step : Int} {l : List Int} (h : forStep lo hi step = some l) {i : Int} (hi' : i ∈ l) : lo ≤ i ∧ i ≤ hi := by
  unfold forStep at h
  split at h
  · rename_i hs
    obtain rfl := Option.some.inj h
    have := (C32.strided_mem hs i).1 hi'
    exact ⟨this.1, this.2.1⟩
  · split at h
    · obtain rfl := Option.some.inj h; simp at hi'
    · simp at h

theorem boxNodes_mem {b : BBox} {step : Axis → Int} {l : List (Int × Int × Int)} (h : boxNodes b step = some l) {t : Int × Int × Int}
    (ht : t ∈ l) : ∀ a : Axis, b a.lo ≤ coord a t ∧ coord a t ≤ b a.hi := by
  unfold boxNodes at h
  obtain ⟨ks, hk, h⟩ := Option.bind_eq_some_iff.1 h
  obtain ⟨js, hj, h⟩ := Option.bind_eq_some_iff.1 h
  obtain ⟨is, hi, rfl⟩ := Option.map_eq_some_iff.1 h
  obtain ⟨kk, mk, ht⟩ := List.mem_flatMap.1 ht
  obtain ⟨jj, mj, ht⟩ := List.mem_flatMap.1 ht
  obtain ⟨ii, mi, rfl⟩ := List.mem_map.1 ht
  intro a
  cases a
  · exact forStep_mem hi mi
  · exact forStep_mem hj mj
  · exact forStep_mem hk mk

/-- Two memories look the same to an observer. -/
def Same (m m' : Loc → ℝ) (x : Item) : Prop :=
  (x.kind = .asciiTime ∨ x.kind = .asciiFreq → fieldsAt m x.node = fieldsAt m' x.node) ∧
  (x.kind = .binary → ∀ l, boxNodes x.gbbox x.step = some l → ∀ t ∈ l, fieldsAt m t = fieldsAt m' t)

theorem updateItem_same (e : Run.Env) (t : BitVec 64) (time : ℝ) {m m' : Loc → ℝ} {x : Item} (h : Same m m' x) (o : Nat) (out : Out) :
    updateItem e t time m x o out = updateItem e t time m' x o out := by
  unfold updateItem
  cases hk : x.kind with
  | wfTime => simp [asciiLine, Item.values, hk]
  | wfFreq => simp [Item.values, hk]
  | binary =>
    have : records e x m = records e x m' := by
      unfold records
      cases hb : boxNodes x.gbbox x.step with
      | none => rfl
      | some l =>
        simp only [Option.map_some, Option.some.injEq]
        refine List.map_congr_left fun t ht => ?_
        rw [h.2 hk l hb t ht]
    simp only [this]
  | asciiTime => simp [asciiLine, Item.values, hk, h.1 (Or.inl hk)]
  | asciiFreq => simp [Item.values, hk, h.1 (Or.inr hk)]

theorem updateItems_same (e : Run.Env) (t : BitVec 64) (time : ℝ) {m m' : Loc → ℝ} : ∀ (l : List Item) (_ : ∀ x ∈ l, Same m m' x) (o : Nat) (out : Out),
    updateItems e t time m l o out = updateItems e t time m' l o out
  | [], _, _, _ => rfl
  | x :: l, h, o, out => by
    show (updateItem e t time m x o out).bind _ = (updateItem e t time m' x o out).bind _
    rw [updateItem_same e t time (h x (by simp)) o out]
    congr 1
    funext out'
    exact updateItems_same e t time l (fun y hy => h y (by simp [hy])) (o + 1) out'

theorem outputs_same {S S' : Sim} {C C' : CRef → ℝ} {u u' : Nat → Loc → ℝ} {e : Run.Env} {dt : ℝ} {s0 : Loc → ℝ}
    (h : ∀ n, ∀ x ∈ e.items, Same (S.state C u s0 n) (S'.state C' u' s0 n) x) :
    ∀ n, C35.outputs S C u e dt s0 n = C35.outputs S' C' u' e dt s0 n
  | 0 => rfl
  | n + 1 => by
    show (C35.outputs S C u e dt s0 n).bind _ = (C35.outputs S' C' u' e dt s0 n).bind _
    rw [outputs_same h n]
    congr 1
    funext out
    unfold updateObservers
    exact updateItems_same e _ _ _ (h n) 0 _

/-- **C61.** The same mesh file and requests leave the same files, whatever memory held before, if no impedance sheet reaches
a wall and no plane wave of a mesh that is not cubic starts at the low side of the mesh. -/
theorem files_reproducible_partial {J' : Junk} {X' : Experiment} (h : Leaves k J X Q fs) (hX : SameInput X X')
    (hz : ThirdSidesOrdered X.file.cards)
    (ha : WavesInside X.file.cards) (hs : SheetsAway X.file) : Leaves k J' X' Q fs := by
  obtain ⟨R, hR⟩ := setup_of_leaves h
  obtain ⟨hq, hN, hw, out, ho, rfl⟩ := leaves_parts h hR
  obtain ⟨R', hR', h2, h3, h4, -⟩ := C54.memory_never_matters_partial (J' := J') hX hR hz (Or.inr ha) hs
  obtain ⟨x1, x2, x3, x4, x5⟩ := hX
  have hst : R'.state = R.state := by
    obtain ⟨s, a1, -, -, e⟩ := Scaling.setup_parts hR
    obtain ⟨s', a1', -, -, e'⟩ := Scaling.setup_parts hR'
    rw [x1, a1] at a1'
    rw [e, e']
    exact (Option.some.inj a1').symm
  have hE : obsEnv X' R' Q = obsEnv X R Q := by
    unfold obsEnv stepFreq
    rw [hst, h2, h4, x4]
  have hfl := C54.fields_same_partial (J' := J') ⟨x1, x2, x3, x4, x5⟩ hR hz (Or.inr ha) hs hR'
  obtain ⟨-, hob, -, -, hp⟩ := stored_obs hR
  have same : ∀ n, ∀ x ∈ (obsEnv X R Q).items, Same (R.sim.state R.coefs R.drive (fun _ => 0) n) (R'.sim.state R'.coefs R'.drive (fun _ => 0) n) x := by
    intro n x hx
    rw [fields_eq, fields_eq]
    have hx : x ∈ allItems (R.state.obs.map (obsItem R.cfg)) R.state.waves.length := hx
    unfold allItems at hx
    rcases List.mem_append.1 hx with hx | hx
    · rw [hob, List.map_map] at hx
      obtain ⟨c, hc, rfl⟩ := List.mem_map.1 hx
      have hm := C47.place_moved R.cfg c.bbox
      have inside : ∀ t : Int × Int × Int, (∀ a : Axis, place R.cfg c.bbox a.lo ≤ coord a t ∧ coord a t ≤ place R.cfg c.bbox a.hi) →
          fieldsAt (R.fields n) t = fieldsAt (R'.fields n) t := by
        intro t ht
        have hb := probes_in_bounds hR hz (mem_probes.1 hc)
          (t := (t.1 - R.cfg.gibox .xlo, t.2.1 - R.cfg.gibox .ylo, t.2.2 - R.cfg.gibox .zlo)) (by
            intro a
            have h1 := ht a; have h2 := hm a
            cases a <;> simp only [coord, Axis.lo, Axis.hi] at * <;> omega)
        simp only [sub_add_cancel] at hb
        unfold fieldsAt
        refine List.map_congr_left fun fc _ => ?_
        exact (hfl n fc hb).symm
      have hord : ∀ a : Axis, c.bbox a.lo ≤ c.bbox a.hi := by
        have hq := hp c hc
        simp only [parseOP, Bool.and_eq_true] at hq
        exact C47.normal_sides hq.1.1.1.1.2 (hz (.op c) (mem_probes.1 hc) _ (by simp [boxOf]))
      refine ⟨fun _ => inside _ ?_, fun _ l hl t ht => inside t (boxNodes_mem hl ht)⟩
      intro a
      have h1 := hm a; have h2 := hord a
      cases a <;> simp only [coord, Item.node, obsItem, itemOf, Function.comp, Axis.lo, Axis.hi] at * <;> omega
    · obtain ⟨w, -, hx⟩ := List.mem_flatMap.1 hx
      simp at hx
      rcases hx with rfl | rfl <;> exact ⟨fun h => by simp at h, fun h => by simp at h⟩
  have ho' : C35.outputs R'.sim R'.coefs R'.drive (obsEnv X' R' Q) R'.dt (fun _ => 0) Q.steps.toNat = some out := by
    rw [hE, h4, ← outputs_same same, ho]
  refine ⟨hq, R', hR', by rw [hst]; exact hw, _, out, (C35.run_result _ _ _ _ _ hN _ _ _).2 ⟨rfl, ho'⟩, ?_⟩
  have head : ∀ c ∈ probes X.file, headOf X' c.bbox = headOf X c.bbox := by
    intro c hc
    unfold headOf
    congr 1
    funext a
    have hq := hp c hc
    simp only [parseOP, Bool.and_eq_true] at hq
    have hord := C47.normal_sides hq.1.1.1.1.2 (hz (.op c) (mem_probes.1 hc) _ (by simp [boxOf]))
    have hwi := hq.1.1.1.2
    simp only [bboxIsWithin, Bool.and_eq_true, decide_eq_true_eq] at hwi
    have h1 := hord a
    refine x5 a _ ?_ ?_ <;> cases a <;> simp [mkBox, Axis.lo, Axis.hi, File.cells] at * <;> omega
  unfold filesOf
  rw [hE, hst]
  congr 1
  congr 1
  · refine List.filterMap_congr fun x hx => ?_
    have hx' : x.1 ∈ R.state.obs := by
      have := List.mem_zipIdx_iff_getElem?.1 (show (x.1, x.2) ∈ _ from hx)
      exact List.mem_of_getElem? this
    rw [hob] at hx'
    obtain ⟨c, hc, e⟩ := List.mem_map.1 hx'
    have hh : headOf X' x.1.mbbox = headOf X x.1.mbbox := by rw [← e]; exact head c hc
    unfold obsFile fieldRows stepFreq
    rw [hh, hst, h4]
  · refine List.flatMap_congr fun x _ => ?_
    unfold waveFiles waveRows stepFreq
    rw [hst, h4]

/-! ### The companion reader -/

/-- The binary cards of a file in order. -/
def binaryCards (f : Deck.File) : List OPCard := (probes f).filter fun c => !c.ascii

theorem card_sides (hR : setup k J X = some R) (hz : ThirdSidesOrdered X.file.cards) {c : OPCard} (hc : c ∈ probes X.file) (a : Axis) :
    0 ≤ c.bbox a.lo ∧ c.bbox a.lo ≤ c.bbox a.hi ∧ c.bbox a.hi ≤ cellsOf X.file a := by
  obtain ⟨-, -, -, -, hp⟩ := stored_obs hR
  have hq := hp c hc
  simp only [parseOP, Bool.and_eq_true] at hq
  have hord := C47.normal_sides hq.1.1.1.1.2 (hz (.op c) (mem_probes.1 hc) _ (by simp [boxOf]))
  have hwi := hq.1.1.1.2
  simp only [bboxIsWithin, Bool.and_eq_true, decide_eq_true_eq] at hwi
  have h1 := hord a
  cases a <;> simp [mkBox, Axis.lo, Axis.hi, cellsOf] at * <;> omega

/-- The first recorded step. -/
def firstStep (Q : Request) : Nat := match Q.times with | none => 0 | some t => t.1.toNat

/-- **C61 with C50.** The Octave reader, given the bytes of `impulse.dat` and the boxes of the binary cards, returns for each
card its nodes, and for every node and recorded step the fields of the run. -/
theorem companion_reads_partial (h : Leaves k J X Q fs) (hR : setup k J X = some R) (hz : ThirdSidesOrdered X.file.cards)
    (hs : ∀ c ∈ probes X.file, c.ascii = false → ∀ a, 1 ≤ strideOf c a) (hsize : ∀ a, cellsOf X.file a < 2 ^ 31)
    (hwin : ∀ t, Q.times = some t → t.2.toNat < Q.steps.toNat) (h31 : (observed Q).length < 2 ^ 31)
    (bits : ℝ → BitVec 32) (real : BitVec 32 → ℝ) (dtb : BitVec 32) {op : Nat} {c : OPCard} (hc : (binaryCards X.file)[op]? = some c) :
    ∃ n recs r, ("impulse.dat", Contents.impulse n recs) ∈ fs ∧
      Reader.readImpulse3D real (header n dtb ++ recs.flatMap (encRec bits))
        ((binaryCards X.file).map fun c => ⟨fun a => c.bbox a.lo, fun a => c.bbox a.hi, strideOf c⟩) op [] = some r ∧
      (∀ a, r.axisOf a = everyNth (c.bbox a.lo) (c.bbox a.hi) (strideOf c a)) ∧
      r.times.length = (observed Q).length ∧
      ∀ (comp : Nat) (hcomp : comp < 6) (i j l m : Nat) (hi : i < (r.axisOf .x).length) (hj : j < (r.axisOf .y).length)
        (hl : l < (r.axisOf .z).length) (_ : m < (observed Q).length),
        r.field comp i j l m = some (bits (atNode R (firstStep Q + m) ([Fc.ex, .ey, .ez, .hx, .hy, .hz][comp]'hcomp)
          ((r.axisOf .x)[i], (r.axisOf .y)[j], (r.axisOf .z)[l]))) := by
  obtain ⟨hacc, hN, -, out, ho, rfl⟩ := leaves_parts h hR
  have hmem : c ∈ binaryCards X.file := List.mem_of_getElem? hc
  obtain ⟨hcp, hcb⟩ := List.mem_filter.1 hmem
  have hcb : c.ascii = false := by simpa using hcb
  have hany : anyBinary R.state = true := by
    rw [any_binary hR, List.any_eq_true]
    exact ⟨c, hcp, by simp [hcb]⟩
  have hbin : C50.binaries (obsEnv X R Q) = (binaryCards X.file).map fun c => obsItem R.cfg (itemOf (waveNames X.file) c) := binary_items hR
  have side : ∀ (d : OPCard) (a : Axis), (obsItem R.cfg (itemOf (waveNames X.file) d)).gbbox a.lo - R.cfg.gibox a.lo = d.bbox a.lo ∧
      (obsItem R.cfg (itemOf (waveNames X.file) d)).gbbox a.hi - R.cfg.gibox a.lo = d.bbox a.hi := fun d a => C47.place_moved R.cfg d.bbox a
  have stp : ∀ d : OPCard, d.ascii = false → (obsItem R.cfg (itemOf (waveNames X.file) d)).step = strideOf d := by
    intro d hd; funext a; simp [obsItem, itemOf, hd]
  have hbf : C34.BoxFits (obsEnv X R Q) := by
    intro x hx hk a
    have : x ∈ (obsEnv X R Q).items.filter fun x => x.kind = .binary := List.mem_filter.2 ⟨hx, by simpa using hk⟩
    rw [binary_items hR] at this
    obtain ⟨d, hd, rfl⟩ := List.mem_map.1 this
    obtain ⟨hd, hb⟩ := List.mem_filter.1 hd
    have hb : d.ascii = false := by simpa using hb
    have h1 := card_sides hR hz hd a
    have h2 := side d a
    have h3 := hsize a
    show C34.Fits (_ - R.cfg.gibox a.lo) ∧ C34.Fits (_ - R.cfg.gibox a.lo) ∧ _
    rw [h2.1, h2.2, stp d hb]
    exact ⟨⟨by omega, by omega⟩, ⟨by omega, by omega⟩, hs d hd hb a⟩
  have key : (obsEnv X R Q).win.1.toNat ≤ (obsEnv X R Q).win.2.toNat ∧ (obsEnv X R Q).win.2.toNat < Q.steps.toNat ∧
      (obsEnv X R Q).win.1.toNat = firstStep Q := by
    show (window Q.times Q.steps).1.toNat ≤ (window Q.times Q.steps).2.toNat ∧ (window Q.times Q.steps).2.toNat < _ ∧ (window Q.times Q.steps).1.toNat = firstStep Q
    unfold firstStep
    cases ht : Q.times with
    | none =>
      have hp : 0 < Q.steps.toNat := Nat.pos_of_ne_zero fun h => hN (BitVec.eq_of_toNat_eq (by simpa using h))
      have := Q.steps.isLt
      have e : (Q.steps - 1).toNat = Q.steps.toNat - 1 := by
        rw [BitVec.toNat_sub, show (1 : BitVec 64).toNat = 1 from rfl]
        omega
      show (window none Q.steps).1.toNat ≤ (window none Q.steps).2.toNat ∧ (window none Q.steps).2.toNat < _ ∧ (window none Q.steps).1.toNat = 0
      simp only [window, Option.getD_none, e]
      rw [show (0 : BitVec 64).toNat = 0 from rfl]
      omega
    | some t =>
      have h1 := hacc.2.1 t ht
      rw [C32.card_window] at h1
      split at h1
      · rename_i h2; exact ⟨h2, hwin t ht, rfl⟩
      · simp at h1
  have hlen := C32.window_count key.1 key.2.1
  rw [observed_eq hN] at hlen
  have hop : op < (C50.binaries (obsEnv X R Q)).length := by
    rw [hbin, List.length_map]; exact (List.getElem?_eq_some_iff.1 hc).1
  have hget : (C50.binaries (obsEnv X R Q))[op] = obsItem R.cfg (itemOf (waveNames X.file) c) := by
    simp only [hbin, List.getElem_map]
    rw [(List.getElem?_eq_some_iff.1 hc).2]
  have hlines : boxLines (obsEnv X R Q) = (binaryCards X.file).map fun c => ⟨fun a => c.bbox a.lo, fun a => c.bbox a.hi, strideOf c⟩ := by
    unfold boxLines
    rw [binary_items hR, List.map_map]
    refine List.map_congr_left fun d hd => ?_
    have hb : d.ascii = false := by simpa using (List.mem_filter.1 hd).2
    simp only [Function.comp]
    congr 1
    · funext a; exact (side d a).1
    · funext a; exact (side d a).2
    · exact stp d hb
  obtain ⟨r, r1, r2, -, r3, r4⟩ := C50.reader_returns_partial R.sim R.coefs R.drive (obsEnv X R Q) (fun _ => 0) bits real dtb hbf
    (Nat.le_of_lt Q.steps.isLt) ho key.1 key.2.1 (by omega) hop (by
      intro a
      rw [hget]
      have h1 := side c a; have h2 := card_sides hR hz hcp a
      omega) [] (by simp)
  rw [hlines] at r1
  have rq : C50.requested (obsEnv X R Q) [] = (List.range (observed Q).length).map fun (m : Nat) => (m + 1 : Int) := by
    unfold C50.requested
    rw [if_pos rfl, hlen]
  rw [rq] at r3
  refine ⟨_, _, r, ?_, r1, ?_, ?_, ?_⟩
  · unfold filesOf
    refine List.mem_append_right _ ?_
    rw [if_pos hany]
    exact List.mem_cons_self
  · intro a
    rw [r2 a, hget]
    show everyNth (_ - R.cfg.gibox a.lo) (_ - R.cfg.gibox a.lo) _ = _
    rw [(side c a).1, (side c a).2, stp c hcb]
  · rw [r3]; simp
  · intro comp hcomp i j l m hi hj hl hm
    have hm' : m < (C50.requested (obsEnv X R Q) []).length := by rw [rq]; simpa using hm
    rw [r4 comp hcomp i j l m hi hj hl hm']
    have em : ((C50.requested (obsEnv X R Q) [])[m] - 1).toNat = m := by
      simp only [rq, List.getElem_map, List.getElem_range]
      omega
    rw [em, key.2.2]
    rfl

/-! ### Findings -/

/-- A binary card with a zero stride is accepted; if the window starts within the run, the program never ends. -/
theorem zero_stride_never_ends (hR : setup k J X = some R) (hz : ThirdSidesOrdered X.file.cards) {c : OPCard}
    (hc : Deck.Card.op c ∈ X.file.cards) (hb : c.ascii = false) {a : Axis} (h0 : strideOf c a = 0)
    (hwin : ∀ t, Q.times = some t → t.1.toNat < Q.steps.toNat) : ¬ Leaves k J X Q fs := by
  intro h
  obtain ⟨hacc, R', hR', -, m, out, he, -⟩ := id h
  obtain ⟨-, hN, -⟩ := leaves_parts h hR
  rw [hR] at hR'
  obtain rfl := Option.some.inj hR'
  have hp : 0 < Q.steps.toNat := Nat.pos_of_ne_zero fun h => hN (BitVec.eq_of_toNat_eq (by simpa using h))
  have hx : obsItem R.cfg (itemOf (waveNames X.file) c) ∈ (obsEnv X R Q).items := by
    have : obsItem R.cfg (itemOf (waveNames X.file) c) ∈ (obsEnv X R Q).items.filter fun x => x.kind = .binary := by
      rw [binary_items hR]
      exact List.mem_map_of_mem (List.mem_filter.2 ⟨mem_probes.2 hc, by simp [hb]⟩)
    exact List.mem_of_mem_filter this
  refine C32.zero_step_hangs R.sim R.coefs R.drive (obsEnv X R Q) R.dt (fun _ => 0) hN ?_ ?_ hx (by simp [obsItem, kindOf, itemOf, hb])
    ?_ (a := a) (by simpa [obsItem, itemOf, hb] using h0) _ he
  · show (window Q.times Q.steps).1.toNat < _
    cases ht : Q.times with
    | none => exact hp
    | some t => exact hwin t ht
  · show (window Q.times Q.steps).1 ≤ (window Q.times Q.steps).2
    cases ht : Q.times with
    | none => show (0 : Nat) ≤ _; exact Nat.zero_le _
    | some t =>
      have h1 := hacc.2.1 t ht
      rw [C32.card_window] at h1
      split at h1
      · rename_i h2; exact h2
      · simp at h1
  · intro b
    have h1 := C47.place_moved R.cfg c.bbox b; have h2 := card_sides hR hz (mem_probes.2 hc) b
    show place R.cfg c.bbox b.lo ≤ place R.cfg c.bbox b.hi
    omega

/-- A frequency or binary observer in a file without `WF` cards is accepted by every check; the run then uses a waveform
that does not exist (an element beyond the end of an empty array, or a failed assertion). -/
theorem no_waveform_accepted (hR : setup k J X = some R) {c : OPCard} (hc : Deck.Card.op c ∈ X.file.cards)
    (hk : c.ascii = false ∨ c.freq = true) (hw : ∀ n, Deck.Card.wf n ∉ X.file.cards) : ¬ WavesExist R.state := by
  obtain ⟨e1, e2, -⟩ := stored_obs hR
  have e0 : R.state.waves.length = 0 := by
    rw [e1]
    by_contra h
    obtain ⟨n, hn⟩ := List.exists_mem_of_length_pos (Nat.pos_of_ne_zero h)
    exact hw n (mem_waveNames.1 hn)
  intro hwe
  have hom : itemOf (waveNames X.file) c ∈ R.state.obs := by
    rw [e2]; exact List.mem_map_of_mem (mem_probes.2 hc)
  have := hwe _ hom
  by_cases ha : c.ascii = true
  · have hf : c.freq = true := by rcases hk with hk | hk; simp [hk] at ha; exact hk
    have := this.1 (by simp [kindOf, itemOf, ha, hf])
    omega
  · have := this.2 (by simp [kindOf, itemOf, ha])
    omega

end

/-! ### A case -/

theorem card_op {s : Deck.State} {c : OPCard}
    (h : parseOP s.mbox (fun n => (s.obs.map ObsItem.name).contains n) (fun n => s.waves.contains n) c = true) :
    s.card (.op c) = some { s with obs := s.obs ++ [obsOf s c] } := by
  simp only [Deck.State.card, h]; rfl

/-- A dipole in a box with one absorbing side, a probe in time, a transfer function and a binary box with a stride. -/
noncomputable def dipoleCards : List Deck.Card :=
  [.wf "pulse", .op ⟨8, mkBox 3 3 2 2 1 1, "near", true, true, 1, 1, 1, "", false⟩,
   .op ⟨8, mkBox 4 4 2 2 1 1, "far", true, true, 1, 1, 1, "pulse", true⟩,
   .op ⟨11, mkBox 0 6 1 1 0 4, "cut", true, false, 2, 1, 1, "", false⟩,
   .ex 9 (mkBox 2 2 2 2 1 2) "feed" ['V', 'R', 'Z'] "pulse" 1 0 50]

noncomputable def dipole (d : ℝ) : Experiment :=
  ⟨⟨6, 5, 4, fun f => if f = .xlo then .pml else .pec, fun _ => 3, dipoleCards, false⟩, fun _ i => d * i, 0.5,
   fun _ => ⟨4, 1, -1, 1⟩, fun _ => .builtin ⟨.gaussian, 1, -1, -1, -1⟩⟩

theorem dipole_stored (cubic : Bool) : ∃ s, ({ (dipole 1).file with cubic := cubic }).stored = some s ∧ s.pws = [] := by
  have e : ({ (dipole 1).file with cubic := cubic }).stored = Deck.read (State.init (mkBox 0 6 0 5 0 4)) dipoleCards := rfl
  rw [e, dipoleCards]
  rw [C47.read_cons, C47.card_wf (by decide +kernel), Option.bind_some]
  rw [C47.read_cons, card_op (by decide +kernel), Option.bind_some]
  rw [C47.read_cons, card_op (by decide +kernel), Option.bind_some]
  rw [C47.read_cons, card_op (by decide +kernel), Option.bind_some]
  have hl : Source.lookup ['V', 'R', 'Z'] = some ⟨.thevenin, .z, none, .ez, true⟩ := by decide +kernel
  rw [C47.read_cons]
  have key : ∀ s : Deck.State, parseEX s.mbox (fun n => (s.srcs.map SrcItem.name).contains n) (fun n => s.waves.contains n)
      (exCard 9 (mkBox 2 2 2 2 1 2) "feed" ['V', 'R', 'Z'] "pulse") = true → s.pws = [] →
      ∃ s', ((s.card (.ex 9 (mkBox 2 2 2 2 1 2) "feed" ['V', 'R', 'Z'] "pulse" 1 0 50)).bind fun s => Deck.read s []) = some s' ∧ s'.pws = [] := by
    intro s hp h0
    obtain ⟨s', h', -, -, -, -, e5, -⟩ := C47.card_ex (size := 1) (delay := 0) (resist := 50) hl hp
    rw [h', Option.bind_some]
    exact ⟨s', rfl, by rw [e5, h0]⟩
  refine key _ ?_ rfl
  decide +kernel

theorem dipole_setup (k : Consts) (J : Junk) (d : ℝ) : ∃ R, setup k J (dipole d) = some R := by
  obtain ⟨s, hs, -⟩ := dipole_stored false
  have hc : ∃ c, initExternalSurfaceParameters (dipole d).file.cells (dipole d).file.bt (dipole d).file.layers = some c := by
    have : (initExternalSurfaceParameters (dipole 1).file.cells (dipole 1).file.bt (dipole 1).file.layers).isSome = true := by decide +kernel
    exact Option.isSome_iff_exists.1 this
  obtain ⟨c, hc⟩ := hc
  obtain ⟨s', hs', hw⟩ := dipole_stored (gridType k J (dipole d) c == .cubic)
  have hS : ∃ S, (fileOf k J (dipole d) c).sim (Setup.de k J (dipole d) c) (Setup.dh k J (dipole d) c) = some S := by
    have ef : (fileOf k J (dipole d) c).stored = some s' := hs'
    have ec : initExternalSurfaceParameters (fileOf k J (dipole d) c).cells (fileOf k J (dipole d) c).bt
      (fileOf k J (dipole d) c).layers = some c := hc
    simp only [File.sim, ef, ec, hw, Option.bind_some, List.mapM_nil, Option.pure_def]
    exact ⟨_, rfl⟩
  obtain ⟨S, hS⟩ := hS
  exact ⟨_, Scaling.setup_of hc hs hS⟩

/-- Its run ends and leaves these six files. -/
example (k : Consts) (J : Junk) (d : ℝ) : ∃ fs, Leaves k J (dipole d) ⟨100, some (10, 90), none⟩ fs ∧
    fs.map Prod.fst = ["eh_near_td.asc", "eh_far_fd.asc", "wf_pulse_td.asc", "wf_pulse_fd.asc", "impulse.dat", "excite.dat"] := by
  obtain ⟨R, hR⟩ := dipole_setup k J d
  obtain ⟨fs, h⟩ := run_leaves (Q := ⟨100, some (10, 90), none⟩) hR
    ⟨by decide, by intro t ht; simp at ht; subst ht; decide, by simp⟩ (by decide) (by
      intro c hc hb a
      rw [mem_probes] at hc
      simp only [dipole, dipoleCards, List.mem_cons, List.not_mem_nil, or_false, reduceCtorEq, Deck.Card.op.injEq, false_or, or_false] at hc
      rcases hc with rfl | rfl | rfl <;> simp at hb
      cases a <;> decide) (by intro _ e; simp [waveNames, dipole, dipoleCards, waveOf] at e)
  refine ⟨fs, h, ?_⟩
  rw [file_names h]
  rfl

end Vulture.C61
