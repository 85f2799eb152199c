import Verif.Spec.Reorder
import Verif.Props.C67_Observe
import Verif.Props.C71_Beam
import Verif.Props.C65_SheetLaw
/- C74: the order of cards of different kinds does not matter. -/
set_option linter.unusedSimpArgs false
set_option linter.unusedSectionVars false
set_option linter.unusedVariables false
namespace Vulture.C74
open Vulture.Spec Vulture.Setup Vulture.Deck
open _root_.Vulture.Run hiding body

theorem by_filter {β : Type*} {f : Deck.Card → Option β} {p : Deck.Card → Bool} (h : ∀ x, p x = false → f x = none) :
    ∀ l : List Deck.Card, l.filterMap f = (l.filter p).filterMap f
  | [] => rfl
  | x :: l => by
    by_cases hp : p x = true
    · rw [List.filter_cons_of_pos hp, List.filterMap_cons, List.filterMap_cons, by_filter h l]
    · rw [List.filter_cons_of_neg hp, List.filterMap_cons_none (h x (by simpa using hp)), by_filter h l]

theorem same_map {β : Type*} {f g : Deck.Card → Option β} {p : Deck.Card → Bool} {l l' : List Deck.Card}
    (h : ∀ x, p x = false → f x = none) (h' : ∀ x, p x = false → g x = none) (e : l.filter p = l'.filter p) (hfg : ∀ x ∈ l.filter p, f x = g x) :
    l.filterMap f = l'.filterMap g := by
  rw [by_filter h, by_filter h', ← e]
  exact List.filterMap_congr hfg

theorem read_mbox : ∀ (l : List Deck.Card) {s s' : Deck.State}, Deck.read s l = some s' → s'.mbox = s.mbox
  | [], s, s', h => by simp [Deck.read] at h; rw [h]
  | c :: l, s, s', h => by
    rw [C47.read_cons] at h
    obtain ⟨t, ht, h⟩ := Option.bind_eq_some_iff.1 h
    rw [read_mbox l h, C47.card_mbox ht]

section
variable {k : Consts} {J : Junk} {X : Experiment} {Q : Request} {fs fs' : List (String × Contents)} {R R' : Setup.Run}
  {l : List Deck.Card}

theorem mem_of_filter {p : Deck.Card → Bool} {a b : List Deck.Card} (e : a.filter p = b.filter p) {x : Deck.Card} (hp : p x = true)
    (h : x ∈ a) : x ∈ b := by
  have : x ∈ a.filter p := List.mem_filter.2 ⟨h, hp⟩
  rw [e] at this
  exact (List.mem_filter.1 this).1

theorem ordinary_same (hl : SameByKind X.file.cards l) (ho : OrdinaryBlocks X.file.cards) : OrdinaryBlocks l :=
  fun c hc => ho c (mem_of_filter hl.blocks.symm rfl hc)

theorem medium_same (hl : SameByKind X.file.cards l) (n : String) (m : Med) : MediumNamed X.file.cards n m ↔ MediumNamed l n m := by
  constructor
  · rintro (_ | _ | h)
    · exact .free
    · exact .pec
    · exact .card ((hl.declarations _ rfl).1 h)
  · rintro (_ | _ | h)
    · exact .free
    · exact .pec
    · exact .card ((hl.declarations _ rfl).2 h)

theorem boundary_same (hl : SameByKind X.file.cards l) (n : String) (m : Bnd) : BoundaryNamed X.file.cards n m ↔ BoundaryNamed l n m := by
  constructor
  · rintro (_ | _ | _ | h)
    · exact .pec
    · exact .pmc
    · exact .free
    · exact .card ((hl.declarations _ rfl).1 h)
  · rintro (_ | _ | _ | h)
    · exact .pec
    · exact .pmc
    · exact .free
    · exact .card ((hl.declarations _ rfl).2 h)

/-- The lists the run is made from are the same. -/
theorem lists_same (ho : OrdinaryBlocks X.file.cards) (hl : SameByKind X.file.cards l) {s s' : Deck.State} (hs : X.file.stored = some s)
    (hs' : (withCards X l).file.stored = some s') :
    s'.blocks = s.blocks ∧ s'.surfs = s.surfs ∧ s'.lines = s.lines ∧ s'.srcs = s.srcs ∧ s'.pws = s.pws := by
  have ho' := ordinary_same hl ho
  obtain ⟨-, hr⟩ := C47.stored_parts hs
  obtain ⟨-, hr'⟩ := C47.stored_parts hs'
  obtain ⟨a1, a2, a3, a4⟩ := C64.read_lists _ hr fun c hc => (ho c hc).2
  obtain ⟨b1, b2, b3, b4⟩ := C64.read_lists _ hr' fun c hc => (ho' c hc).2
  have a5 := C71.pws_stored hs
  have b5 := C71.pws_stored hs'
  simp only [State.init, List.nil_append] at a1 a2 a3 a4 b1 b2 b3 b4
  rw [a1, a2, a3, a4, a5, b1, b2, b3, b4, b5]
  have med : ∀ n, C47.NotPlaceholder n → find s.media n = find s'.media n := by
    intro n hn
    refine Option.ext fun m => ?_
    exact (C64.medium_found hs hn m).trans ((medium_same hl n m).trans (C64.medium_found hs' hn m).symm)
  have bnd : ∀ n, find s.bnds n = find s'.bnds n := by
    intro n
    refine Option.ext fun m => ?_
    exact (C64.boundary_found hs m).trans ((boundary_same hl n m).trans (C64.boundary_found hs' m).symm)
  refine ⟨?_, ?_, ?_, ?_, ?_⟩
  · refine (same_map (p := isBlock) ?_ ?_ hl.blocks ?_).symm
    · intro x hx; cases x <;> first | rfl | simp [isBlock] at hx
    · intro x hx; cases x <;> first | rfl | simp [isBlock] at hx
    · intro x hx
      cases x with
      | mb c => simp only [C64.mbItem, med _ (ho c (List.mem_filter.1 hx).1).2]
      | _ => rfl
  · refine (same_map (p := isSurface) ?_ ?_ hl.surfaces ?_).symm
    · intro x hx; cases x <;> first | rfl | simp [isSurface] at hx
    · intro x hx; cases x <;> first | rfl | simp [isSurface] at hx
    · intro x hx
      cases x with
      | tb c => simp only [C64.tbItem, bnd]
      | _ => rfl
  · refine (same_map (p := isWire) ?_ ?_ hl.wires fun _ _ => rfl).symm
    · intro x hx; cases x <;> first | rfl | simp [isWire] at hx
    · intro x hx; cases x <;> first | rfl | simp [isWire] at hx
  · refine (same_map (p := isSource) ?_ ?_ hl.sources fun _ _ => rfl).symm
    · intro x hx; cases x <;> first | rfl | simp [isSource] at hx
    · intro x hx; cases x <;> first | rfl | simp [isSource] at hx
  · refine (same_map (p := isWave) ?_ ?_ hl.waves fun _ _ => rfl).symm
    · intro x hx; cases x <;> first | rfl | simp [isWave] at hx
    · intro x hx; cases x <;> first | rfl | simp [isWave] at hx

/-- A state with other names and observers. -/
def renamed (m : List (String × Med)) (b : List (String × Bnd)) (w v : List String) (o : List ObsItem) (s : Deck.State) : Deck.State :=
  { s with media := m, bnds := b, wires := w, waves := v, obs := o }

theorem run_renamed (hR : setup k J X = some R) {m b w v o}
    (hs' : (withCards X l).file.stored = some (renamed m b w v o R.state)) :
    setup k J (withCards X l) = some { R with state := renamed m b w v o R.state } := by
  obtain ⟨s, hs, hc, hS, e⟩ := Scaling.setup_parts hR
  have es : R.state = s := by rw [e]
  rw [es] at hs' ⊢
  have hS' : (fileOf k J (withCards X l) R.cfg).sim (Setup.de k J (withCards X l) R.cfg) (Setup.dh k J (withCards X l) R.cfg) =
      (fileOf k J X R.cfg).sim (Setup.de k J X R.cfg) (Setup.dh k J X R.cfg) := by
    have e1 : (fileOf k J (withCards X l) R.cfg).stored = some (renamed m b w v o s) := hs'
    have e2 : (fileOf k J X R.cfg).stored = some s := hs
    unfold File.sim
    rw [e1, e2]
    rfl
  rw [hS] at hS'
  have := Scaling.setup_of (X := withCards X l) (c := R.cfg) hc hs' hS'
  rw [this, e]
  rfl

/-- **C74.** Inputs whose cards are the same kind by kind make the same run. -/
theorem fields_same (hR : setup k J X = some R) (ho : OrdinaryBlocks X.file.cards) (hl : SameByKind X.file.cards l)
    (hR' : setup k J (withCards X l) = some R') : R'.dt = R.dt ∧ R'.cfg = R.cfg ∧ ∀ n, R'.fields n = R.fields n := by
  obtain ⟨s, hs, hc, hS, e⟩ := Scaling.setup_parts hR
  obtain ⟨s', hs', hc', hS', e'⟩ := Scaling.setup_parts hR'
  obtain ⟨e1, e2, e3, e4, e5⟩ := lists_same ho hl hs hs'
  have es : R.state = s := by rw [e]
  have em : s'.mbox = s.mbox := by
    obtain ⟨-, hr⟩ := C47.stored_parts hs
    obtain ⟨-, hr'⟩ := C47.stored_parts hs'
    rw [read_mbox _ hr, read_mbox _ hr']
    rfl
  have hx := run_renamed (l := l) (m := s'.media) (b := s'.bnds) (w := s'.wires) (v := s'.waves) (o := s'.obs) hR (by
    rw [es, hs']
    refine congrArg some ?_
    cases s; cases s'
    simp only at e1 e2 e3 e4 e5 em
    subst e1 e2 e3 e4 e5 em
    rfl)
  rw [hR'] at hx
  rw [Option.some.inj hx]
  exact ⟨rfl, rfl, fun _ => rfl⟩

/-- **C74.** The text file of an `OP` card is the same in both runs, if it is divided by the same waveform (in particular in
the time domain and if the card names the waveform). -/
theorem probe_same (ho : OrdinaryBlocks X.file.cards) (h : Leaves k J X Q fs) (hl : SameByKind X.file.cards l) (h' : Leaves k J (withCards X l) Q fs')
    {c : OPCard} (hc : Deck.Card.op c ∈ X.file.cards) (hc' : Deck.Card.op c ∈ l) (ha : c.ascii = true)
    (hw : c.freq = true → c.waveform = "" → (waveNames (withCards X l).file).head? = (waveNames X.file).head?) :
    ∃ K, (probeFile c, K) ∈ fs ∧ (probeFile c, K) ∈ fs' := by
  obtain ⟨R, hR⟩ := C61.setup_of_leaves h
  obtain ⟨R', hR'⟩ := C61.setup_of_leaves h'
  obtain ⟨hdt, hcfg, hfld⟩ := fields_same hR ho hl hR'
  have hat : ∀ q fc t, atNode R' q fc t = atNode R q fc t := by
    intro q fc t; unfold atNode; rw [hfld, hcfg]
  unfold probeFile
  by_cases hf : c.freq = true
  · rw [if_pos hf]
    obtain ⟨n, hn, hm⟩ := C67.transfer_exact h hR hc ha hf
    obtain ⟨n', hn', hm'⟩ := C67.transfer_exact h' hR' (c := c) hc' ha hf
    have : n' = n := by
      have e : dividedBy (withCards X l).file c = dividedBy X.file c := by
        unfold dividedBy
        by_cases h0 : c.waveform = ""
        · rw [if_pos h0, if_pos h0, hw hf h0]
        · rw [if_neg h0, if_neg h0]
      rw [e, hn] at hn'
      exact (Option.some.inj hn').symm
    subst this
    refine ⟨_, hm, ?_⟩
    have e1 : ∀ fc m, C67.fieldSpectrum Q R' c fc m = C67.fieldSpectrum Q R c fc m := by
      intro fc m; unfold C67.fieldSpectrum; simp only [hat, hdt]
    have e2 : ∀ m, C67.waveSpectrum (withCards X l) Q R' n' m = C67.waveSpectrum X Q R n' m := by
      intro m; unfold C67.waveSpectrum; rw [hdt]; rfl
    simp only [e1, e2, hdt] at hm'
    exact hm'
  · rw [if_neg hf]
    have hf : c.freq = false := by simpa using hf
    refine ⟨_, C61.probe_file h hR hc ha hf, ?_⟩
    have := C61.probe_file h' hR' (c := c) hc' ha hf
    unfold sixAt at this ⊢
    simp only [hat, hdt] at this
    exact this

/-- **C74.** If also the `OP` cards and the `WF` cards keep their order, the run leaves the same files. -/
theorem output_same (ho : OrdinaryBlocks X.file.cards) (h : Leaves k J X Q fs) (hl : SameByKind X.file.cards l)
    (hR' : setup k J (withCards X l) = some R') (hp : probes (withCards X l).file = probes X.file)
    (hw : waveNames (withCards X l).file = waveNames X.file) : Leaves k J (withCards X l) Q fs := by
  obtain ⟨hq, R, hR, hwe, m, out, hend, hfs⟩ := h
  obtain ⟨s, hs, hc, hS, e⟩ := Scaling.setup_parts hR
  obtain ⟨s', hs', hc', hS', e'⟩ := Scaling.setup_parts hR'
  obtain ⟨e1, e2, e3, e4, e5⟩ := lists_same ho hl hs hs'
  have es : R.state = s := by rw [e]
  have es' : R'.state = s' := by rw [e']
  have em : s'.mbox = s.mbox := by
    obtain ⟨-, hr⟩ := C47.stored_parts hs
    obtain ⟨-, hr'⟩ := C47.stored_parts hs'
    rw [read_mbox _ hr, read_mbox _ hr']
    rfl
  have hobs : s'.obs = R.state.obs := by
    rw [← es', (C61.stored_obs hR').2.1, (C61.stored_obs hR).2.1, hp, hw]
  have hwv : s'.waves = R.state.waves := by
    rw [← es', (C61.stored_obs hR').1, (C61.stored_obs hR).1, hw]
  have hx := run_renamed (l := l) (m := s'.media) (b := s'.bnds) (w := s'.wires) (v := R.state.waves) (o := R.state.obs) hR (by
    rw [← hobs, ← hwv, es, hs']
    refine congrArg some ?_
    cases s; cases s'
    simp only at e1 e2 e3 e4 e5 em
    subst e1 e2 e3 e4 e5 em
    rfl)
  exact ⟨hq, _, hx, hwe, m, out, hend, hfs⟩
end

/-! ### Declarations first -/

theorem find_iff {α : Type} (l : List (String × α)) (n : String) : (find l n).isSome = true ↔ n ∈ l.map Prod.fst := by
  unfold find
  rw [Option.isSome_map, List.find?_isSome]
  simp only [List.mem_reverse, beq_iff_eq, List.mem_map]

/-- `u` knows the names `s` knows. -/
structure Knows (s u : Deck.State) : Prop where
  media : ∀ n ∈ s.media.map Prod.fst, n ∈ u.media.map Prod.fst
  bnds : ∀ n ∈ s.bnds.map Prod.fst, n ∈ u.bnds.map Prod.fst
  wires : ∀ n ∈ s.wires, n ∈ u.wires
  waves : ∀ n ∈ s.waves, n ∈ u.waves

/-- The named items are the same. -/
structure Items (s u : Deck.State) : Prop where
  mbox : u.mbox = s.mbox
  srcs : u.srcs = s.srcs
  pws : u.pws = s.pws
  obs : u.obs.map ObsItem.name = s.obs.map ObsItem.name

theorem contains_imp {l l' : List String} (h : ∀ n ∈ l, n ∈ l') {n : String} (hc : l.contains n = true) : l'.contains n = true := by
  rw [List.contains_iff_mem] at hc ⊢
  exact h n hc

/-- A card that declares nothing is accepted by a state that knows more names. -/
theorem card_more {s t u : Deck.State} {c : Deck.Card} (hc : isDeclaration c = false) (h : s.card c = some t) (hi : Items s u) (hk : Knows s u) :
    ∃ v, u.card c = some v ∧ Items t v ∧ Knows t v := by
  obtain ⟨i1, i2, i3, i4⟩ := hi
  cases c with
  | mt | bt | wt | wf => simp [isDeclaration] at hc
  | mb c =>
    simp only [State.card] at h
    split at h
    · simp at h
    · rename_i m hm
      split at h <;> simp at h
      rename_i hp
      subst h
      have hs : (find u.media c.medium).isSome = true := (find_iff _ _).2 (hk.media _ ((find_iff _ _).1 (by rw [hm]; rfl)))
      obtain ⟨m', hm'⟩ := Option.isSome_iff_exists.1 hs
      have hp' : parseMB u.mbox (fun n => (find u.media n).isSome) c = true := by
        simp only [parseMB, Bool.and_eq_true, i1, hs] at hp ⊢
        exact ⟨⟨hp.1.1, trivial⟩, hp.2⟩
      refine ⟨_, C47.card_mb hm' hp', ⟨i1, i2, i3, i4⟩, hk.1, hk.2, hk.3, hk.4⟩
  | tb c =>
    simp only [State.card] at h
    split at h
    · simp at h
    · rename_i m hm
      split at h <;> simp at h
      rename_i hp
      subst h
      have hs : (find u.bnds c.boundary).isSome = true := (find_iff _ _).2 (hk.bnds _ ((find_iff _ _).1 (by rw [hm]; rfl)))
      obtain ⟨m', hm'⟩ := Option.isSome_iff_exists.1 hs
      have hp' : parseTB u.mbox (fun n => (find u.bnds n).isSome) c = true := by
        simp only [parseTB, Bool.and_eq_true, i1, hs] at hp ⊢
        exact ⟨⟨⟨hp.1.1.1, trivial⟩, hp.1.2⟩, hp.2⟩
      refine ⟨_, C47.card_tb hm' hp', ⟨i1, i2, i3, i4⟩, hk.1, hk.2, hk.3, hk.4⟩
  | tw c =>
    simp only [State.card] at h
    split at h <;> simp at h
    rename_i hp
    subst h
    have hp' : parseTW u.mbox (fun n => u.wires.contains n) c = true := by
      simp only [parseTW, Bool.and_eq_true, i1] at hp ⊢
      exact ⟨hp.1, contains_imp hk.wires hp.2⟩
    exact ⟨_, C64.card_tw hp', ⟨i1, i2, i3, i4⟩, hk.1, hk.2, hk.3, hk.4⟩
  | ex m b n tag w size delay r =>
    simp only [State.card] at h
    split at h
    · simp at h
    · rename_i t0 ht
      split at h <;> simp at h
      rename_i hp
      subst h
      have hp' : parseEX u.mbox (fun n => (u.srcs.map SrcItem.name).contains n) (fun n => u.waves.contains n) (exCard m b n tag w) = true := by
        simp only [parseEX, Bool.and_eq_true, i1, i2] at hp ⊢
        exact ⟨hp.1, contains_imp hk.waves hp.2⟩
      simp only [State.card, ht, hp', if_true]
      refine ⟨_, rfl, ⟨i1, by simp only [i2], i3, i4⟩, ?_, hk.2, hk.3, hk.4⟩
      dsimp only
      by_cases hl : (exCard m b n tag w).lumped = true
      · rw [if_pos hl, if_pos hl, i2]
        simp only [List.map_append, List.mem_append]
        rintro n (h | h)
        · exact Or.inl (hk.media n h)
        · exact Or.inr h
      · rw [if_neg hl, if_neg hl]
        exact hk.media
  | pw c delay =>
    simp only [State.card] at h
    split at h <;> simp at h
    rename_i hp
    subst h
    have hp' : parsePW u.mbox (fun n => (u.pws.map PwItem.name).contains n) (fun n => u.waves.contains n) c = true := by
      simp only [parsePW, Bool.and_eq_true, i1, i3] at hp ⊢
      obtain ⟨⟨⟨⟨⟨⟨p1, p2⟩, p3⟩, p4⟩, p5⟩, p6⟩, p7⟩ := hp
      exact ⟨⟨⟨⟨⟨⟨p1, contains_imp hk.waves p2⟩, p3⟩, p4⟩, p5⟩, p6⟩, p7⟩
    simp only [State.card, hp', if_true]
    exact ⟨_, rfl, ⟨i1, i2, by simp only [i3], i4⟩, hk.1, hk.2, hk.3, hk.4⟩
  | op c =>
    simp only [State.card] at h
    split at h <;> simp at h
    rename_i hp
    subst h
    have hp' : parseOP u.mbox (fun n => (u.obs.map ObsItem.name).contains n) (fun n => u.waves.contains n) c = true := by
      simp only [parseOP, Bool.and_eq_true, i1, i4] at hp ⊢
      refine ⟨hp.1, ?_⟩
      have h2 := hp.2
      rw [Bool.or_eq_true] at h2 ⊢
      exact h2.imp id (contains_imp hk.waves)
    refine ⟨_, C61.card_op hp', ⟨i1, i2, i3, ?_⟩, hk.1, hk.2, hk.3, hk.4⟩
    simp only [List.map_append, i4]
    rfl

/-- What a card adds to the names. -/
theorem card_knows {s t : Deck.State} {c : Deck.Card} (h : s.card c = some t) : Knows s t := by
  cases c <;> simp only [State.card] at h <;> (repeat' split at h) <;> simp at h <;> subst h <;>
    refine ⟨?_, ?_, ?_, ?_⟩ <;> intro n hn <;> simp only [List.map_append, List.mem_append] <;> first | exact hn | exact Or.inl hn | skip

theorem read_knows : ∀ (l : List Deck.Card) {s t : Deck.State}, Deck.read s l = some t → Knows s t
  | [], s, t, h => by simp [Deck.read] at h; subst h; exact ⟨fun _ h => h, fun _ h => h, fun _ h => h, fun _ h => h⟩
  | c :: l, s, t, h => by
    rw [C47.read_cons] at h
    obtain ⟨u, hu, h⟩ := Option.bind_eq_some_iff.1 h
    have a := card_knows hu
    have b := read_knows l h
    exact ⟨fun n h => b.1 n (a.1 n h), fun n h => b.2 n (a.2 n h), fun n h => b.3 n (a.3 n h), fun n h => b.4 n (a.4 n h)⟩

/-- The same names, apart from placeholders. -/
structure SameNames (s u : Deck.State) : Prop where
  media : ∀ n, C47.NotPlaceholder n → (n ∈ s.media.map Prod.fst ↔ n ∈ u.media.map Prod.fst)
  bnds : ∀ n, n ∈ s.bnds.map Prod.fst ↔ n ∈ u.bnds.map Prod.fst
  wires : ∀ n, n ∈ s.wires ↔ n ∈ u.wires
  waves : ∀ n, n ∈ s.waves ↔ n ∈ u.waves

/-- No medium is given a name of the program's own. -/
def OwnNames (l : List Deck.Card) : Prop := ∀ n m, Deck.Card.mt n m ∈ l → C47.NotPlaceholder n

theorem card_declared {s t u : Deck.State} {c : Deck.Card} (hc : isDeclaration c = true) (ho : OwnNames [c]) (h : s.card c = some t) (hn : SameNames s u) :
    ∃ v, u.card c = some v ∧ SameNames t v ∧ Items u v ∧ Knows u v := by
  have hk : ∀ {v}, u.card c = some v → Knows u v := fun h => card_knows h
  cases c with
  | mb | tb | tw | ex | pw | op => simp [isDeclaration] at hc
  | mt n m =>
    simp only [State.card] at h
    split at h <;> simp at h
    rename_i hf
    subst h
    have hf' : ¬ (find u.media n).isSome = true := by
      rw [find_iff] at hf ⊢
      rwa [← hn.media n (ho n m (by simp))]
    have e : u.card (.mt n m) = some { u with media := u.media ++ [(n, m)] } := by simp only [State.card, if_neg hf']
    refine ⟨_, e, ⟨?_, hn.2, hn.3, hn.4⟩, ⟨rfl, rfl, rfl, rfl⟩, hk e⟩
    intro x hx
    simp only [List.map_append, List.mem_append, hn.media x hx]
  | bt n m =>
    simp only [State.card] at h
    split at h <;> simp at h
    rename_i hf
    subst h
    have hf' : ¬ (find u.bnds n).isSome = true := by
      rw [find_iff] at hf ⊢
      rwa [← hn.bnds n]
    have e : u.card (.bt n m) = some { u with bnds := u.bnds ++ [(n, m)] } := by simp only [State.card, if_neg hf']
    refine ⟨_, e, ⟨hn.1, ?_, hn.3, hn.4⟩, ⟨rfl, rfl, rfl, rfl⟩, hk e⟩
    intro x
    simp only [List.map_append, List.mem_append, hn.bnds x]
  | wt n =>
    simp only [State.card] at h
    split at h <;> simp at h
    rename_i hf
    subst h
    have hf' : ¬ u.wires.contains n = true := by
      rw [List.contains_iff_mem] at hf ⊢
      rwa [← hn.wires n]
    have e : u.card (.wt n) = some { u with wires := u.wires ++ [n] } := by simp only [State.card, if_neg hf']
    refine ⟨_, e, ⟨hn.1, hn.2, ?_, hn.4⟩, ⟨rfl, rfl, rfl, rfl⟩, hk e⟩
    intro x
    simp only [List.mem_append, hn.wires x]
  | wf n =>
    simp only [State.card] at h
    split at h <;> simp at h
    rename_i hf
    subst h
    have hf' : ¬ u.waves.contains n = true := by
      rw [List.contains_iff_mem] at hf ⊢
      rwa [← hn.waves n]
    have e : u.card (.wf n) = some { u with waves := u.waves ++ [n] } := by simp only [State.card, if_neg hf']
    refine ⟨_, e, ⟨hn.1, hn.2, hn.3, ?_⟩, ⟨rfl, rfl, rfl, rfl⟩, hk e⟩
    intro x
    simp only [List.mem_append, hn.waves x]

/-- A card that declares nothing adds no names but placeholders. -/
theorem card_others {s t : Deck.State} {c : Deck.Card} (hc : isDeclaration c = false) (h : s.card c = some t) : SameNames s t := by
  cases c <;> simp [isDeclaration] at hc <;> simp only [State.card] at h <;> (repeat' split at h) <;> simp at h <;> subst h <;>
    refine ⟨?_, ?_, ?_, ?_⟩ <;> intro n <;> (try intro hn) <;> try rfl
  simp only [List.map_append, List.mem_append, List.map_cons, List.map_nil, List.mem_singleton]
  constructor
  · exact Or.inl
  · rintro (h | h)
    · exact h
    · exact absurd h (hn _)

theorem names_trans {s t u : Deck.State} (h : SameNames s t) (h' : SameNames s u) : SameNames t u :=
  ⟨fun n hn => (h.1 n hn).symm.trans (h'.1 n hn), fun n => (h.2 n).symm.trans (h'.2 n), fun n => (h.3 n).symm.trans (h'.3 n),
    fun n => (h.4 n).symm.trans (h'.4 n)⟩

/-- The declarations alone are accepted and give the same names. -/
theorem read_declared : ∀ (l : List Deck.Card) {s t u : Deck.State}, OwnNames l → Deck.read s l = some t → SameNames s u →
    ∃ v, Deck.read u (l.filter isDeclaration) = some v ∧ SameNames t v ∧ Items u v ∧ Knows u v
  | [], s, t, u, _, h, hn => by
    simp [Deck.read] at h; subst h
    exact ⟨u, by simp [Deck.read], hn, ⟨rfl, rfl, rfl, rfl⟩, ⟨fun _ h => h, fun _ h => h, fun _ h => h, fun _ h => h⟩⟩
  | c :: l, s, t, u, ho, h, hn => by
    rw [C47.read_cons] at h
    obtain ⟨s1, h1, h⟩ := Option.bind_eq_some_iff.1 h
    have ho' : OwnNames l := fun n m hm => ho n m (List.mem_cons_of_mem _ hm)
    by_cases hc : isDeclaration c = true
    · obtain ⟨u1, e1, n1, i1, k1⟩ := card_declared hc (fun n m hm => ho n m (by simp at hm; simp [hm])) h1 hn
      obtain ⟨v, e2, n2, i2, k2⟩ := read_declared l ho' h n1
      refine ⟨v, ?_, n2, ⟨i2.1.trans i1.1, i2.2.trans i1.2, i2.3.trans i1.3, i2.4.trans i1.4⟩,
        fun n h => k2.1 n (k1.1 n h), fun n h => k2.2 n (k1.2 n h), fun n h => k2.3 n (k1.3 n h), fun n h => k2.4 n (k1.4 n h)⟩
      rw [List.filter_cons_of_pos hc, C47.read_cons, e1, Option.bind_some]
      exact e2
    · have hc' : isDeclaration c = false := by simpa using hc
      obtain ⟨v, e2, n2, i2, k2⟩ := read_declared l ho' h (names_trans (card_others hc' h1) hn)
      exact ⟨v, by rw [List.filter_cons_of_neg hc]; exact e2, n2, i2, k2⟩

/-- The other cards are accepted by a state that knows all names. -/
theorem read_rest : ∀ (l : List Deck.Card) {s t u : Deck.State}, OwnNames l → Deck.read s l = some t → Items s u → Knows s u →
    (∀ n, C47.NotPlaceholder n → n ∈ t.media.map Prod.fst → n ∈ u.media.map Prod.fst) →
    (∀ n ∈ t.bnds.map Prod.fst, n ∈ u.bnds.map Prod.fst) → (∀ n ∈ t.wires, n ∈ u.wires) → (∀ n ∈ t.waves, n ∈ u.waves) →
    ∃ v, Deck.read u (l.filter fun c => !isDeclaration c) = some v
  | [], s, t, u, _, h, _, _, _, _, _, _ => ⟨u, by simp [Deck.read]⟩
  | c :: l, s, t, u, ho, h, hi, hk, m1, m2, m3, m4 => by
    rw [C47.read_cons] at h
    obtain ⟨s1, h1, h⟩ := Option.bind_eq_some_iff.1 h
    have ho' : OwnNames l := fun n m hm => ho n m (List.mem_cons_of_mem _ hm)
    by_cases hc : isDeclaration c = true
    · rw [List.filter_cons_of_neg (by simp [hc])]
      have later := read_knows l h
      refine read_rest l ho' h ?_ ?_ m1 m2 m3 m4
      · cases c with
        | mb | tb | tw | ex | pw | op => simp [isDeclaration] at hc
        | mt | bt | wt | wf =>
          simp only [State.card] at h1
          split at h1 <;> simp at h1
          subst h1
          exact ⟨hi.1, hi.2, hi.3, hi.4⟩
      · refine ⟨?_, fun n hn => m2 n (later.2 n hn), fun n hn => m3 n (later.3 n hn), fun n hn => m4 n (later.4 n hn)⟩
        intro n hn
        cases c with
        | mb | tb | tw | ex | pw | op => simp [isDeclaration] at hc
        | bt | wt | wf =>
          simp only [State.card] at h1
          split at h1 <;> simp at h1
          subst h1
          exact hk.media n hn
        | mt x m =>
          simp only [State.card] at h1
          split at h1 <;> simp at h1
          subst h1
          by_cases hx : n = x
          · subst hx
            exact m1 n (ho n m (by simp)) (later.1 n hn)
          · simp only [List.map_append, List.mem_append, List.map_cons, List.map_nil, List.mem_singleton, hx, or_false] at hn
            exact hk.media n hn
    · have hc' : isDeclaration c = false := by simpa using hc
      obtain ⟨u1, e1, i1, k1⟩ := card_more hc' h1 hi hk
      have ku := card_knows e1
      obtain ⟨v, hv⟩ := read_rest l ho' h i1 k1 (fun n a b => ku.1 n (m1 n a b)) (fun n a => ku.2 n (m2 n a)) (fun n a => ku.3 n (m3 n a))
        (fun n a => ku.4 n (m4 n a))
      refine ⟨v, ?_⟩
      rw [List.filter_cons_of_pos (by simp [hc']), C47.read_cons, e1, Option.bind_some]
      exact hv

/-- The declarations, then the other cards. -/
def declaredFirst (l : List Deck.Card) : List Deck.Card := l.filter isDeclaration ++ l.filter fun c => !isDeclaration c

theorem first_same (l : List Deck.Card) : SameByKind l (declaredFirst l) := by
  have key : ∀ p : Deck.Card → Bool, (∀ x, p x = true → isDeclaration x = false) → l.filter p = (declaredFirst l).filter p := by
    intro p hp
    unfold declaredFirst
    rw [List.filter_append, List.filter_filter, List.filter_filter]
    have e1 : (l.filter fun a => p a && isDeclaration a) = [] := by
      rw [List.filter_eq_nil_iff]
      intro a _ h
      simp only [Bool.and_eq_true] at h
      rw [hp a h.1] at h
      simp at h
    rw [e1, List.nil_append]
    refine List.filter_congr fun a _ => ?_
    by_cases h : p a = true
    · simp [h, hp a h]
    · simp [h]
  refine ⟨?_, key _ ?_, key _ ?_, key _ ?_, key _ ?_, key _ ?_⟩
  · intro x hx
    simp [declaredFirst, hx]
  all_goals intro x hx; cases x <;> first | rfl | simp [isBlock, isSurface, isWire, isSource, isWave] at hx

/-- **C74.** Moving all declarations to the front keeps the input acceptable, and the run is the same. -/
theorem declarations_first {k : Consts} {J : Junk} {X : Experiment} {R : Setup.Run} (hR : setup k J X = some R)
    (ho : OrdinaryBlocks X.file.cards) (hm : OwnNames X.file.cards) :
    ∃ R', setup k J (withCards X (declaredFirst X.file.cards)) = some R' ∧ R'.dt = R.dt ∧ R'.cfg = R.cfg ∧ ∀ n, R'.fields n = R.fields n := by
  obtain ⟨s, hs, hc, hS, e⟩ := Scaling.setup_parts hR
  obtain ⟨hd, hr⟩ := C47.stored_parts hs
  obtain ⟨v, h1, n1, i1, k1⟩ := read_declared _ hm hr (u := State.init (mkBox 0 X.file.nx 0 X.file.ny 0 X.file.nz))
    ⟨fun _ _ => Iff.rfl, fun _ => Iff.rfl, fun _ => Iff.rfl, fun _ => Iff.rfl⟩
  obtain ⟨w, h2⟩ := read_rest _ hm hr i1 k1 (fun n a b => (n1.1 n a).1 b) (fun n a => (n1.2 n).1 a) (fun n a => (n1.3 n).1 a) (fun n a => (n1.4 n).1 a)
  have hs' : (withCards X (declaredFirst X.file.cards)).file.stored = some w := by
    have hmx : parseDM X.file.nx X.file.ny X.file.nz = some (mkBox 0 X.file.nx 0 X.file.ny 0 X.file.nz) := by
      unfold parseDM
      rw [if_neg (by omega)]
    show ((parseDM X.file.nx X.file.ny X.file.nz).bind fun m => Deck.read (State.init m) _) = _
    rw [hmx, Option.bind_some]
    show Deck.read _ (_ ++ _) = _
    unfold Deck.read at h1 h2 ⊢
    rw [List.foldlM_append, h1]
    exact h2
  obtain ⟨e1, e2, e3, e4, e5⟩ := lists_same ho (first_same X.file.cards) hs hs'
  have es : R.state = s := by rw [e]
  have em : w.mbox = s.mbox := by
    obtain ⟨-, hr'⟩ := C47.stored_parts hs'
    rw [read_mbox _ hr, read_mbox _ hr']
    rfl
  have hx := run_renamed (l := declaredFirst X.file.cards) (m := w.media) (b := w.bnds) (w := w.wires) (v := w.waves) (o := w.obs) hR (by
    rw [es, hs']
    refine congrArg some ?_
    cases s; cases w
    simp only at e1 e2 e3 e4 e5 em
    subst e1 e2 e3 e4 e5 em
    rfl)
  exact ⟨_, hx, rfl, rfl, fun _ => rfl⟩

/-! ### Cases -/

/-- The bench of C64 with the source first and each medium declared just before its block. -/
def mixedCards : List Deck.Card :=
  [.wf "pulse", .ex 11 (mkBox 3 3 2 2 1 2) "feed" ['V', 'R', 'Z'] "pulse" 1 0 50, .tb ⟨7, mkBox 5 5 1 3 1 3, "PEC", 1, 0⟩,
   .mt "wood" (.simple 2 1 1), .mb ⟨8, mkBox 1 4 1 4 0 3, "wood", "111111".toList⟩,
   .tw ⟨7, mkBox 3 3 2 2 0 3, "PEC"⟩,
   .mt "wax" (.simple 3 0 1), .mb ⟨8, mkBox 2 5 1 4 0 3, "wax", "011111".toList⟩]

theorem mixed_setup (k : Consts) (J : Junk) : ∃ R, setup k J (withCards C64.bench mixedCards) = some R := by
  obtain ⟨s, hs, hp⟩ : ∃ s, (withCards C64.bench mixedCards).file.stored = some s ∧ s.pws = [] := by
    have e : (withCards C64.bench mixedCards).file.stored = Deck.read (State.init (mkBox 0 6 0 5 0 4)) mixedCards := rfl
    rw [e, mixedCards]
    have hl : Source.lookup ['V', 'R', 'Z'] = some ⟨.thevenin, .z, none, .ez, true⟩ := by decide +kernel
    rw [C47.read_cons, C47.card_wf (by decide +kernel), Option.bind_some]
    rw [C47.read_cons]
    simp only [State.card, hl]
    rw [if_pos (by decide +kernel), Option.bind_some]
    rw [C47.read_cons, C47.card_tb (m := .pec) (by rfl) (by decide +kernel), Option.bind_some]
    rw [C47.read_cons, C47.card_mt (by decide +kernel), Option.bind_some]
    rw [C47.read_cons, C47.card_mb (m := .simple 2 1 1) (by rfl) (by decide +kernel), Option.bind_some]
    rw [C47.read_cons, C64.card_tw (by decide +kernel), Option.bind_some]
    rw [C47.read_cons, C47.card_mt (by decide +kernel), Option.bind_some]
    rw [C47.read_cons, C47.card_mb (m := .simple 3 0 1) (by rfl) (by decide +kernel), Option.bind_some]
    exact ⟨_, rfl, rfl⟩
  obtain ⟨c, hc⟩ : ∃ c, initExternalSurfaceParameters C64.bench.file.cells C64.bench.file.bt C64.bench.file.layers = some c :=
    Option.isSome_iff_exists.1 (by
      show (initExternalSurfaceParameters C64.benchFile.cells C64.benchFile.bt C64.benchFile.layers).isSome = true
      decide +kernel)
  have hS : ∃ S, (fileOf k J (withCards C64.bench mixedCards) c).sim (Setup.de k J (withCards C64.bench mixedCards) c) (Setup.dh k J (withCards C64.bench mixedCards) c) = some S := by
    unfold File.sim
    have a1 : (fileOf k J (withCards C64.bench mixedCards) c).stored = some s := hs
    have a2 : initExternalSurfaceParameters (fileOf k J (withCards C64.bench mixedCards) c).cells (fileOf k J (withCards C64.bench mixedCards) c).bt
      (fileOf k J (withCards C64.bench mixedCards) c).layers = some c := hc
    rw [a1, Option.bind_some, a2, Option.bind_some, hp]
    exact ⟨_, rfl⟩
  obtain ⟨S, hS⟩ := hS
  exact ⟨_, Scaling.setup_of (X := withCards C64.bench mixedCards) hc hs hS⟩

theorem bench_ordinary : OrdinaryBlocks C64.bench.file.cards := by
  intro c hc
  have := C64.bench_mem hc
  simp only [C64.benchCards, List.mem_cons, List.not_mem_nil, or_false, reduceCtorEq, false_or, Deck.Card.mb.injEq] at this
  have hq : ∀ (t : String) (q : Nat), t.toList.head? ≠ some '_' → t ≠ String.ofList (Names.resistName q) := by
    rintro t q h rfl
    exact h (by rw [String.toList_ofList]; rfl)
  rcases this with rfl | rfl
  · exact ⟨le_refl 8, fun q => hq "wood" q (by decide +kernel)⟩
  · exact ⟨le_refl 8, fun q => hq "wax" q (by decide +kernel)⟩

theorem mixed_same : SameByKind C64.bench.file.cards mixedCards := by
  refine ⟨?_, rfl, rfl, rfl, rfl, rfl⟩
  intro x hx
  show x ∈ C64.benchCards ↔ x ∈ mixedCards
  cases x <;> simp [isDeclaration] at hx <;> simp [C64.benchCards, mixedCards]

/-- Both orders give the same fields. -/
example (k : Consts) (J : Junk) : ∃ R R', setup k J C64.bench = some R ∧ setup k J (withCards C64.bench mixedCards) = some R' ∧
    ∀ n, R'.fields n = R.fields n := by
  obtain ⟨R, hR⟩ := C64.bench_setup k J
  obtain ⟨R', hR'⟩ := mixed_setup k J
  exact ⟨R, R', hR, hR', (fields_same hR bench_ordinary mixed_same hR').2.2⟩

/-- Its declarations may be moved to the front. -/
example (k : Consts) (J : Junk) : ∃ R, setup k J (withCards (withCards C64.bench mixedCards) (declaredFirst mixedCards)) = some R := by
  obtain ⟨R', hR'⟩ := mixed_setup k J
  obtain ⟨R, hR, -⟩ := declarations_first hR' (ordinary_same mixed_same bench_ordinary) (by
    intro n m hm
    have hm' : Deck.Card.mt n m ∈ mixedCards := hm
    simp only [mixedCards, List.mem_cons, List.not_mem_nil, or_false, reduceCtorEq, false_or, Deck.Card.mt.injEq] at hm'
    have hq : ∀ (t : String) (q : Nat), t.toList.head? ≠ some '_' → t ≠ String.ofList (Names.resistName q) := by
      rintro t q h rfl
      exact h (by rw [String.toList_ofList]; rfl)
    rcases hm' with ⟨rfl, -⟩ | ⟨rfl, -⟩
    · exact fun q => hq "wood" q (by decide +kernel)
    · exact fun q => hq "wax" q (by decide +kernel))
  exact ⟨R, hR⟩

/-- The dipole of C61 with its source before its observers leaves the same files. -/
example (k : Consts) (J : Junk) (d : ℝ) (fs : List (String × Contents)) (h : Leaves k J (C61.dipole d) ⟨100, some (10, 90), none⟩ fs)
    {R' : Setup.Run} {l : List Deck.Card} (hl : l = [.wf "pulse", .ex 9 (mkBox 2 2 2 2 1 2) "feed" ['V', 'R', 'Z'] "pulse" 1 0 50,
      .op ⟨8, mkBox 3 3 2 2 1 1, "near", true, true, 1, 1, 1, "", false⟩, .op ⟨8, mkBox 4 4 2 2 1 1, "far", true, true, 1, 1, 1, "pulse", true⟩,
      .op ⟨11, mkBox 0 6 1 1 0 4, "cut", true, false, 2, 1, 1, "", false⟩])
    (hR' : setup k J (withCards (C61.dipole d) l) = some R') : Leaves k J (withCards (C61.dipole d) l) ⟨100, some (10, 90), none⟩ fs := by
  subst hl
  refine output_same ?_ h ⟨?_, rfl, rfl, rfl, rfl, rfl⟩ hR' rfl rfl
  · intro c hc
    have hc' : Deck.Card.mb c ∈ C61.dipoleCards := hc
    simp [C61.dipoleCards] at hc'
  · intro x hx
    show x ∈ C61.dipoleCards ↔ _
    cases x <;> simp [isDeclaration] at hx <;> simp [C61.dipoleCards]

end Vulture.C74
