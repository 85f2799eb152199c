import Verif.Spec.Response
import Verif.Lemmas.Impulse
import Verif.Props.C58_Amplitudes
/-
C69: a run is a linear time-invariant system. Every field value is the convolution of the samples of the waveforms with
responses that depend on the mesh file alone: not on the waveforms, the delays or the length of the run.
-/
set_option linter.unusedSimpArgs false
set_option linter.unusedSectionVars false
set_option linter.unusedVariables false
namespace Vulture.C69
open Vulture.Spec Vulture.Setup Vulture.Deck Finset

/-! ### Reading -/

/-- Sources and waves with other delays. -/
def srcAt (d : String → ℝ) (x : SrcItem) : SrcItem := { x with delay := d x.name }
def pwAt (g : String → ℝ) (x : PwItem) : PwItem := { x with delay := g x.name }

/-- What has been read from the cards with other delays. -/
def timed (d g : String → ℝ) (s : Deck.State) : Deck.State :=
  { s with srcs := s.srcs.map (srcAt d), pws := s.pws.map (pwAt g) }

theorem src_names (d : String → ℝ) (l : List SrcItem) : (l.map (srcAt d)).map SrcItem.name = l.map SrcItem.name := by
  rw [List.map_map]; rfl
theorem pw_names (g : String → ℝ) (l : List PwItem) : (l.map (pwAt g)).map PwItem.name = l.map PwItem.name := by
  rw [List.map_map]; rfl

theorem card_timed (d g : String → ℝ) (s : Deck.State) (c : Deck.Card) :
    (timed d g s).card (retime d g c) = (s.card c).map (timed d g) := by
  cases c with
  | ex q b n tag w z delay resist =>
    simp only [retime, State.card]
    cases hl : Source.lookup tag with
    | none => rfl
    | some i =>
      simp only [timed, src_names, List.length_map]
      by_cases hp : parseEX s.mbox (fun n => (s.srcs.map SrcItem.name).contains n) (fun n => s.waves.contains n) (exCard q b n tag w) = true
      · rw [if_pos hp, if_pos hp]
        simp [timed, srcAt]
      · rw [if_neg hp, if_neg hp]; rfl
  | pw c delay =>
    simp only [retime, State.card, timed, pw_names]
    by_cases hp : parsePW s.mbox (fun n => (s.pws.map PwItem.name).contains n) (fun n => s.waves.contains n) c = true
    · rw [if_pos hp, if_pos hp]
      simp [timed, pwAt]
    · rw [if_neg hp, if_neg hp]; rfl
  | _ =>
    simp only [retime, State.card, timed]
    (repeat' split) <;> first | rfl | simp_all [timed, obsOf]

theorem read_timed (d g : String → ℝ) : ∀ (l : List Deck.Card) (s : Deck.State),
    Deck.read (timed d g s) (l.map (retime d g)) = (Deck.read s l).map (timed d g)
  | [], s => by simp [Deck.read]
  | c :: l, s => by
    rw [List.map_cons, C47.read_cons, C47.read_cons, card_timed]
    cases s.card c with
    | none => rfl
    | some t => simp only [Option.map_some, Option.bind_some]; exact read_timed d g l t

section
variable {k : Consts} {J : Junk} {X : Experiment} {R : Setup.Run} {W : String → Wave} {d g : String → ℝ}

theorem stored_timed (W : String → Wave) (d g : String → ℝ) {s : Deck.State} (h : X.file.stored = some s) :
    (withDrive X W d g).file.stored = some (timed d g s) := by
  unfold File.stored at h ⊢
  obtain ⟨m, hm, h⟩ := Option.bind_eq_some_iff.1 h
  show ((parseDM X.file.nx X.file.ny X.file.nz).bind fun m => Deck.read (State.init m) (X.file.cards.map (retime d g))) = _
  rw [hm, Option.bind_some]
  have : State.init m = timed d g (State.init m) := rfl
  rw [this, read_timed, h]; rfl

theorem mapM_at (f : PwItem → Option PW) (hf : ∀ x, f (pwAt g x) = f x) (l : List PwItem) :
    (l.map (pwAt g)).mapM f = l.mapM f := by
  rw [List.mapM_map]
  congr 1
  funext x; exact hf x

theorem sim_timed (W : String → Wave) (d g : String → ℝ) (c : Cfg) {s : Deck.State} (h : X.file.stored = some s) :
    (fileOf k J (withDrive X W d g) c).sim (Setup.de k J (withDrive X W d g) c) (Setup.dh k J (withDrive X W d g) c) =
      (fileOf k J X c).sim (Setup.de k J X c) (Setup.dh k J X c) := by
  have e1 : (fileOf k J (withDrive X W d g) c).stored = some (timed d g s) := stored_timed W d g h
  have e2 : (fileOf k J X c).stored = some s := h
  unfold File.sim
  rw [e1, e2]
  simp only [Option.bind_some]
  have a1 : initExternalSurfaceParameters (fileOf k J (withDrive X W d g) c).cells (fileOf k J (withDrive X W d g) c).bt
      (fileOf k J (withDrive X W d g) c).layers = initExternalSurfaceParameters (fileOf k J X c).cells (fileOf k J X c).bt
      (fileOf k J X c).layers := rfl
  rw [a1]
  congr 1
  funext c'
  have e3 : (timed d g s).pws.mapM (pwItem (fileOf k J (withDrive X W d g) c).cubic c') = s.pws.mapM (pwItem (fileOf k J X c).cubic c') :=
    mapM_at _ (fun x => rfl) _
  rw [e3]
  have e4 : ((timed d g s).srcs.map (srcItem (Setup.de k J (withDrive X W d g) c) (Setup.dh k J (withDrive X W d g) c) c')).map Prod.fst =
      (s.srcs.map (srcItem (Setup.de k J X c) (Setup.dh k J X c) c')).map Prod.fst := by
    show ((s.srcs.map (srcAt d)).map _).map _ = _
    rw [List.map_map, List.map_map, List.map_map]; rfl
  rw [e4]
  rfl

theorem coefs_timed (W : String → Wave) (d g : String → ℝ) (c : Cfg) (s : Deck.State) :
    coefs k J (withDrive X W d g) c (timed d g s) = coefs k J X c s := by
  have hm : medSetup k J (withDrive X W d g) c (timed d g s) = medSetup k J X c s := by
    have : (timed d g s).srcs.filterMap (srcFill k J (withDrive X W d g) c (Setup.dt k J (withDrive X W d g) c)) =
        s.srcs.filterMap (srcFill k J X c (Setup.dt k J X c)) := by
      show (s.srcs.map (srcAt d)).filterMap _ = _
      rw [List.filterMap_map]; rfl
    unfold medSetup
    dsimp only
    rw [this]; rfl
  unfold coefs
  rw [hm]
  funext q
  cases q with
  | soft m =>
    simp only [coefRef, otherCoef, timed, List.getElem?_map]
    cases s.srcs[m]? <;> rfl
  | auxW m hi fc i j l' =>
    simp only [coefRef, otherCoef, waveWeight, ofWave, timed, List.getElem?_map]
    cases s.pws[m]? <;> rfl
  | auxBeta m =>
    simp only [coefRef, otherCoef, ofWave, timed, List.getElem?_map]
    cases s.pws[m]? <;> rfl
  | auxGamma m =>
    simp only [coefRef, otherCoef, ofWave, timed, List.getElem?_map]
    cases s.pws[m]? <;> rfl
  | _ => rfl

/-- The input with other waveforms and delays is accepted too; its run differs in the driving values. -/
theorem run_timed (hR : setup k J X = some R) (W : String → Wave) (d g : String → ℝ) :
    setup k J (withDrive X W d g) = some ⟨R.cfg, timed d g R.state, R.sim, R.dt, R.coefs,
      Deck.drive (env k J (withDrive X W d g) R.cfg) (gridType k J X R.cfg == .cubic) R.cfg (timed d g R.state)⟩ := by
  obtain ⟨s, hs, hc, hS, e⟩ := Scaling.setup_parts hR
  have hS' := sim_timed (k := k) (J := J) W d g R.cfg hs
  rw [hS] at hS'
  have := Scaling.setup_of (X := withDrive X W d g) (c := R.cfg) hc (stored_timed W d g hs) hS'
  rw [this, coefs_timed]
  have e1 : R.state = s := by rw [e]
  have e2 : R.coefs = coefs k J X R.cfg s := by rw [e]
  have e3 : R.dt = Setup.dt k J X R.cfg := by rw [e]
  rw [e1, e2, e3]
  rfl


/-! ### Names of sources and waves -/

theorem card_driven {s s' : Deck.State} {c : Deck.Card} (h : s.card c = some s') :
    s'.srcs.map (fun x => (x.name, x.wave)) = s.srcs.map (fun x => (x.name, x.wave)) ++
      (match c with | .ex _ _ n _ w _ _ _ => [(n, w)] | _ => []) ∧
    s'.pws.map (fun x => (x.name, x.wave)) = s.pws.map (fun x => (x.name, x.wave)) ++
      (match c with | .pw c _ => [(c.name, c.waveform)] | _ => []) := by
  cases c <;> simp only [State.card] at h <;> (repeat' split at h) <;> simp at h <;> subst h <;> simp

theorem read_driven : ∀ (l : List Deck.Card) (s s' : Deck.State), Deck.read s l = some s' →
    s'.srcs.map (fun x => (x.name, x.wave)) = s.srcs.map (fun x => (x.name, x.wave)) ++
      l.filterMap (fun | .ex _ _ n _ w _ _ _ => some (n, w) | _ => none) ∧
    s'.pws.map (fun x => (x.name, x.wave)) = s.pws.map (fun x => (x.name, x.wave)) ++
      l.filterMap (fun | .pw c _ => some (c.name, c.waveform) | _ => none)
  | [], s, s', h => by simp [Deck.read] at h; subst h; simp
  | c :: l, s, s', h => by
    rw [C47.read_cons] at h
    obtain ⟨t, ht, h⟩ := Option.bind_eq_some_iff.1 h
    obtain ⟨a1, a2⟩ := read_driven l t s' h
    obtain ⟨b1, b2⟩ := card_driven ht
    rw [a1, a2, b1, b2]
    cases c <;> simp [List.filterMap_cons]

theorem stored_driven (hR : setup k J X = some R) :
    R.state.srcs.map (fun x => (x.name, x.wave)) = exNames X.file ∧
    R.state.pws.map (fun x => (x.name, x.wave)) = pwNames X.file := by
  obtain ⟨s, hs, -, -, e⟩ := Scaling.setup_parts hR
  have es : R.state = s := by rw [e]
  rw [es]
  obtain ⟨-, hr⟩ := C47.stored_parts hs
  obtain ⟨a, b⟩ := read_driven _ _ _ hr
  rw [a, b]
  exact ⟨rfl, rfl⟩

/-! ### Sums -/

theorem sum_zipIdx {α : Type} (F : α → ℕ → ℝ) : ∀ (l : List α),
    (l.zipIdx.map fun x => F x.1 x.2).sum = ∑ m ∈ range l.length, (match l[m]? with | some x => F x m | none => 0) := by
  have key : ∀ (l : List α) (o : ℕ), ((l.zipIdx o).map fun x => F x.1 x.2).sum =
      ∑ m ∈ range l.length, (match l[m]? with | some x => F x (o + m) | none => 0) := by
    intro l
    induction l with
    | nil => intro o; simp
    | cons x l ih =>
      intro o
      rw [List.zipIdx_cons, List.map_cons, List.sum_cons, ih, List.length_cons, Finset.sum_range_succ']
      simp only [List.getElem?_cons_zero, List.getElem?_cons_succ, Nat.add_zero]
      rw [add_comm]
      congr 1
      refine sum_congr rfl fun m _ => ?_
      cases l[m]? with
      | none => rfl
      | some y => simp only; congr 1; omega
  intro l
  have := key l 0
  simpa using this

theorem supplied_sum (w : String → ℝ → ℝ) (d : String → ℝ) (dt : ℝ) (half : Bool) (q : ℕ) (weight : ℕ → ℝ) (l : List (String × String)) :
    supplied w d dt half q weight l = ∑ m ∈ range l.length, (match l[m]? with
      | some x => w x.2 ((if half then (q + 1 / 2) * dt else q * dt) - d x.1) * weight m
      | none => 0) :=
  (sum_zipIdx (fun (x : String × String) m => w x.2 ((if half then (q + 1 / 2) * dt else q * dt) - d x.1) * weight m) l).trans
    (sum_congr rfl fun m _ => by cases l[m]? <;> rfl)

open Classical in
/-- The inputs of a run. -/
noncomputable def inputSet (ns np : ℕ) : Finset Loc :=
  ((range ns).image fun m => Loc.src false m) ∪ (((range ns).image fun m => Loc.src true m) ∪ (range np).image fun m => Loc.wav m)

open Classical in
theorem sum_inputs (ns np : ℕ) (f : Loc → ℝ) : ∑ x ∈ inputSet ns np, f x =
    ∑ m ∈ range ns, f (.src false m) + ∑ m ∈ range ns, f (.src true m) + ∑ m ∈ range np, f (.wav m) := by
  unfold inputSet
  rw [Finset.sum_union, Finset.sum_union, Finset.sum_image, Finset.sum_image, Finset.sum_image, add_assoc]
  · intro a _ b _ h; simpa using h
  · intro a _ b _ h; simpa using h
  · intro a _ b _ h; simpa using h
  · rw [Finset.disjoint_left]
    intro x hx hy
    simp only [mem_image, mem_range] at hx hy
    obtain ⟨a, -, rfl⟩ := hx
    obtain ⟨b, -, h⟩ := hy
    simp at h
  · rw [Finset.disjoint_left]
    intro x hx hy
    simp only [mem_image, mem_range, mem_union] at hx hy
    obtain ⟨a, -, rfl⟩ := hx
    rcases hy with ⟨b, -, h⟩ | ⟨b, -, h⟩ <;> simp at h

/-- **C69.** For every accepted input there are responses, one for each source and wave, such that whatever waveforms and
delays are put in, the input stays accepted, the time step stays the same, and every quantity before step `n` is the sum over
the earlier steps `q` and over the sources of what the source supplies in step `q` times its response `n - q` steps later.
Plane waves: on cubic meshes. -/
theorem convolution (hR : setup k J X = some R) (hp : pwNames X.file = [] ∨ gridType k J X R.cfg = .cubic) :
    ∃ hE hH hP : ℕ → ℕ → Loc → ℝ, ∀ (W : String → Wave) (d g : String → ℝ), ∃ R', setup k J (withDrive X W d g) = some R' ∧
      R'.dt = R.dt ∧ ∀ n l, R'.fields n l = ∑ q ∈ range n,
        (supplied (fun w => waveValue R.dt (W w)) d R.dt false q (fun m => hE m (n - q) l) (exNames X.file) +
         supplied (fun w => waveValue R.dt (W w)) d R.dt true q (fun m => hH m (n - q) l) (exNames X.file) +
         supplied (fun w => waveValue R.dt (W w)) g R.dt false q (fun m => hP m (n - q) l) (pwNames X.file)) := by
  classical
  obtain ⟨hes, hps⟩ := stored_driven hR
  have hdt : R.dt = Setup.dt k J X R.cfg := by
    obtain ⟨s, -, -, -, e⟩ := Scaling.setup_parts hR; rw [e]
  have hls : (exNames X.file).length = R.state.srcs.length := by rw [← hes, List.length_map]
  have hlp : (pwNames X.file).length = R.state.pws.length := by rw [← hps, List.length_map]
  let size : ℕ → ℝ := fun m => match R.state.srcs[m]? with
    | some x => (srcItem (Setup.de k J X R.cfg) (Setup.dh k J X R.cfg) R.cfg x).2
    | none => 0
  refine ⟨fun m n l => size m * Impulse.resp R.sim R.coefs (Impulse.unit (.src false m)) n l,
    fun m n l => size m * Impulse.resp R.sim R.coefs (Impulse.unit (.src true m)) n l,
    fun m n l => Impulse.resp R.sim R.coefs (Impulse.unit (.wav m)) n l, fun W d g => ?_⟩
  refine ⟨_, run_timed hR W d g, rfl, fun n l => ?_⟩
  show R.sim.state R.coefs _ (fun _ => 0) n l = _
  rw [Impulse.decomposed]
  refine sum_congr rfl fun q _ => ?_
  rw [Impulse.inputs R.sim R.coefs (inputSet R.state.srcs.length R.state.pws.length), sum_inputs]
  · rw [supplied_sum, supplied_sum, supplied_sum, hls, hlp]
    congr 1
    · congr 1
      · refine sum_congr rfl fun m hm => ?_
        rw [mem_range] at hm
        have h1 : R.state.srcs[m]? = some R.state.srcs[m] := List.getElem?_eq_getElem hm
        have h2 : (exNames X.file)[m]? = some (R.state.srcs[m].name, R.state.srcs[m].wave) := by
          rw [← hes, List.getElem?_map, h1]; rfl
        rw [h2]
        simp only [Deck.drive, timed, List.getElem?_map, h1, Option.map_some, size]
        rw [hdt]
        simp only [srcAt, srcItem, Deck.time, env, Bool.false_eq_true, if_false]
        show _ * _ * _ = _
        have : ∀ a b c : ℝ, a * b * c = b * (a * c) := fun a b c => by ring
        exact this _ _ _
      · refine sum_congr rfl fun m hm => ?_
        rw [mem_range] at hm
        have h1 : R.state.srcs[m]? = some R.state.srcs[m] := List.getElem?_eq_getElem hm
        have h2 : (exNames X.file)[m]? = some (R.state.srcs[m].name, R.state.srcs[m].wave) := by
          rw [← hes, List.getElem?_map, h1]; rfl
        rw [h2]
        simp only [Deck.drive, timed, List.getElem?_map, h1, Option.map_some, size]
        rw [hdt]
        simp only [srcAt, srcItem, Deck.time, env, if_true]
        have : ∀ a b c : ℝ, a * b * c = b * (a * c) := fun a b c => by ring
        exact this _ _ _
    · refine sum_congr rfl fun m hm => ?_
      rw [mem_range] at hm
      have h1 : R.state.pws[m]? = some R.state.pws[m] := List.getElem?_eq_getElem hm
      have h2 : (pwNames X.file)[m]? = some (R.state.pws[m].name, R.state.pws[m].wave) := by
        rw [← hps, List.getElem?_map, h1]; rfl
      have hcub : gridType k J X R.cfg = .cubic := by
        rcases hp with hp | hp
        · rw [hp] at hlp; simp at hlp; omega
        · exact hp
      rw [h2]
      simp only [Deck.drive, timed, List.getElem?_map, h1, Option.map_some, hcub]
      rw [hdt]
      simp only [pwAt, Deck.time, env, Bool.false_eq_true, if_false]
      rfl
  · intro x hx hn
    unfold inputSet at hn
    simp only [mem_union, mem_image, mem_range, not_or, not_exists, not_and] at hn
    obtain ⟨n1, n2, n3⟩ := hn
    cases x with
    | src h m =>
      have hm : ¬ m < R.state.srcs.length := by
        intro hm
        cases h
        · exact n1 m hm rfl
        · exact n2 m hm rfl
      simp only [Deck.drive, timed, List.getElem?_map, List.getElem?_eq_none (Nat.le_of_not_lt hm), Option.map_none]
    | wav m =>
      have hm : ¬ m < R.state.pws.length := fun hm => n3 m hm rfl
      simp only [Deck.drive, timed, List.getElem?_map, List.getElem?_eq_none (Nat.le_of_not_lt hm), Option.map_none]
      cases (gridType k J X R.cfg == GridType.cubic) <;> rfl
    | inc h m fc i j l' =>
      rcases hp with hp | hp
      · rw [hp] at hlp
        simp only [List.length_nil] at hlp
        have hm : R.state.pws[m]? = none := List.getElem?_eq_none (by omega)
        simp only [Deck.drive, timed, List.getElem?_map, hm, Option.map_none]
        cases (gridType k J X R.cfg == GridType.cubic) <;> rfl
      · simp only [Deck.drive, hp]; rfl
    | _ => simp [Loc.isInput] at hx

end
end Vulture.C69
