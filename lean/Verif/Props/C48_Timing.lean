import Verif.Spec.Timing
import Verif.Props.C47_Deck
import Verif.Props.C27_Step
import Verif.Props.C11_Linear
import Verif.Props.C18_Edges
set_option linter.unusedSimpArgs false
set_option linter.unusedVariables false
/-
C48: when and where the waveforms act, and what delaying all of them does.
-/
namespace Vulture.C48
open Spec Deck

/-! ### Delays -/

/-- The stored items with `T` added to every delay. -/
def later (T : ℝ) (s : Deck.State) : Deck.State :=
  { s with
    srcs := s.srcs.map fun x => { x with delay := x.delay + T }
    pws := s.pws.map fun x => { x with delay := x.delay + T } }

theorem ite_same {α β : Type} {P Q : Prop} [Decidable P] [Decidable Q] (h : P ↔ Q) {g : α → β} {x : β} {y : α}
    (e : x = g y) : (if P then some x else none) = (if Q then some y else none).map g := by
  by_cases hP : P
  · rw [if_pos hP, if_pos (h.1 hP), e]; rfl
  · rw [if_neg hP, if_neg (fun q => hP (h.2 q))]; rfl

theorem card_later (T : ℝ) (s : Deck.State) (c : Deck.Card) :
    (later T s).card (delayCard T c) = (s.card c).map (later T) := by
  have e1 : (later T s).srcs.map SrcItem.name = s.srcs.map SrcItem.name := by simp [later]
  have e2 : (later T s).pws.map PwItem.name = s.pws.map PwItem.name := by simp [later]
  have e3 : (later T s).srcs.length = s.srcs.length := by simp [later]
  cases c with
  | mt n m =>
    show (if (find s.media n).isSome then _ else _) = _
    simp only [State.card]; split <;> simp [later]
  | bt n m =>
    show (if (find s.bnds n).isSome then _ else _) = _
    simp only [State.card]; split <;> simp [later]
  | wt n =>
    show (if s.wires.contains n then _ else _) = _
    simp only [State.card]; split <;> simp [later]
  | wf n =>
    show (if s.waves.contains n then _ else _) = _
    simp only [State.card]; split <;> simp [later]
  | mb c =>
    simp only [State.card, delayCard, later]
    cases find s.media c.medium with
    | none => rfl
    | some m =>
      simp only
      exact ite_same Iff.rfl (by simp [later])
  | tb c =>
    simp only [State.card, delayCard, later]
    cases find s.bnds c.boundary with
    | none => rfl
    | some m =>
      simp only
      exact ite_same Iff.rfl (by simp [later])
  | tw c =>
    simp only [State.card, delayCard, later]
    exact ite_same Iff.rfl (by simp [later])
  | op c =>
    simp only [State.card, delayCard, later]
    exact ite_same Iff.rfl (by simp [later, obsOf])
  | ex k b n tag w size delay resist =>
    simp only [State.card, delayCard, e1, e3]
    cases Source.lookup tag with
    | none => rfl
    | some i =>
      show (if parseEX s.mbox _ (fun n => s.waves.contains n) _ then _ else _) = _
      simp only
      exact ite_same Iff.rfl (by simp [later])
  | pw c delay =>
    simp only [State.card, delayCard, e2]
    show (if parsePW s.mbox _ (fun n => s.waves.contains n) _ then _ else _) = _
    exact ite_same Iff.rfl (by simp [later])

theorem read_later (T : ℝ) : ∀ (l : List Deck.Card) (s : Deck.State),
    Deck.read (later T s) (l.map (delayCard T)) = (Deck.read s l).map (later T)
  | [], s => rfl
  | c :: l, s => by
    rw [List.map_cons, C47.read_cons, C47.read_cons, card_later]
    cases s.card c with
    | none => rfl
    | some t => simp [read_later T l t]

theorem stored_later (T : ℝ) (f : File) : (delayFile T f).stored = f.stored.map (later T) := by
  unfold File.stored
  show (parseDM f.nx f.ny f.nz).bind _ = _
  cases parseDM f.nx f.ny f.nz with
  | none => rfl
  | some m =>
    simp only [Option.bind_some]
    exact read_later T f.cards (State.init m)

/-- Delays have no influence on what the run consists of. -/
theorem sim_later (T : ℝ) (f : File) (de dh : Axis → Int → ℝ) : (delayFile T f).sim de dh = f.sim de dh := by
  unfold File.sim
  rw [stored_later]
  cases f.stored with
  | none => rfl
  | some s =>
    simp only [Option.map_some, Option.bind_some]
    show (initExternalSurfaceParameters f.cells f.bt f.layers).bind _ = _
    congr 1
    funext c
    have e1 : (later T s).pws.mapM (pwItem (delayFile T f).cubic c) = s.pws.mapM (pwItem f.cubic c) := by
      simp only [later, List.mapM_map]
      rfl
    have e2 : (later T s).srcs.map (srcItem de dh c) = s.srcs.map (srcItem de dh c) := by
      simp only [later, List.map_map]
      rfl
    rw [e1, e2]
    rfl

theorem time_later (dt : ℝ) (h : Bool) (n M : Nat) : time dt h (n + M) = time dt h n + M * dt := by
  unfold time; split <;> push_cast <;> ring

/-- With delays longer by `M` steps the values of step `n + M` are those of step `n`. -/
theorem drive_later (e : Env) (hv : ∀ x T, e.v { x with delay := x.delay + T } = e.v x) (cubic : Bool) (c : Cfg)
    (s : Deck.State) (M n : Nat) : drive e cubic c (later (M * e.dt) s) (n + M) = drive e cubic c s n := by
  funext l
  cases l with
  | src h m =>
    simp only [drive, later, List.getElem?_map]
    cases s.srcs[m]? with
    | none => rfl
    | some x =>
      simp only [Option.map_some, time_later]
      congr 2
      ring
  | wav m =>
    simp only [drive, later, List.getElem?_map]
    cases cubic <;> cases s.pws[m]? <;> simp only [Option.map_some, Option.map_none, time_later]
    congr 1
    ring
  | inc h m fc i j k =>
    simp only [drive, later, List.getElem?_map]
    cases cubic <;> cases s.pws[m]? <;> simp only [Option.map_some, Option.map_none, time_later]
    rename_i x
    split
    · simp only [PlaneWave.analytic, hv]
      congr 2
      ring
    · rfl
  | _ => rfl

/-- C48: adding `M` time steps to every delay of a file postpones everything that happens by `M` steps and changes nothing
else, provided the sources are silent during those first `M` steps. -/
theorem delays_shift {f : File} {e : Env} {S : Sim} (h : f.sim e.de e.dh = some S)
    (hv : ∀ x T, e.v { x with delay := x.delay + T } = e.v x) (C : CRef → ℝ) (M : Nat) :
    ∃ s s', f.stored = some s ∧ (delayFile (M * e.dt) f).stored = some s' ∧
      (delayFile (M * e.dt) f).sim e.de e.dh = some S ∧
      ((∀ n < M, ∀ l, drive e f.cubic S.cfg s' n l = 0) → ∀ n l,
        S.state C (drive e f.cubic S.cfg s') (fun _ => 0) (n + M) l =
          S.state C (drive e f.cubic S.cfg s) (fun _ => 0) n l) := by
  obtain ⟨s, c, pws, hs, hc, hp, eS⟩ := C47.sim_parts h
  refine ⟨s, later (M * e.dt) s, hs, by rw [stored_later, hs]; rfl, by rw [sim_later, h], ?_⟩
  intro hq n
  induction n with
  | zero =>
    intro l
    rw [Nat.zero_add]
    exact C12.quiet S C _ M hq l
  | succ n ih =>
    intro l
    rw [show n + 1 + M = (n + M) + 1 by omega]
    simp only [Sim.state]
    rw [funext ih, drive_later e hv]

/-- Waveforms that are zero before time zero, delays that are not negative and no analytic wave: silent for long enough. -/
theorem causal_silent {e : Env} {cubic : Bool} {c : Cfg} {s : Deck.State} {M : Nat} (hdt : 0 < e.dt)
    (hw : ∀ n t, t < 0 → e.wave n t = 0) (hs : ∀ x ∈ s.srcs, 0 ≤ x.delay) (hp : ∀ x ∈ s.pws, 0 ≤ x.delay)
    (ha : cubic = true ∨ s.pws = []) : ∀ n < M, ∀ l, drive e cubic c (later (M * e.dt) s) n l = 0 := by
  intro n hn l
  have ht : ∀ h, time e.dt h n < M * e.dt := by
    intro h
    have h1 : ((n : ℝ) + 1 / 2) < M := by
      have : (n : ℝ) + 1 ≤ M := by exact_mod_cast hn
      linarith
    unfold time
    split
    · exact mul_lt_mul_of_pos_right h1 hdt
    · exact mul_lt_mul_of_pos_right (by linarith) hdt
  cases l with
  | src h m =>
    simp only [drive, later, List.getElem?_map]
    cases e' : s.srcs[m]? with
    | none => rfl
    | some x =>
      have hx := hs x (List.mem_of_getElem? e')
      simp only [Option.map_some]
      rw [hw _ _ (by have := ht h; linarith), mul_zero]
  | wav m =>
    simp only [drive, later, List.getElem?_map]
    cases e' : s.pws[m]? with
    | none => cases cubic <;> rfl
    | some x =>
      have hx := hp x (List.mem_of_getElem? e')
      cases cubic
      · rfl
      · simp only [Option.map_some]
        exact hw _ _ (by have := ht false; linarith)
  | inc h m fc i j k =>
    simp only [drive, later, List.getElem?_map]
    rcases ha with rfl | ha
    · rfl
    · rw [ha]; cases cubic <;> rfl
  | _ => rfl

/-! ### Place and time of the incident wave -/

/-- C48: on a mesh that is not cubic, the incident value used for a sample is that of the plane wave at the sample's place
(a mesh line, or the middle between two), half a time step after the sample's own time: magnetic samples enter the electric
half of step `n`, where they are at `(n - 1/2) dt`; electric samples enter the magnetic half, where they are at `n dt`. -/
theorem incident_half_step_ahead {f : File} {e : Env} {S : Sim} {s : Deck.State} (h : f.sim e.de e.dh = some S)
    (hs : f.stored = some s) (hf : f.cubic = false) (big : ℝ) (junk : Axis → EdgeArrays ℝ)
    (hde : ∀ a, e.de a = (initCellEdges S.cfg a (e.lines a) big (junk a)).de) {m : Nat} {x : PwItem}
    (hx : s.pws[m]? = some x) {q0 : Axis → Int} (hq0 : PlaneWave.ijk0 x.theta x.phi (place S.cfg x.mbbox) = some q0)
    (fc : Fc) (q : Axis → Int) (hq : ∀ a, S.cfg.gibox a.lo ≤ q a ∧ pos2 fc a (q a) ≤ 2 * S.cfg.gibox a.hi) (n : Nat) :
    let field := planeWave (PlaneWave.finc e.eta0 x.size x.theta x.phi x.eta fc) (PlaneWave.kinc x.theta x.phi)
      (fun a => e.lines a (q0 a - S.cfg.gibox a.lo)) (e.v x) (e.wave x.wave) x.delay
      (samplePlace e.lines fc fun a => q a - S.cfg.gibox a.lo)
    drive e f.cubic S.cfg s n (.inc false m fc (q .x) (q .y) (q .z)) = field (magneticTime e.dt (n - 1) + e.dt / 2) ∧
    drive e f.cubic S.cfg s n (.inc true m fc (q .x) (q .y) (q .z)) = field (electricTime e.dt n + e.dt / 2) := by
  have hv : ValidCfg S.cfg := by
    obtain ⟨s', c, pws, hs', hc, hp, rfl⟩ := C47.sim_parts h
    obtain ⟨hn, -⟩ := C47.stored_parts hs'
    exact C07.setup_valid f.cells f.bt f.layers c (fun a => by cases a <;> simp [File.cells] <;> omega) hc
  have hl : ∀ a, location e S.cfg fc (triple (q .x) (q .y) (q .z)) a =
      samplePlace e.lines fc (fun a => q a - S.cfg.gibox a.lo) a := by
    intro a
    have eq' : (match a with | .x => q .x | .y => q .y | .z => q .z) = q a := by cases a <;> rfl
    have p2 : C18.Staggered fc a → q a ≤ S.cfg.gibox a.hi - 1 := by
      intro hst
      have h2 := (hq a).2
      unfold C18.Staggered at hst
      cases fc <;> cases a <;> simp [pos2] at hst h2 ⊢ <;> omega
    have p3 : ¬ C18.Staggered fc a → q a ≤ S.cfg.gibox a.hi := by
      intro hst
      have h2 := (hq a).2
      unfold C18.Staggered at hst
      cases fc <;> cases a <;> simp [pos2] at hst h2 ⊢ <;> omega
    have key := (C18.sample_location S.cfg hv a (e.lines a) big (junk a) fc (q a) (hq a).1 (by
      split
      · exact p2 (by assumption)
      · exact p3 (by assumption))).1
    simp only [location]
    rw [hde a]
    have : (match a with | .x => q .x | .y => q .y | .z => q .z) = q a := by cases a <;> rfl
    refine Eq.trans ?_ (key.trans ?_)
    · cases a <;> rfl
    · rfl
  have hr : ∀ a, PlaneWave.nodeLocation S.cfg e.lines q0 a = e.lines a (q0 a - S.cfg.gibox a.lo) := by
    intro a; cases a <;> rfl
  refine ⟨?_, ?_⟩
  · simp only [drive, hf, hx, hq0, PlaneWave.analytic, hr, hl, planeWave]
    congr 2
    simp only [time, magneticTime]
    push_cast
    simp
    ring
  · simp only [drive, hf, hx, hq0, PlaneWave.analytic, hr, hl, planeWave]
    congr 2
    simp only [time, electricTime]
    push_cast
    simp
    ring

/-! ### Time of the sources -/

/-- The `m`-th source of the run is the `m`-th stored one. -/
theorem source_of {f : File} {de dh : Axis → Int → ℝ} {S : Sim} {s : Deck.State} (h : f.sim de dh = some S)
    (hs : f.stored = some s) {m : Nat} {y : SrcItem} (hy : s.srcs[m]? = some y) :
    S.srcs[m]? = some (srcItem de dh S.cfg y).1 := by
  obtain ⟨s', c, pws, hs', hc, hp, rfl⟩ := C47.sim_parts h
  rw [hs] at hs'
  cases hs'
  simp only [List.getElem?_map, hy, Option.map_some]

section
variable {f : File} {e : Env} {S : Sim} {s : Deck.State} (h : f.sim e.de e.dh = some S) (hs : f.stored = some s)
  {m : Nat} {y : SrcItem} (hy : s.srcs[m]? = some y) {x : Src} {a : Axis} {q : Axis → Int} (C : CRef → ℝ)
  (s0 : Loc → ℝ) (n : Nat)
include h hs hy

theorem input_now {l : Loc} (hl : l.isInput = true) :
    setInputs (drive e f.cubic S.cfg s n) (S.state C (drive e f.cubic S.cfg s) s0 n) l = drive e f.cubic S.cfg s n l := by
  simp [setInputs, hl]

/-- C48: a hard electric field source makes the field it drives, after step `n`, the waveform at `n dt` less the delay, the
time of that electric sample. -/
theorem hard_field_on_time (ht : y.info.type = .efield) (hd : C27.DrivenE S m x a q) (soft : C (.soft m) = 0) :
    at3 (S.state C (drive e f.cubic S.cfg s) s0 (n + 1)) a.e q =
      y.size * e.wave y.wave (electricTime e.dt n - y.delay) := by
  have hx := source_of h hs hy
  rw [hd.src] at hx
  have hk : x.kind = .efield := by
    cases hx; simp [srcItem, Source.initSource, ht]
  simp only [Sim.state]
  rw [C27.hard_field hd C hk soft, input_now h hs hy C s0 n rfl]
  simp only [drive, hy, srcItem, Source.initSource, ht, time, electricTime]
  simp

/-- C48: a hard magnetic field source likewise, at `(n + 1/2) dt`, the time of the magnetic sample. -/
theorem hard_magnetic_field_on_time (ht : y.info.type = .hfield) (hd : C27.DrivenH S m x a q)
    (soft : C (.soft m) = 0) :
    at3 (S.state C (drive e f.cubic S.cfg s) s0 (n + 1)) a.h q =
      y.size * e.wave y.wave (magneticTime e.dt n - y.delay) := by
  have hx := source_of h hs hy
  rw [hd.src] at hx
  have hk : x.kind = .hfield := by
    cases hx; simp [srcItem, Source.initSource, ht]
  simp only [Sim.state]
  rw [C27.hard_magnetic_field hd C hk soft, input_now h hs hy C s0 n rfl]
  simp only [drive, hy, srcItem, Source.initSource, ht, time, magneticTime]
  simp

/-- C48: a current density acts in Ampère's law between the electric samples of `(n - 1) dt` and `n dt` with the value of
the waveform half a step after the middle of that interval. -/
theorem current_half_step_ahead (ht : y.info.type = .ecurrDens) (hd : C27.DrivenE S m x a q)
    {eps0 mu0 : ℝ} {md : Medium ℝ} (soft : C (.soft m) = 1)
    (alpha : C (.alpha a.e (q .x) (q .y) (q .z)) = (calcCoeff e.dt eps0 mu0 md).alpha)
    (beta : C (.beta a.e (q .x) (q .y) (q .z)) = (calcCoeff e.dt eps0 mu0 md).beta) (hm : md.sum = 0)
    (edges : ∀ (c : Axis) (n : Int), C (.idh c n) = 1 / e.dh c n) (hdt : e.dt ≠ 0)
    (den : 2 * md.eps_r * eps0 + e.dt * md.sigma ≠ 0) :
    let now := S.state C (drive e f.cubic S.cfg s) s0
    let middle := (electricTime e.dt (n - 1) + electricTime e.dt n) / 2
    AmpereWithCurrent e.dt (md.eps_r * eps0) md.sigma (at3 (now n) a.e q) (at3 (now (n + 1)) a.e q)
      (curlOfH e.dh (now n) a q) (y.size * e.wave y.wave (middle + e.dt / 2 - y.delay)) := by
  intro now middle
  have hx := source_of h hs hy
  rw [hd.src] at hx
  have hk : x.kind = .ecurr := by
    cases hx; simp [srcItem, Source.initSource, ht]
  have key := C27.driven_ampere hd C hk soft alpha beta hm edges hdt den
    (setInputs (drive e f.cubic S.cfg s n) (S.state C (drive e f.cubic S.cfg s) s0 n))
  rw [input_now h hs hy C s0 n rfl] at key
  have e1 : drive e f.cubic S.cfg s n (.src false m) = y.size * e.wave y.wave (middle + e.dt / 2 - y.delay) := by
    simp only [drive, hy, srcItem, Source.initSource, ht, time, middle, electricTime]
    congr 2
    push_cast
    ring
  rw [e1] at key
  exact key

/-- C48: a magnetic current density likewise. -/
theorem magnetic_current_half_step_ahead (ht : y.info.type = .mcurrDens) (hd : C27.DrivenH S m x a q)
    {eps0 mu0 : ℝ} {md : Medium ℝ} (soft : C (.soft m) = 1)
    (gamma : C (.gamma a.h (q .x) (q .y) (q .z)) = (calcCoeff e.dt eps0 mu0 md).gamma)
    (edges : ∀ (c : Axis) (n : Int), C (.ide c n) = 1 / e.de c n) (hdt : e.dt ≠ 0) (hmu : md.mu_r * mu0 ≠ 0) :
    let now := S.state C (drive e f.cubic S.cfg s) s0
    let middle := (magneticTime e.dt (n - 1) + magneticTime e.dt n) / 2
    FaradayWithCurrent e.dt (md.mu_r * mu0) (at3 (now n) a.h q) (at3 (now (n + 1)) a.h q)
      (curlOfE e.de (now (n + 1)) a q) (y.size * e.wave y.wave (middle + e.dt / 2 - y.delay)) := by
  intro now middle
  have hx := source_of h hs hy
  rw [hd.src] at hx
  have hk : x.kind = .hcurr := by
    cases hx; simp [srcItem, Source.initSource, ht]
  have key := C27.driven_faraday hd C hk soft gamma edges hdt hmu
    (setInputs (drive e f.cubic S.cfg s n) (S.state C (drive e f.cubic S.cfg s) s0 n))
  rw [input_now h hs hy C s0 n rfl] at key
  have e1 : drive e f.cubic S.cfg s n (.src true m) = y.size * e.wave y.wave (middle + e.dt / 2 - y.delay) := by
    simp only [drive, hy, srcItem, Source.initSource, ht, time, middle, magneticTime]
    congr 2
    push_cast
    ring
  rw [e1] at key
  exact key

/-- C48: on a cubic mesh the auxiliary grid of a wave is fed, in step `n`, with the waveform at `n dt` less the delay, the
time of the electric samples. -/
theorem wave_on_time (hf : f.cubic = true) {p : Nat} {w : PwItem} (hw : s.pws[p]? = some w) :
    drive e f.cubic S.cfg s n (.wav p) = e.wave w.wave (electricTime e.dt n - w.delay) := by
  simp [drive, hf, hw, time, electricTime]

end

/-! ### Amplitudes -/

/-- The stored items with every size multiplied. -/
def louder (r : ℝ) (s : Deck.State) : Deck.State :=
  { s with
    srcs := s.srcs.map fun x => { x with size := r * x.size }
    pws := s.pws.map fun x => { x with size := r * x.size } }

theorem initSource_scale (de dh : Axis → Int → ℝ) (b : BBox) (t : Source.SType) (pol norm : Axis) (size R r : ℝ) :
    (Source.initSource de dh b t pol norm (r * size) R).size = r * (Source.initSource de dh b t pol norm size R).size ∧
    (Source.initSource de dh b t pol norm (r * size) R).kind = (Source.initSource de dh b t pol norm size R).kind := by
  by_cases hR : R > Source.minResistance
  all_goals
    constructor
    · cases t <;> simp only [Source.initSource, Source.initThevenin, hR, if_true, if_false] <;> ring
    · cases t <;> simp only [Source.initSource, Source.initThevenin, hR, if_true, if_false]

/-- C48: multiplying the size of every source and every wave of a run on a mesh that is not cubic multiplies all fields of all
steps by the same factor. -/
theorem amplitudes_scale_partial {f : File} {e : Env} {S : Sim} {s : Deck.State} (h : f.sim e.de e.dh = some S)
    (hs : f.stored = some s) (hf : f.cubic = false) (r : ℝ) (hv : ∀ x r, e.v { x with size := r * x.size } = e.v x)
    (C : CRef → ℝ) (n : Nat) (l : Loc) :
    S.state C (drive e f.cubic S.cfg (louder r s)) (fun _ => 0) n l =
      r * S.state C (drive e f.cubic S.cfg s) (fun _ => 0) n l := by
  have e1 : drive e f.cubic S.cfg (louder r s) = fun n l => r * drive e f.cubic S.cfg s n l := by
    funext n l
    cases l with
    | src b m =>
      simp only [drive, louder, List.getElem?_map]
      cases s.srcs[m]? with
      | none => simp
      | some x =>
        simp only [Option.map_some, srcItem, (initSource_scale _ _ _ _ _ _ _ _ _).1]
        ring
    | wav m =>
      simp only [drive, hf]
      simp
    | inc b m fc i j k =>
      simp only [drive, louder, List.getElem?_map, hf]
      cases s.pws[m]? with
      | none => simp
      | some x =>
        simp only [Option.map_some, hv]
        split
        · simp only [PlaneWave.analytic]
          have : PlaneWave.finc e.eta0 (r * x.size) x.theta x.phi x.eta fc =
              r * PlaneWave.finc e.eta0 x.size x.theta x.phi x.eta fc := by
            cases fc <;> simp only [PlaneWave.finc] <;> ring
          rw [this]
          ring
        · simp
    | _ => simp [drive]
  rw [e1]
  exact C11.homogeneous S C r _ n l

/-! ### Examples -/

/-- The sample file on a cubic mesh, with waveforms that start at time zero: every delay by `M` steps shifts the run. -/
example (e : Env) (hdt : 0 < e.dt) (hw : ∀ n t, t < 0 → e.wave n t = 0)
    (hv : ∀ x T, e.v { x with delay := x.delay + T } = e.v x) (C : CRef → ℝ) (M : Nat) :
    ∃ S s s', (C47.sampleFile true).sim e.de e.dh = some S ∧ (C47.sampleFile true).stored = some s ∧
      (delayFile (M * e.dt) (C47.sampleFile true)).stored = some s' ∧ ∀ n l,
        S.state C (drive e true S.cfg s') (fun _ => 0) (n + M) l = S.state C (drive e true S.cfg s) (fun _ => 0) n l := by
  obtain ⟨S, h, -⟩ := C47.sampleFile_accepted true e.de e.dh
  obtain ⟨s, s', h1, h2, h3, h4⟩ := delays_shift h hv C M
  refine ⟨S, s, s', h, h1, h2, h4 ?_⟩
  have h5 := stored_later (M * e.dt) (C47.sampleFile true)
  rw [h1, h2] at h5
  cases h5
  have hd : (∀ x ∈ s.srcs, 0 ≤ x.delay) ∧ ∀ x ∈ s.pws, 0 ≤ x.delay := by
    obtain ⟨-, hr⟩ := C47.stored_parts h1
    exact C47.sample_delays hr
  exact causal_silent hdt hw hd.1 hd.2 (Or.inl rfl)

end Vulture.C48
