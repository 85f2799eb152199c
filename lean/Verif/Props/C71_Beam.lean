import Verif.Spec.Beam
import Verif.Props.C64_Material
import Verif.Props.C31_Axis
import Verif.Props.C31_Phase
set_option linter.unusedSimpArgs false
set_option linter.unusedVariables false
set_option linter.unusedSectionVars false
/-
C71: a plane wave along an axis in an empty box, from the mesh file to the fields of every step.
-/
namespace Vulture.C71
open Spec Setup Deck PlaneWave C31 CavityLemmas

/-! ### The line of cells that carries the wave -/

section line
variable {C : CRef → ℝ} {c : Cfg} {w : PW} {g : AuxGrid}

/-- What nothing can have reached before step `n` is half over. -/
def Ahead (g : AuxGrid) (n : ℕ) (half : Bool) : Loc → Prop
  | .aux 0 .ey m => (n : ℤ) + 1 ≤ m
  | .aux 0 .hz m => (n : ℤ) + (if half then 1 else 0) ≤ m
  | .aux 0 .ppy m => (n : ℤ) + 1 ≤ m + g.xb
  | .aux 0 .py m => (n : ℤ) + 1 ≤ m + g.xb
  | .aux 0 .bz m => (n : ℤ) + (if half then 1 else 0) ≤ m + g.xb
  | _ => False

theorem keeps_auxE (n : ℕ) : Keeps C (Ahead g n false) (auxE 0 g) := by
  unfold auxE
  intro b hb a ha hz
  simp only [List.mem_append, List.mem_map, List.mem_singleton] at hb
  rcases hb with (⟨i, hi, rfl⟩ | ⟨i, hi, rfl⟩) | rfl
  · rw [List.mem_singleton] at ha
    subst ha
    simp only [Ahead] at hz
    simp only [Expr.ZeroOn, Ahead]
    simp
    omega
  · simp only [List.mem_cons, List.not_mem_nil, or_false] at ha
    rcases ha with rfl | rfl | rfl
    all_goals
      simp only [Ahead] at hz
      simp only [Expr.ZeroOn, Ahead]
      simp
      omega
  · rw [List.mem_singleton] at ha
    subst ha
    simp only [Ahead] at hz
    omega

theorem keeps_auxH (n : ℕ) : Keeps C (Ahead g n true) (auxH 0 g) := by
  unfold auxH
  intro b hb a ha hz
  simp only [List.mem_append, List.mem_map, List.mem_singleton] at hb
  rcases hb with ⟨i, hi, rfl⟩ | ⟨i, hi, rfl⟩
  · rw [List.mem_singleton] at ha
    subst ha
    simp only [Ahead] at hz
    simp only [Expr.ZeroOn, Ahead]
    simp at hz ⊢
    omega
  · simp only [List.mem_cons, List.not_mem_nil, or_false] at ha
    rcases ha with rfl | rfl
    all_goals
      simp only [Ahead] at hz
      simp only [Expr.ZeroOn, Ahead]
      simp at hz ⊢
      omega

theorem aux_of_ahead {n : ℕ} {b : Bool} {l : Loc} (h : Ahead g n b l) : l.kind = .aux := by
  cases l <;> first | rfl | exact absurd h (by simp [Ahead])

theorem stepE_is (haux : w.aux = some g) (s : Loc → ℝ) {l : Loc} (hl : l.kind = .aux) :
    (oneWave c w).stepE.run C s l =
      (auxE 0 g).run C ((updatePmlEfield c ++ updateMurEfield c ++ updateGridEfield c).run C s) l := by
  have e : auxPartE w = auxE 0 g := by unfold auxPartE; rw [haux]
  have gh : ∀ s, (updateGhostEfield c).run C s l = s l := fun s =>
    ((wo_ghost c ghostEcomps).noWrite (by simp [hl])).run C s
  rw [stepE_eq, run_append, run_append, run_append, gh, ((wo_tableE c w).noWrite (by simp [hl])).run C, e]

theorem stepH_is (haux : w.aux = some g) (s : Loc → ℝ) {l : Loc} (hl : l.kind = .aux) :
    (oneWave c w).stepH.run C s l =
      (auxH 0 g).run C ((updatePmlHfield c ++ updateMurHfield c ++ updateGridHfield c).run C s) l := by
  have e : auxPartH w = auxH 0 g := by unfold auxPartH; rw [haux]
  have gh : ∀ s, (updateGhostHfield c).run C s l = s l := fun s =>
    ((wo_ghost c ghostHcomps).noWrite (by simp [hl])).run C s
  rw [stepH_eq, run_append, run_append, run_append, gh, ((wo_tableH c w).noWrite (by simp [hl])).run C, e]

theorem coreE_keeps (s : Loc → ℝ) {l : Loc} (hl : l.kind = .aux) :
    (updatePmlEfield c ++ updateMurEfield c ++ updateGridEfield c).run C s l = s l :=
  ((coreE_only c).noWrite (by simp [hl])).run C s

theorem coreH_keeps (s : Loc → ℝ) {l : Loc} (hl : l.kind = .aux) :
    (updatePmlHfield c ++ updateMurHfield c ++ updateGridHfield c).run C s l = s l :=
  ((coreH_only c).noWrite (by simp [hl])).run C s

/-- Nothing has reached the elements ahead of the wave. -/
theorem ahead_zero (haux : w.aux = some g) (u : ℕ → Loc → ℝ) : ∀ n l, Ahead g n false l →
    (oneWave c w).state C u (fun _ => 0) n l = 0
  | 0, l, _ => rfl
  | n + 1, l, hl => by
    have k := aux_of_ahead hl
    show ((oneWave c w).stepE ++ (oneWave c w).stepH).run C (setInputs (u n) _) l = 0
    rw [run_append, stepH_is haux _ k]
    refine (keeps_auxH n).run ?_ l ?_
    · intro l' hl'
      have k' := aux_of_ahead hl'
      rw [coreH_keeps _ k', stepE_is haux _ k']
      refine (keeps_auxE n).run ?_ l' ?_
      · intro l'' hl''
        have k'' := aux_of_ahead hl''
        rw [coreE_keeps _ k'']
        have hin : l''.isInput = false := by cases l'' <;> first | rfl | exact absurd k'' (by simp [Loc.kind])
        unfold setInputs
        rw [hin]
        exact ahead_zero haux u n l'' hl''
      · revert hl'
        unfold Ahead
        split <;> simp <;> omega
    · revert hl
      unfold Ahead
      split <;> simp <;> omega

/-- The auxiliary arrays hold a wave on a line of cells, fed with the waveform. -/
theorem line_wave (haux : w.aux = some g) (hx : 1 ≤ g.xb) (u : ℕ → Loc → ℝ) :
    LineWave (C (.auxBeta 0)) (C (.auxGamma 0)) g.xb (fun n => u n (.wav 0))
      (fun n m => (oneWave c w).state C u (fun _ => 0) n (.aux 0 .ey m))
      (fun n m => (oneWave c w).state C u (fun _ => 0) n (.aux 0 .hz m)) where
  rest := fun m => ⟨rfl, rfl⟩
  entry := fun n => by
    show ((oneWave c w).stepE ++ (oneWave c w).stepH).run C (setInputs (u n) _) (.aux 0 .ey 0) = _
    rw [run_append, (stepH_aux c haux _).1, stepE_is haux _ rfl, auxE_source,
      ((coreE_only c).noWrite (by simp [Loc.kind])).run C]
    rfl
  electric := fun n m h1 h2 => by
    show ((oneWave c w).stepE ++ (oneWave c w).stepH).run C (setInputs (u n) _) (.aux 0 .ey m) = _
    rw [run_append, (stepH_aux c haux _).1, (stepE_aux c haux _).2 m h1 h2]
    show (oneWave c w).state C u (fun _ => 0) n (.aux 0 .ey m) + C (.auxBeta 0) *
      ((oneWave c w).state C u (fun _ => 0) n (.aux 0 .hz (m-1)) - (oneWave c w).state C u (fun _ => 0) n (.aux 0 .hz m)) = _
    ring
  magnetic := fun n m h1 h2 => by
    have e : ∀ m, (oneWave c w).state C u (fun _ => 0) (n+1) (.aux 0 .ey m) =
        (oneWave c w).stepE.run C (setInputs (u n) ((oneWave c w).state C u (fun _ => 0) n)) (.aux 0 .ey m) := fun m => by
      show ((oneWave c w).stepE ++ (oneWave c w).stepH).run C (setInputs (u n) _) _ = _
      rw [run_append, (stepH_aux c haux _).1]
    simp only [e]
    show ((oneWave c w).stepE ++ (oneWave c w).stepH).run C (setInputs (u n) _) _ = _
    rw [run_append, (stepH_aux c haux _).2 m h1 h2, (stepE_aux c haux _).1]
    show (oneWave c w).state C u (fun _ => 0) n (.aux 0 .hz m) + _ = (oneWave c w).state C u (fun _ => 0) n (.aux 0 .hz m) - _
    ring
  ending := fun n hn => by
    cases n with
    | zero => rfl
    | succ n =>
      by_cases h : (n : ℤ) + 1 + 1 ≤ g.xb
      · exact ahead_zero haux u (n+1) (.aux 0 .ey g.xb) (by simp only [Ahead]; push_cast; omega)
      · -- the last step: electric elements are reached one step later
        have e : (oneWave c w).state C u (fun _ => 0) (n+1) (.aux 0 .ey g.xb) =
            (oneWave c w).stepE.run C (setInputs (u n) ((oneWave c w).state C u (fun _ => 0) n)) (.aux 0 .ey g.xb) := by
          show ((oneWave c w).stepE ++ (oneWave c w).stepH).run C (setInputs (u n) _) _ = _
          rw [run_append, (stepH_aux c haux _).1]
        show (oneWave c w).state C u (fun _ => 0) (n+1) (.aux 0 .ey g.xb) = 0
        rw [e, stepE_is haux _ rfl]
        refine (keeps_auxE n).run ?_ _ (by simp only [Ahead]; push_cast at hn; omega)
        intro l hl
        have k := aux_of_ahead hl
        rw [coreE_keeps _ k]
        have hin : l.isInput = false := by cases l <;> first | rfl | exact absurd k (by simp [Loc.kind])
        unfold setInputs
        rw [hin]
        exact ahead_zero haux u n l hl

end line

theorem endless_ahead (r1 r2 : ℝ) (g : ℕ → ℝ) : ∀ (n : ℕ) (m : ℤ), (n : ℤ) ≤ m →
    (endless r1 r2 g n).2 m = 0 ∧ (1 ≤ m → (endless r1 r2 g n).1 m = 0)
  | 0, m, _ => ⟨rfl, fun _ => rfl⟩
  | n + 1, m, h => by
    push_cast at h
    have a := endless_ahead r1 r2 g n m (by omega)
    have b := endless_ahead r1 r2 g n (m-1) (by omega)
    have d := endless_ahead r1 r2 g n (m+1) (by omega)
    have e1 : (endless r1 r2 g (n+1)).1 m = 0 := by
      simp only [endless]
      rw [if_neg (by omega), a.1, b.1, a.2 (by omega)]; ring
    have e2 : (endless r1 r2 g (n+1)).1 (m+1) = 0 := by
      simp only [endless]
      rw [if_neg (by omega), show m + 1 - 1 = m by ring, a.1, d.1, d.2 (by omega)]; ring
    refine ⟨?_, fun _ => e1⟩
    have : (endless r1 r2 g (n+1)).2 m = (endless r1 r2 g n).2 m - r2 * ((endless r1 r2 g (n+1)).1 (m+1) - (endless r1 r2 g (n+1)).1 m) := rfl
    rw [this, e1, e2, a.1]; ring

/-- Until the end of the line can make itself felt the wave is that of a line without end. -/
theorem as_if_endless {r1 r2 : ℝ} {len : ℤ} {g : ℕ → ℝ} {e h : ℕ → ℤ → ℝ} (hl : LineWave r1 r2 len g e h) :
    ∀ (n : ℕ) (m : ℤ), 0 ≤ m → m ≤ len →
      ((n : ℤ) + m ≤ 2 * len → e n m = (endless r1 r2 g n).1 m) ∧
      (m < len → (n : ℤ) + m + 1 ≤ 2 * len → h n m = (endless r1 r2 g n).2 m)
  | 0, m, _, _ => ⟨fun _ => (hl.rest m).1, fun _ _ => (hl.rest m).2⟩
  | n + 1, m, h0, h1 => by
    have E : ∀ m, 0 ≤ m → m ≤ len → ((n + 1 : ℕ) : ℤ) + m ≤ 2 * len → e (n+1) m = (endless r1 r2 g (n+1)).1 m := by
      intro m h0 h1 hm
      push_cast at hm
      by_cases hz : m = 0
      · subst hz; rw [hl.entry]; simp [endless]
      · by_cases hlen : m = len
        · subst hlen
          rw [hl.ending (n+1) (by push_cast; omega)]
          exact ((endless_ahead r1 r2 g (n+1) m (by push_cast; omega)).2 (by omega)).symm
        · rw [hl.electric n m (by omega) (by omega), (as_if_endless hl n m h0 h1).1 (by omega),
            (as_if_endless hl n m h0 h1).2 (by omega) (by omega),
            (as_if_endless hl n (m-1) (by omega) (by omega)).2 (by omega) (by omega)]
          simp only [endless]
          rw [if_neg hz]
    refine ⟨E m h0 h1, fun hm hn => ?_⟩
    push_cast at hn
    rw [hl.magnetic n m h0 hm, E (m+1) (by omega) (by omega) (by push_cast; omega), E m h0 h1 (by push_cast; omega),
      (as_if_endless hl n m h0 h1).2 hm (by omega)]
    rfl

/-! ### From the file -/

def pwOf : Deck.Card → Option PwItem
  | .pw c delay => some ⟨c.bbox, c.name, pwActive c, c.theta, c.phi, c.eta, ((if c.numScanned ≥ 13 then c.size else 1 : ℚ) : ℝ), delay, c.waveform⟩
  | _ => none

theorem card_pws {s t : Deck.State} {x : Deck.Card} (h : s.card x = some t) : t.pws = s.pws ++ (pwOf x).toList := by
  cases x with
  | pw c d =>
    simp only [State.card] at h
    split at h <;> simp at h
    subst h
    simp [pwOf]
  | _ =>
    simp only [State.card] at h
    (repeat' split at h) <;> simp at h <;> subst h <;> simp [pwOf]

/-- The plane waves of a run are those of the `PW` cards, in order. -/
theorem read_pws : ∀ (r : List Deck.Card) {s s' : Deck.State}, Deck.read s r = some s' → s'.pws = s.pws ++ r.filterMap pwOf
  | [], s, s', h => by simp [Deck.read] at h; subst h; simp
  | x :: r, s, s', h => by
    rw [C47.read_cons] at h
    obtain ⟨t, ht, h⟩ := Option.bind_eq_some_iff.1 h
    rw [read_pws r h, card_pws ht, C64.filterMap_cons_toList, List.append_assoc]

def Plain : Med → Prop | .debye .. => False | _ => True
def NoSheet : Bnd → Prop | .sibc _ => False | _ => True

/-- Lists without sources, dispersive media and sheets. -/
structure Bare (s : Deck.State) : Prop where
  media : ∀ x ∈ s.media, Plain x.2
  bnds : ∀ x ∈ s.bnds, NoSheet x.2
  blocks : ∀ x ∈ s.blocks, Plain x.med
  surfs : ∀ x ∈ s.surfs, NoSheet x.bnd
  srcs : s.srcs = []

def BareCard : Deck.Card → Prop
  | .mt _ m => Plain m
  | .bt _ b => NoSheet b
  | .ex .. => False
  | _ => True

theorem bare_card {s t : Deck.State} {x : Deck.Card} (h : s.card x = some t) (hx : BareCard x) (hs : Bare s) : Bare t := by
  cases x with
  | mt n m =>
    simp only [State.card] at h
    split at h <;> simp at h
    subst h
    refine ⟨fun y hy => ?_, hs.bnds, hs.blocks, hs.surfs, hs.srcs⟩
    rcases List.mem_append.1 hy with hy | hy
    · exact hs.media y hy
    · rw [List.mem_singleton] at hy; subst hy; exact hx
  | bt n m =>
    simp only [State.card] at h
    split at h <;> simp at h
    subst h
    refine ⟨hs.media, fun y hy => ?_, hs.blocks, hs.surfs, hs.srcs⟩
    rcases List.mem_append.1 hy with hy | hy
    · exact hs.bnds y hy
    · rw [List.mem_singleton] at hy; subst hy; exact hx
  | ex => exact absurd hx id
  | mb c =>
    simp only [State.card] at h
    split at h
    · simp at h
    · rename_i m hm
      split at h <;> simp at h
      subst h
      refine ⟨hs.media, hs.bnds, fun y hy => ?_, hs.surfs, hs.srcs⟩
      rcases List.mem_append.1 hy with hy | hy
      · exact hs.blocks y hy
      · rw [List.mem_singleton] at hy; subst hy; exact hs.media _ (C64.find_pair hm)
  | tb c =>
    simp only [State.card] at h
    split at h
    · simp at h
    · rename_i m hm
      split at h <;> simp at h
      subst h
      refine ⟨hs.media, hs.bnds, hs.blocks, fun y hy => ?_, hs.srcs⟩
      rcases List.mem_append.1 hy with hy | hy
      · exact hs.surfs y hy
      · rw [List.mem_singleton] at hy; subst hy; exact hs.bnds _ (C64.find_pair hm)
  | _ =>
    simp only [State.card] at h
    (repeat' split at h) <;> simp at h <;> subst h <;> exact ⟨hs.media, hs.bnds, hs.blocks, hs.surfs, hs.srcs⟩

theorem bare_read : ∀ (r : List Deck.Card) {s s' : Deck.State}, Deck.read s r = some s' → (∀ x ∈ r, BareCard x) → Bare s → Bare s'
  | [], s, s', h, _, hs => by simp [Deck.read] at h; subst h; exact hs
  | x :: r, s, s', h, hx, hs => by
    rw [C47.read_cons] at h
    obtain ⟨t, ht, h⟩ := Option.bind_eq_some_iff.1 h
    exact bare_read r h (fun y hy => hx y (by simp [hy])) (bare_card ht (hx x (by simp)) hs)

theorem bare_stored {f : File} {s : Deck.State} {p : PWCard} {delay : ℝ} (ho : OneWave f.cards p delay) (h : f.stored = some s) :
    Bare s := by
  obtain ⟨m, -, hr⟩ := Option.bind_eq_some_iff.1 h
  refine bare_read _ hr (fun x hx => ?_) ⟨?_, ?_, ?_, ?_, rfl⟩
  · cases x with
    | mt n m => cases m with
      | debye e s u q => exact ho.media _ _ _ _ _ hx
      | _ => trivial
    | bt n b => cases b with
      | sibc pr => exact ho.sheets _ _ hx
      | _ => trivial
    | ex => exact ho.sources _ _ _ _ _ _ _ _ hx
    | _ => trivial
  · intro x hx; simp [State.init] at hx; rcases hx with rfl | rfl <;> trivial
  · intro x hx; simp [State.init] at hx; rcases hx with rfl | rfl | rfl <;> trivial
  · intro x hx; simp [State.init] at hx
  · intro x hx; simp [State.init] at hx

theorem pws_stored {f : File} {s : Deck.State} (h : f.stored = some s) : s.pws = f.cards.filterMap pwOf := by
  obtain ⟨m, -, hr⟩ := Option.bind_eq_some_iff.1 h
  rw [read_pws _ hr]; simp [State.init]

theorem pws_one {f : File} {s : Deck.State} {p : PWCard} {delay : ℝ} (ho : OneWave f.cards p delay) (h : f.stored = some s) :
    s.pws = [⟨p.bbox, p.name, pwActive p, p.theta, p.phi, p.eta, (cardSize p : ℝ), delay, p.waveform⟩] := by
  obtain ⟨pre, post, e, hn⟩ := ho.one
  have no : ∀ r : List Deck.Card, (∀ q t, Deck.Card.pw q t ∉ r) → r.filterMap pwOf = [] := by
    intro r hr
    rw [List.filterMap_eq_nil_iff]
    intro x hx
    cases x with
    | pw q t => exact absurd hx (hr q t)
    | _ => rfl
  rw [pws_stored h, e, List.filterMap_append, no pre fun q t => (hn q t).1, C64.filterMap_cons_toList,
    no post fun q t => (hn q t).2]
  rfl

/-- The faces of a plane wave that act are those its card switches on. -/
theorem active_iff {mbox : BBox} {known waves : String → Bool} {p : PWCard} (h : parsePW mbox known waves p = true) (f : Face) :
    pwActive p f = true ↔ FaceOn p f := by
  unfold pwActive FaceOn
  by_cases hn : p.numScanned < 12
  · rw [if_pos hn]; simp [hn]
  · rw [if_neg hn]
    simp only [hn, false_or]
    simp only [parsePW, Bool.and_eq_true, Bool.or_eq_true, decide_eq_true_eq] at h
    obtain ⟨-, hm⟩ := h.1.2.resolve_left hn
    obtain ⟨act, ha⟩ := Option.isSome_iff_exists.1 hm
    rw [ha, (C06.decodeFaceMask_iff _ _).1 ha]
    simp only [Option.getD_some, C06.maskString, Face.all, List.map_cons, List.map_nil]
    cases f <;> simp <;> (split <;> simp_all)

variable {k : Consts} {J : Junk} {X : Experiment} {R : Setup.Run} {p : PWCard} {delay d : ℝ}

/-- Lengths on an even mesh. -/
theorem even_edges (h : setup k J X = some R) (he : EvenMesh X d) (a : Axis) (i : Int)
    (h1 : R.cfg.gobox a.lo - 1 ≤ i) (h2 : i ≤ R.cfg.gobox a.hi) : (edges k J X R.cfg a).de i = d := by
  obtain ⟨hv, hn, -⟩ := run_parts h
  unfold edges
  rw [C18.edge_lengths R.cfg hv a (X.lines a) k.big (J.edges a) i h1 h2]
  unfold C18.cellSize C18.nearestCell
  have := hv.cells a
  exact he a _ (by omega) (by rw [← hn]; omega)

theorem even_ide (h : setup k J X = some R) (he : EvenMesh X d) (a : Axis) (i : Int)
    (h1 : R.cfg.gobox a.lo ≤ i) (h2 : i ≤ R.cfg.gobox a.hi) :
    (edges k J X R.cfg a).ide i = 1 / d ∧ (edges k J X R.cfg a).idh i = 1 / d := by
  obtain ⟨hv, hn, -⟩ := run_parts h
  obtain ⟨r1, r2⟩ := C18.reciprocals R.cfg hv a (X.lines a) k.big (J.edges a) i (by omega) h2
  have e1 := even_edges h he a i (by omega) h2
  have e2 := even_edges h he a (i-1) (by omega) (by omega)
  have e3 := C18.dual_edges R.cfg hv a (X.lines a) k.big (J.edges a) i h1 h2
  unfold edges at e1 e2 ⊢
  refine ⟨by rw [r1, e1], ?_⟩
  rw [r2, e3, e1, e2]
  congr 1; ring

theorem span (c : Cfg) (hv : ValidCfg c) (a : Axis) : c.gobox a.lo ≤ c.gibox a.lo ∧ c.gibox a.hi ≤ c.gobox a.hi ∧
    c.gibox a.hi = c.gibox a.lo + c.n a := by
  have h1 := C07.layers_nonneg hv a.lo
  have h2 := C07.layers_nonneg hv a.hi
  refine ⟨?_, ?_, ?_⟩ <;>
    cases a <;> simp [Axis.lo, Axis.hi, Cfg.gibox, Cfg.gobox, Cfg.giboxLo, Cfg.giboxHi, Cfg.goboxHi, Cfg.numLines] at * <;> omega

theorem even_cubic (h : setup k J X = some R) (he : EvenMesh X d) (ht : 0 < k.tol) : gridType k J X R.cfg = .cubic ∧
    duni k J X R.cfg = fun _ => d := by
  obtain ⟨hv, hn, -⟩ := run_parts h
  have hd : ∀ a : Axis, de k J X R.cfg a (R.cfg.gibox a.lo) = d := fun a => by
    have s := span R.cfg hv a
    have := hv.cells a
    exact even_edges h he a _ (by omega) (by omega)
  have e : gridType k J X R.cfg = .cubic := by
    unfold gridType
    rw [C18.cubic_iff]
    · have x := hd .x; have y := hd .y; have z := hd .z
      simp only [Axis.lo] at x y z
      rw [x, y, z]
      simp [ht]
    · intro a i h1 h2
      have s := span R.cfg hv a
      show |(edges k J X R.cfg a).de i - (edges k J X R.cfg a).de (i-1)| ≤ k.tol
      rw [even_edges h he a i (by omega) (by omega), even_edges h he a (i-1) (by omega) (by omega)]
      simp [ht.le]
  refine ⟨e, ?_⟩
  funext a
  unfold duni
  rw [e]
  simp [hd]

/-- The time step on an even mesh. -/
theorem even_step (hk : Physical k) (h : setup k J X = some R) (he : EvenMesh X d) (hd : 0 < d) (hb : d < k.big) (hcn : 0 < X.cn) :
    0 < R.dt ∧ (k.c0 * R.dt) ^ 2 * 3 = X.cn ^ 2 * d ^ 2 := by
  obtain ⟨hv, hn, -, hdt, -⟩ := run_parts h
  have hl : ∀ a : Axis, C18.Increasing (R.cfg.n a) (X.lines a) := fun a m h0 h1 => by
    have := he a m h0 (by rw [← hn]; exact h1); linarith
  have hmin : ∀ a : Axis, (edges k J X R.cfg a).dmin = d := fun a => by
    obtain ⟨⟨m, h0, h1, e⟩, -⟩ := (C18.smallest_largest R.cfg hv a (X.lines a) k.big (J.edges a) (hl a)
      (fun m h0 h1 => by
        have := he a m h0 (by rw [← hn]; exact h1)
        unfold C18.cellSize; linarith)).1
    unfold edges
    rw [e]
    exact he a m h0 (by rw [← hn]; exact h1)
  have ts := C18.time_step_courant X.cn k.c0 hk.c0 hcn (fun a => (edges k J X R.cfg a).dmin) (fun a => by rw [hmin]; exact hd)
  rw [hdt]
  refine ⟨ts.1, ?_⟩
  have t := ts.2.1
  simp only [hmin] at t
  unfold Setup.dt
  simp only [hmin]
  rw [← t]
  field_simp
  ring

theorem wave_accepted (h : setup k J X = some R) (hp : Deck.Card.pw p delay ∈ X.file.cards) :
    ∃ known waves, parsePW (mkBox 0 X.file.nx 0 X.file.ny 0 X.file.nz) known waves p = true := by
  obtain ⟨-, -, -, -, -, -, hst, -⟩ := run_parts h
  obtain ⟨u, v, huv, hm⟩ := C64.accepted hst hp
  simp only [State.card] at huv
  split at huv
  · rename_i hpw; rw [hm] at hpw; exact ⟨_, _, hpw⟩
  · simp at huv

theorem one_mem {cards : List Deck.Card} (ho : OneWave cards p delay) : Deck.Card.pw p delay ∈ cards := by
  obtain ⟨pre, post, e, -⟩ := ho.one
  rw [e]; simp

/-- The items of the run: one wave on the box of the card. -/
theorem one_sim (h : setup k J X = some R) (ho : OneWave X.file.cards p delay) :
    ∃ q0, ijk0 p.theta p.phi (place R.cfg p.bbox) = some q0 ∧ R.sim = oneWave R.cfg ⟨place R.cfg p.bbox, pwActive p,
      if gridType k J X R.cfg == .cubic then some (auxGridOf p.theta p.phi (place R.cfg p.bbox) q0) else none⟩ := by
  obtain ⟨-, -, -, -, -, -, hst, pws, hpw, hS⟩ := run_parts h
  have hb := bare_stored ho hst
  rw [pws_one ho hst] at hpw
  simp only [List.mapM_cons, List.mapM_nil, pwItem, Option.pure_def, Option.bind_eq_bind] at hpw
  obtain ⟨w, hw, e⟩ := Option.bind_eq_some_iff.1 hpw
  obtain ⟨q0, hq, rfl⟩ := Option.map_eq_some_iff.1 hw
  simp only [Option.bind_some, Option.some.injEq] at e
  refine ⟨q0, hq, ?_⟩
  rw [hS, ← e, hb.srcs]
  have e1 : debyeItems R.cfg R.state.blocks = [] := by
    unfold debyeItems
    rw [List.filterMap_eq_nil_iff]
    intro b hbm
    have := hb.blocks b hbm
    cases hm : b.med <;> simp [hm, Plain] at this ⊢
  have e2 : sibcItems R.cfg R.state.surfs = [] := by
    unfold sibcItems
    rw [List.filterMap_eq_nil_iff]
    intro b hbm
    have := hb.surfs b hbm
    cases hm : b.bnd <;> simp [hm, NoSheet] at this ⊢
  rw [e1, e2]
  rfl

theorem finc_e (eta0 size theta phi eta : ℝ) (a : Axis) :
    finc eta0 size theta phi eta a.e = size * polarised theta phi eta a := by
  have h : ∀ t : ℝ, t * Real.pi / 180 = rad t := fun t => by unfold rad; ring
  cases a <;> simp only [finc, Axis.e, polarised, phiHat, thetaHat, h] <;> ring

theorem finc_h (eta0 size theta phi eta : ℝ) (h0 : 0 < eta0) (hs : 0 ≤ size) (a : Axis) :
    eta0 * finc eta0 size theta phi eta a.h = size * cross (direction theta phi) (polarised theta phi eta) a := by
  have this : cross (kinc theta phi) (C30.E0 eta0 size theta phi eta) a = eta0 * finc eta0 size theta phi eta a.h :=
    (C30.uniform_wave eta0 size theta phi eta h0 hs).right_handed a
  rw [← this, C30.direction_of_angles]
  have hh : ∀ b : Axis, finc eta0 size theta phi eta b.e = size * polarised theta phi eta b := finc_e eta0 size theta phi eta
  have hx := hh .x; have hy := hh .y; have hz := hh .z
  simp only [Axis.e] at hx hy hz
  cases a <;> simp only [cross, C30.E0, hx, hy, hz] <;> ring

theorem in_box_place (c : Cfg) (b : BBox) {fc : Fc} {i j l : Int} :
    SampleIn (place c b) fc (i + c.gibox .xlo) (j + c.gibox .ylo) (l + c.gibox .zlo) ↔ SampleIn b fc i j l := by
  cases fc <;> simp [SampleIn, place, offsetBoundingBox, pos2] <;> omega

theorem placed (c : Cfg) (b : BBox) (a : Axis) : place c b a.lo = b a.lo + c.gibox a.lo ∧ place c b a.hi = b a.hi + c.gibox a.lo := by
  cases a <;> simp [place, offsetBoundingBox, Axis.lo, Axis.hi]

/-- Free space in the box. -/
theorem free_box (h : setup k J X = some R) (hord : OrdinaryBlocks X.file.cards) (he : EvenMesh X d)
    (hi : InsideMesh X p.bbox) (hv : EmptyBox X p.bbox) :
    FreeCubic R.coefs (place R.cfg p.bbox) R.dt k.eps0 k.mu0 d := by
  obtain ⟨hvc, hn, hbt, hdt, hC, -⟩ := run_parts h
  have med : ∀ fc i j l, SampleIn (place R.cfg p.bbox) fc i j l →
      mediaArrays R.cfg (medSetup k J X R.cfg R.state) J.med fc i j l = ⟨1, R.dt / k.eps0, R.dt / k.mu0⟩ := by
    intro fc i j l hs
    have e : ∀ x y : Int, x = x - y + y := fun x y => by ring
    rw [e i (R.cfg.gibox .xlo), e j (R.cfg.gibox .ylo), e l (R.cfg.gibox .zlo)] at hs ⊢
    have hs' := (in_box_place R.cfg p.bbox).1 hs
    have hm : SampleIn (meshBox X) fc (i - R.cfg.gibox .xlo) (j - R.cfg.gibox .ylo) (l - R.cfg.gibox .zlo) := by
      have hx := hi .x; have hy := hi .y; have hz := hi .z
      simp only [Axis.lo, Axis.hi, cellsOf] at hx hy hz
      obtain ⟨a1, a2, a3⟩ := hs'
      refine ⟨?_, ?_, ?_⟩
      · simp only [meshBox, mkBox]
        split_ifs at hx <;> omega
      · simp only [meshBox, mkBox]
        split_ifs at hy <;> omega
      · simp only [meshBox, mkBox]
        split_ifs at hz <;> omega
    obtain ⟨s, hs1, hs2⟩ := C64.coefficients h hord hm
    rw [C64.made_unique h hord hs1 (hv _ _ _ _ hs')] at hs2
    exact hs2
  have sp := fun a => span R.cfg hvc a
  have pl := placed R.cfg p.bbox
  have ins : ∀ a : Axis, R.cfg.gobox a.lo ≤ place R.cfg p.bbox a.lo ∧ place R.cfg p.bbox a.hi ≤ R.cfg.gobox a.hi := by
    intro a
    have h1 := hi a
    obtain ⟨s1, s2, s3⟩ := sp a
    obtain ⟨p1, p2⟩ := pl a
    rw [hn] at s3
    rw [p1, p2]
    split_ifs at h1 <;> omega
  rw [hC]
  refine ⟨fun a i j l hs => ?_, fun a i j l hs => ?_, fun a i j l hs => ?_, fun a i h1 h2 => ?_, fun a i h1 h2 => ?_⟩
  · show (mediaArrays R.cfg (medSetup k J X R.cfg R.state) J.med a.e i j l).alpha = 1
    rw [med _ _ _ _ hs]
  · show (mediaArrays R.cfg (medSetup k J X R.cfg R.state) J.med a.e i j l).beta = _
    rw [med _ _ _ _ hs]
  · show (mediaArrays R.cfg (medSetup k J X R.cfg R.state) J.med a.h i j l).gamma = _
    rw [med _ _ _ _ hs]
  · exact (even_ide h he a i (by have := ins a; omega) (by have := ins a; omega)).2
  · exact (even_ide h he a i (by have := ins a; omega) (by have := ins a; omega)).1

theorem card_sizes (h : setup k J X = some R) (hp : Deck.Card.pw p delay ∈ X.file.cards) :
    0 ≤ cardSize p ∧ anglesOk p.theta p.phi p.eta := by
  obtain ⟨known, waves, hq⟩ := wave_accepted h hp
  simp only [parsePW, Bool.and_eq_true, Bool.not_eq_true', Bool.or_eq_false_iff, decide_eq_false_iff_not, Bool.and_eq_false_iff,
    decide_eq_true_eq] at hq
  obtain ⟨⟨⟨⟨⟨⟨⟨⟨⟨-, -⟩, hb⟩, -⟩, -⟩, ht⟩, hf⟩, he⟩, -⟩, hz⟩ := hq
  refine ⟨?_, ?_⟩
  · unfold cardSize
    split_ifs with h13
    · rcases hz with hz | hz
      · exact absurd h13 hz
      · exact not_lt.1 hz
    · norm_num
  · refine ⟨?_, ?_, ?_⟩
    · rintro (h1 | h1)
      · exact ht.1 (by exact_mod_cast h1)
      · exact ht.2 (by exact_mod_cast h1)
    · rintro (h1 | h1)
      · exact hf.1 (by exact_mod_cast h1)
      · exact hf.2 (by exact_mod_cast h1)
    · rintro (h1 | h1)
      · exact he.1 (by exact_mod_cast h1)
      · exact he.2 (by exact_mod_cast h1)

/-- C71: in a mesh file with one plane wave that travels along an axis of an even mesh, with all faces of its box switched on
and the box empty, the field is zero at every sample outside the box, in every step, whatever stands there; inside, it is the
uniform wave of the card: nothing along the direction of travel, and across it the amplitude and polarisation of the card times a
wave on a line of cells that starts two cells before the box and is fed with the waveform of the card, less its delay. -/
theorem beam (hk : Physical k) (h0 : 0 < k.eta0) (ht : 0 < k.tol) (h : setup k J X = some R)
    (ho : OneWave X.file.cards p delay) (hon : ∀ f, FaceOn p f) (hord : OrdinaryBlocks X.file.cards)
    (hd : 0 < d) (hb : d < k.big) (he : EvenMesh X d) (hcn : 1 / 2 ≤ X.cn) (hi : InsideMesh X p.bbox) (hvac : EmptyBox X p.bbox)
    {a : Axis} {up : Bool} (hdir : direction p.theta p.phi a = if up then 1 else -1) :
    ∃ (len : ℤ) (e h : ℕ → ℤ → ℝ), p.bbox a.hi - p.bbox a.lo + 6 ≤ len ∧
      LineWave (R.dt / (k.eps0 * d)) (R.dt / (k.mu0 * d)) len
        (fun n => waveValue R.dt (X.waves p.waveform) (n * R.dt - delay)) e h ∧
      ∀ n (fc : Fc) (i j l : Int),
        let v := R.fields n (.fld fc (i + R.cfg.gibox .xlo) (j + R.cfg.gibox .ylo) (l + R.cfg.gibox .zlo))
        (¬ SampleIn p.bbox fc i j l → v = 0) ∧
        (SampleIn p.bbox fc i j l →
          ((fc = a.e ∨ fc = a.h) → v = 0) ∧
          ∀ b : Axis, b ≠ a → ∀ m : ℤ,
            (fc = b.e → travelled p.bbox a up fc i j l = 2 * (m - 2) →
              v = cardSize p * polarised p.theta p.phi p.eta b * e n m) ∧
            (fc = b.h → travelled p.bbox a up fc i j l = 2 * (m - 2) + 1 →
              v = cardSize p * cross (direction p.theta p.phi) (polarised p.theta p.phi p.eta) b * h n m)) := by
  obtain ⟨hv, hn, hbt, hdt, hC, hD, hst, -⟩ := run_parts h
  obtain ⟨q0, hq, hS⟩ := one_sim h ho
  obtain ⟨hcub, hdu⟩ := even_cubic h he ht
  obtain ⟨hsz, hang⟩ := card_sizes h (one_mem ho)
  have hbord : ∀ a : Axis, p.bbox a.lo ≤ p.bbox a.hi := fun a => (hi a).2.1
  have hszR : (0 : ℝ) ≤ (cardSize p : ℝ) := by exact_mod_cast hsz
  obtain ⟨hT, hcd⟩ := even_step hk h he hd hb (by linarith)
  have hrel : d ≤ 7 / 2 * (k.c0 * R.dt) := by
    have hx : 0 < k.c0 * R.dt := mul_pos hk.c0 hT
    nlinarith [sq_nonneg (X.cn - 1 / 2), mul_pos hd hd]
  rw [hcub] at hS
  simp only [beq_self_eq_true, if_true] at hS
  obtain ⟨known, waves, hacc⟩ := wave_accepted h (one_mem ho)
  obtain ⟨w, hw⟩ : ∃ w : PW, w = ⟨place R.cfg p.bbox, pwActive p, some (auxGridOf p.theta p.phi (place R.cfg p.bbox) q0)⟩ := ⟨_, rfl⟩
  have hact : ∀ f, w.active f = true := fun f => by rw [hw]; exact (active_iff hacc f).2 (hon f)
  have hbox : w.gbbox = place R.cfg p.bbox := by rw [hw]
  rw [← hw] at hS
  have hpl := placed R.cfg p.bbox
  have hclear : ClearOf R.cfg w.gbbox := by
    intro a
    rw [hbox, (hpl a).1, (hpl a).2, hbt]
    have h1 := hi a
    have h2 := hbord a
    have h3 := (span R.cfg hv a).2.2
    rw [hn] at h3
    refine ⟨by omega, by omega, by omega⟩
  have hfree : FreeCubic R.coefs w.gbbox R.dt k.eps0 k.mu0 d := by rw [hbox]; exact free_box h hord he hi hvac
  obtain ⟨σ, hσ, hσu⟩ : ∃ σ : ℤ, (σ = 1 ∨ σ = -1) ∧ σ = if up then 1 else -1 := by
    cases up
    · exact ⟨-1, Or.inr rfl, rfl⟩
    · exact ⟨1, Or.inl rfl, rfl⟩
  have hkinc : kinc p.theta p.phi a = σ := by
    rw [C30.direction_of_angles, hdir, hσu]
    cases up <;> norm_num
  have hitem : R.state.pws[0]? = some ⟨p.bbox, p.name, pwActive p, p.theta, p.phi, p.eta, (cardSize p : ℝ), delay, p.waveform⟩ := by
    rw [pws_one ho hst]; rfl
  have hrv : relPhaseVelocity k.c0 (Setup.dt k J X R.cfg) (duni k J X R.cfg) p.theta p.phi = 1 := by
    rw [hdu, ← hdt]
    exact rel_axis_one k.c0 R.dt d hk.c0 hT hd hrel p.theta p.phi hσ hkinc
  have hbeta : R.coefs (.auxBeta 0) = R.dt / (k.eps0 * d) := by
    rw [hC]
    show onCubic k J X R.cfg (ofWave R.state 0 _) = _
    unfold onCubic ofWave
    rw [if_pos hcub, hitem]
    simp only
    rw [hrv, hdu, ← hdt]
    unfold betaEyi; rw [div_one]
  have hgamma : R.coefs (.auxGamma 0) = R.dt / (k.mu0 * d) := by
    rw [hC]
    show onCubic k J X R.cfg (ofWave R.state 0 _) = _
    unfold onCubic ofWave
    rw [if_pos hcub, hitem]
    simp only
    rw [hrv, hdu, ← hdt]
    unfold gammaHzi; rw [div_one]
  have hset : AuxSetUp R.coefs w p.theta p.phi p.eta k.eta0 (cardSize p) R.dt k.eps0 k.mu0 d q0 := by
    refine ⟨hang, by rw [hw], by rw [hbox]; exact hq, ?_, ?_, ?_⟩
    · intro hi' fc i j l
      rw [hC]
      show waveWeight k R.cfg R.state 0 hi' fc i j l = _
      unfold waveWeight ofWave
      rw [hitem]
      simp only
      rw [hq]
      rfl
    · rw [hbeta]; unfold betaEyi; rw [div_one]
    · rw [hgamma]; unfold gammaHzi; rw [div_one]
  have haux : w.aux = some (auxGridOf p.theta p.phi w.gbbox q0) := hset.aux
  have hxb : (auxGridOf p.theta p.phi w.gbbox q0).xb = 6 + ⌊diagonal w.gbbox⌋ := xb_eq _ _ _ _
  have hfl : w.gbbox a.hi - w.gbbox a.lo ≤ ⌊diagonal w.gbbox⌋ :=
    Int.le_floor.2 (side_le_diagonal w.gbbox a (by have := hclear a; omega))
  have hside : p.bbox a.hi - p.bbox a.lo ≤ ⌊diagonal w.gbbox⌋ := by
    rw [hbox, (hpl a).1, (hpl a).2, ← hbox] at hfl; omega
  have hlen : p.bbox a.hi - p.bbox a.lo + 6 ≤ (auxGridOf p.theta p.phi w.gbbox q0).xb := by rw [hxb]; omega
  have hwav : ∀ n, R.drive n (.wav 0) = waveValue R.dt (X.waves p.waveform) (n * R.dt - delay) := by
    intro n
    rw [hD]
    show (match (gridType k J X R.cfg == .cubic), R.state.pws[0]? with
      | true, some x => (env k J X R.cfg).wave x.wave (time (env k J X R.cfg).dt false n - x.delay)
      | _, _ => 0) = _
    rw [hitem, hcub]
    simp only [beq_self_eq_true]
    rw [hdt]
    simp [env, time]
  have lw := line_wave (C := R.coefs) (c := R.cfg) haux (by have := hbord a; omega) R.drive
  rw [hbeta, hgamma] at lw
  simp only [hwav] at lw
  refine ⟨_, _, _, hlen, lw, ?_⟩
  intro n fc i j l
  -- where the wave enters
  have hq0 : q0 a = (if up then p.bbox a.lo else p.bbox a.hi) + R.cfg.gibox a.lo := by
    have hq' := hq
    unfold ijk0 at hq'
    obtain ⟨o, ho', e⟩ := Option.map_eq_some_iff.1 hq'
    have e' : q0 a = place R.cfg p.bbox (o a) := by rw [← e]
    rcases C30.corner_sign p.theta p.phi p.eta hang o ho' a with ⟨hf, hk'⟩ | ⟨hf, hk'⟩
    · rw [e', hf, (hpl a).1]
      cases up
      · rw [hkinc, hσu] at hk'; norm_num at hk'
      · rfl
    · rw [e', hf, (hpl a).2]
      cases up
      · rfl
      · rw [hkinc, hσu] at hk'; norm_num at hk'
  have sep := axis_wave_separated hset hv hact hclear hfree h0 hszR hσ hkinc R.drive n fc
    (i + R.cfg.gibox .xlo) (j + R.cfg.gibox .ylo) (l + R.cfg.gibox .zlo)
  have hR : R.fields n = (oneWave R.cfg w).state R.coefs R.drive (fun _ => 0) n := by unfold Run.fields; rw [hS]
  rw [hbox, in_box_place, ← hR] at sep
  refine ⟨sep.1, fun hin => ⟨?_, ?_⟩⟩
  · obtain ⟨-, -, ne, nh⟩ := wave_n hset h0 hszR hσ hkinc
    rintro (rfl | rfl)
    · rw [sep.2 hin]; exact ne _ _ _ _
    · rw [sep.2 hin]; exact nh _ _ _ _
  · intro b hba m
    have tr : trip (i + R.cfg.gibox .xlo) (j + R.cfg.gibox .ylo) (l + R.cfg.gibox .zlo) a = trip i j l a + R.cfg.gibox a.lo := by
      cases a <;> rfl
    have sp : ∀ fc, samplePos fc i j l a = pos2 fc a (trip i j l a) := fun fc => by cases a <;> rfl
    refine ⟨?_, ?_⟩
    · rintro rfl hm
      rw [sep.2 hin, wave_e hset hσ hkinc hba, finc_e, tr, hq0, hR]
      have hp : pos2 b.e a (trip i j l a) = 2 * trip i j l a := by
        cases a <;> cases b <;> first | rfl | exact absurd rfl hba
      have hidx : eIdx σ (trip i j l a + R.cfg.gibox a.lo) ((if up then p.bbox a.lo else p.bbox a.hi) + R.cfg.gibox a.lo) = m := by
        unfold travelled at hm
        rw [sp, hp] at hm
        unfold eIdx
        rw [hσu]
        cases up <;> simp at hm ⊢ <;> omega
      rw [hidx]
    · rintro rfl hm
      rw [sep.2 hin, wave_h hset hσ hkinc hba, finc_h _ _ _ _ _ h0 hszR, tr, hq0, hR]
      have hp : pos2 b.h a (trip i j l a) = 2 * trip i j l a + 1 := by
        cases a <;> cases b <;> first | rfl | exact absurd rfl hba
      have hidx : hIdx σ (trip i j l a + R.cfg.gibox a.lo) ((if up then p.bbox a.lo else p.bbox a.hi) + R.cfg.gibox a.lo) = m := by
        unfold travelled at hm
        rw [sp, hp] at hm
        unfold hIdx
        rw [hσu]
        cases up <;> simp at hm ⊢ <;> omega
      rw [hidx]

/-- C71: until well after the wave has crossed the box, the fields in it are exactly those of a line of cells without end. -/
theorem beam_early (hk : Physical k) (h0 : 0 < k.eta0) (ht : 0 < k.tol) (h : setup k J X = some R)
    (ho : OneWave X.file.cards p delay) (hon : ∀ f, FaceOn p f) (hord : OrdinaryBlocks X.file.cards)
    (hd : 0 < d) (hb : d < k.big) (he : EvenMesh X d) (hcn : 1 / 2 ≤ X.cn) (hi : InsideMesh X p.bbox) (hvac : EmptyBox X p.bbox)
    {a : Axis} {up : Bool} (hdir : direction p.theta p.phi a = if up then 1 else -1) {n : ℕ}
    (hn : (n : ℤ) ≤ p.bbox a.hi - p.bbox a.lo + 10) {fc : Fc} {i j l : Int} (hin : SampleIn p.bbox fc i j l)
    {b : Axis} (hba : b ≠ a) {m : ℤ} :
    let v := R.fields n (.fld fc (i + R.cfg.gibox .xlo) (j + R.cfg.gibox .ylo) (l + R.cfg.gibox .zlo))
    let line := endless (R.dt / (k.eps0 * d)) (R.dt / (k.mu0 * d)) (fun n => waveValue R.dt (X.waves p.waveform) (n * R.dt - delay)) n
    (fc = b.e → travelled p.bbox a up fc i j l = 2 * (m - 2) → v = cardSize p * polarised p.theta p.phi p.eta b * line.1 m) ∧
    (fc = b.h → travelled p.bbox a up fc i j l = 2 * (m - 2) + 1 →
      v = cardSize p * cross (direction p.theta p.phi) (polarised p.theta p.phi p.eta) b * line.2 m) := by
  obtain ⟨len, e, hh, hlen, lw, hv⟩ := beam hk h0 ht h ho hon hord hd hb he hcn hi hvac hdir
  have hv := ((hv n fc i j l).2 hin).2 b hba m
  have hbo := (hi a).2.1
  have co := in_coord hin a
  have sp : ∀ fc, samplePos fc i j l a = pos2 fc a (trip i j l a) := fun fc => by cases a <;> rfl
  refine ⟨fun hf hm => ?_, fun hf hm => ?_⟩
  · rw [hv.1 hf hm]
    have hm2 : 2 ≤ m ∧ m ≤ p.bbox a.hi - p.bbox a.lo + 2 := by
      unfold travelled at hm
      rw [sp] at hm
      cases up <;> simp at hm <;> omega
    rw [((as_if_endless lw n m (by omega) (by omega)).1 (by omega))]
  · rw [hv.2 hf hm]
    have hm2 : 2 ≤ m ∧ m ≤ p.bbox a.hi - p.bbox a.lo + 1 := by
      unfold travelled at hm
      rw [sp] at hm
      cases up <;> simp at hm <;> omega
    rw [((as_if_endless lw n m (by omega) (by omega)).2 (by omega) (by omega))]

/-! ### Faces switched off -/

/-- Fields and the arrays of absorbing layers. -/
def Held (l : Loc) : Prop := l.kind = .fld ∨ l.kind = .pml

section off
variable {C : CRef → ℝ} (c : Cfg)

theorem held_coreE : Keeps C Held (updatePmlEfield c ++ updateMurEfield c ++ updateGridEfield c) := by
  refine Keeps.append (Keeps.append ?_ ?_) ?_
  · refine Keeps.flatMap fun r _ => ?_
    unfold pmlRegionE
    split
    swap; · exact Keeps.nil
    refine Keeps.append (Keeps.append ?_ ?_) ?_ <;>
    · apply Keeps.loop
      intro i j k hi a ha _
      simp only [pmlExBlock, pmlEyBlock, pmlEzBlock, List.mem_cons, List.not_mem_nil, or_false] at ha
      rcases ha with rfl | rfl | rfl <;>
        simp [Expr.ZeroOn, curlHx, curlHy, curlHz, EX, EY, EZ, HX, HY, HZ, Held, PPr, Pr, Loc.kind]
  · refine Keeps.flatMap fun f _ => ?_
    split
    swap; · exact Keeps.nil
    refine Keeps.flatMap fun fc hfc => ?_
    apply Keeps.loop
    intro i j k hi a ha _
    simp only [murE, List.mem_singleton] at ha
    subst ha
    cases f <;> cases fc <;> simp [Expr.ZeroOn, inward, ampere, ampereX, ampereY, ampereZ, curlHx, curlHy, curlHz, EX, EY, EZ, HX, HY, HZ, Held, Loc.kind]
  · refine Keeps.append (Keeps.append ?_ ?_) ?_ <;>
    · apply Keeps.loop
      intro i j k _ a ha hz
      simp only [List.mem_singleton] at ha
      subst ha
      simp [Expr.ZeroOn, ampereX, ampereY, ampereZ, curlHx, curlHy, curlHz, EX, EY, EZ, HX, HY, HZ, Held, Loc.kind]

theorem held_coreH : Keeps C Held (updatePmlHfield c ++ updateMurHfield c ++ updateGridHfield c) := by
  refine Keeps.append (Keeps.append ?_ ?_) ?_
  · refine Keeps.flatMap fun r _ => ?_
    unfold pmlRegionH
    split
    swap; · exact Keeps.nil
    refine Keeps.append (Keeps.append ?_ ?_) ?_ <;>
    · apply Keeps.loop
      intro i j k hi a ha _
      simp only [pmlHxBlock, pmlHyBlock, pmlHzBlock, List.mem_cons, List.not_mem_nil, or_false] at ha
      rcases ha with rfl | rfl <;>
        simp [Expr.ZeroOn, curlEx, curlEy, curlEz, EX, EY, EZ, HX, HY, HZ, Held, Br, Loc.kind]
  · refine Keeps.flatMap fun f _ => ?_
    split
    swap; · exact Keeps.nil
    apply Keeps.loop
    intro i j k hi a ha hz
    simp only [List.mem_singleton] at ha
    subst ha
    cases f <;> simp [Expr.ZeroOn, murNormal, faraday, faradayX, faradayY, faradayZ, curlEx, curlEy, curlEz, EX, EY, EZ, HX, HY, HZ, Held, Loc.kind]
  · refine Keeps.append (Keeps.append ?_ ?_) ?_ <;>
    · apply Keeps.loop
      intro i j k _ a ha hz
      simp only [List.mem_singleton] at ha
      subst ha
      simp [Expr.ZeroOn, faradayX, faradayY, faradayZ, curlEx, curlEy, curlEz, EX, EY, EZ, HX, HY, HZ, Held, Loc.kind]

theorem held_ghost (comps : Face → List Fc) : Keeps C Held (Face.all.flatMap fun f => ghostFace c (comps f) f) := by
  refine Keeps.flatMap fun f _ => ?_
  have key : ∀ neg : Bool, Keeps C Held
      ((boxLoop (ghostFaceLim c f.axis (ghostTarget c f))).flatMap fun q =>
        (comps f).map fun fc => [⟨fldAt fc q, ghostVal neg (fldAt fc (setAx f.axis (ghostSource c f) q))⟩]) := by
    intro neg b' hb a ha _
    obtain ⟨⟨i, j, k⟩, hq, hb⟩ := List.mem_flatMap.1 hb
    obtain ⟨fc, hfc, rfl⟩ := List.mem_map.1 hb
    simp only [List.mem_singleton] at ha
    subst ha
    have : Held (fldAt fc (setAx f.axis (ghostSource c f) (i, j, k))) := Or.inl rfl
    cases neg <;> simpa [ghostVal, Expr.ZeroOn] using this
  unfold ghostFace
  cases e : c.bt f with
  | pml => exact Keeps.nil
  | mur => exact Keeps.nil
  | pec => exact key _
  | pmc => exact key _
  | periodic => exact key _

theorem held_aux {w : PW} : Keeps C Held (auxPartE w) ∧ Keeps C Held (auxPartH w) := by
  constructor
  · unfold auxPartE
    split
    · unfold auxE
      refine Keeps.of_writes fun b hb a ha => ?_
      simp only [List.mem_append, List.mem_map, List.mem_singleton] at hb
      rcases hb with (⟨i, hi, rfl⟩ | ⟨i, hi, rfl⟩) | rfl <;> simp at ha <;> (try rcases ha with rfl | rfl | rfl) <;>
        (try subst ha) <;> simp [Held, Loc.kind]
    · exact Keeps.nil
  · unfold auxPartH
    split
    · unfold auxH
      refine Keeps.of_writes fun b hb a ha => ?_
      simp only [List.mem_append, List.mem_map, List.mem_singleton] at hb
      rcases hb with ⟨i, hi, rfl⟩ | ⟨i, hi, rfl⟩ <;> simp at ha <;> (try rcases ha with rfl | rfl) <;>
        (try subst ha) <;> simp [Held, Loc.kind]
    · exact Keeps.nil

/-- With all faces off nothing enters the mesh. -/
theorem off_zero {w : PW} (hoff : ∀ f, w.active f = false) (u : ℕ → Loc → ℝ) : ∀ n l, Held l →
    (oneWave c w).state C u (fun _ => 0) n l = 0
  | 0, _, _ => rfl
  | n + 1, l, hl => by
    have tE : tableE c w = [] := by unfold tableE; simp [hoff]
    have tH : tableH c w = [] := by unfold tableH; simp [hoff]
    have kE : Keeps C Held (oneWave c w).stepE := by
      rw [stepE_eq, tE]
      exact (((held_coreE c).append held_aux.1).append Keeps.nil).append (held_ghost c ghostEcomps)
    have kH : Keeps C Held (oneWave c w).stepH := by
      rw [stepH_eq, tH]
      exact (((held_coreH c).append held_aux.2).append Keeps.nil).append (held_ghost c ghostHcomps)
    show ((oneWave c w).stepE ++ (oneWave c w).stepH).run C (setInputs (u n) _) l = 0
    refine (kE.append kH).run (fun l' hl' => ?_) l hl
    have hin : l'.isInput = false := by
      rcases hl' with k' | k' <;> cases l' <;> first | rfl | exact absurd k' (by simp [Loc.kind])
    unfold setInputs
    rw [hin]
    exact off_zero hoff u n l' hl'

end off

/-- C71: a wave whose faces are all switched off does not act at all: if it is the only excitation, all fields stay zero, on any
mesh. -/
theorem all_off_dark (h : setup k J X = some R) (ho : OneWave X.file.cards p delay) (hoff : ∀ f, ¬ FaceOn p f) (n : ℕ)
    (fc : Fc) (i j l : Int) : R.fields n (.fld fc i j l) = 0 := by
  obtain ⟨q0, hq, hS⟩ := one_sim h ho
  obtain ⟨known, waves, hacc⟩ := wave_accepted h (one_mem ho)
  unfold Run.fields
  rw [hS]
  refine off_zero R.cfg (fun f => ?_) R.drive n _ (Or.inl rfl)
  show pwActive p f = false
  rw [← Bool.not_eq_true, active_iff hacc f]
  exact hoff f

/-! ### A file -/

namespace Example

noncomputable def unit : Consts := ⟨1, 1, 1, 1, 1 / 1000, 10⟩
theorem unit_physical : Physical unit := ⟨by simp [unit], by simp [unit], by simp [unit]⟩

/-- A wave up the z axis, polarised along -y, half strength; a metal wall stands beside its box. `mask`: the mask on the card. -/
def card (mask : List Char) : PWCard := ⟨13, mkBox 3 5 3 5 3 5, "beam", "pulse", 0, 0, 0, mask, 1 / 2⟩
def cards (mask : List Char) : List Deck.Card :=
  [.wf "pulse", .mb ⟨8, mkBox 0 1 0 8 0 8, "PEC", "111111".toList⟩, .pw (card mask) 3]
def file (mask : List Char) : File := ⟨8, 8, 8, fun f => if f = .zhi then .pml else .mur, fun _ => 4, cards mask, false⟩
noncomputable def deck (mask : List Char) : Experiment :=
  ⟨file mask, fun _ i => (i : ℝ), 0.7, fun _ => ⟨4, 1, -1, 1⟩, fun _ => .builtin ⟨.gaussian, 1, -1, -1, -1⟩⟩

theorem accepted (mask : List Char) (hm : mask.length = 6 ∧ (decodeFaceMask mask).isSome = true) :
    parsePW (mkBox 0 8 0 8 0 8) (fun n => ([] : List String).contains n) (fun n => ["pulse"].contains n) (card mask) = true := by
  have h1 : parsePW (mkBox 0 8 0 8 0 8) (fun n => ([] : List String).contains n) (fun n => ["pulse"].contains n)
      (card "111111".toList) = true := by decide +kernel
  simp only [parsePW, card, Bool.and_eq_true] at h1 ⊢
  exact ⟨⟨h1.1.1, by simp [hm.1, hm.2]⟩, h1.2⟩

theorem runs (J : Junk) (mask : List Char) (hm : mask.length = 6 ∧ (decodeFaceMask mask).isSome = true) :
    ∃ R, setup unit J (deck mask) = some R := by
  obtain ⟨s, hs, hp⟩ : ∃ s, (file mask).stored = some s ∧ s.pws = [⟨mkBox 3 5 3 5 3 5, "beam", pwActive (card mask), ((0 : ℚ) : ℝ), ((0 : ℚ) : ℝ), ((0 : ℚ) : ℝ),
      ((if (card mask).numScanned ≥ 13 then (card mask).size else 1 : ℚ) : ℝ), 3, "pulse"⟩] := by
    have e : (file mask).stored = Deck.read (State.init (mkBox 0 8 0 8 0 8)) (cards mask) := rfl
    rw [e, cards]
    rw [C47.read_cons, C47.card_wf (by decide +kernel), Option.bind_some]
    rw [C47.read_cons, C47.card_mb (m := .pec) (by rfl) (by rfl), Option.bind_some]
    rw [C47.read_cons, C47.card_pw (accepted mask hm), Option.bind_some]
    exact ⟨_, rfl, rfl⟩
  obtain ⟨c, hc⟩ : ∃ c, initExternalSurfaceParameters (deck mask).file.cells (deck mask).file.bt (deck mask).file.layers = some c :=
    Option.isSome_iff_exists.1 (by
      show (initExternalSurfaceParameters (file []).cells (file []).bt (file []).layers).isSome = true
      decide +kernel)
  have hS : ∃ S, (fileOf unit J (deck mask) c).sim (Setup.de unit J (deck mask) c) (Setup.dh unit J (deck mask) c) = some S := by
    unfold File.sim
    have a1 : (fileOf unit J (deck mask) c).stored = some s := hs
    have a2 : initExternalSurfaceParameters (fileOf unit J (deck mask) c).cells (fileOf unit J (deck mask) c).bt (fileOf unit J (deck mask) c).layers = some c := hc
    have hq : ∃ q, PlaneWave.ijk0 ((0 : ℚ) : ℝ) ((0 : ℚ) : ℝ) (place c (mkBox 3 5 3 5 3 5)) = some q := by
      simp only [PlaneWave.ijk0, PlaneWave.originCorner]
      norm_num
    obtain ⟨q, hq⟩ := hq
    rw [a1, Option.bind_some, a2, Option.bind_some, hp]
    simp only [List.mapM_cons, List.mapM_nil, pwItem, hq, Option.map_some, Option.pure_def, Option.bind_eq_bind, Option.bind_some]
    exact ⟨_, rfl⟩
  obtain ⟨S, hS⟩ := hS
  exact ⟨_, Scaling.setup_of hc hs hS⟩

theorem one (mask : List Char) : OneWave (deck mask).file.cards (card mask) 3 := by
  have e : (deck mask).file.cards = cards mask := rfl
  rw [e]
  refine ⟨⟨[.wf "pulse", .mb ⟨8, mkBox 0 1 0 8 0 8, "PEC", "111111".toList⟩], [], rfl, fun q t => ⟨by simp, by simp⟩⟩, ?_, ?_, ?_⟩ <;> intros <;> simp [cards]

theorem even (mask : List Char) : EvenMesh (deck mask) 1 := fun a m _ _ => by simp [deck]

theorem inside (mask : List Char) : InsideMesh (deck mask) (card mask).bbox := by
  have h : InsideMesh (deck []) (card []).bbox := by
    have : ∀ a : Axis, (if (file []).bt a.lo = .mur then 2 else 1) ≤ (card []).bbox a.lo ∧ (card []).bbox a.lo ≤ (card []).bbox a.hi ∧
        (card []).bbox a.hi + (if (file []).bt a.hi = .mur then 2 else 1) ≤ cellsOf (file []) a := by decide +kernel
    exact this
  exact h

theorem ordinary (mask : List Char) : OrdinaryBlocks (deck mask).file.cards := by
  intro c hc
  have hc : Deck.Card.mb c ∈ cards mask := hc
  simp only [cards, List.mem_cons, List.not_mem_nil, or_false, reduceCtorEq, false_or, Deck.Card.mb.injEq] at hc
  subst hc
  refine ⟨by decide, fun q => ?_⟩
  exact C64.plain_name (n := "PEC") (by decide +kernel) q

theorem empty (mask : List Char) : EmptyBox (deck mask) (card mask).bbox := by
  intro fc i j l hs
  have hs : SampleIn (mkBox 3 5 3 5 3 5) fc i j l := hs
  have mem : ∀ x, x ∈ (deck mask).file.cards → x ∈ cards mask := fun _ h => h
  refine .vacuum ?_ ?_ ?_ ?_ ?_
  · rintro x hx s ⟨q, b, n, tag, w, size, t, r, d, rfl, -⟩
    simpa [cards] using mem _ hx
  · rintro ⟨f, hf, -⟩
    have hf : (file mask).bt f = .pec := hf
    simp only [file] at hf
    split_ifs at hf
  · rintro x hx s ⟨c, b, rfl, -⟩
    simpa [cards] using mem _ hx
  · rintro x hx s ⟨c, rfl, -⟩
    simpa [cards] using mem _ hx
  · rintro x hx s ⟨c, m, md, rfl, -, hc, -⟩
    have hx := mem _ hx
    simp only [cards, List.mem_cons, List.not_mem_nil, or_false, reduceCtorEq, false_or, Deck.Card.mb.injEq] at hx
    subst hx
    have h1 := hc.1
    obtain ⟨⟨a1, a2⟩, -⟩ := hs
    obtain ⟨⟨b1, b2⟩, -⟩ := h1
    simp only [mkBox] at a1 a2 b1 b2
    omega

/-- The hypotheses hold for this file: outside the box nothing ever happens, and a quarter of a box further in, the electric field
is half the wave on the line. -/
example (J : Junk) : ∃ R, setup unit J (deck "111111".toList) = some R ∧
    (∀ n, R.fields n (.fld .ey (2 + R.cfg.gibox .xlo) (4 + R.cfg.gibox .ylo) (4 + R.cfg.gibox .zlo)) = 0) ∧
    ∀ n : ℕ, n ≤ 12 → R.fields n (.fld .ey (4 + R.cfg.gibox .xlo) (4 + R.cfg.gibox .ylo) (4 + R.cfg.gibox .zlo)) =
      -(1 / 2) * (endless R.dt R.dt (fun n => waveValue R.dt ((deck []).waves "pulse") (n * R.dt - 3)) n).1 3 := by
  have hm : ("111111".toList).length = 6 ∧ (decodeFaceMask "111111".toList).isSome = true := by decide +kernel
  obtain ⟨R, hR⟩ := runs J _ hm
  have hon : ∀ f, FaceOn (card "111111".toList) f := fun f => Or.inr (by cases f <;> rfl)
  have hdir : direction (card "111111".toList).theta (card "111111".toList).phi .z = if true then 1 else -1 := by
    simp [direction, card]
  have hcn : 1 / 2 ≤ (deck "111111".toList).cn := by simp only [deck]; norm_num
  have hb : (1 : ℝ) < unit.big := by simp [unit]
  have ht : 0 < unit.tol := by simp [unit]
  have hp : 0 < unit.eta0 := by simp [unit]
  refine ⟨R, hR, fun n => ?_, fun n hn => ?_⟩
  · obtain ⟨len, e, h, -, -, hv⟩ := beam unit_physical hp ht hR (one _) hon (ordinary _) one_pos hb (even _) hcn (inside _) (empty _) hdir
    refine (hv n .ey 2 4 4).1 ?_
    rintro ⟨⟨a, -⟩, -⟩
    simp [card, mkBox, pos2] at a
  · have := (beam_early unit_physical hp ht hR (one _) hon (ordinary _) one_pos hb (even _) hcn (inside _) (empty _) hdir (n := n)
      (by simp only [card, mkBox, Axis.lo, Axis.hi]; omega) (fc := .ey) (i := 4) (j := 4) (l := 4)
      (by simp only [SampleIn, card, mkBox, pos2]; omega) (b := .y) (by decide) (m := 3)).1 rfl
      (by simp only [travelled, card, mkBox, samplePos, pos2, Axis.lo, Axis.hi]; rfl)
    rw [this]
    have e1 : R.dt / (unit.eps0 * 1) = R.dt := by simp [unit]
    have e2 : R.dt / (unit.mu0 * 1) = R.dt := by simp [unit]
    have e3 : ((cardSize (card "111111".toList) : ℚ) : ℝ) = 1 / 2 := by simp [cardSize, card]
    have e4 : polarised (card "111111".toList).theta (card "111111".toList).phi (card "111111".toList).eta .y = -1 := by
      simp [polarised, phiHat, card]
    rw [e1, e2, e3, e4]
    have e5 : (deck "111111".toList).waves (card "111111".toList).waveform = (deck []).waves "pulse" := rfl
    rw [e5]
    ring

/-- And with the mask of zeros the same file stays dark. -/
example (J : Junk) : ∃ R, setup unit J (deck "000000".toList) = some R ∧ ∀ n fc i j l, R.fields n (.fld fc i j l) = 0 := by
  have hm : ("000000".toList).length = 6 ∧ (decodeFaceMask "000000".toList).isSome = true := by decide +kernel
  obtain ⟨R, hR⟩ := runs J _ hm
  refine ⟨R, hR, fun n fc i j l => all_off_dark hR (one _) (fun f => ?_) n fc i j l⟩
  rintro (h | h)
  · simp [card] at h
  · cases f <;> exact absurd h (by show ¬ (some '0' = some '1'); decide)

end Example
end Vulture.C71
