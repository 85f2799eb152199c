import Verif.Spec.Meaning
import Verif.Props.C62_MeshText
import Mathlib.Tactic.Tauto
/-
C63: a run simulates what its mesh file says: the size, the outer faces, the mesh lines, the time step, the waveforms, the
items of the model section in their order, what to record and when; what is left out has its documented default.
-/
set_option linter.unusedSimpArgs false
set_option linter.unusedVariables false
set_option linter.unusedSectionVars false
namespace Vulture.C63
open Vulture.Spec Vulture.Spec.Page Vulture.MeshFile Vulture.Setup
open Vulture.Mesh (Card)

/-! ### Taking `experiment` apart -/

theorem parts {eta0 : ℝ} {W : World} {l : List Raw} {X : Experiment} {Q : Request}
    (h : experiment eta0 W l = some (X, Q)) : ∃ n steps cards waves,
    (l.findSome? fun | .dm x y z => some (x, y, z) | _ => none) = some n ∧
    (l.findSome? fun | .nt n => some n | _ => none) = some steps ∧
    l.mapM (deckCards eta0 W) = some cards ∧ l.mapM (waveCard W) = some waves ∧
    (∀ f, ((outer l f).tag.outer?).isSome) ∧ spacingOk l = true ∧
    (∀ c, Raw.cn c ∈ l → (Run.parseCN (some (c : ℝ))).isSome) ∧
    X = ⟨⟨n.1, n.2.1, n.2.2, fun f => ((outer l f).tag.outer?).getD .pec, fun f => (outer l f).layers, cards.flatten, false⟩,
          meshLines l, Run.courant (l.findSome? fun | .cn c => some (c : ℝ) | _ => none),
          fun f => ⟨(outer l f).order.toNat, (outer l f).nEff, (outer l f).refCoeff, (outer l f).kmax⟩, findWave waves⟩ ∧
    Q = ⟨steps, l.findSome? fun | .ot a b => some (a, b) | _ => none,
          l.findSome? fun | .of a b n => some ((a : ℝ), (b : ℝ), n.toNat) | _ => none⟩ := by
  unfold experiment at h
  obtain ⟨n, hn, h⟩ := Option.bind_eq_some_iff.1 h
  obtain ⟨steps, hst, h⟩ := Option.bind_eq_some_iff.1 h
  obtain ⟨cards, hc, h⟩ := Option.bind_eq_some_iff.1 h
  obtain ⟨waves, hw, h⟩ := Option.bind_eq_some_iff.1 h
  by_cases h1 : ∀ f, ((outer l f).tag.outer?).isSome
  · rw [if_pos h1] at h
    by_cases h2 : spacingOk l = true ∧ (∀ c, Raw.cn c ∈ l → (Run.parseCN (some (c : ℝ))).isSome)
    · rw [if_pos h2] at h
      cases h
      exact ⟨n, steps, cards, waves, hn, hst, hc, hw, h1, h2.1, h2.2, rfl, rfl⟩
    · rw [if_neg h2] at h; cases h
  · rw [if_neg h1] at h; cases h

/-- A card that may occur once only is found by any search for it. -/
theorem once_found {doc : List Stmt} (hs : WellSequenced (doc.map Stmt.card)) {st : Stmt} (hm : st ∈ doc)
    (ho : onceOnly st.card = true) {α : Type} (g : Raw → Option α)
    (hg : ∀ st' ∈ doc, st'.card ≠ st.card → g st'.says = none) : (doc.map Stmt.says).findSome? g = g st.says := by
  obtain ⟨a, b, rfl⟩ := List.append_of_mem hm
  have hc := hs.once _ ho
  have e : ∀ st' ∈ a ++ b, st'.card ≠ st.card := by
    intro st' hm' he
    simp only [List.map_append, List.map_cons, List.count_append, List.count_cons_self] at hc
    have hpos : 0 < List.count st.card (a.map Stmt.card) + List.count st.card (b.map Stmt.card) := by
      rcases List.mem_append.1 hm' with h | h
      · have := List.count_pos_iff.2 (he ▸ List.mem_map_of_mem (f := Stmt.card) h); omega
      · have := List.count_pos_iff.2 (he ▸ List.mem_map_of_mem (f := Stmt.card) h); omega
    omega
  rw [List.map_append, List.findSome?_append, List.map_cons, List.findSome?_cons]
  have ha : (a.map Stmt.says).findSome? g = none := by
    rw [List.findSome?_eq_none_iff]
    intro r hr
    obtain ⟨s', hs', rfl⟩ := List.mem_map.1 hr
    exact hg s' (by simp [hs']) (e s' (by simp [hs']))
  have hb : (b.map Stmt.says).findSome? g = none := by
    rw [List.findSome?_eq_none_iff]
    intro r hr
    obtain ⟨s', hs', rfl⟩ := List.mem_map.1 hr
    exact hg s' (by simp [hs']) (e s' (by simp [hs']))
  rw [ha, hb, Option.none_or]
  cases g st.says <;> rfl

theorem none_found {doc : List Stmt} {α : Type} (g : Raw → Option α) (h : ∀ st ∈ doc, g st.says = none) :
    (doc.map Stmt.says).findSome? g = none := by
  rw [List.findSome?_eq_none_iff]
  intro r hr
  obtain ⟨s', hs', rfl⟩ := List.mem_map.1 hr
  exact h s' hs'

theorem says_source_ne (b : BBox) (n t w : List Char) (v : List ℚ) : ∃ s d r, (Stmt.source b n t w v).says = .ex b n t w s d r := by
  simp only [Stmt.says]; split <;> exact ⟨_, _, _, rfl⟩

section
variable {eta0 : ℝ} {W : World} {doc : List Stmt} {X : Experiment} {Q : Request}

/-! ### Numbers -/

/-- C63: the size of the mesh is that of the `DM` card. -/
theorem size_meant (hs : WellSequenced (doc.map Stmt.card)) (hx : experiment eta0 W (doc.map Stmt.says) = some (X, Q))
    {nx ny nz : Int} (h : Stmt.size nx ny nz ∈ doc) : X.file.nx = nx ∧ X.file.ny = ny ∧ X.file.nz = nz := by
  obtain ⟨n, _, _, _, hn, _, _, _, _, _, _, rfl, _⟩ := parts hx
  rw [once_found hs h rfl _ (by
    intro st' _ hc
    cases st' <;> first | rfl | exact absurd rfl hc | (obtain ⟨_, _, _, e⟩ := says_source_ne _ _ _ _ _; rw [e]))] at hn
  cases hn
  exact ⟨rfl, rfl, rfl⟩

/-- C63: the number of time steps is that of the `NT` card. -/
theorem steps_meant (hs : WellSequenced (doc.map Stmt.card)) (hx : experiment eta0 W (doc.map Stmt.says) = some (X, Q))
    {n : Nat} (h : Stmt.steps n ∈ doc) : Q.steps = n := by
  obtain ⟨_, s, _, _, _, hn, _, _, _, _, _, _, rfl⟩ := parts hx
  rw [once_found hs h rfl _ (by
    intro st' _ hc
    cases st' <;> first | rfl | exact absurd rfl hc | (obtain ⟨_, _, _, e⟩ := says_source_ne _ _ _ _ _; rw [e]))] at hn
  cases hn
  rfl

/-- C63: the recorded window is that of the `OT` card. -/
theorem times_meant (hs : WellSequenced (doc.map Stmt.card)) (hx : experiment eta0 W (doc.map Stmt.says) = some (X, Q))
    {a b : Nat} (h : Stmt.times a b ∈ doc) : Q.times = some ((a : BitVec 64), (b : BitVec 64)) := by
  obtain ⟨_, s, _, _, _, _, _, _, _, _, _, _, rfl⟩ := parts hx
  exact once_found hs h rfl _ (by
    intro st' _ hc
    cases st' <;> first | rfl | exact absurd rfl hc | (obtain ⟨_, _, _, e⟩ := says_source_ne _ _ _ _ _; rw [e]))

/-- C63: without an `OT` card no window is asked for. -/
theorem times_default (hx : experiment eta0 W (doc.map Stmt.says) = some (X, Q)) (h : ∀ a b, Stmt.times a b ∉ doc) :
    Q.times = none := by
  obtain ⟨_, s, _, _, _, _, _, _, _, _, _, _, rfl⟩ := parts hx
  refine none_found _ fun st hm => ?_
  cases st <;> first | rfl | exact absurd hm (h _ _) | (obtain ⟨_, _, _, e⟩ := says_source_ne _ _ _ _ _; rw [e])

/-- C63: the recorded frequencies are those of the `OF` card. -/
theorem freqs_meant (hs : WellSequenced (doc.map Stmt.card)) (hx : experiment eta0 W (doc.map Stmt.says) = some (X, Q))
    {a b : ℚ} {n : Nat} (h : Stmt.freqs a b n ∈ doc) (hn : n < 2 ^ 64) : Q.freqs = some ((a : ℝ), (b : ℝ), n) := by
  obtain ⟨_, s, _, _, _, _, _, _, _, _, _, _, rfl⟩ := parts hx
  have := once_found hs h rfl (fun | .of a b n => some ((a : ℝ), (b : ℝ), n.toNat) | _ => none) (by
    intro st' _ hc
    cases st' <;> first | rfl | exact absurd rfl hc | (obtain ⟨_, _, _, e⟩ := says_source_ne _ _ _ _ _; rw [e]))
  refine Eq.trans this ?_
  have e : (BitVec.ofNat 64 n).toNat = n := by rw [BitVec.toNat_ofNat]; exact Nat.mod_eq_of_lt hn
  exact congrArg (fun m => some ((a : ℝ), (b : ℝ), m)) e

/-- C63: without an `OF` card no frequencies are asked for. -/
theorem freqs_default (hx : experiment eta0 W (doc.map Stmt.says) = some (X, Q)) (h : ∀ a b n, Stmt.freqs a b n ∉ doc) :
    Q.freqs = none := by
  obtain ⟨_, s, _, _, _, _, _, _, _, _, _, _, rfl⟩ := parts hx
  refine none_found _ fun st hm => ?_
  cases st <;> first | rfl | exact absurd hm (h _ _ _) | (obtain ⟨_, _, _, e⟩ := says_source_ne _ _ _ _ _; rw [e])

/-- C63: the Courant number is that of the `CN` card, which is less than 1; a negative one stands for the default. -/
theorem courant_meant (hs : WellSequenced (doc.map Stmt.card)) (hx : experiment eta0 W (doc.map Stmt.says) = some (X, Q))
    {c : ℚ} (h : Stmt.courant c ∈ doc) : c < 1 ∧ X.cn = if c < 0 then Real.sqrt 3 / 2 else (c : ℝ) := by
  obtain ⟨_, s, _, _, _, _, _, _, _, _, hc, rfl, _⟩ := parts hx
  have e := once_found hs h rfl (fun | .cn c => some (c : ℝ) | _ => none) (by
    intro st' _ hc
    cases st' <;> first | rfl | exact absurd rfl hc | (obtain ⟨_, _, _, e⟩ := says_source_ne _ _ _ _ _; rw [e]))
  have hc' := hc c (List.mem_map.2 ⟨_, h, rfl⟩)
  have h1 : c < 1 := by
    by_contra hn
    have : (1 : ℝ) ≤ c := by exact_mod_cast not_lt.1 hn
    simp [Run.parseCN, this] at hc'
  refine ⟨h1, ?_⟩
  refine Eq.trans (congrArg Run.courant e) ?_
  have e2 : Run.courant (some (c : ℝ)) = if c < 0 then Real.sqrt 3 / 2 else (c : ℝ) := by
    unfold Run.courant
    simp only [Option.getD_some]
    by_cases h0 : c < 0
    · have : (c : ℝ) < 0 := by exact_mod_cast h0
      rw [if_pos h0, if_pos this]
    · have : ¬ (c : ℝ) < 0 := by exact_mod_cast h0
      rw [if_neg h0, if_neg this]
  exact e2

/-- C63: without a `CN` card the Courant number is half the square root of 3. -/
theorem courant_default (hx : experiment eta0 W (doc.map Stmt.says) = some (X, Q)) (h : ∀ c, Stmt.courant c ∉ doc) :
    X.cn = Real.sqrt 3 / 2 := by
  obtain ⟨_, s, _, _, _, _, _, _, _, _, hc, rfl, _⟩ := parts hx
  have e := none_found (doc := doc) (fun | .cn c => some (c : ℝ) | _ => none) (by
    intro st hm
    cases st <;> first | rfl | exact absurd hm (h _) | (obtain ⟨_, _, _, e⟩ := says_source_ne _ _ _ _ _; rw [e]))
  refine Eq.trans (congrArg Run.courant e) ?_
  simp [Run.courant]


/-! ### Mesh lines -/

theorem no_lines (hs : WellSequenced (doc.map Stmt.card)) {st : Stmt} (hm : st ∈ doc) (hc : st.card = .MS) (a : Axis)
    (v : List ℚ) : Stmt.lines a v ∉ doc := by
  intro h
  have h0 : Card.MS ∈ doc.map Stmt.card := hc ▸ List.mem_map_of_mem hm
  have h1 := List.mem_map_of_mem (f := Stmt.card) h
  obtain ⟨x, y, z⟩ := hs.lines h0
  cases a
  · exact x h1
  · exact y h1
  · exact z h1

/-- C63: the mesh lines of an `MS` card are equally spaced, by the one number for all axes or each axis by its own. -/
theorem spacing_meant (hs : WellSequenced (doc.map Stmt.card)) (hx : experiment eta0 W (doc.map Stmt.says) = some (X, Q))
    {v : List ℚ} (h : Stmt.spacing v ∈ doc) :
    (∃ d, v = [d] ∧ 0 < d ∧ ∀ a i, X.lines a i = i * (d : ℝ)) ∨
    (∃ dx dy dz, v = [dx, dy, dz] ∧ 0 < dx ∧ 0 < dy ∧ 0 < dz ∧
      ∀ i, X.lines .x i = i * (dx : ℝ) ∧ X.lines .y i = i * (dy : ℝ) ∧ X.lines .z i = i * (dz : ℝ)) := by
  obtain ⟨_, s, _, _, _, _, _, _, _, hsp, _, rfl, _⟩ := parts hx
  have hv : (parseMSValues v).isSome = true := by
    have := List.all_eq_true.1 hsp (.ms v) (List.mem_map.2 ⟨_, h, rfl⟩)
    exact this
  have key : ∀ a i, meshLines (doc.map Stmt.says) a i = meshLines [.ms v] a i := by
    intro a i
    unfold meshLines
    refine congrArg (fun x : Option ℝ => x.getD 0) ?_
    refine (once_found hs h rfl _ ?_).trans ?_
    · intro st' hm hc
      cases st' <;> first | rfl | exact absurd rfl hc | (obtain ⟨_, _, _, e⟩ := says_source_ne _ _ _ _ _; rw [e]) | exact absurd hm (no_lines hs h rfl _ _)
    · rw [List.findSome?_singleton]; rfl
  match v, hv with
  | [d], hv =>
    refine Or.inl ⟨d, rfl, ?_, fun a i => key a i⟩
    by_contra hn
    simp [parseMSValues, not_lt.1 hn] at hv
  | [dx, dy, dz], hv =>
    have : 0 < dx ∧ 0 < dy ∧ 0 < dz := by
      by_contra hn
      have : dx ≤ 0 ∨ dy ≤ 0 ∨ dz ≤ 0 := by
        by_contra h2; push Not at h2; exact hn h2
      simp [parseMSValues, this] at hv
    exact Or.inr ⟨dx, dy, dz, rfl, this.1, this.2.1, this.2.2, fun i => ⟨key .x i, key .y i, key .z i⟩⟩
  | [], hv => simp [parseMSValues] at hv
  | [_, _], hv => simp [parseMSValues] at hv
  | _ :: _ :: _ :: _ :: _, hv => simp [parseMSValues] at hv

/-- C63: the mesh lines of an `XL`, `YL` or `ZL` card are those of its list. -/
theorem lines_meant (hs : WellSequenced (doc.map Stmt.card)) (hx : experiment eta0 W (doc.map Stmt.says) = some (X, Q))
    {a : Axis} {v : List ℚ} (h : Stmt.lines a v ∈ doc) (i : Nat) (hi : i < v.length) : X.lines a i = (v[i] : ℝ) := by
  obtain ⟨_, s, _, _, _, _, _, _, _, hsp, _, rfl, _⟩ := parts hx
  have key : meshLines (doc.map Stmt.says) a i = meshLines [.lines a v] a i := by
    unfold meshLines
    refine congrArg (fun x : Option ℝ => x.getD 0) ?_
    refine (once_found hs h (by cases a <;> rfl) _ ?_).trans ?_
    · intro st' hm hc
      cases st'
      case spacing w => exact absurd h (no_lines hs hm rfl _ _)
      case lines b w =>
        have : b ≠ a := by rintro rfl; exact hc (by cases b <;> rfl)
        simp [Stmt.says, this]
      case source => obtain ⟨_, _, _, e⟩ := says_source_ne _ _ _ _ _; rw [e]
      all_goals rfl
    · rw [List.findSome?_singleton]; rfl
  refine Eq.trans key ?_
  simp [meshLines, hi]

/-! ### The items of the model section -/

theorem mapM_forall {α β : Type} {f : α → Option β} : ∀ {l : List α} {r : List β}, l.mapM f = some r →
    List.Forall₂ (fun a b => f a = some b) l r := by
  intro l
  induction l with
  | nil => intro r h; simp at h; subst h; exact .nil
  | cons a l ih =>
    intro r h
    rw [List.mapM_cons] at h
    obtain ⟨b, hb, h⟩ := Option.bind_eq_some_iff.1 h
    obtain ⟨bs, hbs, h⟩ := Option.bind_eq_some_iff.1 h
    cases h
    exact .cons hb (ih hbs)

theorem asks_of {st : Stmt} (hok : st.Ok ∨ ∃ a v, st = .lines a v) {cs : List Deck.Card}
    (h : deckCards eta0 W st.says = some cs) : Asks eta0 W st cs := by
  cases st
  case simple n v =>
    simp only [Stmt.says, deckCards, reduceCtorEq, if_false] at h
    obtain ⟨m, hm, h⟩ := Option.map_eq_some_iff.1 h
    unfold parseMT at hm
    simp only [List.getElem?_map] at hm
    have c0 : ((v[0]?.map fun q : ℚ => (q : ℝ)).getD 1) = ((v[0]?.getD 1 : ℚ) : ℝ) := by cases v[0]? <;> simp
    have c1 : ((v[1]?.map fun q : ℚ => (q : ℝ)).getD 0) = ((v[1]?.getD 0 : ℚ) : ℝ) := by cases v[1]? <;> simp
    have c2 : ((v[2]?.map fun q : ℚ => (q : ℝ)).getD 1) = ((v[2]?.getD 1 : ℚ) : ℝ) := by cases v[2]? <;> simp
    rw [c0, c1, c2] at hm
    by_cases hb : (((v[0]?.getD 1 : ℚ) : ℝ) < 1 ∨ ((v[1]?.getD 0 : ℚ) : ℝ) < 0 ∨ ((v[2]?.getD 1 : ℚ) : ℝ) < 1)
    · rw [if_pos hb] at hm; cases hm
    · rw [if_neg hb] at hm
      cases hm
      push Not at hb
      refine ⟨by exact_mod_cast hb.1, by exact_mod_cast hb.2.1, by exact_mod_cast hb.2.2, h.symm⟩
  case plainMedium n p =>
    cases p <;> (simp only [Stmt.says, deckCards, reduceCtorEq, if_false, if_true, Bool.false_eq_true] at h; cases h; rfl)
  case debye n v =>
    simp only [Stmt.says, deckCards, if_true] at h
    obtain ⟨m, hm, h⟩ := Option.map_eq_some_iff.1 h
    exact ⟨m, hm, h.symm⟩
  case debyeFile n f =>
    simp only [Stmt.says, deckCards] at h
    obtain ⟨d, hd, h⟩ := Option.bind_eq_some_iff.1 h
    obtain ⟨p, hp, h⟩ := Option.map_eq_some_iff.1 h
    exact ⟨d, p, hd, hp, h.symm⟩
  case sheet n v =>
    simp only [Stmt.says, deckCards] at h
    obtain ⟨S, hS, h⟩ := Option.bind_eq_some_iff.1 h
    obtain ⟨Z, hZ, h⟩ := Option.map_eq_some_iff.1 h
    unfold SibcData.initFromS at hZ
    by_cases hp : ¬ SibcData.isPassiveS S.1 ∨ ¬ SibcData.isPassiveS S.2
    · rw [if_pos hp] at hZ; cases hZ
    · rw [if_neg hp] at hZ
      push Not at hp
      refine ⟨S.1, S.2, ?_, hp.1, hp.2, Z, (Option.some.inj hZ).symm, h.symm⟩
      rcases hok with hok | ⟨_, _, hok⟩
      · have hok : v.length = 4 ∨ v.length = 8 := hok
        match v, hok with
        | [a, b, c, d], _ => cases hS; exact Or.inl ⟨a, b, c, d, rfl, rfl, rfl⟩
        | [a, b, c, d, e, f, g, i], _ => cases hS; exact Or.inr ⟨a, b, c, d, e, f, g, i, rfl, rfl, rfl⟩
      · cases hok
  case sheetFile n f =>
    simp only [Stmt.says, deckCards] at h
    obtain ⟨d, hd, h⟩ := Option.map_eq_some_iff.1 h
    exact ⟨d, hd, h.symm⟩
  case source b n t w v =>
    by_cases hl : isLumped t = true
    · simp only [Stmt.says, if_pos hl, deckCards, Option.some.injEq] at h
      subst h
      exact ⟨_, _, _, rfl, by simp [hl]⟩
    · simp only [Stmt.says, if_neg hl, deckCards, Option.some.injEq] at h
      subst h
      exact ⟨_, _, _, rfl, by simp [hl]⟩
  case oldFaces t =>
    simp only [Stmt.says, deckCards, Option.some.injEq] at h
    subst h
    have : ∀ f, Deck.Card.bt (faceName f) (bndOf (brFace (t f)).tag) = .bt (faceWord f) (inside (oldTag (t f))) := by
      intro f
      have e1 : faceName f = faceWord f := by cases f <;> rfl
      have e2 : bndOf (brFace (t f)).tag = inside (oldTag (t f)) := by
        unfold brFace oldTag
        by_cases h1 : t f = -1
        · rw [if_pos h1, if_pos h1]; rfl
        · rw [if_neg h1, if_neg h1]
          by_cases h2 : t f = 0
          · rw [if_pos h2, if_pos h2]; rfl
          · rw [if_neg h2, if_neg h2]; rfl
      rw [e1, e2]
    show List.map _ _ = _
    simp only [this]; rfl
  case planeWave b n w t p e =>
    simp only [Stmt.says, deckCards, Option.some.injEq] at h
    subst h
    simp [Asks]
  all_goals first
    | (cases h; rfl)
    | (simp only [Stmt.says, deckCards, Option.some.injEq] at h; subst h; rfl)
    | (rename_i n t; cases t <;> (cases h; rfl))

theorem lays_ok {blank : Bool} {m : Axis → Nat} {text : List Char} (hl : Lays blank m doc text) :
    ∀ st ∈ doc, st.Ok ∨ ∃ a v, st = .lines a v := by
  induction hl with
  | nil => simp
  | card h _ _ _ ih =>
    intro st hm
    rcases List.mem_cons.1 hm with rfl | hm
    · exact Or.inl h
    · exact ih st hm
  | lines _ _ _ _ _ ih =>
    intro st hm
    rcases List.mem_cons.1 hm with rfl | hm
    · exact Or.inr ⟨_, _, rfl⟩
    · exact ih st hm
  | empty _ _ ih => exact ih

/-- C63: the items of the model section are those the statements ask for, in the order of the file. -/
theorem items_meant {blank : Bool} {m : Axis → Nat} {text : List Char} (hl : Lays blank m doc text)
    (hx : experiment eta0 W (doc.map Stmt.says) = some (X, Q)) :
    ∃ css, List.Forall₂ (Asks eta0 W) doc css ∧ X.file.cards = css.flatten := by
  obtain ⟨_, s, cards, _, _, _, hc, _, _, hsp, _, rfl, _⟩ := parts hx
  refine ⟨cards, ?_, rfl⟩
  have hok := lays_ok hl
  have := mapM_forall hc
  rw [List.forall₂_map_left_iff] at this
  have key : ∀ {d : List Stmt} {cs}, (∀ st ∈ d, st.Ok ∨ ∃ a v, st = .lines a v) →
      List.Forall₂ (fun st c => deckCards eta0 W st.says = some c) d cs → List.Forall₂ (Asks eta0 W) d cs := by
    intro d cs ho hf
    induction hf with
    | nil => exact .nil
    | cons h _ ih => exact .cons (asks_of (ho _ (by simp)) h) (ih fun st hm => ho st (by simp [hm]))
  exact key hok this

/-! ### Waveforms -/

/-- The statement defines a waveform of this name. -/
def Defines (n : List Char) : Stmt → Prop
  | .wave m _ _ | .waveFile m _ _ => m = n
  | _ => False

theorem findWave_at {r : List (Option (List Char × Wave))} {n : List Char} {w : Wave}
    (h : some (n, w) ∈ r) (hu : ∀ w', some (n, w') ∈ r → w' = w) : findWave r (String.ofList n) = w := by
  unfold findWave
  have : (r.findSome? fun x => x.bind fun y => if String.ofList y.1 = String.ofList n then some y.2 else none) = some w := by
    cases e : (r.findSome? fun x => x.bind fun y => if String.ofList y.1 = String.ofList n then some y.2 else none) with
    | none =>
      rw [List.findSome?_eq_none_iff] at e
      have := e _ h
      simp at this
    | some w' =>
      obtain ⟨x, hx, e2⟩ := List.exists_of_findSome?_eq_some e
      obtain ⟨y, rfl, e3⟩ := Option.bind_eq_some_iff.1 e2
      by_cases hn : String.ofList y.1 = String.ofList n
      · rw [if_pos hn] at e3
        cases e3
        have : y.1 = n := by have := congrArg String.toList hn; simpa using this
        have hy : y = (n, y.2) := by rw [← this]
        rw [hy] at hx
        exact congrArg some (hu _ hx)
      · rw [if_neg hn] at e3; cases e3
  rw [this, Option.getD_some]

theorem forall₂_mem_left {α β : Type} {R : α → β → Prop} {l : List α} {r : List β} (h : List.Forall₂ R l r) {a : α}
    (ha : a ∈ l) : ∃ b ∈ r, R a b := by
  induction h with
  | nil => simp at ha
  | cons h _ ih =>
    rcases List.mem_cons.1 ha with rfl | ha
    · exact ⟨_, by simp, h⟩
    · obtain ⟨b, hb, hr⟩ := ih ha
      exact ⟨b, by simp [hb], hr⟩

theorem forall₂_mem_right {α β : Type} {R : α → β → Prop} {l : List α} {r : List β} (h : List.Forall₂ R l r) {b : β}
    (hb : b ∈ r) : ∃ a ∈ l, R a b := by
  induction h with
  | nil => simp at hb
  | cons h _ ih =>
    rcases List.mem_cons.1 hb with rfl | hb
    · exact ⟨_, by simp, h⟩
    · obtain ⟨a, ha, hr⟩ := ih hb
      exact ⟨a, by simp [ha], hr⟩

theorem waveCard_defines {st : Stmt} {n : List Char} {w : Wave} (h : waveCard W st.says = some (some (n, w))) :
    Defines n st := by
  cases st
  case wave m t v =>
    simp only [Stmt.says, waveCard] at h
    obtain ⟨_, _, e⟩ := Option.map_eq_some_iff.1 h
    cases e; rfl
  case waveFile m f v =>
    simp only [Stmt.says, waveCard] at h
    split at h
    · cases h
    · obtain ⟨_, _, e⟩ := Option.map_eq_some_iff.1 h
      cases e; rfl
  case source => obtain ⟨_, _, _, e⟩ := says_source_ne _ _ _ _ _; rw [e] at h; cases h
  all_goals cases h

theorem wave_at (hx : experiment eta0 W (doc.map Stmt.says) = some (X, Q)) {st : Stmt} (h : st ∈ doc) {n : List Char}
    (hn : Defines n st) (hu : ∀ st' ∈ doc, Defines n st' → st' = st) :
    ∃ w, waveCard W st.says = some (some (n, w)) ∧ X.waves (String.ofList n) = w := by
  obtain ⟨_, s, _, waves, _, _, _, hw, _, hsp, _, rfl, _⟩ := parts hx
  have hf := mapM_forall hw
  rw [List.forall₂_map_left_iff] at hf
  obtain ⟨b, hb, hr⟩ := forall₂_mem_left hf h
  have hr' : waveCard W st.says = some b := hr
  have : ∃ w, b = some (n, w) := by
    cases st <;> simp only [Defines] at hn
    case wave m t v =>
      subst hn
      simp only [Stmt.says, waveCard] at hr'
      obtain ⟨x, _, e⟩ := Option.map_eq_some_iff.1 hr'
      exact ⟨_, e.symm⟩
    case waveFile m f v =>
      subst hn
      simp only [Stmt.says, waveCard] at hr'
      split at hr'
      · cases hr'
      · obtain ⟨x, _, e⟩ := Option.map_eq_some_iff.1 hr'
        exact ⟨_, e.symm⟩
  obtain ⟨w, rfl⟩ := this
  refine ⟨w, hr', findWave_at hb ?_⟩
  intro w' hw'
  obtain ⟨st', hm', hr2⟩ := forall₂_mem_right hf hw'
  have hd := waveCard_defines hr2
  have := hu st' hm' hd
  subst this
  rw [hr'] at hr2
  cases hr2; rfl

/-- C63: a waveform has the type and the numbers of its `WF` card; a number left out is marked as such (-1) and gets its
default from the time step (C20). -/
theorem wave_meant (hx : experiment eta0 W (doc.map Stmt.says) = some (X, Q)) {n : List Char} {t : Waveform.WType}
    {v : List ℚ} (h : Stmt.wave n t v ∈ doc) (hu : ∀ st' ∈ doc, Defines n st' → st' = .wave n t v) :
    X.waves (String.ofList n) = .builtin ⟨t, (v[0]?.getD (-1) : ℚ), (v[1]?.getD (-1) : ℚ), (v[2]?.getD (-1) : ℚ),
      (v[3]?.getD (-1) : ℚ)⟩ := by
  obtain ⟨w, hw, e⟩ := wave_at hx h rfl hu
  simp only [Stmt.says, waveCard] at hw
  obtain ⟨x, hx', e2⟩ := Option.map_eq_some_iff.1 hw
  cases e2
  rw [e]
  unfold Waveform.parseWF at hx'
  split at hx'
  · cases hx'
  · simp only [List.getElem?_map, Option.some.injEq] at hx'
    have c : ∀ i : Nat, ((v[i]?.map fun q : ℚ => (q : ℝ)).getD (-1)) = ((v[i]?.getD (-1) : ℚ) : ℝ) := by
      intro i; cases v[i]? <;> simp
    rw [← hx', c 0, c 1, c 2, c 3]

/-- C63: a waveform of type `EXTERNAL` has the numbers of its file. -/
theorem wave_file_meant (hx : experiment eta0 W (doc.map Stmt.says) = some (X, Q)) {n f : List Char} {v : List ℚ}
    (h : Stmt.waveFile n f v ∈ doc) (hu : ∀ st' ∈ doc, Defines n st' → st' = .waveFile n f v) :
    ∃ t, W.wave f = some t ∧
      X.waves (String.ofList n) = .table (v[0]?.getD (-1) : ℚ) (v[1]?.getD (-1) : ℚ) t.1 t.2.1 t.2.2 := by
  obtain ⟨w, hw, e⟩ := wave_at hx h rfl hu
  simp only [Stmt.says, waveCard] at hw
  split at hw
  · cases hw
  · obtain ⟨x, hx', e2⟩ := Option.map_eq_some_iff.1 hw
    cases e2
    exact ⟨x, hx', e⟩

/-! ### Outer faces -/

/-- What `faceStep` does to one face. -/
def face1 (f : Face) (o : Option FaceBnd) : Raw → Option FaceBnd
  | .br t => some (brFace (t f))
  | .be d => o.map fun b => { b with layers := d f }
  | .bt n b => if n = (faceName f).toList ∧ o = none then some b else o
  | .btS n _ => if n = (faceName f).toList ∧ o = none then some ⟨.sibc, 0, 0, 0, 0, 0⟩ else o
  | .btFile n _ => if n = (faceName f).toList ∧ o = none then some ⟨.sibc, 0, 0, 0, 0, 0⟩ else o
  | _ => o

theorem face1_eq (m : Face → Option FaceBnd) (r : Raw) (f : Face) : faceStep m r f = face1 f (m f) r := by
  cases r <;> simp only [faceStep, face1]

theorem fold_face (f : Face) (l : List Raw) : ∀ m, l.foldl faceStep m f = l.foldl (face1 f) (m f) := by
  induction l with
  | nil => intro m; rfl
  | cons r l ih => intro m; rw [List.foldl_cons, List.foldl_cons, ih, face1_eq]

theorem faceWord_eq (f : Face) : faceName f = faceWord f := by cases f <;> rfl

theorem face1_none {f : Face} {st : Stmt} (h : ¬ st.About f) : face1 f none st.says = none := by
  have key : ∀ n : List Char, st.boundaryName = some n → ¬ n = (faceName f).toList := by
    intro n hn e
    exact h (Or.inr (by rw [hn, e, faceWord_eq]))
  cases st
  case oldFaces t => exact absurd (Or.inl ⟨t, rfl⟩) h
  case source => obtain ⟨_, _, _, e⟩ := says_source_ne _ _ _ _ _; rw [e]; rfl
  case boundary n t => simp only [Stmt.says, face1]; rw [if_neg]; exact fun e => key n rfl e.1
  case absorber n _ _ _ => simp only [Stmt.says, face1]; rw [if_neg]; exact fun e => key n rfl e.1
  case absorberDefault n _ => simp only [Stmt.says, face1]; rw [if_neg]; exact fun e => key n rfl e.1
  case sheet n _ => simp only [Stmt.says, face1]; rw [if_neg]; exact fun e => key n rfl e.1
  case sheetFile n _ => simp only [Stmt.says, face1]; rw [if_neg]; exact fun e => key n rfl e.1
  all_goals rfl

theorem fold_none {f : Face} {l : List Stmt} (h : ∀ st ∈ l, ¬ st.About f) :
    (l.map Stmt.says).foldl (face1 f) none = none := by
  induction l with
  | nil => rfl
  | cons st l ih =>
    rw [List.map_cons, List.foldl_cons, face1_none (h st (by simp))]
    exact ih fun s hs => h s (by simp [hs])

theorem face1_some {f : Face} {st : Stmt} (b : FaceBnd) (h1 : ∀ t, st ≠ .oldFaces t) (h2 : ∀ d, st ≠ .depths d) :
    face1 f (some b) st.says = some b := by
  cases st
  case oldFaces t => exact absurd rfl (h1 t)
  case depths t => exact absurd rfl (h2 t)
  case source => obtain ⟨_, _, _, e⟩ := says_source_ne _ _ _ _ _; rw [e]; rfl
  all_goals (first | rfl | (simp [Stmt.says, face1]))

theorem fold_some {f : Face} {l : List Stmt} (b : FaceBnd) (h1 : ∀ t, Stmt.oldFaces t ∉ l) (h2 : ∀ d, Stmt.depths d ∉ l) :
    (l.map Stmt.says).foldl (face1 f) (some b) = some b := by
  induction l with
  | nil => rfl
  | cons st l ih =>
    rw [List.map_cons, List.foldl_cons, face1_some b (fun t e => h1 t (by simp [e])) (fun t e => h2 t (by simp [e]))]
    exact ih (fun t e => h1 t (by simp [e])) (fun t e => h2 t (by simp [e]))

theorem outer_none {f : Face} (h : ∀ st ∈ doc, ¬ st.About f) : outer (doc.map Stmt.says) f = pmlDefaults := by
  unfold outer
  rw [fold_face, fold_none h]; rfl

/-- C63: an outer face that no `BR` card and no `BT` card is about absorbs, with the documented default layer: six cells, of
order 4, with refractive index 1, the reflection coefficient of the default depth (-1) and no stretching. A `BE` card does
not change that: without a `BR` card in front of it, it has no effect on any face (a finding). -/
theorem face_default (hx : experiment eta0 W (doc.map Stmt.says) = some (X, Q)) {f : Face}
    (h : ∀ st ∈ doc, ¬ st.About f) : X.file.bt f = .pml ∧ X.file.layers f = 6 ∧ X.par f = ⟨4, 1, -1, 1⟩ := by
  obtain ⟨_, _, _, _, _, _, _, _, _, _, _, rfl, _⟩ := parts hx
  simp only [outer_none h]
  exact ⟨rfl, rfl, by simp [pmlDefaults]⟩

theorem split_once (hs : WellSequenced (doc.map Stmt.card)) {a b : List Stmt} {st : Stmt} (hd : doc = a ++ st :: b)
    (ho : onceOnly st.card = true) : ∀ st' ∈ a ++ b, st'.card ≠ st.card := by
  subst hd
  intro st' hm' he
  have hc := hs.once _ ho
  simp only [List.map_append, List.map_cons, List.count_append, List.count_cons_self] at hc
  have hpos : 0 < List.count st.card (a.map Stmt.card) + List.count st.card (b.map Stmt.card) := by
    rcases List.mem_append.1 hm' with h | h
    · have := List.count_pos_iff.2 (he ▸ List.mem_map_of_mem (f := Stmt.card) h); omega
    · have := List.count_pos_iff.2 (he ▸ List.mem_map_of_mem (f := Stmt.card) h); omega
  omega

/-- C63: a `BR` card makes the outer faces perfectly conducting (-1), absorbing (0) or magnetic walls (1). The depths of the
absorbing layers are those of a `BE` card after it, or six cells. -/
theorem face_old (hs : WellSequenced (doc.map Stmt.card)) (hx : experiment eta0 W (doc.map Stmt.says) = some (X, Q))
    {t : BBox} {a b : List Stmt} (hd : doc = a ++ .oldFaces t :: b) (f : Face) :
    X.file.bt f = (if t f = -1 then .pec else if t f = 0 then .pml else .pmc) ∧
    (t f = 0 → X.par f = ⟨4, 1, -1, 1⟩) ∧
    (t f = 0 → (∀ d, Stmt.depths d ∉ b) → X.file.layers f = 6) ∧
    (∀ d, Stmt.depths d ∈ b → X.file.layers f = d f) := by
  obtain ⟨_, _, _, _, _, _, _, _, _, _, _, rfl, _⟩ := parts hx
  have hno : ∀ t', Stmt.oldFaces t' ∉ b := fun t' h => split_once hs hd rfl (.oldFaces t') (by simp [h]) rfl
  have hfold : ∀ o, ((Stmt.oldFaces t :: b).map Stmt.says).foldl (face1 f) o = (b.map Stmt.says).foldl (face1 f) (some (brFace (t f))) := by
    intro o; rfl
  have hout : outer (doc.map Stmt.says) f = ((b.map Stmt.says).foldl (face1 f) (some (brFace (t f)))).getD pmlDefaults := by
    unfold outer
    rw [fold_face, hd, List.map_append, List.foldl_append, hfold]
  by_cases hb : ∃ d, Stmt.depths d ∈ b
  · obtain ⟨d, hb⟩ := hb
    obtain ⟨b1, b2, rfl⟩ := List.append_of_mem hb
    have hd' : doc = (a ++ .oldFaces t :: b1) ++ .depths d :: b2 := by rw [hd]; simp
    have hnb : ∀ d', Stmt.depths d' ∉ b1 ++ b2 := by
      intro d' h
      refine split_once hs hd' rfl (.depths d') ?_ rfl
      simp only [List.mem_append, List.mem_cons] at h ⊢; tauto
    rw [List.map_append, List.foldl_append, fold_some _ (fun t' h => hno t' (by simp [h])) (fun d' h => hnb d' (by simp [h])),
      List.map_cons, List.foldl_cons] at hout
    have e1 : face1 f (some (brFace (t f))) (Stmt.depths d).says = some { brFace (t f) with layers := d f } := rfl
    rw [e1, fold_some _ (fun t' h => hno t' (by simp [h])) (fun d' h => hnb d' (by simp [h])), Option.getD_some] at hout
    simp only [hout]
    refine ⟨?_, ?_, ?_, ?_⟩
    · unfold brFace
      by_cases h1 : t f = -1
      · simp only [if_pos h1]; rfl
      · by_cases h2 : t f = 0
        · simp only [if_neg h1, if_pos h2]; rfl
        · simp only [if_neg h1, if_neg h2]; rfl
    · intro h2
      have h1 : ¬ t f = -1 := by omega
      simp [brFace, h2, pmlDefaults]
    · intro _ hn; exact absurd hb (hn d)
    · intro d' hd''
      have : d' = d := by
        rcases List.mem_append.1 hd'' with h | h
        · exact absurd (by simp [h]) (hnb d')
        · rcases List.mem_cons.1 h with h | h
          · cases h; rfl
          · exact absurd (by simp [h]) (hnb d')
      rw [this]
  · push Not at hb
    rw [fold_some _ hno hb, Option.getD_some] at hout
    simp only [hout]
    refine ⟨?_, ?_, ?_, ?_⟩
    · unfold brFace
      by_cases h1 : t f = -1
      · simp only [if_pos h1]; rfl
      · by_cases h2 : t f = 0
        · simp only [if_neg h1, if_pos h2]; rfl
        · simp only [if_neg h1, if_neg h2]; rfl
    · intro h2
      simp [brFace, h2, pmlDefaults]
    · intro h2 _
      simp [brFace, h2, pmlDefaults]
    · intro d hd'; exact absurd hd' (hb d)

theorem after_model (hs : WellSequenced (doc.map Stmt.card)) {a b : List Stmt} {st : Stmt} (hd : doc = a ++ st :: b)
    (hc : sectionOf st.card = 2) : ∀ st' ∈ b, 2 ≤ sectionOf st'.card := by
  subst hd
  intro st' hm
  have h := hs.order
  rw [List.map_append, List.pairwise_append] at h
  have := List.rel_of_pairwise_cons h.2.1 (List.mem_map_of_mem (f := Stmt.card) hm)
  rcases this with h | h
  · omega
  · omega

theorem outer_named (hs : WellSequenced (doc.map Stmt.card)) {f : Face} {st : Stmt} {a b : List Stmt} {B : FaceBnd}
    (hd : doc = a ++ st :: b) (ha : ∀ st' ∈ a, ¬ st'.About f) (hc : sectionOf st.card = 2)
    (hB : face1 f none st.says = some B) : outer (doc.map Stmt.says) f = B := by
  have hb := after_model hs hd hc
  unfold outer
  rw [fold_face, hd, List.map_append, List.foldl_append, fold_none ha, List.map_cons, List.foldl_cons, hB,
    fold_some B (fun t h => by have := hb _ h; simp [Stmt.card, sectionOf] at this)
      (fun t h => by have := hb _ h; simp [Stmt.card, sectionOf] at this)]
  rfl

/-- C63: the first `BT` card with the name of an outer face decides its type, when there is no `BR` card. -/
theorem face_named (hs : WellSequenced (doc.map Stmt.card)) (hx : experiment eta0 W (doc.map Stmt.says) = some (X, Q))
    {f : Face} {t : BTag} {a b : List Stmt} (hd : doc = a ++ .boundary (faceWord f).toList t :: b)
    (ha : ∀ st' ∈ a, ¬ st'.About f) : t.outer? = some (X.file.bt f) ∧ X.file.layers f = 0 := by
  obtain ⟨_, _, _, _, _, _, _, _, ho, _, _, rfl, _⟩ := parts hx
  have h := outer_named hs hd ha rfl (B := ⟨t, 0, 0, 0, match t with | .pec => -1 | .pmc | .periodic => 1 | _ => 0, 0⟩)
    (by cases t <;> simp [Stmt.says, face1, faceWord_eq])
  have hof := ho f
  rw [h] at hof
  simp only [h]
  obtain ⟨y, hy⟩ := Option.isSome_iff_exists.1 hof
  have hy' : t.outer? = some y := hy
  simp [hy']

/-- C63: an absorbing outer face has the depth and the profile of its `BT` card. -/
theorem face_absorber (hs : WellSequenced (doc.map Stmt.card)) (hx : experiment eta0 W (doc.map Stmt.says) = some (X, Q))
    {f : Face} {l o : Int} {v : List ℚ} {a b : List Stmt} (hd : doc = a ++ .absorber (faceWord f).toList l o v :: b)
    (ha : ∀ st' ∈ a, ¬ st'.About f) : X.file.bt f = .pml ∧ X.file.layers f = l ∧
      X.par f = ⟨o.toNat, (v[0]?.getD 1 : ℚ), (v[1]?.getD (-1) : ℚ), (v[2]?.getD 1 : ℚ)⟩ := by
  obtain ⟨_, _, _, _, _, _, _, _, _, _, _, rfl, _⟩ := parts hx
  have h := outer_named hs hd ha rfl (B := ⟨.pml, l, o, v[0]?.getD 1, v[1]?.getD (-1), v[2]?.getD 1⟩)
    (by simp [Stmt.says, face1, faceWord_eq])
  simp only [h]
  exact ⟨rfl, by trivial, by trivial⟩

/-- C63: and one without parameters, or with a depth only, has the default profile. -/
theorem face_absorber_default (hs : WellSequenced (doc.map Stmt.card))
    (hx : experiment eta0 W (doc.map Stmt.says) = some (X, Q)) {f : Face} {l : Option Int} {a b : List Stmt}
    (hd : doc = a ++ .absorberDefault (faceWord f).toList l :: b) (ha : ∀ st' ∈ a, ¬ st'.About f) :
    X.file.bt f = .pml ∧ X.file.layers f = l.getD 6 ∧ X.par f = ⟨4, 1, -1, 1⟩ := by
  obtain ⟨_, _, _, _, _, _, _, _, _, _, _, rfl, _⟩ := parts hx
  have h := outer_named hs hd ha rfl (B := ⟨.pml, l.getD 6, 4, 1, -1, 1⟩)
    (by simp [Stmt.says, face1, faceWord_eq])
  simp only [h]
  exact ⟨rfl, by trivial, by simp⟩

/-- C63, a finding: a `FREE_SPACE` boundary or an impedance sheet with the name of an outer face stops the program
(`assert( 0 )`). -/
theorem face_sheet_stops (hs : WellSequenced (doc.map Stmt.card)) {f : Face} {st : Stmt} {a b : List Stmt}
    (hd : doc = a ++ st :: b) (ha : ∀ st' ∈ a, ¬ st'.About f)
    (hst : st = .boundary (faceWord f).toList .free ∨ (∃ v, st = .sheet (faceWord f).toList v) ∨
      ∃ g, st = .sheetFile (faceWord f).toList g) : experiment eta0 W (doc.map Stmt.says) = none := by
  cases hx : experiment eta0 W (doc.map Stmt.says) with
  | none => rfl
  | some p =>
    obtain ⟨X, Q⟩ := p
    obtain ⟨_, _, _, _, _, _, _, _, ho, _⟩ := parts hx
    have hof := ho f
    have : ∃ B, outer (doc.map Stmt.says) f = B ∧ B.tag.outer? = none := by
      rcases hst with rfl | ⟨v, rfl⟩ | ⟨g, rfl⟩
      · exact ⟨_, outer_named hs hd ha rfl (B := ⟨.free, 0, 0, 0, 0, 0⟩) (by simp [Stmt.says, face1, faceWord_eq]), rfl⟩
      · exact ⟨_, outer_named hs hd ha rfl (B := ⟨.sibc, 0, 0, 0, 0, 0⟩) (by simp [Stmt.says, face1, faceWord_eq]), rfl⟩
      · exact ⟨_, outer_named hs hd ha rfl (B := ⟨.sibc, 0, 0, 0, 0, 0⟩) (by simp [Stmt.says, face1, faceWord_eq]), rfl⟩
    obtain ⟨B, hB, hn⟩ := this
    rw [hB, hn] at hof
    cases hof

end
/-! ### A case: from the text of a mesh file to the names of the files of its run -/

def dipoleText : List Char := "VM 1.0.0
CE dipole in a box   # comment
DM 6 5 4
GS
BT XLO PML 3
BT XHI PEC
  BT YLO PEC # this side, too
BT YHI PEC
BT ZLO PEC
BT ZHI PEC
WF pulse GAUSSIAN_PULSE 1.0
OP 3 3 2 2 1 1 near TDOM_ASCII
OP 4 4 2 2 1 1 far FDOM_ASCII pulse
OP 0 6 1 1 0 4 cut TDOM_BINARY 2 1 1
EX 2 2 2 2 1 2 feed VRZ pulse 50 1
GE
NT 100
OT 10 90
CN 0.5
MS 2.5e-3
EN
".toList

def dipoleRaws : List Raw := [.vm 1 0 0, .ce " dipole in a box".toList, .dm 6 5 4, .mark .GS,
  .bt "XLO".toList ⟨.pml, 3, 4, 1, -1, 1⟩, .bt "XHI".toList ⟨.pec, 0, 0, 0, -1, 0⟩,
  .bt "YLO".toList ⟨.pec, 0, 0, 0, -1, 0⟩, .bt "YHI".toList ⟨.pec, 0, 0, 0, -1, 0⟩,
  .bt "ZLO".toList ⟨.pec, 0, 0, 0, -1, 0⟩, .bt "ZHI".toList ⟨.pec, 0, 0, 0, -1, 0⟩,
  .wf "pulse".toList .gaussian [1],
  .op ⟨8, mkBox 3 3 2 2 1 1, "near", true, true, 1, 1, 1, "", false⟩,
  .op ⟨9, mkBox 4 4 2 2 1 1, "far", true, true, 1, 1, 1, "pulse", true⟩,
  .op ⟨11, mkBox 0 6 1 1 0 4, "cut", true, false, 2, 1, 1, "", false⟩,
  .ex (mkBox 2 2 2 2 1 2) "feed".toList "VRZ".toList "pulse".toList 1 0 50, .mark .GE, .nt 100, .ot 10 90, .cn (1/2),
  .ms [1/400], .mark .EN]

theorem dipole_read : readMesh false dipoleText = .ok dipoleRaws := by decide +kernel

noncomputable def dipoleItems : List Deck.Card :=
  [.bt "XLO" .plain, .bt "XHI" .pec, .bt "YLO" .pec, .bt "YHI" .pec, .bt "ZLO" .pec, .bt "ZHI" .pec, .wf "pulse",
   .op ⟨8, mkBox 3 3 2 2 1 1, "near", true, true, 1, 1, 1, "", false⟩,
   .op ⟨9, mkBox 4 4 2 2 1 1, "far", true, true, 1, 1, 1, "pulse", true⟩,
   .op ⟨11, mkBox 0 6 1 1 0 4, "cut", true, false, 2, 1, 1, "", false⟩,
   .ex 9 (mkBox 2 2 2 2 1 2) "feed" "VRZ".toList "pulse" 1 0 50]

theorem dipole_outer (f : Face) : outer dipoleRaws f = if f = .xlo then ⟨.pml, 3, 4, 1, -1, 1⟩ else ⟨.pec, 0, 0, 0, -1, 0⟩ := by
  have : ∀ f : Face, outer dipoleRaws f = if f = .xlo then ⟨.pml, 3, 4, 1, -1, 1⟩ else ⟨.pec, 0, 0, 0, -1, 0⟩ := by
    intro f; cases f <;> decide +kernel
  exact this f

theorem dipole_experiment (eta0 : ℝ) (W : World) : ∃ X, experiment eta0 W dipoleRaws = some (X, ⟨100, some (10, 90), none⟩) ∧
    X.file = ⟨6, 5, 4, fun f => if f = .xlo then .pml else .pec, fun f => if f = .xlo then 3 else 0, dipoleItems, false⟩ := by
  have hc : dipoleRaws.mapM (deckCards eta0 W) = some [[], [], [], [], [.bt "XLO" .plain], [.bt "XHI" .pec], [.bt "YLO" .pec],
      [.bt "YHI" .pec], [.bt "ZLO" .pec], [.bt "ZHI" .pec], [.wf "pulse"],
      [.op ⟨8, mkBox 3 3 2 2 1 1, "near", true, true, 1, 1, 1, "", false⟩],
      [.op ⟨9, mkBox 4 4 2 2 1 1, "far", true, true, 1, 1, 1, "pulse", true⟩],
      [.op ⟨11, mkBox 0 6 1 1 0 4, "cut", true, false, 2, 1, 1, "", false⟩],
      [.ex 9 (mkBox 2 2 2 2 1 2) "feed" "VRZ".toList "pulse" ((1 : ℚ) : ℝ) ((0 : ℚ) : ℝ) ((50 : ℚ) : ℝ)], [], [], [], [], [], []] := by
    simp [dipoleRaws, List.mapM_cons, deckCards, bndOf]
  have hw : ∃ r, dipoleRaws.mapM (waveCard W) = some r := by
    have h1 : ¬ ((1 : ℝ) < 0) := by norm_num
    simp [dipoleRaws, List.mapM_cons, waveCard, Waveform.parseWF, h1]
  obtain ⟨r, hw⟩ := hw
  have h1 : ∀ f, ((outer dipoleRaws f).tag.outer?).isSome := by
    intro f; rw [dipole_outer]; cases f <;> rfl
  have h2 : spacingOk dipoleRaws = true := by decide +kernel
  have h3 : ∀ c, Raw.cn c ∈ dipoleRaws → (Run.parseCN (some (c : ℝ))).isSome := by
    intro c hc
    simp [dipoleRaws] at hc
    subst hc
    have : ¬ (1 : ℝ) ≤ 2⁻¹ := by norm_num
    simp [Run.parseCN, this]
  unfold experiment
  rw [hc, hw]
  have e1 : (dipoleRaws.findSome? fun | .dm x y z => some (x, y, z) | _ => none) = some (6, 5, 4) := rfl
  have e2 : (dipoleRaws.findSome? fun | .nt n => some n | _ => none) = some 100 := rfl
  have e3 : (dipoleRaws.findSome? fun | .ot a b => some (a, b) | _ => none) = some (10, 90) := rfl
  have e4 : (dipoleRaws.findSome? fun | .of a b n => some ((a : ℝ), (b : ℝ), n.toNat) | _ => none) = none := rfl
  simp only [e1, e2, e3, e4, Option.bind_some, if_pos h1, if_pos (And.intro h2 h3)]
  refine ⟨_, rfl, ?_⟩
  simp only [dipole_outer, dipoleItems]
  simp
  constructor
  · funext f; cases f <;> rfl
  · funext f; cases f <;> rfl

theorem setup_ok (k : Consts) (J : Junk) {X : Experiment} {c : Cfg} {s : Deck.State}
    (hc : initExternalSurfaceParameters X.file.cells X.file.bt X.file.layers = some c) (hs : X.file.stored = some s)
    (hp : s.pws = []) : ∃ R, setup k J X = some R := by
  have hS : ∃ S, (fileOf k J X c).sim (Setup.de k J X c) (Setup.dh k J X c) = some S := by
    have ef : (fileOf k J X c).stored = some s := hs
    have ec : initExternalSurfaceParameters (fileOf k J X c).cells (fileOf k J X c).bt (fileOf k J X c).layers = some c := hc
    simp only [Deck.File.sim, ef, ec, hp, Option.bind_some, List.mapM_nil, Option.pure_def]
    exact ⟨_, rfl⟩
  obtain ⟨S, hS⟩ := hS
  exact ⟨_, Scaling.setup_of hc hs hS⟩

theorem dipole_deck : ∃ s, Deck.read (Deck.State.init (mkBox 0 6 0 5 0 4)) dipoleItems = some s ∧ s.pws = [] := by
  rw [dipoleItems]
  rw [C47.read_cons, C47.card_bt (by rfl), Option.bind_some]
  rw [C47.read_cons, C47.card_bt (by rfl), Option.bind_some]
  rw [C47.read_cons, C47.card_bt (by rfl), Option.bind_some]
  rw [C47.read_cons, C47.card_bt (by rfl), Option.bind_some]
  rw [C47.read_cons, C47.card_bt (by rfl), Option.bind_some]
  rw [C47.read_cons, C47.card_bt (by rfl), Option.bind_some]
  rw [C47.read_cons, C47.card_wf (by decide +kernel), Option.bind_some]
  rw [C47.read_cons, C61.card_op (by decide +kernel), Option.bind_some]
  rw [C47.read_cons, C61.card_op (by decide +kernel), Option.bind_some]
  rw [C47.read_cons, C61.card_op (by decide +kernel), Option.bind_some]
  have hl : Source.lookup "VRZ".toList = some ⟨.thevenin, .z, none, .ez, true⟩ := by decide +kernel
  rw [C47.read_cons]
  have key : ∀ s : Deck.State, parseEX s.mbox (fun n => (s.srcs.map Deck.SrcItem.name).contains n) (fun n => s.waves.contains n)
      (Deck.exCard 9 (mkBox 2 2 2 2 1 2) "feed" "VRZ".toList "pulse") = true → s.pws = [] →
      ∃ s', ((s.card (.ex 9 (mkBox 2 2 2 2 1 2) "feed" "VRZ".toList "pulse" 1 0 50)).bind fun s => Deck.read s []) = some s' ∧ s'.pws = [] := by
    intro s hp h0
    obtain ⟨s', h', -, -, -, -, e5, -⟩ := C47.card_ex (size := 1) (delay := 0) (resist := 50) hl hp
    rw [h', Option.bind_some]
    exact ⟨s', rfl, by rw [e5, h0]⟩
  refine key _ ?_ rfl
  decide +kernel

/-- The text above, given to the program, makes it run to its end and leave these six files. -/
theorem dipole_leaves (k : Consts) (J : Junk) (W : World) : ∃ fs, LeavesText k J W false dipoleText fs ∧
    fs.map Prod.fst = ["eh_near_td.asc", "eh_far_fd.asc", "wf_pulse_td.asc", "wf_pulse_fd.asc", "impulse.dat", "excite.dat"] := by
  obtain ⟨X, hx, hf⟩ := dipole_experiment k.eta0 W
  obtain ⟨s, hs, hp⟩ := dipole_deck
  have hs' : X.file.stored = some s := by rw [hf]; exact hs
  have hc : ∃ c, initExternalSurfaceParameters X.file.cells X.file.bt X.file.layers = some c := by
    rw [hf]
    have : (initExternalSurfaceParameters (Deck.File.cells ⟨6, 5, 4, fun f => if f = .xlo then .pml else .pec,
      fun f => if f = .xlo then 3 else 0, [], false⟩) (fun f => if f = .xlo then .pml else .pec)
      (fun f => if f = .xlo then 3 else 0)).isSome = true := by decide +kernel
    exact Option.isSome_iff_exists.1 this
  obtain ⟨c, hc⟩ := hc
  obtain ⟨R, hR⟩ := setup_ok k J hc hs' hp
  obtain ⟨fs, h⟩ := C61.run_leaves (Q := ⟨100, some (10, 90), none⟩) hR
    ⟨by decide, by intro t ht; simp at ht; subst ht; decide, by simp⟩ (by decide) (by
      intro c hc hb a
      rw [C61.mem_probes, hf] at hc
      simp only [dipoleItems, List.mem_cons, List.not_mem_nil, or_false, reduceCtorEq, Deck.Card.op.injEq, false_or, or_false] at hc
      rcases hc with rfl | rfl | rfl <;> simp at hb
      cases a <;> decide) (by intro _ e; rw [hf] at e; simp [waveNames, dipoleItems, Spec.waveOf] at e)
  refine ⟨fs, ⟨_, X, _, dipole_read, hx, h⟩, ?_⟩
  rw [C61.file_names h, hf]
  rfl
end Vulture.C63
