import Verif.Lemmas.Turn
/-
Renaming of the axes, phase by phase: absorbing layers, main grid, Mur faces. Lemmas for C39.
-/
set_option linter.unusedSimpArgs false
set_option linter.unusedVariables false
set_option linter.unusedSectionVars false
namespace Vulture
open Spec C09 C10

/-- The slab that holds the storage of a sample in the turned mesh. -/
def newRegion (c : Cfg) (fc : Fc) (i j k : Int) : Face :=
  (Face.all.find? fun r => decide (InLim (c.turn.fplim r fc.next) k i j)).getD .xlo

theorem newRegion_spec {c : Cfg} (h : ValidCfg c) {fc : Fc} {i j k : Int} (hs : InSomeSlab c fc i j k) :
    c.turn.bt (newRegion c fc i j k) = .pml ∧
      InLim (c.turn.fplim (newRegion c fc i j k) fc.next) k i j := by
  obtain ⟨r, hr, hl⟩ := (inSomeSlab_turn h fc i j k).2 hs
  have : (Face.all.find? fun r => decide (InLim (c.turn.fplim r fc.next) k i j)) = some r := by
    cases hf : Face.all.find? fun r => decide (InLim (c.turn.fplim r fc.next) k i j) with
    | none =>
      have := List.find?_eq_none.1 hf r (by cases r <;> simp [Face.all])
      simp [hl] at this
    | some r' =>
      have := List.find?_some hf
      simp only [decide_eq_true_eq] at this
      rw [slab_unique (turn_valid h) this hl]
  unfold newRegion
  rw [this]
  exact ⟨hr, hl⟩

theorem newRegion_eq {c : Cfg} (h : ValidCfg c) {fc : Fc} {i j k : Int} {r : Face}
    (hl : InLim (c.turn.fplim r fc.next) k i j) (hs : InSomeSlab c fc i j k) :
    newRegion c fc i j k = r :=
  slab_unique (turn_valid h) (newRegion_spec h hs).2 hl

/-- Where a value of the original experiment is found in the turned one. -/
def turnLoc (c : Cfg) : Loc → Loc
  | .fld fc i j k => .fld fc.next k i j
  | .pp r fc i j k =>
    let I := i + c.fplim r fc .xlo; let J := j + c.fplim r fc .ylo; let K := k + c.fplim r fc .zlo
    PPr (newRegion c fc I J K) fc.next (c.turn.fplim (newRegion c fc I J K) fc.next) K I J
  | .p r fc i j k =>
    let I := i + c.fplim r fc .xlo; let J := j + c.fplim r fc .ylo; let K := k + c.fplim r fc .zlo
    Pr (newRegion c fc I J K) fc.next (c.turn.fplim (newRegion c fc I J K) fc.next) K I J
  | .b r fc i j k =>
    let I := i + c.fplim r fc .xlo; let J := j + c.fplim r fc .ylo; let K := k + c.fplim r fc .zlo
    Br (newRegion c fc I J K) fc.next (c.turn.fplim (newRegion c fc I J K) fc.next) K I J
  | .dj im b p fc i j k => .dj im b p fc.next k i j
  | .dl b fc i j k => .dl b fc.next k i j
  | .inc h n fc i j k => .inc h n fc.next k i j
  | l => l

/-- The values that exist: storage of a slab only for its samples. -/
def Exists (c : Cfg) : Loc → Prop
  | .pp r fc i j k | .p r fc i j k | .b r fc i j k =>
    c.bt r = .pml ∧
      InLim (c.fplim r fc) (i + c.fplim r fc .xlo) (j + c.fplim r fc .ylo) (k + c.fplim r fc .zlo)
  | _ => True

theorem turnLoc_PP (c : Cfg) (r : Face) (fc : Fc) (i j k : Int) :
    turnLoc c (PPr r fc (c.fplim r fc) i j k) =
      PPr (newRegion c fc i j k) fc.next (c.turn.fplim (newRegion c fc i j k) fc.next) k i j := by
  unfold PPr turnLoc
  simp only [Int.sub_add_cancel]; rfl
theorem turnLoc_P (c : Cfg) (r : Face) (fc : Fc) (i j k : Int) :
    turnLoc c (Pr r fc (c.fplim r fc) i j k) =
      Pr (newRegion c fc i j k) fc.next (c.turn.fplim (newRegion c fc i j k) fc.next) k i j := by
  unfold Pr turnLoc
  simp only [Int.sub_add_cancel]; rfl
theorem turnLoc_B (c : Cfg) (r : Face) (fc : Fc) (i j k : Int) :
    turnLoc c (Br r fc (c.fplim r fc) i j k) =
      Br (newRegion c fc i j k) fc.next (c.turn.fplim (newRegion c fc i j k) fc.next) k i j := by
  unfold Br turnLoc
  simp only [Int.sub_add_cancel]; rfl

theorem turnLoc_inj {c : Cfg} (h : ValidCfg c) : InjV (Exists c) (turnLoc c) := by
  have key : ∀ (r r2 : Face) (fc : Fc) (i j k i2 j2 k2 : Int),
      InLim (c.fplim r fc) (i + c.fplim r fc .xlo) (j + c.fplim r fc .ylo) (k + c.fplim r fc .zlo) →
      InLim (c.fplim r2 fc) (i2 + c.fplim r2 fc .xlo) (j2 + c.fplim r2 fc .ylo) (k2 + c.fplim r2 fc .zlo) →
      i + c.fplim r fc .xlo = i2 + c.fplim r2 fc .xlo → j + c.fplim r fc .ylo = j2 + c.fplim r2 fc .ylo →
      k + c.fplim r fc .zlo = k2 + c.fplim r2 fc .zlo → r = r2 ∧ i = i2 ∧ j = j2 ∧ k = k2 := by
    intro r r2 fc i j k i2 j2 k2 h1 h2 e1 e2 e3
    rw [← e1, ← e2, ← e3] at h2
    have := slab_unique h h1 h2
    subst this
    exact ⟨rfl, by omega, by omega, by omega⟩
  intro l l' hl hl' e
  cases l <;> cases l' <;> simp only [turnLoc, PPr, Pr, Br, Loc.fld.injEq, Loc.pp.injEq, Loc.p.injEq,
    Loc.b.injEq, Loc.dj.injEq, Loc.dl.injEq, Loc.inc.injEq, reduceCtorEq] at e hl hl' ⊢ <;>
    first
    | exact e
    | (obtain ⟨e1, e2, e3, e4⟩ := e
       have := Fc.next_inj e1
       exact ⟨this, e3, e4, e2⟩)
    | (obtain ⟨er, ef, e1, e2, e3⟩ := e
       have ef := Fc.next_inj ef
       subst ef
       rw [er] at e1 e2 e3
       obtain ⟨rfl, rfl, rfl, rfl⟩ := key _ _ _ _ _ _ _ _ _ hl.2 hl'.2 (by omega) (by omega) (by omega)
       exact ⟨rfl, rfl, rfl, rfl, rfl⟩)
    | (obtain ⟨a1, a2, a3, e1, e2, e3, e4⟩ := e
       exact ⟨a1, a2, a3, Fc.next_inj e1, e3, e4, e2⟩)
    | (obtain ⟨a1, e1, e2, e3, e4⟩ := e
       exact ⟨a1, Fc.next_inj e1, e3, e4, e2⟩)
    | (obtain ⟨a1, a2, e1, e2, e3, e4⟩ := e
       exact ⟨a1, a2, Fc.next_inj e1, e3, e4, e2⟩)

/-! ### Turned expressions -/

macro "turn_simp" : tactic => `(tactic| simp [Expr.rename, turnRef, ampereX, ampereY, ampereZ, faradayX, faradayY,
  faradayZ, curlHx, curlHy, curlHz, curlEx, curlEy, curlEz, EX, EY, EZ, HX, HY, HZ, turnLoc, Fc.next,
  Axis.next])

theorem turn_ampere (c : Cfg) {fc : Fc} (hf : fc.isE = true) (i j k : Int) :
    (ampere fc i j k).rename (turnLoc c) turnRef = ampere fc.next k i j := by
  cases fc <;> simp [Fc.isE] at hf <;> simp only [ampere, Fc.next] <;> turn_simp

theorem turn_faraday (c : Cfg) {fc : Fc} (hf : fc.isE = false) (i j k : Int) :
    (faraday fc i j k).rename (turnLoc c) turnRef = faraday fc.next k i j := by
  cases fc <;> simp [Fc.isE] at hf <;> simp only [faraday, Fc.next] <;> turn_simp

/-- The slab update of a component. -/
def pmlBlock : Fc → Face → (Face → Int) → Int → Int → Int → Block
  | .ex => pmlExBlock | .ey => pmlEyBlock | .ez => pmlEzBlock
  | .hx => pmlHxBlock | .hy => pmlHyBlock | .hz => pmlHzBlock

theorem turn_pmlBlock (c : Cfg) (r : Face) (fc : Fc) (i j k : Int) :
    (pmlBlock fc r (c.fplim r fc) i j k).rename (turnLoc c) turnRef =
      pmlBlock fc.next (newRegion c fc i j k)
        (c.turn.fplim (newRegion c fc i j k) fc.next) k i j := by
  have h1 := turnLoc_PP c r fc i j k
  have h2 := turnLoc_P c r fc i j k
  have h3 := turnLoc_B c r fc i j k
  have hf : ∀ fc i j k, turnLoc c (.fld fc i j k) = .fld fc.next k i j := fun _ _ _ _ => rfl
  cases fc <;> simp only [Fc.next] at h1 h2 h3 ⊢ <;>
    simp [pmlBlock, pmlExBlock, pmlEyBlock, pmlEzBlock, pmlHxBlock, pmlHyBlock, pmlHzBlock, Block.rename,
      Expr.rename, h1, h2, h3, hf, turnRef, curlHx, curlHy, curlHz, curlEx, curlEy, curlEz, EX, EY, EZ,
      HX, HY, HZ, Fc.next, Axis.next]

/-! ### Phases -/

section phases
variable {K : Type*} [CommRing K] {C C' : CRef → K}

/-- Corresponding phases of the two experiments. -/
abbrev Turned (c : Cfg) (C C' : CRef → K) (p p' : Prog) : Prop := Phase C C' (Exists c) (turnLoc c) p p'

theorem mem_pmlE (c : Cfg) (b : Block) :
    b ∈ updatePmlEfield c ↔ ∃ (r : Face) (fc : Fc) (i j k : Int), fc.isE = true ∧ c.bt r = .pml ∧
      InLim (c.fplim r fc) i j k ∧ b = pmlBlock fc r (c.fplim r fc) i j k := by
  unfold updatePmlEfield
  simp only [List.mem_flatMap]
  constructor
  · rintro ⟨r, -, hb⟩
    unfold pmlRegionE at hb
    by_cases hr : c.bt r = .pml
    · rw [if_pos hr] at hb
      simp only [List.mem_append, loopOver, List.mem_map] at hb
      rcases hb with (⟨⟨i, j, k⟩, ht, rfl⟩ | ⟨⟨i, j, k⟩, ht, rfl⟩) | ⟨⟨i, j, k⟩, ht, rfl⟩
      · exact ⟨r, .ex, i, j, k, rfl, hr, mem_boxLoop.1 ht, rfl⟩
      · exact ⟨r, .ey, i, j, k, rfl, hr, mem_boxLoop.1 ht, rfl⟩
      · exact ⟨r, .ez, i, j, k, rfl, hr, mem_boxLoop.1 ht, rfl⟩
    · rw [if_neg hr] at hb; cases hb
  · rintro ⟨r, fc, i, j, k, hf, hr, hl, rfl⟩
    refine ⟨r, by cases r <;> simp [Face.all], ?_⟩
    unfold pmlRegionE
    rw [if_pos hr]
    simp only [List.mem_append, loopOver, List.mem_map]
    cases fc <;> simp [Fc.isE] at hf
    · exact .inl (.inl ⟨(i, j, k), mem_boxLoop.2 hl, rfl⟩)
    · exact .inl (.inr ⟨(i, j, k), mem_boxLoop.2 hl, rfl⟩)
    · exact .inr ⟨(i, j, k), mem_boxLoop.2 hl, rfl⟩

theorem mem_pmlH (c : Cfg) (b : Block) :
    b ∈ updatePmlHfield c ↔ ∃ (r : Face) (fc : Fc) (i j k : Int), fc.isE = false ∧ c.bt r = .pml ∧
      InLim (c.fplim r fc) i j k ∧ b = pmlBlock fc r (c.fplim r fc) i j k := by
  unfold updatePmlHfield
  simp only [List.mem_flatMap]
  constructor
  · rintro ⟨r, -, hb⟩
    unfold pmlRegionH at hb
    by_cases hr : c.bt r = .pml
    · rw [if_pos hr] at hb
      simp only [List.mem_append, loopOver, List.mem_map] at hb
      rcases hb with (⟨⟨i, j, k⟩, ht, rfl⟩ | ⟨⟨i, j, k⟩, ht, rfl⟩) | ⟨⟨i, j, k⟩, ht, rfl⟩
      · exact ⟨r, .hx, i, j, k, rfl, hr, mem_boxLoop.1 ht, rfl⟩
      · exact ⟨r, .hy, i, j, k, rfl, hr, mem_boxLoop.1 ht, rfl⟩
      · exact ⟨r, .hz, i, j, k, rfl, hr, mem_boxLoop.1 ht, rfl⟩
    · rw [if_neg hr] at hb; cases hb
  · rintro ⟨r, fc, i, j, k, hf, hr, hl, rfl⟩
    refine ⟨r, by cases r <;> simp [Face.all], ?_⟩
    unfold pmlRegionH
    rw [if_pos hr]
    simp only [List.mem_append, loopOver, List.mem_map]
    cases fc <;> simp [Fc.isE] at hf
    · exact .inl (.inl ⟨(i, j, k), mem_boxLoop.2 hl, rfl⟩)
    · exact .inl (.inr ⟨(i, j, k), mem_boxLoop.2 hl, rfl⟩)
    · exact .inr ⟨(i, j, k), mem_boxLoop.2 hl, rfl⟩

theorem next_isE (fc : Fc) : fc.next.isE = fc.isE := by cases fc <;> rfl

theorem mem_slab_turn {c : Cfg} (h : ValidCfg c) (isE : Bool) (b : Block) :
    (∃ b0, (∃ (r : Face) (fc : Fc) (i j k : Int), fc.isE = isE ∧ c.bt r = .pml ∧
        InLim (c.fplim r fc) i j k ∧ b0 = pmlBlock fc r (c.fplim r fc) i j k) ∧
        b0.rename (turnLoc c) turnRef = b) ↔
    ∃ (r : Face) (fc : Fc) (i j k : Int), fc.isE = isE ∧ c.turn.bt r = .pml ∧
      InLim (c.turn.fplim r fc) i j k ∧ b = pmlBlock fc r (c.turn.fplim r fc) i j k := by
  constructor
  · rintro ⟨b0, ⟨r, fc, i, j, k, hf, hr, hl, rfl⟩, rfl⟩
    have hn := newRegion_spec h (fc := fc) (i := i) (j := j) (k := k) ⟨r, hr, hl⟩
    exact ⟨_, fc.next, k, i, j, by rw [next_isE, hf], hn.1, hn.2, turn_pmlBlock c r fc i j k⟩
  · rintro ⟨r', fc', k, i, j, hf, hr, hl, rfl⟩
    obtain ⟨fc, rfl⟩ : ∃ fc : Fc, fc' = fc.next := ⟨fc'.prev, by simp⟩
    have hs := (inSomeSlab_turn h fc i j k).1 ⟨r', hr, hl⟩
    obtain ⟨r, hr0, hl0⟩ := hs
    refine ⟨_, ⟨r, fc, i, j, k, by rw [← next_isE, hf], hr0, hl0, rfl⟩, ?_⟩
    rw [turn_pmlBlock, newRegion_eq h hl ⟨r, hr0, hl0⟩]

theorem pmlBlock_in {c : Cfg} {r : Face} {fc : Fc} {i j k : Int} (hr : c.bt r = .pml)
    (hl : InLim (c.fplim r fc) i j k) : (pmlBlock fc r (c.fplim r fc) i j k).In (Exists c) := by
  have h1 : Exists c (PPr r fc (c.fplim r fc) i j k) := by
    simp only [PPr, Exists, Int.sub_add_cancel]; exact ⟨hr, hl⟩
  have h2 : Exists c (Pr r fc (c.fplim r fc) i j k) := by
    simp only [Pr, Exists, Int.sub_add_cancel]; exact ⟨hr, hl⟩
  have h3 : Exists c (Br r fc (c.fplim r fc) i j k) := by
    simp only [Br, Exists, Int.sub_add_cancel]; exact ⟨hr, hl⟩
  have h4 : ∀ fc i j k, Exists c (.fld fc i j k) := fun _ _ _ _ => trivial
  cases fc <;> constructor <;>
    simp [pmlBlock, Block.writes, Block.reads, Expr.reads, pmlExBlock, pmlEyBlock, pmlEzBlock, pmlHxBlock,
      pmlHyBlock, pmlHzBlock, curlHx, curlHy, curlHz, curlEx, curlEy, curlEz, EX, EY, EZ, HX, HY, HZ, h1,
      h2, h3, h4, or_imp, forall_and]

theorem phase_pmlE {c : Cfg} (h : ValidCfg c) (hC : ∀ r, C' (turnRef r) = C r) :
    Turned c C C' (updatePmlEfield c) (updatePmlEfield c.turn) := by
  refine Phase.independent (σ := turnRef) hC (turnLoc_inj h) ?_ ?_ ?_ ?_
  · intro b hb
    obtain ⟨r, fc, i, j, k, _, hr, hl, rfl⟩ := (mem_pmlE c b).1 hb
    exact pmlBlock_in hr hl
  · exact (List.pairwise_append.1 (electric_independent h)).1
  · exact (List.pairwise_append.1 (electric_independent (turn_valid h))).1
  · intro b
    rw [List.mem_map, mem_pmlE c.turn, ← mem_slab_turn h]
    simp only [mem_pmlE]

theorem phase_pmlH {c : Cfg} (h : ValidCfg c) (hC : ∀ r, C' (turnRef r) = C r) :
    Turned c C C' (updatePmlHfield c) (updatePmlHfield c.turn) := by
  refine Phase.independent (σ := turnRef) hC (turnLoc_inj h) ?_ ?_ ?_ ?_
  · intro b hb
    obtain ⟨r, fc, i, j, k, _, hr, hl, rfl⟩ := (mem_pmlH c b).1 hb
    exact pmlBlock_in hr hl
  · exact (List.pairwise_append.1 (List.pairwise_append.1 (magnetic_independent h)).1).1
  · exact (List.pairwise_append.1 (List.pairwise_append.1 (magnetic_independent (turn_valid h))).1).1
  · intro b
    rw [List.mem_map, mem_pmlH c.turn, ← mem_slab_turn h]
    simp only [mem_pmlH]

/-! ### Main grid -/

theorem mem_gridE (c : Cfg) (b : Block) :
    b ∈ updateGridEfield c ↔ ∃ (fc : Fc) (i j k : Int), fc.isE = true ∧
      InLim (c.gfilim fc) i j k ∧ b = [⟨.fld fc i j k, ampere fc i j k⟩] := by
  unfold updateGridEfield
  simp only [List.mem_append, loopOver, List.mem_map]
  constructor
  · rintro ((⟨⟨i, j, k⟩, ht, rfl⟩ | ⟨⟨i, j, k⟩, ht, rfl⟩) | ⟨⟨i, j, k⟩, ht, rfl⟩)
    · exact ⟨.ex, i, j, k, rfl, mem_boxLoop.1 ht, rfl⟩
    · exact ⟨.ey, i, j, k, rfl, mem_boxLoop.1 ht, rfl⟩
    · exact ⟨.ez, i, j, k, rfl, mem_boxLoop.1 ht, rfl⟩
  · rintro ⟨fc, i, j, k, hf, hl, rfl⟩
    cases fc <;> simp [Fc.isE] at hf
    · exact .inl (.inl ⟨(i, j, k), mem_boxLoop.2 hl, rfl⟩)
    · exact .inl (.inr ⟨(i, j, k), mem_boxLoop.2 hl, rfl⟩)
    · exact .inr ⟨(i, j, k), mem_boxLoop.2 hl, rfl⟩

theorem mem_gridH (c : Cfg) (b : Block) :
    b ∈ updateGridHfield c ↔ ∃ (fc : Fc) (i j k : Int), fc.isE = false ∧
      InLim (c.gfilim fc) i j k ∧ b = [⟨.fld fc i j k, faraday fc i j k⟩] := by
  unfold updateGridHfield
  simp only [List.mem_append, loopOver, List.mem_map]
  constructor
  · rintro ((⟨⟨i, j, k⟩, ht, rfl⟩ | ⟨⟨i, j, k⟩, ht, rfl⟩) | ⟨⟨i, j, k⟩, ht, rfl⟩)
    · exact ⟨.hx, i, j, k, rfl, mem_boxLoop.1 ht, rfl⟩
    · exact ⟨.hy, i, j, k, rfl, mem_boxLoop.1 ht, rfl⟩
    · exact ⟨.hz, i, j, k, rfl, mem_boxLoop.1 ht, rfl⟩
  · rintro ⟨fc, i, j, k, hf, hl, rfl⟩
    cases fc <;> simp [Fc.isE] at hf
    · exact .inl (.inl ⟨(i, j, k), mem_boxLoop.2 hl, rfl⟩)
    · exact .inl (.inr ⟨(i, j, k), mem_boxLoop.2 hl, rfl⟩)
    · exact .inr ⟨(i, j, k), mem_boxLoop.2 hl, rfl⟩

theorem ampere_fld (c : Cfg) (fc : Fc) (i j k : Int) : ∀ l ∈ (ampere fc i j k).reads, Exists c l := by
  cases fc <;> simp [ampere, Expr.reads, ampereX, ampereY, ampereZ, curlHx, curlHy, curlHz, EX, EY, EZ, HX,
    HY, HZ, Exists, or_imp, forall_and]

theorem faraday_fld (c : Cfg) (fc : Fc) (i j k : Int) : ∀ l ∈ (faraday fc i j k).reads, Exists c l := by
  cases fc <;> simp [faraday, Expr.reads, faradayX, faradayY, faradayZ, curlEx, curlEy, curlEz, EX, EY, EZ,
    HX, HY, HZ, Exists, or_imp, forall_and]

theorem phase_gridE {c : Cfg} (h : ValidCfg c) (hC : ∀ r, C' (turnRef r) = C r) :
    Turned c C C' (updateGridEfield c) (updateGridEfield c.turn) := by
  refine Phase.independent (σ := turnRef) hC (turnLoc_inj h) ?_ ?_ ?_ ?_
  · intro b hb
    obtain ⟨fc, i, j, k, _, hl, rfl⟩ := (mem_gridE c b).1 hb
    refine ⟨by simp [Block.writes, Exists], ?_⟩
    intro l hl
    simp only [Block.reads, List.flatMap_cons, List.flatMap_nil, List.append_nil] at hl
    exact ampere_fld c fc i j k l hl
  · exact (List.pairwise_append.1 (electric_independent h)).2.1
  · exact (List.pairwise_append.1 (electric_independent (turn_valid h))).2.1
  · intro b
    simp only [List.mem_map, mem_gridE]
    constructor
    · rintro ⟨b0, ⟨fc, i, j, k, hf, hl, rfl⟩, rfl⟩
      refine ⟨fc.next, k, i, j, by rw [next_isE, hf],
        (turn_inLim (turn_gfilim c fc) i j k).2 hl, ?_⟩
      simp only [Block.rename, List.map_cons, List.map_nil, turn_ampere c hf]; rfl
    · rintro ⟨fc', k, i, j, hf, hl, rfl⟩
      obtain ⟨fc, rfl⟩ : ∃ fc : Fc, fc' = fc.next := ⟨fc'.prev, by simp⟩
      rw [next_isE] at hf
      refine ⟨_, ⟨fc, i, j, k, hf, (turn_inLim (turn_gfilim c fc) i j k).1 hl, rfl⟩, ?_⟩
      simp only [Block.rename, List.map_cons, List.map_nil, turn_ampere c hf]; rfl

theorem phase_gridH {c : Cfg} (h : ValidCfg c) (hC : ∀ r, C' (turnRef r) = C r) :
    Turned c C C' (updateGridHfield c) (updateGridHfield c.turn) := by
  refine Phase.independent (σ := turnRef) hC (turnLoc_inj h) ?_ ?_ ?_ ?_
  · intro b hb
    obtain ⟨fc, i, j, k, _, hl, rfl⟩ := (mem_gridH c b).1 hb
    refine ⟨by simp [Block.writes, Exists], ?_⟩
    intro l hl
    simp only [Block.reads, List.flatMap_cons, List.flatMap_nil, List.append_nil] at hl
    exact faraday_fld c fc i j k l hl
  · exact (List.pairwise_append.1 (magnetic_independent h)).2.1
  · exact (List.pairwise_append.1 (magnetic_independent (turn_valid h))).2.1
  · intro b
    simp only [List.mem_map, mem_gridH]
    constructor
    · rintro ⟨b0, ⟨fc, i, j, k, hf, hl, rfl⟩, rfl⟩
      refine ⟨fc.next, k, i, j, by rw [next_isE, hf],
        (turn_inLim (turn_gfilim c fc) i j k).2 hl, ?_⟩
      simp only [Block.rename, List.map_cons, List.map_nil, turn_faraday c hf]; rfl
    · rintro ⟨fc', k, i, j, hf, hl, rfl⟩
      obtain ⟨fc, rfl⟩ : ∃ fc : Fc, fc' = fc.next := ⟨fc'.prev, by simp⟩
      rw [next_isE] at hf
      refine ⟨_, ⟨fc, i, j, k, hf, (turn_inLim (turn_gfilim c fc) i j k).1 hl, rfl⟩, ?_⟩
      simp only [Block.rename, List.map_cons, List.map_nil, turn_faraday c hf]; rfl

/-! ### Mur faces -/

theorem mem_murH (c : Cfg) (b : Block) :
    b ∈ updateMurHfield c ↔ ∃ (f : Face) (i j k : Int), c.bt f = .mur ∧
      InLim (c.fmlim f (murNormal f)) i j k ∧
      b = [⟨.fld (murNormal f) i j k, faraday (murNormal f) i j k⟩] := by
  unfold updateMurHfield
  simp only [List.mem_flatMap]
  constructor
  · rintro ⟨f, -, hb⟩
    by_cases hr : c.bt f = .mur
    · rw [if_pos hr] at hb
      simp only [loopOver, List.mem_map] at hb
      obtain ⟨⟨i, j, k⟩, ht, rfl⟩ := hb
      exact ⟨f, i, j, k, hr, mem_boxLoop.1 ht, rfl⟩
    · rw [if_neg hr] at hb; cases hb
  · rintro ⟨f, i, j, k, hr, hl, rfl⟩
    refine ⟨f, by cases f <;> simp [Face.all], ?_⟩
    rw [if_pos hr]
    simp only [loopOver, List.mem_map]
    exact ⟨(i, j, k), mem_boxLoop.2 hl, rfl⟩

theorem next_murNormal (f : Face) : murNormal f.next = (murNormal f).next := by cases f <;> rfl
theorem murNormal_isE (f : Face) : (murNormal f).isE = false := by cases f <;> rfl

theorem phase_murH {c : Cfg} (h : ValidCfg c) (hC : ∀ r, C' (turnRef r) = C r) :
    Turned c C C' (updateMurHfield c) (updateMurHfield c.turn) := by
  refine Phase.independent (σ := turnRef) hC (turnLoc_inj h) ?_ ?_ ?_ ?_
  · intro b hb
    obtain ⟨f, i, j, k, _, hl, rfl⟩ := (mem_murH c b).1 hb
    refine ⟨by simp [Block.writes, Exists], ?_⟩
    intro l hl
    simp only [Block.reads, List.flatMap_cons, List.flatMap_nil, List.append_nil] at hl
    exact faraday_fld c _ i j k l hl
  · exact (List.pairwise_append.1 (List.pairwise_append.1 (magnetic_independent h)).1).2.1
  · exact (List.pairwise_append.1 (List.pairwise_append.1 (magnetic_independent (turn_valid h))).1).2.1
  · intro b
    simp only [List.mem_map, mem_murH]
    constructor
    · rintro ⟨b0, ⟨f, i, j, k, hf, hl, rfl⟩, rfl⟩
      refine ⟨f.next, k, i, j, by rw [turn_bt, hf], ?_, ?_⟩
      · rw [next_murNormal]; exact (turn_inLim (turn_fmlim c f _) i j k).2 hl
      · simp only [Block.rename, List.map_cons, List.map_nil, turn_faraday c (murNormal_isE f),
          next_murNormal]; rfl
    · rintro ⟨f', k, i, j, hf, hl, rfl⟩
      obtain ⟨f, rfl⟩ : ∃ f : Face, f' = f.next := ⟨f'.prev, by simp⟩
      rw [turn_bt] at hf
      rw [next_murNormal] at hl ⊢
      refine ⟨_, ⟨f, i, j, k, hf, (turn_inLim (turn_fmlim c f _) i j k).1 hl, rfl⟩, ?_⟩
      simp only [Block.rename, List.map_cons, List.map_nil, turn_faraday c (murNormal_isE f)]; rfl

end phases

end Vulture
