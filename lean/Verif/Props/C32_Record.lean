import Verif.Props.C32_Window
/-
C32. What the files contain after the run. C33. The transforms after the run.
-/
set_option linter.unusedSimpArgs false
set_option linter.unusedSectionVars false
namespace Vulture.C32
open Vulture Run Spec C35

/-! ### One step -/

/-- Lines an item adds in one step. -/
def newLines (e : Env) (t : BitVec 64) (time : ℝ) (m : Loc → ℝ) (x : Item) : List Line :=
  match x.kind with
  | .wfTime => [asciiLine e x m t time]
  | .asciiTime => if inWin e.win t then [asciiLine e x m t time] else []
  | _ => []

noncomputable def newDft (e : Env) (t : BitVec 64) (time : ℝ) (m : Loc → ℝ) (x : Item) (d : Nat → Nat → ℝ × ℝ) :
    Nat → Nat → ℝ × ℝ :=
  match x.kind with
  | .wfFreq => dftAdd e (x.values e m time) time d
  | .asciiFreq => if inWin e.win t then dftAdd e (x.values e m time) time d else d
  | _ => d

def newRecs (e : Env) (t : BitVec 64) (m : Loc → ℝ) (x : Item) : Option (List Rec) :=
  match x.kind with
  | .binary => if inWin e.win t then records e x m else some []
  | _ => some []

/-- Records of a list of items, in order; `none` when one of the loops does not end. -/
def allRecs (e : Env) (t : BitVec 64) (m : Loc → ℝ) : List Item → Option (List Rec)
  | [] => some []
  | x :: l => (newRecs e t m x).bind fun r => (allRecs e t m l).map (r ++ ·)

theorem updateItem_eq (e : Env) (t : BitVec 64) (time : ℝ) (m : Loc → ℝ) (x : Item) (o : Nat) (out : Out) :
    updateItem e t time m x o out = (newRecs e t m x).map fun r =>
      { excite := out.excite
        lines := fun p => if p = o then out.lines p ++ newLines e t time m x else out.lines p
        impulse := out.impulse ++ r
        dft := fun p => if p = o then newDft e t time m x (out.dft p) else out.dft p } := by
  unfold updateItem newRecs newLines newDft
  obtain ⟨ex, li, im, df⟩ := out
  cases hk : x.kind <;> simp only [hk]
  · simp
  · simp
  · by_cases hw : inWin e.win t
    · simp [hw]
    · simp [hw]
  · by_cases hw : inWin e.win t
    · simp [hw]
    · simp [hw]
  · by_cases hw : inWin e.win t
    · simp [hw]
    · simp [hw]

theorem updateItems_eq (e : Env) (t : BitVec 64) (time : ℝ) (m : Loc → ℝ) (l : List Item) : ∀ (o : Nat) (out : Out),
    updateItems e t time m l o out = (allRecs e t m l).map fun r =>
      { excite := out.excite
        lines := fun p => if o ≤ p then out.lines p ++ (match l[p - o]? with
          | some x => newLines e t time m x | none => []) else out.lines p
        impulse := out.impulse ++ r
        dft := fun p => if o ≤ p then (match l[p - o]? with
          | some x => newDft e t time m x (out.dft p) | none => out.dft p) else out.dft p } := by
  induction l with
  | nil =>
    intro o out
    obtain ⟨ex, li, im, df⟩ := out
    simp [updateItems, allRecs]
  | cons x l ih =>
    intro o out
    have hu : updateItems e t time m (x :: l) o out =
      (updateItem e t time m x o out).bind (updateItems e t time m l (o + 1)) := rfl
    rw [hu, updateItem_eq]
    simp only [allRecs]
    cases newRecs e t m x with
    | none => rfl
    | some r =>
      simp only [Option.map_some, Option.bind_some]
      rw [ih]
      cases allRecs e t m l with
      | none => rfl
      | some r' =>
        simp only [Option.map_some, Option.some.injEq, Out.mk.injEq, true_and, List.append_assoc]
        constructor
        · funext p
          rcases Nat.lt_trichotomy p o with h | h | h
          · rw [if_neg (by omega), if_neg (by omega), if_neg (by omega)]
          · subst h; simp
          · rw [if_pos (by omega), if_neg (by omega), if_pos (by omega),
              show p - o = (p - (o + 1)) + 1 by omega, List.getElem?_cons_succ]
        · funext p
          rcases Nat.lt_trichotomy p o with h | h | h
          · rw [if_neg (by omega), if_neg (by omega), if_neg (by omega)]
          · subst h; simp
          · rw [if_pos (by omega), if_neg (by omega), if_pos (by omega),
              show p - o = (p - (o + 1)) + 1 by omega, List.getElem?_cons_succ]

/-! ### The run -/

section
variable (S : Sim) (C : CRef → ℝ) (u : Nat → Loc → ℝ) (e : Env) (dt : ℝ) (s0 : Loc → ℝ)

/-- `isOTValid` is membership in the inclusive window. -/
theorem inWin_iff {n : Nat} (hn : n < 2 ^ 64) :
    inWin e.win (BitVec.ofNat 64 n) = true ↔ e.win.1.toNat ≤ n ∧ n ≤ e.win.2.toNat := by
  unfold inWin
  simp only [Bool.and_eq_true, decide_eq_true_eq, BitVec.le_def, ge_iff_le, BitVec.toNat_ofNat, Nat.mod_eq_of_lt hn]

theorem stepsIn_succ (a b n : Nat) : stepsIn a b (n + 1) = stepsIn a b n ++ if a ≤ n ∧ n ≤ b then [n] else [] := by
  unfold stepsIn
  rw [List.range_succ, List.filter_append]
  congr 1
  by_cases h : a ≤ n ∧ n ≤ b
  · rw [if_pos h]; simp [h]
  · rw [if_neg h]; simp [h]

/-- What one step adds. -/
theorem outputs_succ {n : Nat} {out : Out} (h : outputs S C u e dt s0 (n + 1) = some out) :
    ∃ o r, outputs S C u e dt s0 n = some o ∧ allRecs e (BitVec.ofNat 64 n) (S.state C u s0 n) e.items = some r ∧
      out.impulse = o.impulse ++ r ∧
      out.excite = o.excite ++ (if e.items.any (fun x => x.kind = .binary) then [e.wave 0 (n * dt)] else []) ∧
      (∀ p x, e.items[p]? = some x →
        out.lines p = o.lines p ++ newLines e (BitVec.ofNat 64 n) (n * dt) (S.state C u s0 n) x) ∧
      (∀ p x, e.items[p]? = some x →
        out.dft p = newDft e (BitVec.ofNat 64 n) (n * dt) (S.state C u s0 n) x (o.dft p)) ∧
      (∀ p, e.items[p]? = none → out.lines p = o.lines p ∧ out.dft p = o.dft p) := by
  have e1 : outputs S C u e dt s0 (n + 1) = (outputs S C u e dt s0 n).bind fun o =>
      updateObservers e (BitVec.ofNat 64 n) (n * dt) (S.state C u s0 n) o := rfl
  rw [e1] at h
  obtain ⟨o, ho, h2⟩ := Option.bind_eq_some_iff.1 h
  unfold updateObservers at h2
  rw [updateItems_eq] at h2
  obtain ⟨r, hr, h3⟩ := Option.map_eq_some_iff.1 h2
  subst h3
  refine ⟨o, r, ho, hr, ?_, ?_, ?_, ?_, ?_⟩
  · split_ifs <;> rfl
  · split_ifs <;> simp
  · intro p x hx
    simp only [Nat.zero_le, if_true, Nat.sub_zero, hx]
    split_ifs <;> rfl
  · intro p x hx
    simp only [Nat.zero_le, if_true, Nat.sub_zero, hx]
    split_ifs <;> rfl
  · intro p hx
    simp only [Nat.zero_le, if_true, Nat.sub_zero, hx]
    split_ifs <;> simp

/-- The line of step `n`. -/
def lineOf (x : Item) (n : Nat) : Line := ⟨BitVec.ofNat 64 n, n * dt, x.values e (S.state C u s0 n) (n * dt)⟩

/-- A time-domain field observer has one line for every step in the window, in order: step number, time, and the six
field values the node has before that step's update. -/
theorem time_lines {n : Nat} (hn : n ≤ 2 ^ 64) {out : Out} (h : outputs S C u e dt s0 n = some out) {o : Nat} {x : Item}
    (hx : e.items[o]? = some x) (hk : x.kind = .asciiTime) :
    out.lines o = (stepsIn e.win.1.toNat e.win.2.toNat n).map fun q =>
      (⟨BitVec.ofNat 64 q, q * dt, fieldsAt (S.state C u s0 q) x.node⟩ : Line) := by
  induction n generalizing out with
  | zero =>
    have : Out.empty = out := by simpa [outputs] using h
    subst this; rfl
  | succ n ih =>
    obtain ⟨o', r, ho, -, -, -, hl, -, -⟩ := outputs_succ S C u e dt s0 h
    rw [hl o x hx, ih (by omega) ho, stepsIn_succ, List.map_append]
    congr 1
    unfold newLines
    rw [hk]
    by_cases hw : e.win.1.toNat ≤ n ∧ n ≤ e.win.2.toNat
    · rw [if_pos hw]
      simp only [(inWin_iff e (by omega)).2 hw, if_true, asciiLine, Item.values, hk, List.map_cons, List.map_nil]
    · have : inWin e.win (BitVec.ofNat 64 n) = false := by
        rw [← Bool.not_eq_true, inWin_iff e (by omega)]; exact hw
      rw [if_neg hw]
      simp [this]

/-- A waveform is recorded at every step of the run. -/
theorem waveform_lines {n : Nat} {out : Out} (h : outputs S C u e dt s0 n = some out) {o : Nat}
    {x : Item} (hx : e.items[o]? = some x) (hk : x.kind = .wfTime) :
    out.lines o = (List.range n).map fun q => (⟨BitVec.ofNat 64 q, q * dt, [e.wave x.waveform (q * dt)]⟩ : Line) := by
  induction n generalizing out with
  | zero =>
    have : Out.empty = out := by simpa [outputs] using h
    subst this; rfl
  | succ n ih =>
    obtain ⟨o', r, ho, -, -, -, hl, -, -⟩ := outputs_succ S C u e dt s0 h
    rw [hl o x hx, ih ho, List.range_succ, List.map_append]
    simp only [newLines, asciiLine, Item.values, hk, List.map_cons, List.map_nil]

/-- The nodes a binary observer writes. -/
def nodeRecs (x : Item) (q : Nat) : List Rec := ((boxNodes x.gbbox x.step).getD []).map fun t =>
  ⟨(t.1 - e.giboxLo .x, t.2.1 - e.giboxLo .y, t.2.2 - e.giboxLo .z), fieldsAt (S.state C u s0 q) t⟩

theorem allRecs_in {n : Nat} (hn : n < 2 ^ 64) (hw : e.win.1.toNat ≤ n ∧ n ≤ e.win.2.toNat) (l : List Item) (r : List Rec)
    (h : allRecs e (BitVec.ofNat 64 n) (S.state C u s0 n) l = some r) :
    r = (l.filter fun x => x.kind = .binary).flatMap fun x => nodeRecs S C u e s0 x n := by
  induction l generalizing r with
  | nil => simp [allRecs] at h; subst h; rfl
  | cons x l ih =>
    simp only [allRecs] at h
    obtain ⟨r1, h1, h2⟩ := Option.bind_eq_some_iff.1 h
    obtain ⟨r2, h3, h4⟩ := Option.map_eq_some_iff.1 h2
    subst h4
    rw [ih r2 h3]
    unfold newRecs at h1
    by_cases hb : x.kind = .binary
    · rw [hb] at h1
      simp only [(inWin_iff e hn).2 hw, if_true, records] at h1
      obtain ⟨ns, h5, h6⟩ := Option.map_eq_some_iff.1 h1
      rw [List.filter_cons_of_pos (by simpa using hb), List.flatMap_cons]
      congr 1
      unfold nodeRecs
      rw [h5]; exact h6.symm
    · rw [List.filter_cons_of_neg (by simpa using hb)]
      have : r1 = [] := by
        cases hk : x.kind <;> simp only [hk] at h1 hb <;> simp_all
      rw [this]; rfl

theorem allRecs_out {n : Nat} (hn : n < 2 ^ 64) (hw : ¬ (e.win.1.toNat ≤ n ∧ n ≤ e.win.2.toNat)) (m : Loc → ℝ)
    (l : List Item) : allRecs e (BitVec.ofNat 64 n) m l = some [] := by
  have hf : inWin e.win (BitVec.ofNat 64 n) = false := by
    rw [← Bool.not_eq_true, inWin_iff e hn]; exact hw
  induction l with
  | nil => rfl
  | cons x l ih =>
    have : newRecs e (BitVec.ofNat 64 n) m x = some [] := by
      unfold newRecs
      cases x.kind <;> simp [hf]
    simp only [allRecs, this, ih, Option.bind_some, Option.map_some, List.append_nil]

/-- The binary file: for every step in the window, for every binary observer in mesh order, one record for every
selected node, with the values the fields have before that step's update. -/
theorem binary_records {n : Nat} (hn : n ≤ 2 ^ 64) {out : Out} (h : outputs S C u e dt s0 n = some out) :
    out.impulse = (stepsIn e.win.1.toNat e.win.2.toNat n).flatMap fun q =>
      (e.items.filter fun x => x.kind = .binary).flatMap fun x => nodeRecs S C u e s0 x q := by
  induction n generalizing out with
  | zero =>
    have : Out.empty = out := by simpa [outputs] using h
    subst this; rfl
  | succ n ih =>
    obtain ⟨o', r, ho, hr, hi, -⟩ := outputs_succ S C u e dt s0 h
    rw [hi, ih (by omega) ho, stepsIn_succ, List.flatMap_append]
    congr 1
    by_cases hw : e.win.1.toNat ≤ n ∧ n ≤ e.win.2.toNat
    · rw [if_pos hw, allRecs_in S C u e s0 (by omega) hw _ _ hr]; simp
    · rw [if_neg hw]
      rw [allRecs_out e (by omega) hw] at hr
      simp at hr; simp [hr]

/-- The excitation file has one value for every step of the run, whatever the window. -/
theorem excite_values {n : Nat} {out : Out} (h : outputs S C u e dt s0 n = some out) :
    out.excite = if e.items.any (fun x => x.kind = .binary) then (List.range n).map fun q : Nat => e.wave 0 (q * dt)
      else [] := by
  induction n generalizing out with
  | zero =>
    have : Out.empty = out := by simpa [outputs] using h
    subst this; split_ifs <;> rfl
  | succ n ih =>
    obtain ⟨o', r, ho, -, -, he, -⟩ := outputs_succ S C u e dt s0 h
    rw [he, ih ho, List.range_succ, List.map_append]
    split_ifs <;> rfl

/-! ### Termination -/

theorem boxNodes_some {b : BBox} {step : Axis → Int} (hs : ∀ a, 1 ≤ step a) : ∃ l, boxNodes b step = some l := by
  simp [boxNodes, forStep, hs .x, hs .y, hs .z]

/-- With positive steps every run finishes its output. -/
theorem outputs_finish (hs : ∀ x ∈ e.items, x.kind = .binary → ∀ a, 1 ≤ x.step a) (n : Nat) :
    ∃ out, outputs S C u e dt s0 n = some out := by
  induction n with
  | zero => exact ⟨_, rfl⟩
  | succ n ih =>
    obtain ⟨o, ho⟩ := ih
    have e1 : outputs S C u e dt s0 (n + 1) = (outputs S C u e dt s0 n).bind fun o =>
      updateObservers e (BitVec.ofNat 64 n) (n * dt) (S.state C u s0 n) o := rfl
    rw [e1, ho, Option.bind_some]
    unfold updateObservers
    rw [updateItems_eq]
    have : ∀ l : List Item, (∀ x ∈ l, x.kind = .binary → ∀ a, 1 ≤ x.step a) →
        ∃ r, allRecs e (BitVec.ofNat 64 n) (S.state C u s0 n) l = some r := by
      intro l
      induction l with
      | nil => intro _; exact ⟨_, rfl⟩
      | cons x l ih =>
        intro hl
        obtain ⟨r, hr⟩ := ih fun y hy => hl y (List.mem_cons_of_mem _ hy)
        have : ∃ r1, newRecs e (BitVec.ofNat 64 n) (S.state C u s0 n) x = some r1 := by
          unfold newRecs
          cases hk : x.kind <;> simp only [hk] <;> try exact ⟨_, rfl⟩
          obtain ⟨ns, hns⟩ := boxNodes_some (b := x.gbbox) (hl x (by simp) hk)
          unfold records
          rw [hns]
          split_ifs <;> exact ⟨_, rfl⟩
        obtain ⟨r1, h1⟩ := this
        exact ⟨r1 ++ r, by simp only [allRecs, h1, hr, Option.bind_some, Option.map_some]⟩
    obtain ⟨r, hr⟩ := this e.items hs
    exact ⟨_, by rw [hr]; rfl⟩

/-- The whole run then ends, with these outputs. -/
theorem run_ends {N : BitVec 64} (hN : N ≠ 0) (hs : ∀ x ∈ e.items, x.kind = .binary → ∀ a, 1 ≤ x.step a) :
    ∃ out, Ends N (body S C u e dt) (s0, Out.empty) (S.state C u s0 N.toNat, out) := by
  obtain ⟨out, h⟩ := outputs_finish S C u e dt s0 hs N.toNat
  exact ⟨out, (run_result S C u e dt hN s0 _ out).2 ⟨rfl, h⟩⟩

/-- A binary observer with a zero step hangs the run at the first step of the window. -/
theorem zero_step_hangs {N : BitVec 64} (hN : N ≠ 0) (hw : e.win.1.toNat < N.toNat) (ho : e.win.1 ≤ e.win.2) {x : Item}
    (hx : x ∈ e.items) (hk : x.kind = .binary) (hb : ∀ a : Axis, x.gbbox a.lo ≤ x.gbbox a.hi) {a : Axis}
    (hz : x.step a = 0) (r : (Loc → ℝ) × Out) : ¬ Ends N (body S C u e dt) (s0, Out.empty) r := by
  obtain ⟨m, out⟩ := r
  rw [run_result S C u e dt hN s0 m out]
  rintro ⟨-, h⟩
  have mono : ∀ k n, outputs S C u e dt s0 n = none → outputs S C u e dt s0 (n + k) = none := by
    intro k
    induction k with
    | zero => intro n h; exact h
    | succ k ih =>
      intro n h
      have e1 : outputs S C u e dt s0 (n + k + 1) = (outputs S C u e dt s0 (n + k)).bind fun o =>
        updateObservers e (BitVec.ofNat 64 (n + k)) ((n + k : Nat) * dt) (S.state C u s0 (n + k)) o := rfl
      rw [← Nat.add_assoc, e1, ih n h]; rfl
  have : outputs S C u e dt s0 (e.win.1.toNat + 1) = none := by
    cases hh : outputs S C u e dt s0 (e.win.1.toNat + 1) with
    | none => rfl
    | some out' =>
      exfalso
      obtain ⟨o', r', -, hr, -⟩ := outputs_succ S C u e dt s0 hh
      have hn : newRecs e (BitVec.ofNat 64 e.win.1.toNat) (S.state C u s0 e.win.1.toNat) x = none := by
        unfold newRecs
        rw [hk]
        simp only [(inWin_iff e e.win.1.isLt).2 ⟨le_rfl, ho⟩, if_true]
        unfold records
        rw [zero_step_endless hb hz]; rfl
      have : ∀ l : List Item, x ∈ l → allRecs e (BitVec.ofNat 64 e.win.1.toNat) (S.state C u s0 e.win.1.toNat) l = none := by
        intro l
        induction l with
        | nil => intro h; cases h
        | cons y l ih =>
          intro h
          simp only [allRecs]
          rcases List.mem_cons.1 h with rfl | h
          · rw [hn]; rfl
          · rw [ih h]
            cases newRecs e (BitVec.ofNat 64 e.win.1.toNat) (S.state C u s0 e.win.1.toNat) y <;> rfl
      rw [this e.items hx] at hr
      cases hr
  have := mono (N.toNat - (e.win.1.toNat + 1)) _ this
  rw [show e.win.1.toNat + 1 + (N.toNat - (e.win.1.toNat + 1)) = N.toNat by omega] at this
  rw [this] at h
  cases h

end

/-! ### The window -/

/-- The steps of a window inside the run, in order. -/
theorem window_list {a b n : Nat} (hab : a ≤ b) (hb : b < n) : stepsIn a b n = List.range' a (b - a + 1) := by
  unfold stepsIn
  have e1 : List.range n = List.range' 0 a ++ (List.range' a (b - a + 1) ++ List.range' (b + 1) (n - (b + 1))) := by
    rw [List.range_eq_range']
    have h1 := List.range'_append (s := a) (m := b - a + 1) (n := n - (b + 1)) (step := 1)
    rw [show a + 1 * (b - a + 1) = b + 1 by omega] at h1
    rw [h1]
    have h2 := List.range'_append (s := 0) (m := a) (n := b - a + 1 + (n - (b + 1))) (step := 1)
    rw [show 0 + 1 * a = a by omega] at h2
    rw [h2]; congr 1; omega
  rw [e1, List.filter_append, List.filter_append]
  have f1 : (List.range' 0 a).filter (fun n => decide (a ≤ n ∧ n ≤ b)) = [] := by
    rw [List.filter_eq_nil_iff]
    intro x hx; have := List.mem_range'_1.1 hx; simp; omega
  have f2 : (List.range' a (b - a + 1)).filter (fun n => decide (a ≤ n ∧ n ≤ b)) = List.range' a (b - a + 1) := by
    rw [List.filter_eq_self]
    intro x hx; have := List.mem_range'_1.1 hx; simp; omega
  have f3 : (List.range' (b + 1) (n - (b + 1))).filter (fun n => decide (a ≤ n ∧ n ≤ b)) = [] := by
    rw [List.filter_eq_nil_iff]
    intro x hx; have := List.mem_range'_1.1 hx; simp; omega
  rw [f1, f2, f3]; simp

/-- Steps in the window, when it lies inside the run. -/
theorem window_count {a b n : Nat} (hab : a ≤ b) (hb : b < n) : (stepsIn a b n).length = b - a + 1 := by
  rw [window_list hab hb, List.length_range']

/-- Every step of the run is in the default window. -/
theorem default_window {N : BitVec 64} (hN : N ≠ 0) :
    stepsIn (window none N).1.toNat (window none N).2.toNat N.toNat = List.range N.toNat := by
  have hp : 0 < N.toNat := Nat.pos_of_ne_zero fun h => hN (BitVec.eq_of_toNat_eq (by simpa using h))
  have hl := N.isLt
  have e : (N - 1).toNat = N.toNat - 1 := by
    rw [BitVec.toNat_sub, show (1 : BitVec 64).toNat = 1 from rfl]
    omega
  unfold stepsIn window
  simp only [Option.getD_none, e, BitVec.toNat_ofNat]
  rw [List.filter_eq_self]
  intro n hn
  have := List.mem_range.1 hn
  simp; omega

/-- The card's window is taken as given when it is ordered, refused otherwise. -/
theorem card_window (a b : BitVec 64) : parseOT a b = if a.toNat ≤ b.toNat then some (a, b) else none := by
  unfold parseOT
  simp only [BitVec.lt_def]
  split_ifs <;> first | rfl | omega

end Vulture.C32
