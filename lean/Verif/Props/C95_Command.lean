import Verif.Model.Gvulture
import Verif.Spec.Command
import Mathlib.Tactic.Common
import Mathlib.Tactic.SplitIfs
/-
C95. The command line of gvulture.
-/
namespace Vulture.C95
open Vulture Gvulture Spec

theorem pre_iff (a s : String) : Msg.isPre a s = true ↔ ∃ r, a.toList = s.toList ++ r := by
  unfold Msg.isPre
  rw [List.isPrefixOf_iff_prefix]
  exact ⟨fun ⟨r, h⟩ => ⟨r, h.symm⟩, fun ⟨r, h⟩ => ⟨r, h.symm⟩⟩

/-- The test of an option in the program. -/
def tested (w : Switch) (a : String) : Bool :=
  match w with
  | .help => Msg.isPre a "-h" || Msg.isPre a "--help"
  | .version => Msg.isPre a "-V" || Msg.isPre a "--version"
  | .verbose => Msg.isPre a "-v" || Msg.isPre a "--verbose"
  | .physical => Msg.isPre a "-p" || Msg.isPre a "--physical"
  | .noExternal => Msg.isPre a "-e" || Msg.isPre a "--no-ext-surf"
  | .gnuplot => Msg.isPre a "-g" || Msg.isPre a "--gnuplot"
  | .gmsh => Msg.isPre a "-m" || Msg.isPre a "--gmsh"

theorem tested_iff (w : Switch) (a : String) : tested w a = true ↔ Asks w a := by
  cases w <;> simp only [tested, Bool.or_eq_true, pre_iff, Asks] <;> rfl

theorem dashed_iff (a : String) : Msg.isPre a "-" = true ↔ Dashed a := pre_iff a "-"

theorem asks_dashed {w : Switch} {a : String} (h : Asks w a) : Dashed a := by
  rcases h with ⟨r, h⟩ | ⟨r, h⟩ <;> exact ⟨_, h⟩

/-- No argument asks for two options. -/
theorem one_meaning {w w' : Switch} {a : String} (h : Asks w a) (h' : Asks w' a) : w = w' := by
  rcases h with ⟨r, h⟩ | ⟨r, h⟩ <;> rcases h' with ⟨r', h'⟩ | ⟨r', h'⟩ <;> rw [h] at h' <;>
    cases w <;> cases w' <;> simp [Switch.letter, Switch.word] at h' <;> rfl

/-- What an option changes. -/
def change (o : Options) : Switch → Options
  | .verbose => { o with logLevel := .debug3 }
  | .physical => { o with physical := true }
  | .noExternal => { o with external := false }
  | .gnuplot => { o with gmsh := false }
  | .gmsh => { o with gmsh := true }
  | _ => o

theorem unfold_dash {a : String} (l : List String) (o : Options) (h : Dashed a) : parseOption (a :: l) o =
    if tested .help a then .exit 0 else if tested .version a then .exit 0
    else if tested .verbose a then parseOption l (change o .verbose)
    else if tested .physical a then parseOption l (change o .physical)
    else if tested .noExternal a then parseOption l (change o .noExternal)
    else if tested .gnuplot a then parseOption l (change o .gnuplot)
    else if tested .gmsh a then parseOption l (change o .gmsh) else .exit 1 := by
  conv_lhs => rw [parseOption]
  rw [if_pos ((dashed_iff a).2 h)]
  rfl

theorem tested_self {w w' : Switch} {a : String} (h : Asks w a) : tested w' a = decide (w' = w) := by
  by_cases e : w' = w
  · subst e; rw [(tested_iff _ _).2 h]; simp
  · rw [decide_eq_false e]
    cases ht : tested w' a with
    | false => rfl
    | true => exact absurd (one_meaning ((tested_iff _ _).1 ht) h) e

/-- Every option has its effect and the rest of the line is read; the two that print end the program with status 0. -/
theorem option_read {w : Switch} {a : String} (l : List String) (o : Options) (h : Asks w a) : parseOption (a :: l) o =
    if w = .help ∨ w = .version then .exit 0 else parseOption l (change o w) := by
  rw [unfold_dash l o (asks_dashed h)]
  simp only [tested_self h]
  cases w <;> simp

/-- An argument with a dash that asks for no option ends the program with status 1. -/
theorem unknown {a : String} (l : List String) (o : Options) (hd : Dashed a) (h : ∀ w, ¬ Asks w a) :
    parseOption (a :: l) o = .exit 1 := by
  rw [unfold_dash l o hd]
  have : ∀ w, tested w a = false := fun w => by
    cases ht : tested w a with
    | false => rfl
    | true => exact absurd ((tested_iff _ _).1 ht) (h w)
  simp only [this]
  rfl

/-- The first argument without a dash is the mesh file if it is the last argument; otherwise the name is empty. -/
theorem mesh_name {a : String} (l : List String) (o : Options) (h : ¬ Dashed a) :
    parseOption (a :: l) o = .go o (if l = [] then a else "") := by
  rw [parseOption, if_neg (fun h' => h ((dashed_iff a).1 h'))]
  split_ifs <;> rfl

/-- Options in a row. -/
theorem options_read : ∀ {ws : List Switch} {as : List String}, List.Forall₂ Asks ws as → (∀ w ∈ ws, ¬ w.ends) →
    ∀ (l : List String) (o : Options), parseOption (as ++ l) o = parseOption l (ws.foldl change o)
  | _, _, .nil, _, _, _ => rfl
  | _, _, .cons (a := w) (l₁ := ws) h t, he, l, o => by
    rw [List.cons_append, option_read _ _ h, if_neg, options_read t (fun w hw => he w (by simp [hw]))]
    · rfl
    · have := he w (by simp)
      rintro (rfl | rfl) <;> exact this trivial

theorem folded (ws : List Switch) : ∀ o : Options,
    ((ws.foldl change o).physical = true ↔ o.physical = true ∨ .physical ∈ ws) ∧
    ((ws.foldl change o).external = true ↔ o.external = true ∧ .noExternal ∉ ws) ∧
    ((ws.foldl change o).gmsh = true ↔ LastGmsh ws ∨ o.gmsh = true ∧ Switch.gnuplot ∉ ws) ∧
    (ws.foldl change o).logLevel = if .verbose ∈ ws then .debug3 else o.logLevel := by
  induction ws with
  | nil =>
    intro o
    refine ⟨by simp, by simp, ?_, by simp⟩
    have : ¬ LastGmsh [] := by rintro ⟨l1, l2, h, -⟩; simp at h
    simp [this]
  | cons w ws ih =>
    intro o
    obtain ⟨h1, h2, h3, h4⟩ := ih (change o w)
    rw [List.foldl_cons, h1, h2, h3, h4]
    have hl : LastGmsh (w :: ws) ↔ LastGmsh ws ∨ w = .gmsh ∧ Switch.gnuplot ∉ ws := by
      constructor
      · rintro ⟨l1, l2, h, hn⟩
        cases l1 with
        | nil => simp at h; obtain ⟨rfl, rfl⟩ := h; exact .inr ⟨rfl, hn⟩
        | cons x l1 => simp at h; exact .inl ⟨l1, l2, h.2, hn⟩
      · rintro (⟨l1, l2, rfl, hn⟩ | ⟨rfl, hn⟩)
        · exact ⟨w :: l1, l2, rfl, hn⟩
        · exact ⟨[], ws, rfl, hn⟩
    refine ⟨?_, ?_, ?_, ?_⟩
    · cases w <;> simp [change]
    · cases w <;> simp [change]
    · rw [hl]
      cases w <;> simp [change]
      tauto
    · cases w <;> simp [change]

/-- A command line of options and a mesh file: coordinates are shown exactly if `-p` is among the options, the sides of the
mesh unless `-e` is, messages in full exactly if `-v` is, and the picture is for Gmsh exactly if the last of the options
`-g` and `-m` is `-m`. The order and the repetition of other options do not matter. -/
theorem meaning {ws : List Switch} {as : List String} (h : List.Forall₂ Asks ws as) (he : ∀ w ∈ ws, ¬ w.ends) {mesh : String}
    (hm : ¬ Dashed mesh) : ∃ o : Options, parseOption (as ++ [mesh]) {} = .go o mesh ∧
      (o.physical = true ↔ .physical ∈ ws) ∧ (o.external = true ↔ .noExternal ∉ ws) ∧ (o.gmsh = true ↔ LastGmsh ws) ∧
      o.logLevel = if .verbose ∈ ws then .debug3 else .log := by
  obtain ⟨h1, h2, h3, h4⟩ := folded ws {}
  refine ⟨ws.foldl change {}, ?_, ?_, ?_, ?_, h4⟩
  · rw [options_read h he, mesh_name [] _ hm, if_pos rfl]
  · simpa using h1
  · simpa using h2
  · simpa using h3

/-- After some options, one that prints ends the program with status 0 and an unknown one with status 1, whatever follows. -/
theorem stops {ws : List Switch} {as : List String} (h : List.Forall₂ Asks ws as) (he : ∀ w ∈ ws, ¬ w.ends) (a : String)
    (l : List String) (o : Options) :
    (∀ w, Asks w a → w.ends → parseOption (as ++ a :: l) o = .exit 0) ∧
    (Dashed a → (∀ w, ¬ Asks w a) → parseOption (as ++ a :: l) o = .exit 1) := by
  constructor
  · intro w hw hk
    rw [options_read h he, option_read _ _ hw, if_pos]
    cases w <;> first | exact hk.elim | exact .inl rfl | exact .inr rfl
  · intro hd hu
    rw [options_read h he, unknown _ _ hd hu]

/-- Without a mesh file, or with more than one word after the options, the usage is printed and the program goes on with an
empty file name. -/
theorem no_name {ws : List Switch} {as : List String} (h : List.Forall₂ Asks ws as) (he : ∀ w ∈ ws, ¬ w.ends) (o : Options)
    {a b : String} (l : List String) (ha : ¬ Dashed a) :
    (∃ o', parseOption as o = .go o' "") ∧ ∃ o', parseOption (as ++ a :: b :: l) o = .go o' "" := by
  constructor
  · have := options_read h he [] o
    rw [List.append_nil] at this
    exact ⟨_, this.trans (by rw [parseOption])⟩
  · exact ⟨_, by rw [options_read h he, mesh_name _ _ ha, if_neg (by simp)]⟩

/-- The last of two options counts. -/
example : parseOption ["-m", "--gnuplot", "-p", "a.mesh"] {} = .go { physical := true } "a.mesh" ∧
    parseOption ["-gv", "--gmsh", "-e", "a.mesh"] {} = .go { external := false, gmsh := true } "a.mesh" ∧
    parseOption ["-x", "a.mesh"] {} = .exit 1 ∧ parseOption ["-p", "--help"] {} = .exit 0 := by decide +kernel

/-- A command line the theorem speaks of. -/
example : List.Forall₂ Asks [.physical, .gmsh] ["-p", "--gmsh"] ∧ ¬ Dashed "a.mesh" := by
  refine ⟨.cons (.inl ⟨[], by decide +kernel⟩) (.cons (.inr ⟨[], by decide +kernel⟩) .nil), ?_⟩
  rw [← dashed_iff]
  decide +kernel

end Vulture.C95
