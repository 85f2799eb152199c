import Verif.Model.Message
import Mathlib.Tactic.Common
import Mathlib.Tactic.SplitIfs
/-
C38. Errors stop the program.
-/
namespace Vulture.C38
open Vulture Msg

/-- An error ends the program with status 6 and is written to both streams, whatever the verbosity. -/
theorem error_exits (lv : Level) : message lv .error = ⟨true, true, some 6⟩ := by cases lv <;> decide

/-- Nothing else ends it. -/
theorem others_continue (lv m : Level) (h : m ≠ .error) : (message lv m).exit = none := by
  cases lv <;> cases m <;> first | exact absurd rfl h | decide

/-- A message is logged exactly when its severity is at least the chosen one; warnings and errors that are logged also go
to the standard error stream, nothing else does. -/
theorem logged_iff (lv m : Level) : ((message lv m).toLog = true ↔ lv.val ≤ m.val) ∧
    ((message lv m).toStderr = true ↔ lv.val ≤ m.val ∧ (m = .warn ∨ m = .error)) := by
  cases lv <;> cases m <;> decide

/-- The exit status of a run is zero exactly when no error was sent, and the first error is the last thing logged. -/
theorem run_status (lv : Level) (l : List Level) : ((run lv l).2 = 0 ↔ Level.error ∉ l) ∧
    ((run lv l).2 = 0 ∨ (run lv l).2 = 6) ∧
    (run lv l).1 = (l.takeWhile (· ≠ .error)).filter (fun m => lv.val ≤ m.val) ++ (if .error ∈ l then [.error] else []) := by
  induction l with
  | nil => simp [run]
  | cons m l ih =>
    by_cases h : m = .error
    · subst h
      simp [run, error_exits]
    · have e := others_continue lv m h
      obtain ⟨h1, h2, h3⟩ := ih
      have hne : ¬ Level.error = m := fun h' => h h'.symm
      refine ⟨?_, ?_, ?_⟩
      · simp [run, e, hne, h1]
      · simpa [run, e] using h2
      · have hl := (logged_iff lv m).1
        simp only [run, e, h3]
        rw [List.takeWhile_cons_of_pos (by simpa using h)]
        by_cases hv : lv.val ≤ m.val
        · rw [if_pos (hl.2 hv), List.filter_cons_of_pos (by simpa using hv)]
          simp [hne]
        · rw [if_neg (fun hh => hv (hl.1 hh)), List.filter_cons_of_neg (by simpa using hv)]
          simp [hne]

/-! ### Command line -/

/-- Verbosity can only be raised to everything: warnings and errors are reported whatever the command line. -/
theorem verbosity (zero : String → Bool) (args : List String) : ∀ (o o' : Options) (mesh : String),
    o.logLevel = .log ∨ o.logLevel = .debug3 → parseOption zero args o = .go o' mesh →
    (o'.logLevel = .log ∨ o'.logLevel = .debug3) ∧ (message o'.logLevel .warn).toStderr = true := by
  have fin : ∀ lv : Level, lv = .log ∨ lv = .debug3 → (message lv .warn).toStderr = true := by
    rintro lv (rfl | rfl) <;> decide
  intro o
  fun_induction parseOption zero args o with
  | case1 o => intro o' mesh h he; cases he; exact ⟨h, fin _ h⟩
  | _ => first
    | (intro o' mesh h he; cases he; done)
    | (rename_i ih; intro o' mesh h he; exact ih o' mesh h he)
    | (rename_i ih; intro o' mesh h he; exact ih o' mesh (Or.inr rfl) he)
    | (intro o' mesh h he; cases he; exact ⟨h, fin _ h⟩)

/-- An unknown option ends the program with a non-zero status. -/
theorem unknown_option (zero : String → Bool) (l : List String) (o : Options) : parseOption zero ("-x" :: l) o = .exit 1 := by
  rw [parseOption.eq_def]; rfl

/-- The option for the number of threads without its value hands a null pointer to `strtod`. -/
theorem missing_value (zero : String → Bool) (o : Options) : parseOption zero ["-n"] o = .nullPointer := by
  rw [parseOption.eq_def]; rfl

/-- A thread count that reads as zero ends the program with status 1; any other is kept and the rest of the command line
is read. -/
theorem thread_count (zero : String → Bool) (v : String) (l : List String) (o : Options) :
    (zero v = true → parseOption zero ("-n" :: v :: l) o = .exit 1) ∧
    (zero v = false → parseOption zero ("-n" :: v :: l) o = parseOption zero l { o with numThread := some v }) := by
  constructor <;> intro h <;> rw [parseOption.eq_def] <;> simp [isPre, h]

/-- The flags set the option of their name and nothing else. -/
theorem flags (zero : String → Bool) (l : List String) (o : Options) :
    parseOption zero ("-m" :: l) o = parseOption zero l { o with readOnly := true } ∧
    parseOption zero ("-p" :: l) o = parseOption zero l { o with preprocessOnly := true } ∧
    parseOption zero ("-g" :: l) o = parseOption zero l { o with dumpGrid := true } ∧
    parseOption zero ("-v" :: l) o = parseOption zero l { o with logLevel := .debug3 } ∧
    parseOption zero ("-h" :: l) o = .exit 0 ∧ parseOption zero ("-V" :: l) o = .exit 0 ∧
    parseOption zero ("-l" :: l) o = .exit 0 := by
  refine ⟨?_, ?_, ?_, ?_, ?_, ?_, ?_⟩ <;> (conv_lhs => rw [parseOption.eq_def]) <;> simp [isPre]

/-- Without a mesh file, or with two, the program prints its usage and goes on with an empty name. -/
theorem no_mesh_goes_on (zero : String → Bool) (o : Options) : parseOption zero [] o = .go o "" ∧
    parseOption zero ["a.mesh", "b.mesh"] o = .go o "" := ⟨by rw [parseOption], by rw [parseOption]; rfl⟩

example : parseOption (fun _ => false) ["-v", "-n", "4", "a.mesh"] {} =
    .go { logLevel := .debug3, numThread := some "4" } "a.mesh" := by decide +kernel
example : run .log [.info, .warn, .log, .error, .log] = ([.warn, .log, .error], 6) := by decide

end Vulture.C38
