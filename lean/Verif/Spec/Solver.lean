import Mathlib.Data.List.Basic
import Verif.Model.Output
/-
Specification for C97: the words of the command line of `vulture` in the manual.
-/
namespace Vulture.Spec

/-- Options without a value. -/
inductive Flag | help | version | licence | verbose | readMesh | preprocess | dumpGrid
  deriving DecidableEq, Repr

/-- The letter of an option. -/
def Flag.letter : Flag → Char
  | .help => 'h' | .version => 'V' | .licence => 'l' | .verbose => 'v' | .readMesh => 'm' | .preprocess => 'p' | .dumpGrid => 'g'

/-- The word of an option. -/
def Flag.word : Flag → List Char
  | .help => ['h', 'e', 'l', 'p']
  | .version => ['v', 'e', 'r', 's', 'i', 'o', 'n']
  | .licence => ['l', 'i', 'c', 'e', 'n', 'c', 'e']
  | .verbose => ['v', 'e', 'r', 'b', 'o', 's', 'e']
  | .readMesh => ['r', 'e', 'a', 'd', '-', 'm', 'e', 's', 'h']
  | .preprocess => ['p', 'r', 'e', 'p', 'r', 'o', 'c', 'e', 's', 's']
  | .dumpGrid => ['d', 'u', 'm', 'p', '-', 'g', 'r', 'i', 'd']

/-- Options that print something and end the program. -/
def Flag.prints : Flag → Prop
  | .help | .version | .licence => True
  | _ => False

/-- An argument is an option: a dash and its letter, whatever follows, or two dashes and its word, whatever follows except
after the word `licence`. -/
def Flag.In (w : Flag) (a : String) : Prop :=
  (∃ rest, a.toList = '-' :: w.letter :: rest) ∨
  ∃ rest, a.toList = '-' :: '-' :: (w.word ++ rest) ∧ (w = .licence → rest = [])

/-- An argument announces the number of threads. -/
def AsksThreads (a : String) : Prop :=
  (∃ rest, a.toList = '-' :: 'n' :: rest) ∨
  ∃ rest, a.toList = '-' :: '-' :: (['n', 'u', 'm', '-', 'p', 'r', 'o', 'c'] ++ rest)

/-- A row of options, those without a value being `ws`; `zero`: words that are not a number different from zero. -/
inductive Row (zero : String → Bool) : List Flag → List String → Prop
  | nil : Row zero [] []
  | flag {w : Flag} {a : String} {ws : List Flag} {l : List String} : w.In a → ¬ w.prints → Row zero ws l →
      Row zero (w :: ws) (a :: l)
  | threads {a v : String} {ws : List Flag} {l : List String} : AsksThreads a → zero v = false → Row zero ws l →
      Row zero ws (a :: v :: l)

/-- A file holds no result: no samples; the spectrum of a waveform (a file without a position) is zero. The spectra at the
probes, which are quotients, are left open. -/
def Unrecorded : Setup.Contents → Prop
  | .time _ lines => lines = []
  | .freq head rows => head = none → ∀ row ∈ rows, ∀ v ∈ row.2, v = (0, 0)
  | .excite values => values = []
  | .impulse _ records => records = []

end Vulture.Spec
