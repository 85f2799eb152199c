import Verif.Model.Message
import Verif.Model.MeshFile
import Verif.Model.Dump
/-
The command `vulture` as a whole: from its arguments to the files it leaves.
Models: src/vulture.c:77-198 (`main`), with the functions of the other model files.
Left out: vulture.log, process.dat (Model/ProcessDat.lean), what is printed.
-/
namespace Vulture.Command
open Vulture.MeshFile Vulture.Setup
open Vulture.Mesh (Res)

/-- The cards of the second section that a card gives when it is parsed: as `deckCards`, but the matrix or the file of an
impedance sheet is looked at later, by `initBoundaries`. src/boundary.c:178-210; src/sibc.c:126-197 -/
noncomputable def parseCards (W : World) : Raw → Option (List Deck.Card)
  | .btS n _ => some [.bt (String.ofList n) (.sibc fun _ _ => ⟨0, []⟩)]
  | .btFile n _ => some [.bt (String.ofList n) (.sibc fun _ _ => ⟨0, []⟩)]
  | r => deckCards 0 W r

/-- Checks of the numbers on cards outside the second section and on `WF` cards when they are parsed; a waveform table is
read later, by `initWaveforms`. src/simulation.c:63-80; src/grid.c:235-250; src/waveform.c:198-248 -/
def numbersOk : Raw → Prop
  | .cn c => (Run.parseCN (some (c : ℝ))).isSome
  | .ms v => (parseMSValues v).isSome
  | .wf _ t nums => (Waveform.parseWF t (nums.map fun q : ℚ => (q : ℝ))).isSome
  | .wfFile _ _ nums => ¬ ∃ z, nums[0]? = some z ∧ z < 0
  | _ => True

/-- Outer box of the mesh; it is a zeroed static before the `DM` card. src/grid.c:177-205 -/
def boxOf (l : List Raw) : BBox :=
  match l.findSome? fun | .dm x y z => some (x, y, z) | _ => none with
  | some n => mkBox 0 n.1 0 n.2.1 0 n.2.2
  | none => fun _ => 0

/-- `readMesh` returns: every parser has accepted its card. `NT`, `OT` and `OF` cards occur once at most.
src/mesh.c:330-395; src/simulation.c:83-104; src/observer.c:322-395 -/
structure Parsed (W : World) (l : List Raw) : Prop where
  cards : ∃ cs, l.mapM (parseCards W) = some cs ∧ (Deck.read (Deck.State.init (boxOf l)) cs.flatten).isSome
  numbers : ∀ r ∈ l, numbersOk r
  times : ∀ a b, (l.findSome? fun | .ot a b => some (a, b) | _ => none) = some (a, b) → (Run.parseOT a b).isSome
  freqs : ∀ a b n, (l.findSome? fun | .of a b n => some ((a : ℝ), (b : ℝ), n.toNat) | _ => none) = some (a, b, n) →
    (parseOF a b n).isSome
  steps : ∀ n, (l.findSome? fun | .nt n => some n | _ => none) = some n → (Run.parseNT (some n)).isSome

/-- Both sizes that the rest of the program cannot do without are there. -/
def Complete (l : List Raw) : Prop :=
  (l.findSome? fun | .dm x y z => some (x, y, z) | _ => none).isSome ∧
  (l.findSome? fun | .nt n => some n | _ => none).isSome

/-- Everything up to the time loop succeeds. src/vulture.c:108-150 -/
def SetUp (k : Consts) (J : Junk) (W : World) (l : List Raw) (X : Experiment) (Q : Request) (R : Run) : Prop :=
  experiment k.eta0 W l = some (X, Q) ∧ Q.Accepted ∧ setup k J X = some R ∧ WavesExist R.state

/-- How the program ends. `printed`: it prints usage, version or licence and exits with this status; `failed`: an error
message with status 6, or `assert( 0 )`; `done`: status 0, with the files of the observers and those of the dump. -/
inductive Outcome
  | printed (status : Nat)
  | failed
  | done (files : List (String × Contents)) (grid : List (String × List (List Char)))

/-- What the program works on besides its arguments: constants, the contents of memory, the files named on cards, the byte
in front of a buffer, what `strtod` makes of a word, the mesh files by name. -/
structure Setting where
  k : Consts
  J : Junk
  W : World
  front : Bool
  zero : String → Bool
  disk : String → Option (List Char)

/-- The files of the dump if one is asked for. src/vulture.c:155-163 -/
noncomputable def dumped (S : Setting) (o : Msg.Options) (X : Experiment) (R : Run) : List (String × List (List Char)) :=
  if o.dumpGrid then Dump.ofRun S.k S.J X R else []

/-- `main` from `readMesh` on: what it can end with. Undefined behaviour, a mesh without `DM` or `NT` that passes `readMesh`,
and a time loop that does not end have no outcome here. With `-p` the observers open their files and close them again.
src/vulture.c:95-197; src/observer.c:399-520, 655-700 -/
inductive After (S : Setting) (o : Msg.Options) (mesh : String) : Outcome → Prop
  | noFile : S.disk mesh = none → After S o mesh .failed
  | badText (text : List Char) : S.disk mesh = some text → readMesh S.front text = .error → After S o mesh .failed
  | badCard (text : List Char) (l : List Raw) : S.disk mesh = some text → readMesh S.front text = .ok l →
      ¬ Parsed S.W l → After S o mesh .failed
  | readOnly (text : List Char) (l : List Raw) : S.disk mesh = some text → readMesh S.front text = .ok l →
      Parsed S.W l → o.readOnly = true → After S o mesh (.done [] [])
  | badSetup (text : List Char) (l : List Raw) : S.disk mesh = some text → readMesh S.front text = .ok l →
      Parsed S.W l → o.readOnly = false → Complete l → (¬ ∃ X Q R, SetUp S.k S.J S.W l X Q R) → After S o mesh .failed
  | preprocess (text : List Char) (l : List Raw) (X : Experiment) (Q : Request) (R : Run) :
      S.disk mesh = some text → readMesh S.front text = .ok l → o.readOnly = false → SetUp S.k S.J S.W l X Q R →
      o.preprocessOnly = true → After S o mesh (.done (filesOf X R Q Run.Out.empty) (dumped S o X R))
  | run (text : List Char) (l : List Raw) (X : Experiment) (Q : Request) (R : Run) (m : Loc → ℝ) (out : Run.Out) :
      S.disk mesh = some text → readMesh S.front text = .ok l → o.readOnly = false → SetUp S.k S.J S.W l X Q R →
      o.preprocessOnly = false →
      Run.Ends Q.steps (Run.body R.sim R.coefs R.drive (obsEnv X R Q) R.dt) (fun _ => 0, Run.Out.empty) (m, out) →
      After S o mesh (.done (filesOf X R Q out) (dumped S o X R))

/-- `main`. A null pointer handed to `strtod` has no outcome. src/vulture.c:77-272 -/
inductive Ends (S : Setting) (args : List String) : Outcome → Prop
  | exit (status : Nat) : Msg.parseOption S.zero args {} = .exit status → Ends S args (.printed status)
  | go (o : Msg.Options) (mesh : String) (r : Outcome) : Msg.parseOption S.zero args {} = .go o mesh → After S o mesh r →
      Ends S args r

end Vulture.Command
