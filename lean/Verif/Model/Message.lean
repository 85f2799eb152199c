import Verif.Model.Basic
/-
Models: src/message.c (`message`, `startMessaging`) and the command line of src/vulture.c.
-/
namespace Vulture.Msg

/-- `MessageType`, in the order of the enumeration. src/message.h:30-40 -/
inductive Level | debug3 | debug2 | debug1 | info | log | warn | error
  deriving DecidableEq, Repr

/-- Value of the enumeration constant. -/
def Level.val : Level → Nat
  | .debug3 => 0 | .debug2 => 1 | .debug1 => 2 | .info => 3 | .log => 4 | .warn => 5 | .error => 6

/-- What one call writes and whether it exits. -/
structure Effect where
  toStderr : Bool
  toLog : Bool
  exit : Option Nat
  deriving DecidableEq

/-- `message`. src/message.c:69-107 -/
def message (logLevel status : Level) : Effect :=
  if status.val < logLevel.val then ⟨false, false, none⟩
  else ⟨decide (status.val ≥ Level.warn.val), true,
    if status.val ≥ Level.error.val then some Level.error.val else none⟩

/-- A program that sends the listed messages in turn and then returns from `main`; the messages written to the log, and
the exit status. src/vulture.c:77-197 returns 0. -/
def run (logLevel : Level) : List Level → List Level × Nat
  | [] => ([], 0)
  | m :: l =>
    let e := message logLevel m
    match e.exit with
    | some c => ([m], c)
    | none => ((if e.toLog then [m] else []) ++ (run logLevel l).1, (run logLevel l).2)

/-! ### Command line -/

/-- `options`. src/vulture.c:59-70 -/
structure Options where
  logLevel : Level := .log
  readOnly : Bool := false
  preprocessOnly : Bool := false
  dumpGrid : Bool := false
  numThread : Option String := none
  deriving DecidableEq

/-- Outcome of `parseOption`: exit, a null pointer handed to `strtod`, or go on with a mesh file name (empty when the
number of remaining arguments is not one). -/
inductive CmdLine
  | exit (status : Nat)
  | nullPointer
  | go (o : Options) (mesh : String)
  deriving DecidableEq

/-- `strncmp( arg , s , n ) == 0` with `n = strlen( s )`. -/
def isPre (arg s : String) : Bool := s.toList.isPrefixOf arg.toList

/-- `strncmp( arg , "--licence" , 11 ) == 0`: the length is that of a longer string, so the whole argument counts. -/
def isLicence (arg : String) : Bool := arg = "--licence"

/-- `parseOption` on the arguments after the program name; `zero` tells which strings `strtod` turns into zero (the value
is stored in an `int`). src/vulture.c:200-272 -/
def parseOption (zero : String → Bool) : List String → Options → CmdLine
  | [], o => .go o ""
  | a :: l, o =>
    if isPre a "-" then
      if isPre a "-h" || isPre a "--help" then .exit 0
      else if isPre a "-V" || isPre a "--version" then .exit 0
      else if isPre a "-v" || isPre a "--verbose" then parseOption zero l { o with logLevel := .debug3 }
      else if isPre a "-m" || isPre a "--read-mesh" then parseOption zero l { o with readOnly := true }
      else if isPre a "-n" || isPre a "--num-proc" then
        match l with
        | [] => .nullPointer
        | v :: l' => if zero v then .exit 1 else parseOption zero l' { o with numThread := some v }
      else if isPre a "-p" || isPre a "--preprocess" then parseOption zero l { o with preprocessOnly := true }
      else if isPre a "-g" || isPre a "--dump-grid" then parseOption zero l { o with dumpGrid := true }
      else if isPre a "-l" || isLicence a then .exit 0
      else .exit 1
    else if l = [] then .go o a else .go o ""

end Vulture.Msg
