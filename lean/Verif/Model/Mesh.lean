/-
The mesh-file reader: card tables and the section/required/singleton state machine.
Models src/mesh.c:48-191 (tables) and src/mesh.c:269-405 (`readMesh`).
-/
namespace Vulture.Mesh

/-- `CardType` without `CT_ERROR`. src/mesh.c:58-71 -/
inductive Card
  | VM
  | CE | DM | BR | BE | GS
  | MT | BT | WT | MB | TB | TW | WF | EX | PW | OP | FF | GE
  | NT | OT | OF | CN | MS | XL | YL | ZL | EN
  deriving DecidableEq, Repr

/-- Enumerator order. src/mesh.c:58-71 -/
def Card.all : List Card :=
  [.VM, .CE, .DM, .BR, .BE, .GS,
   .MT, .BT, .WT, .MB, .TB, .TW, .WF, .EX, .PW, .OP, .FF, .GE,
   .NT, .OT, .OF, .CN, .MS, .XL, .YL, .ZL, .EN]

/-- Enumerator value, used as an array index. src/mesh.c:58-71 -/
def Card.toNat : Card → Nat
  | .VM => 0 | .CE => 1 | .DM => 2 | .BR => 3 | .BE => 4 | .GS => 5
  | .MT => 6 | .BT => 7 | .WT => 8 | .MB => 9 | .TB => 10 | .TW => 11 | .WF => 12 | .EX => 13
  | .PW => 14 | .OP => 15 | .FF => 16 | .GE => 17
  | .NT => 18 | .OT => 19 | .OF => 20 | .CN => 21 | .MS => 22 | .XL => 23 | .YL => 24 | .ZL => 25
  | .EN => 26

/-- `CT_STRING`. src/mesh.c:77-87 -/
def Card.tag : Card → List Char
  | .VM => ['V','M'] | .CE => ['C','E'] | .DM => ['D','M'] | .BR => ['B','R'] | .BE => ['B','E']
  | .GS => ['G','S'] | .MT => ['M','T'] | .BT => ['B','T'] | .WT => ['W','T'] | .MB => ['M','B']
  | .TB => ['T','B'] | .TW => ['T','W'] | .WF => ['W','F'] | .EX => ['E','X'] | .PW => ['P','W']
  | .OP => ['O','P'] | .FF => ['F','F'] | .GE => ['G','E'] | .NT => ['N','T'] | .OT => ['O','T']
  | .OF => ['O','F'] | .CN => ['C','N'] | .MS => ['M','S'] | .XL => ['X','L'] | .YL => ['Y','L']
  | .ZL => ['Z','L'] | .EN => ['E','N']

/-- `NUM_SECTIONS`. src/mesh.c:49 -/
def NUM_SECTIONS : Nat := 4

/-- `isValidInSection`. src/mesh.c:99-125 -/
def isValidInSectionTable : List (List Bool) :=
  let f := false; let t := true
  [ [ t,
      f, f, f, f, f,
      f, f, f, f, f, f, f, f, f, f, f, f,
      f, f, f, f, f, f, f, f, f ],
    [ f,
      t, t, t, t, t,
      f, f, f, f, f, f, f, f, f, f, f, f,
      f, f, f, f, f, f, f, f, f ],
    [ f,
      f, f, f, f, f,
      t, t, t, t, t, t, t, t, t, t, t, t,
      f, f, f, f, f, f, f, f, f ],
    [ f,
      f, f, f, f, f,
      f, f, f, f, f, f, f, f, f, f, f, f,
      t, t, t, t, t, t, t, t, t ] ]

/-- Row/column lookup; `none` = read outside the table (undefined behaviour in C). -/
def isValidInSection (sec : Nat) (c : Card) : Option Bool :=
  isValidInSectionTable[sec]? >>= fun row => row[c.toNat]?

/-- `isRequired`. src/mesh.c:128-138 -/
def isRequired (c : Card) : Bool :=
  ([ true,
     false, true, false, false, true,
     false, false, false, false, false, false, false, false, false, false, false, true,
     true, false, false, false, false, false, false, false, true ] : List Bool)[c.toNat]?.getD false

/-- `isSingleton`. src/mesh.c:141-151 -/
def isSingleton (c : Card) : Bool :=
  ([ true,
     false, true, true, true, true,
     false, false, false, false, false, false, false, false, false, false, false, true,
     true, true, true, true, true, true, true, true, true ] : List Bool)[c.toNat]?.getD false

/-- `isEndOfSection`. src/mesh.c:155-165 -/
def isEndOfSection (c : Card) : Bool :=
  ([ true,
     false, false, false, false, true,
     false, false, false, false, false, false, false, false, false, false, false, true,
     false, false, false, false, false, false, false, false, true ] : List Bool)[c.toNat]?.getD false

/-- `sectionLimits`: the enumerators from first to last of a section. src/mesh.c:90-95 -/
def sectionCards : Nat → List Card
  | 0 => [.VM]
  | 1 => [.CE, .DM, .BR, .BE, .GS]
  | 2 => [.MT, .BT, .WT, .MB, .TB, .TW, .WF, .EX, .PW, .OP, .FF, .GE]
  | 3 => [.NT, .OT, .OF, .CN, .MS, .XL, .YL, .ZL, .EN]
  | _ => []

/-- `cardFunc[card] != NULL`. src/mesh.c:181-191 -/
def hasHandler : Card → Bool
  | .GS | .GE | .EN => false
  | _ => true

/-- Outcome of the reader: `error` = `message( MSG_ERROR , ... )`, which exits with status 6;
`ub` = undefined behaviour. -/
inductive Res (α : Type) | ok (a : α) | error | ub
  deriving DecidableEq, Repr

/-- Reader state. src/mesh.c:168-178, 271-289. `foundOutput` only controls a warning and is left
out. -/
structure RState where
  sec : Nat
  found : Card → Bool
  src : Bool

/-- Initial state. src/mesh.c:168-178, 273, 286 -/
def RState.init : RState := ⟨0, fun _ => false, false⟩

/-- Lines 347-382 of src/mesh.c: the effect of the `switch` on the flags. -/
def markLines (f : Card → Bool) (c : Card) : Card → Bool :=
  match c with
  | .MS => fun x => x == .MS || x == .XL || x == .YL || x == .ZL || f x
  | .XL => fun x => x == .MS || x == .XL || f x
  | .YL => fun x => x == .MS || x == .YL || f x
  | .ZL => fun x => x == .MS || x == .ZL || f x
  | _ => f

/-- One card. src/mesh.c:329-395. `handlerOk` is the result of the card's own parser. -/
def step (s : RState) (c : Card) (handlerOk : Bool) : Res RState :=
  match isValidInSection s.sec c with
  | none => .ub                                              -- line 330, index out of range
  | some false => .error                                     -- line 331
  | some true =>
    if s.found c && isSingleton c then .error else           -- lines 334-335
    let f1 : Card → Bool := fun x => x == c || s.found x     -- line 338
    if hasHandler c && !handlerOk then .error else           -- lines 343-345
    let src := s.src || c == .EX || c == .PW                 -- lines 350-353
    if c == .GE && !src then .error else                     -- lines 358-360
    let f2 := markLines f1 c                                 -- lines 363-374
    if c == .EN && (!f2 .MS || !(f2 .XL && f2 .YL && f2 .ZL)) then .error else  -- 375-378
    if isEndOfSection c then                                 -- lines 385-395
      if (sectionCards s.sec).any (fun x => isRequired x && !f2 x) then .error
      else .ok ⟨s.sec + 1, f2, src⟩
    else .ok ⟨s.sec, f2, src⟩

/-- The card loop. src/mesh.c:298-397: each element is a recognised card with its handler's
result. An unrecognised card is `error` and ends the run before this list does. -/
def run (s : RState) : List (Card × Bool) → Res RState
  | [] => .ok s
  | (c, ok) :: rest =>
    match step s c ok with
    | .ok s' => run s' rest
    | .error => .error
    | .ub => .ub

/-- `readMesh` on a sequence of recognised cards: success means the loop reached end of file;
nothing is checked after it (src/mesh.c:397-405). -/
def readMesh (cards : List (Card × Bool)) : Res Unit :=
  match run RState.init cards with
  | .ok _ => .ok ()
  | .error => .error
  | .ub => .ub

end Vulture.Mesh
