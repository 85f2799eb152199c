import Mathlib.Data.List.Basic
import Verif.Spec.Drawing
import Verif.Spec.Observe
import Verif.Model.Gvulture
/-
Specification for C95: the words of a command line and what they ask for; the picture of a mesh file.
-/
namespace Vulture.Spec

/-- The options of `gvulture` in the manual. -/
inductive Switch | help | version | verbose | physical | noExternal | gnuplot | gmsh
  deriving DecidableEq, Repr

/-- The letter of an option. -/
def Switch.letter : Switch → Char
  | .help => 'h' | .version => 'V' | .verbose => 'v' | .physical => 'p' | .noExternal => 'e' | .gnuplot => 'g' | .gmsh => 'm'

/-- The word of an option. -/
def Switch.word : Switch → List Char
  | .help => ['h', 'e', 'l', 'p']
  | .version => ['v', 'e', 'r', 's', 'i', 'o', 'n']
  | .verbose => ['v', 'e', 'r', 'b', 'o', 's', 'e']
  | .physical => ['p', 'h', 'y', 's', 'i', 'c', 'a', 'l']
  | .noExternal => ['n', 'o', '-', 'e', 'x', 't', '-', 's', 'u', 'r', 'f']
  | .gnuplot => ['g', 'n', 'u', 'p', 'l', 'o', 't']
  | .gmsh => ['g', 'm', 's', 'h']

/-- An argument asks for an option: a dash and its letter, or two dashes and its word, whatever follows. -/
def Asks (w : Switch) (a : String) : Prop :=
  (∃ rest, a.toList = '-' :: w.letter :: rest) ∨ ∃ rest, a.toList = '-' :: '-' :: (w.word ++ rest)

/-- An argument that begins with a dash. -/
def Dashed (a : String) : Prop := ∃ rest, a.toList = '-' :: rest

/-- Options that print something and end the program. -/
def Switch.ends : Switch → Prop
  | .help | .version => True
  | _ => False

/-- The last of the words that choose between the two kinds of pictures asks for Gmsh. -/
def LastGmsh (ws : List Switch) : Prop := ∃ l1 l2, ws = l1 ++ .gmsh :: l2 ∧ Switch.gnuplot ∉ l2

/-- `p` and `q` are the ends of the segment from `P` to `Q` in either direction. -/
def Ends {α : Type} (P Q p q : α) : Prop := (p = P ∧ q = Q) ∨ (p = Q ∧ q = P)

/-- Stretched by a factor from the origin. -/
def times {K : Type} [Field K] (s : K) (p : K × K × K) : K × K × K := (s * p.1, s * p.2.1, s * p.2.2)

/-- The marks that fix the ranges of the picture, at the two outer corners of the mesh. -/
def RangeMark {K : Type} [Field K] (u : Axis → Int → K) (m : BBox) (p q : K × K × K) : Prop :=
  let lo := pin u fun a => m a.lo
  let hi := pin u fun a => m a.hi
  Ends lo lo p q ∨ Ends lo (times (99995 / 100000) lo) p q ∨ Ends hi (times (100005 / 100000) hi) p q

/-- The arrow of a source: from the middle of the low face of its box along axis `a` to the middle of the high face - or, in
a box that is flat along `a`, to the mesh line two further - and the closed head: two barbs one mean cell behind the tip and
half a cell aside, and the tip again. -/
def sourceArrow {K : Type} [Field K] (u : Axis → Int → K) (b : BBox) (a : Axis) : List (K × K × K) :=
  let tip := if b a.lo = b a.hi then b a.hi + 2 else b a.hi
  let cell := (u a tip - u a (b a.lo)) / ((tip - b a.lo : Int) : K)
  let at_ (v : Axis → K) : K × K × K := (v .x, v .y, v .z)
  let barb (side : K) (c : Axis) : K := midOf u b a tip c + (if c = a then -cell else side * (cell / 2))
  [at_ (midOf u b a (b a.lo)), at_ (midOf u b a tip), at_ (barb (-1)), at_ (barb 1), at_ (midOf u b a tip)]

/-- The segments of each file of the picture of a mesh file; `u`: positions of the mesh lines, `wave`: the arrows of a wave. -/
inductive Pictured {K : Type} [Field K] (f : Deck.File) (u : Axis → Int → K) (wave : PWCard → List (List (K × K × K))) :
    String → K × K × K → K × K × K → Prop
  | mark (name : String) (p q : K × K × K) : RangeMark u (mkBox 0 f.nx 0 f.ny 0 f.nz) p q → Pictured f u wave name p q
  | side (p q : K × K × K) : Outlines u (mkBox 0 f.nx 0 f.ny 0 f.nz) p q → Pictured f u wave "gnuplot-external.dat" p q
  | sheet (c : TBCard) (p q : K × K × K) : Deck.Card.tb c ∈ f.cards → Outlines u c.bbox p q →
      Pictured f u wave "gnuplot-surface.dat" p q
  | block (c : MBCard) (p q : K × K × K) : Deck.Card.mb c ∈ f.cards → Outlines u c.bbox p q →
      Pictured f u wave "gnuplot-block.dat" p q
  | wire (c : TWCard) (p q : K × K × K) : Deck.Card.tw c ∈ f.cards → Outlines u c.bbox p q →
      Pictured f u wave "gnuplot-wires.dat" p q
  | source (k : Nat) (b : BBox) (name : String) (tag : List Char) (w : String) (size delay resist : ℝ) (p q : K × K × K) :
      Deck.Card.ex k b name tag w size delay resist ∈ f.cards → Outlines u b p q → Pictured f u wave "gnuplot-source.dat" p q
  | sourceArrow (k : Nat) (b : BBox) (name : String) (tag : List Char) (w : String) (size delay resist : ℝ)
      (i : Source.TagInfo) (a : Axis) (p q : K × K × K) :
      Deck.Card.ex k b name tag w size delay resist ∈ f.cards → Source.lookup tag = some i → i.field = a.e ∨ i.field = a.h →
      Drawn [Spec.sourceArrow u b a] p q → Pictured f u wave "gnuplot-source.dat" p q
  | waveBox (c : PWCard) (d : ℝ) (p q : K × K × K) : Deck.Card.pw c d ∈ f.cards → Outlines u c.bbox p q →
      Pictured f u wave "gnuplot-planewave.dat" p q
  | waveArrow (c : PWCard) (d : ℝ) (p q : K × K × K) : Deck.Card.pw c d ∈ f.cards → Drawn (wave c) p q →
      Pictured f u wave "gnuplot-planewave.dat" p q
  | meshLine (a : Axis) (n m : Axis → Int) (p q : K × K × K) : MeshLine f.cells a n m →
      (∃ c, c ≠ a ∧ n c = backPlane f.cells c) → Ends (pin u n) (pin u m) p q →
      Pictured f u wave "gnuplot-lines.dat" p q

/-- The files that have something to show besides the marks. -/
inductive Needed (f : Deck.File) (external : Bool) : String → Prop
  | lines : Needed f external "gnuplot-lines.dat"
  | side : external = true → Needed f external "gnuplot-external.dat"
  | sheet (c : TBCard) : Deck.Card.tb c ∈ f.cards → Needed f external "gnuplot-surface.dat"
  | block (c : MBCard) : Deck.Card.mb c ∈ f.cards → Needed f external "gnuplot-block.dat"
  | wire (c : TWCard) : Deck.Card.tw c ∈ f.cards → Needed f external "gnuplot-wires.dat"
  | source (k : Nat) (b : BBox) (name : String) (tag : List Char) (w : String) (size delay resist : ℝ) :
      Deck.Card.ex k b name tag w size delay resist ∈ f.cards → Needed f external "gnuplot-source.dat"
  | wave (c : PWCard) (d : ℝ) : Deck.Card.pw c d ∈ f.cards → Needed f external "gnuplot-planewave.dat"
  | observer (c : OPCard) : Deck.Card.op c ∈ f.cards → Needed f external "gnuplot-observer.dat"

/-- The files of the picture. -/
def pictureFiles : List String :=
  ["gnuplot-external.dat", "gnuplot-surface.dat", "gnuplot-block.dat", "gnuplot-wires.dat", "gnuplot-source.dat",
   "gnuplot-planewave.dat", "gnuplot-observer.dat", "gnuplot-lines.dat"]

/-- An observer records the node. -/
def Recorded (c : OPCard) (n : Axis → Int) : Prop :=
  ∀ a : Axis, Selected (c.bbox a.lo) (c.bbox a.hi)
    (if c.ascii then 1 else match a with | .x => c.stepX | .y => c.stepY | .z => c.stepZ) (n a)

end Vulture.Spec
