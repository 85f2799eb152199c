import Verif.Model.Setup
import Verif.Spec.Deck
/-
The same experiment in another unit of length: everything `r` times as long and as slow. Fields (V/m, A/m), relative
constants, impedances and numbers of cells stay; what has lengths or seconds in its unit changes accordingly.
-/
namespace Vulture.Spec
open Setup Source

/-- Conductivity (1 / (Ω m)), poles and residues (1/s). -/
noncomputable def scaleMed (r : ℝ) : Deck.Med → Deck.Med
  | .free => .free
  | .pec => .pec
  | .simple e s m => .simple e (s / r) m
  | .debye e s m q => .debye e (s / r) m (q.map fun p => ⟨p.res / r, p.pole / r⟩)

/-- Poles (1/s) and residues (Ω/s) of a sheet; the constant part (Ω) stays. -/
noncomputable def scaleBnd (r : ℝ) : Deck.Bnd → Deck.Bnd
  | .sibc pr => .sibc fun p q => ⟨(pr p q).asymp, (pr p q).terms.map fun t => (t.1 / r, t.2 / r)⟩
  | b => b

/-- Delay and width (s), frequency (1/s), times of a table; values given as negative count as not given, and still do. -/
noncomputable def scaleWave (r : ℝ) : Wave → Wave
  | .builtin w => .builtin ⟨w.type, w.size, r * w.delay, r * w.width, w.frequency / r⟩
  | .table size delay x y n => .table size (r * delay) (fun i => r * x i) y n

/-- Amplitude of a source for the same fields: V/m, A/m stay; A/m² and V/m² go down, V and A go up, A m and V m go up
twice. -/
noncomputable def sizeFactor (r : ℝ) : SType → ℝ
  | .efield | .hfield | .esurfDens | .msurfDens => 1
  | .ecurrDens | .mcurrDens => 1 / r
  | .ecurrent | .mcurrent | .voltage | .thevenin | .norton => r
  | .emoment | .mmoment => r ^ 2

/-- Cards; resistances stay. -/
noncomputable def scaleCard (r : ℝ) : Deck.Card → Deck.Card
  | .mt n m => .mt n (scaleMed r m)
  | .bt n b => .bt n (scaleBnd r b)
  | .ex k b n tag w size delay resist =>
    .ex k b n tag w ((match lookup tag with | some i => sizeFactor r i.type | none => 1) * size) (r * delay) resist
  | .pw c delay => .pw c (r * delay)
  | c => c

/-- The experiment in the other unit. -/
noncomputable def scaleExperiment (r : ℝ) (X : Experiment) : Experiment :=
  { X with
    file := { X.file with cards := X.file.cards.map (scaleCard r) }
    lines := fun a i => r * X.lines a i
    waves := fun n => scaleWave r (X.waves n) }

/-- The same experiment as far as the program can see: mesh lines beyond the last one are not the user's. -/
def SameInput (X X' : Experiment) : Prop :=
  X'.file = X.file ∧ X'.cn = X.cn ∧ X'.par = X.par ∧ X'.waves = X.waves ∧
    ∀ a i, 0 ≤ i → i ≤ X.file.cells a → X'.lines a i = X.lines a i

/-- No impedance sheet touches the high side, or lies in the low side, of the grid: at those sides of the user's mesh there
is an absorbing layer in between. -/
def SheetsAway (f : Deck.File) : Prop :=
  ∀ c pr, Deck.Card.tb c ∈ f.cards → Deck.Card.bt c.boundary (.sibc pr) ∈ f.cards → ∀ a : Axis,
    (c.bbox a.hi = cellsOf f a → f.bt a.hi = .pml) ∧ (c.bbox a.hi = 0 → f.bt a.lo = .pml)

/-- All cells of the user's mesh are cubes of side `d`. -/
def CubicMesh (X : Experiment) (d : ℝ) : Prop :=
  ∀ a i, 0 ≤ i → i < cellsOf X.file a → X.lines a (i + 1) - X.lines a i = d

/-- Plane waves stay away from the low sides of the mesh. -/
def WavesInside (l : List Deck.Card) : Prop := ∀ b ∈ waveBoxes l, ∀ a : Axis, 0 < b a.lo

end Vulture.Spec
