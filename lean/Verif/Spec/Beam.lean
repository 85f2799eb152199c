import Verif.Spec.Material
import Verif.Spec.Wave
/-
Specification for C71: a mesh file with one plane wave along an axis and nothing in its box.
-/
namespace Vulture.Spec
open Setup Real

/-- Unit vectors of increasing azimuth and of increasing polar angle, angles in degrees. -/
noncomputable def phiHat (phi : ℝ) : Axis → ℝ
  | .x => -sin (phi * π / 180)
  | .y => cos (phi * π / 180)
  | .z => 0
noncomputable def thetaHat (theta phi : ℝ) : Axis → ℝ
  | .x => cos (theta * π / 180) * cos (phi * π / 180)
  | .y => cos (theta * π / 180) * sin (phi * π / 180)
  | .z => -sin (theta * π / 180)

/-- Direction of the electric field of a wave with polarisation angle `eta`. -/
noncomputable def polarised (theta phi eta : ℝ) (a : Axis) : ℝ :=
  -(cos (eta * π / 180) * phiHat phi a + sin (eta * π / 180) * thetaHat theta phi a)

/-- A wave on a line of cells before each step `n`: `e` at the nodes, `h` half a cell further; the line is fed at node 0 with
the values `g`, and ends at node `len`, which nothing reaches in the first `len` steps. -/
structure LineWave (r1 r2 : ℝ) (len : ℤ) (g : ℕ → ℝ) (e h : ℕ → ℤ → ℝ) : Prop where
  rest : ∀ m, e 0 m = 0 ∧ h 0 m = 0
  entry : ∀ n, e (n+1) 0 = g n
  electric : ∀ n m, 1 ≤ m → m < len → e (n+1) m = e n m - r1 * (h n m - h n (m-1))
  magnetic : ∀ n m, 0 ≤ m → m < len → h (n+1) m = h n m - r2 * (e (n+1) (m+1) - e (n+1) m)
  ending : ∀ n : ℕ, (n : ℤ) ≤ len → e n len = 0

/-- The same wave on a line without end. -/
noncomputable def endless (r1 r2 : ℝ) (g : ℕ → ℝ) : ℕ → (ℤ → ℝ) × (ℤ → ℝ)
  | 0 => (fun _ => 0, fun _ => 0)
  | n + 1 =>
    let e := (endless r1 r2 g n).1
    let h := (endless r1 r2 g n).2
    let e' := fun m => if m = 0 then g n else e m - r1 * (h m - h (m-1))
    (e', fun m => h m - r2 * (e' (m+1) - e' m))

/-- Twice the distance, in cells, of a sample from the side of the box where a wave along the axis `a` enters; `up`: the wave
travels towards larger coordinates. -/
def travelled (b : BBox) (a : Axis) (up : Bool) (fc : Fc) (i j k : Int) : ℤ :=
  if up then samplePos fc i j k a - 2 * b a.lo else 2 * b a.hi - samplePos fc i j k a

/-- Amplitude on a `PW` card; 1 if it gives none. -/
def cardSize (p : PWCard) : ℚ := if 13 ≤ p.numScanned then p.size else 1

/-- The only thing that excites fields is one plane wave; no dispersive media and no impedance sheets are declared. -/
structure OneWave (cards : List Deck.Card) (p : PWCard) (delay : ℝ) : Prop where
  one : ∃ pre post, cards = pre ++ .pw p delay :: post ∧ ∀ q t, Deck.Card.pw q t ∉ pre ∧ Deck.Card.pw q t ∉ post
  sources : ∀ q b n tag w size t r, Deck.Card.ex q b n tag w size t r ∉ cards
  media : ∀ n e s u poles, Deck.Card.mt n (.debye e s u poles) ∉ cards
  sheets : ∀ n pr, Deck.Card.bt n (.sibc pr) ∉ cards

/-- The face is switched on: the card has no mask, or a 1 in the place of the face. -/
def FaceOn (p : PWCard) (f : Face) : Prop :=
  p.numScanned < 12 ∨ p.mask[match f with | .xlo => 0 | .xhi => 1 | .ylo => 2 | .yhi => 3 | .zlo => 4 | .zhi => 5]? = some '1'

/-- Evenly spaced mesh lines with cells of the same size along the three axes. -/
def EvenMesh (X : Experiment) (d : ℝ) : Prop := ∀ a m, 0 ≤ m → m < cellsOf X.file a → X.lines a (m + 1) - X.lines a m = d

/-- The box stays one cell away from the sides of the mesh, two cells from a MUR side; its low corner comes first (the program
does not check this along z, C04). -/
def InsideMesh (X : Experiment) (b : BBox) : Prop := ∀ a : Axis, (if X.file.bt a.lo = .mur then 2 else 1) ≤ b a.lo ∧
  b a.lo ≤ b a.hi ∧
  b a.hi + (if X.file.bt a.hi = .mur then 2 else 1) ≤ cellsOf X.file a

/-- The box is empty: all its samples, those on its faces too, are vacuum. -/
def EmptyBox (X : Experiment) (b : BBox) : Prop := ∀ fc i j l, SampleIn b fc i j l → MadeOf X fc i j l .vacuum

end Vulture.Spec
