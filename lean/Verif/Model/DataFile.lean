import Verif.Model.MeshFile
/-
The files that cards can name, as text: `readDebyeParameters` (src/medium.c:314-378), `yfReadPoleResidueM`
(src/filter.c:142-188) with `initSibcBoundary` (src/sibc.c:154-197), `loadExternalWaveform` (src/waveform.c:511-555) with
the checks of `createSplines` (src/waveform.c:677-691).
Simplified: as Model/Scan.lean; `(real)` casts are exact. The white space in the formats `"%lf %lf"` makes no difference
because `%d` and `%lf` skip white space themselves.
-/
namespace Vulture.DataFile
open Vulture.Scan Vulture.MeshFile

/-! ### The stream after a conversion that fails

A conversion reads characters as long as they can begin a number; the first that cannot is put back. If there is none, the
end of the file has been reached, and `feof` says so. C11 7.21.6.2 -/

/-- What is left of the stream after a `%d` that fails. -/
def intLeft (s : List Char) : List Char := (sign (skip s)).2

/-- What is left after the letter of an exponent, without a number. -/
def expLeft : List Char → List Char
  | 'e' :: t => (sign t).2
  | 'E' :: t => (sign t).2
  | t => t

/-- What is left of the stream after a `%lf` that fails. -/
def realLeft (s : List Char) : List Char :=
  let t := (sign (skip s)).2
  let fp := fraction (t.dropWhile isDigit)
  if t.takeWhile isDigit = [] ∧ fp.1 = [] then fp.2 else expLeft fp.2

/-! ### Waveform tables -/

/-- The first pass: `tableSize`; `none`: error exit. `feof` holds after a conversion that ends with the stream empty.
The first argument is larger than the length of the stream. src/waveform.c:525-535 -/
def count : Nat → List Char → Option Nat
  | _, [] => some 0
  | 0, _ :: _ => none
  | f + 1, c :: s =>
    match scanReal (c :: s) with
    | none => if realLeft (c :: s) = [] then some 0 else none
    | some a =>
      match scanReal a.2 with
      | none => if realLeft a.2 = [] then some 0 else none
      | some b => (count f b.2).map (· + 1)

/-- The second pass, after `rewind`. src/waveform.c:541-548 -/
def table : Nat → List Char → Option (List (ℚ × ℚ))
  | 0, _ => some []
  | n + 1, s => (scanReal s).bind fun a => (scanReal a.2).bind fun b => (table n b.2).map fun l => (a.1, b.1) :: l

/-- Times increase from row to row. src/waveform.c:683-691 -/
def increasing : List (ℚ × ℚ) → Bool
  | a :: b :: l => decide (0 < b.1 - a.1) && increasing (b :: l)
  | _ => true

/-- The table of an `EXTERNAL` waveform. src/waveform.c:511-555, 677-691 -/
noncomputable def waveText (s : List Char) : Option ((ℕ → ℝ) × (ℕ → ℝ) × ℕ) :=
  (count (s.length + 1) s).bind fun n => (table n s).bind fun t =>
    if n < 2 ∨ increasing t = false then none
    else some (fun i => ((t[i]?.getD (0, 0)).1 : ℝ), fun i => ((t[i]?.getD (0, 0)).2 : ℝ), n)

/-! ### Debye media -/

/-- The lines after the first: residue, then pole. src/medium.c:362-372 -/
def rows : Nat → List Char → Option (List (ℚ × ℚ × ℚ × ℚ))
  | 0, _ => some []
  | n + 1, s => (readReals 4 s).bind fun r =>
    match r.1 with
    | [a, b, c, d] => (rows n r.2).map fun l => (a, b, c, d) :: l
    | _ => none

/-- The numbers of a Debye file; `none`: error exit. Their ranges are checked by `readDebyeFile`. src/medium.c:329-372 -/
noncomputable def debyeText (s : List Char) : Option (ℝ × ℝ × ℝ × List (ℝ × ℝ × ℝ × ℝ)) :=
  (scanInt s).bind fun n => (readReals 3 n.2).bind fun h =>
    match h.1 with
    | [e, g, m] => if n.1 < 0 then none else (rows n.1.toNat h.2).map fun l =>
        ((e : ℝ), (g : ℝ), (m : ℝ), l.map fun r => ((r.1 : ℝ), (r.2.1 : ℝ), (r.2.2.1 : ℝ), (r.2.2.2 : ℝ)))
    | _ => none

/-! ### Impedance sheets

Whether the conversions of this reader succeed is not checked: a variable keeps what it held. -/

/-- The local variables of `yfReadPoleResidueM`; at first they hold whatever was in memory. src/filter.c:145-155 -/
structure Held where
  numPoles : Int
  asymp : ℚ
  pr : ℚ
  pi : ℚ
  rr : ℚ
  ri : ℚ

/-- `fscanf( fp , "%d" , &v )`. -/
def getInt (v : Int) (s : List Char) : Int × List Char :=
  match scanInt s with
  | some r => r
  | none => (v, intLeft s)

/-- `fscanf( fp , "%lf" , &v )`. -/
def getReal (v : ℚ) (s : List Char) : ℚ × List Char :=
  match scanReal s with
  | some r => r
  | none => (v, realLeft s)

/-- `fscanf( fp , "%lf .." , .. )` with several variables: the first conversion that fails ends the call. -/
def getReals : List ℚ → List Char → List ℚ × List Char
  | [], s => ([], s)
  | v :: vs, s =>
    match scanReal s with
    | some r => (r.1 :: (getReals vs r.2).1, (getReals vs r.2).2)
    | none => (v :: vs, realLeft s)

/-- The four variables of a pole after a call. src/filter.c:177 -/
def Held.pole (h : Held) (s : List Char) : Held × List Char :=
  let r := getReals [h.pr, h.pi, h.rr, h.ri] s
  ({ h with pr := r.1[0]?.getD 0, pi := r.1[1]?.getD 0, rr := r.1[2]?.getD 0, ri := r.1[3]?.getD 0 }, r.2)

/-- The poles of an entry: pole, then residue. src/filter.c:175-180 -/
noncomputable def poles : Nat → Held → List Char → List (ℂ × ℂ) × Held × List Char
  | 0, h, s => ([], h, s)
  | n + 1, h, s =>
    let p := h.pole s
    let r := poles n p.1 p.2
    ((⟨(p.1.pr : ℝ), (p.1.pi : ℝ)⟩, ⟨(p.1.rr : ℝ), (p.1.ri : ℝ)⟩) :: r.1, r.2)

/-- One entry of the matrix; with a negative number of poles the loops do nothing. src/filter.c:171-180 -/
noncomputable def entry (h : Held) (s : List Char) : PoleResidue × Held × List Char :=
  let n := getInt h.numPoles s
  let a := getReal h.asymp n.2
  let r := poles n.1.toNat { h with numPoles := n.1, asymp := a.1 } a.2
  (⟨(a.1 : ℝ), r.1⟩, r.2)

/-- The entries, row by row. src/filter.c:168-182 -/
noncomputable def entries : Nat → Held → List Char → List PoleResidue
  | 0, _, _ => []
  | n + 1, h, s => (entry h s).1 :: entries n (entry h s).2.1 (entry h s).2.2

/-- The filters of a sheet: a 4x4 matrix as it is, a 2x2 matrix for both polarisations, anything else is an error.
src/sibc.c:154-187, src/filter.c:160-164 -/
noncomputable def sheetText (h : Held) (s : List Char) : Option (Nat → Nat → PoleResidue) :=
  (scanInt s).bind fun m => (scanInt m.2).bind fun n =>
    if m.1 = 4 ∧ n.1 = 4 then some fun p q => (entries 16 h n.2)[4 * p + q]?.getD ⟨0, []⟩
    else if m.1 = 2 ∧ n.1 = 2 then
      some fun p q => if p / 2 = q / 2 then (entries 4 h n.2)[2 * (p % 2) + q % 2]?.getD ⟨0, []⟩ else ⟨0, []⟩
    else none

/-! ### The files of a run -/

/-- Contents of the readable files, by name. -/
abbrev Folder := List Char → Option (List Char)

/-- What the files amount to. `h`: what was in memory when a sheet file was opened. -/
noncomputable def world (h : List Char → Held) (F : Folder) : World :=
  ⟨fun f => (F f).bind waveText, fun f => (F f).bind debyeText, fun f => (F f).bind (sheetText (h f))⟩

end Vulture.DataFile
