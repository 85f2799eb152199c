import Verif.Spec.Page
import Mathlib.Analysis.Complex.Basic
/-
The files that cards name, as a user writes them: numbers, one after the other, with white space between them (user
manual, tables tb:mbdebext and tb:prm and the section on EXTERNAL waveforms).
-/
namespace Vulture.Spec.Data
open Vulture.Spec.Page

/-- The text is the fields with white space between them, and perhaps before and after them. -/
def Listed (fs : List Field) (text : List Char) : Prop :=
  ∃ body tail, Writes fs body ∧ (∀ c ∈ tail, White c) ∧ text = body ++ tail

/-- A waveform file: time and value, row by row. -/
def waveFields : List (ℚ × ℚ) → List Field
  | [] => []
  | r :: l => .real r.1 :: .real r.2 :: waveFields l

/-- A row of a Debye file: residue and pole, each with real and imaginary part. -/
structure Relax where
  res : ℚ × ℚ
  pole : ℚ × ℚ

/-- The rows of a Debye file. -/
def relaxFields : List Relax → List Field
  | [] => []
  | r :: l => .real r.res.1 :: .real r.res.2 :: .real r.pole.1 :: .real r.pole.2 :: relaxFields l

/-- A Debye file: number of poles, permittivity, conductivity, permeability; then the poles. -/
def debyeFields (eps sigma mu : ℚ) (l : List Relax) : List Field :=
  .int l.length :: .real eps :: .real sigma :: .real mu :: relaxFields l

/-- An entry of the impedance matrix of a sheet: asymptote and poles with their residues. -/
structure Entry where
  asymp : ℚ
  terms : List Relax

/-- The poles of an entry, in the order the program reads: pole, then residue. -/
def poleFirst : List Relax → List Field
  | [] => []
  | r :: l => .real r.pole.1 :: .real r.pole.2 :: .real r.res.1 :: .real r.res.2 :: poleFirst l

/-- The entries of a sheet file: number of poles, asymptote, poles. `order` is the order within a row. -/
def entryFields (order : List Relax → List Field) : List Entry → List Field
  | [] => []
  | e :: l => .int e.terms.length :: .real e.asymp :: (order e.terms ++ entryFields order l)

/-- A sheet file: the size of the matrix, then its entries. -/
def sheetFields (order : List Relax → List Field) (m n : Int) (es : List Entry) : List Field :=
  .int m :: .int n :: entryFields order es

/-- A pair of rational numbers as a complex number. -/
noncomputable def cplx (z : ℚ × ℚ) : ℂ := ⟨(z.1 : ℝ), (z.2 : ℝ)⟩

/-- The filter an entry describes. -/
noncomputable def Entry.filter (e : Entry) : PoleResidue := ⟨(e.asymp : ℝ), e.terms.map fun r => (cplx r.pole, cplx r.res)⟩

/-- Pole and residue exchanged. -/
def Relax.swap (r : Relax) : Relax := ⟨r.pole, r.res⟩

/-- Times increase from row to row. -/
def Rising (l : List (ℚ × ℚ)) : Prop := ∀ i a b, l[i]? = some a → l[i + 1]? = some b → a.1 < b.1

/-- A character that cannot occur in a number and is not white space. -/
def Foreign (c : Char) : Prop :=
  ¬ White c ∧ ¬ ('0' ≤ c ∧ c ≤ '9') ∧ c ≠ '+' ∧ c ≠ '-' ∧ c ≠ '.'

end Vulture.Spec.Data
