import Verif.Model.Media
import Mathlib.Data.Complex.Basic
import Mathlib.Algebra.BigOperators.Group.List.Basic
/-
Debye media: the coefficients of the poles.
Models: src/medium.c:482-504 (pole part), src/medium.c:384-441 (Debye media), src/medium.c:140-172
(cards), 314-378 (file).
`double complex` is modelled by the complex numbers, `real` by the reals.
-/
namespace Vulture

/-- One pole of a Debye medium. src/medium.h:86-87 -/
structure DPole where
  res : ℂ
  pole : ℂ

/-- `dalpha[poleIdx]`. src/medium.c:492 -/
noncomputable def dalpha (dt : ℝ) (q : DPole) : ℂ := (1 + (1 / 2) * dt * q.pole) / (1 - (1 / 2) * dt * q.pole)

/-- `dbeta[poleIdx]`. src/medium.c:493 -/
noncomputable def dbeta (dt eps0 : ℝ) (q : DPole) : ℂ := eps0 * q.res / (1 - (1 / 2) * dt * q.pole)

/-- `sum` after the loop over the poles. src/medium.c:488-495 -/
noncomputable def debyeSum (dt eps0 : ℝ) (qs : List DPole) : ℝ :=
  qs.foldl (fun acc q => acc + (dbeta dt eps0 q).re) 0

/-- A Debye medium as `initMedia` sees it. src/medium.c:404-421 -/
noncomputable def debyeMedium (dt eps0 eps_r sigma mu_r : ℝ) (qs : List DPole) : Medium ℝ :=
  ⟨.debye, eps_r, sigma, mu_r, debyeSum dt eps0 qs⟩

/-- Poles of an `MT .. DEBYE` card with the given numbers after name and type: three parameters and one
to three residue, pole pairs, all real; checked are only the first three. `none`: rejected (or taken as a
file name). src/medium.c:141-172, 279-289 -/
noncomputable def parseDebye : List ℝ → Option (ℝ × ℝ × ℝ × List DPole)
  | [e, s, m, r0, p0] => chk e s m [⟨r0, p0⟩]
  | [e, s, m, r0, p0, r1, p1] => chk e s m [⟨r0, p0⟩, ⟨r1, p1⟩]
  | [e, s, m, r0, p0, r1, p1, r2, p2] => chk e s m [⟨r0, p0⟩, ⟨r1, p1⟩, ⟨r2, p2⟩]
  | _ => none
where
  chk (e s m : ℝ) (q : List DPole) : Option (ℝ × ℝ × ℝ × List DPole) :=
    open Classical in if e < 1 ∨ s < 0 ∨ m < 1 then none else some (e, s, m, q)

/-- `readDebyeParameters`: the numbers of the file after the pole count, four per pole; a pole with
positive real part ends the program. `none`: error exit. src/medium.c:314-378 -/
noncomputable def readDebyeFile (e s m : ℝ) (rows : List (ℝ × ℝ × ℝ × ℝ)) : Option (ℝ × ℝ × ℝ × List DPole) :=
  open Classical in
  if e < 1 ∨ s < 0 ∨ m < 1 ∨ (∃ r ∈ rows, r.2.2.1 > 0) then none
  else some (e, s, m, rows.map fun r => ⟨⟨r.1, r.2.1⟩, ⟨r.2.2.1, r.2.2.2⟩⟩)

end Vulture
