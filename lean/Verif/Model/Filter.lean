import Mathlib.Analysis.Complex.Exponential
/-
Model of the recursive-convolution filters: src/filter.c.  `double` is modelled by `ℝ` and `double complex` by `ℂ`.
The C arrays `poles[]`, `residues[]`, `q[3][]`, `zeta[]` of one length `numPoles` are modelled by lists
(allocation itself is property C37).
-/
namespace Vulture

/-- `yfPoleResidue`. src/filter.h:32-39 -/
structure PoleResidue where
  asymp : ℝ
  terms : List (ℂ × ℂ)

/-- One column `q[0][k], q[1][k], q[2][k]`. src/filter.h:46 -/
structure RCq where
  q0 : ℂ
  q1 : ℂ
  q2 : ℂ

/-- `yfRecConv`. src/filter.h:42-48 -/
structure RecConv where
  asymp : ℝ
  q : List RCq

/-- `yfRecConvState`. src/filter.h:51-56 -/
structure RecState where
  zeta : List ℂ
  old : ℝ

/-- `yfPoleResidue2RecConv`. src/filter.c:343-366 -/
noncomputable def toRCq (T : ℝ) (t : ℂ × ℂ) : RCq :=
  let alpha := t.2 / t.1
  let beta := t.1 * T
  ⟨Complex.exp beta, alpha / beta * (1 + (beta - 1) * Complex.exp beta), alpha / beta * (Complex.exp beta - beta - 1)⟩

/-- `yfPoleResidue2RecConv`. src/filter.c:343-366 -/
noncomputable def toRecConv (pr : PoleResidue) (T : ℝ) : RecConv := ⟨pr.asymp, pr.terms.map (toRCq T)⟩

/-- `yfAllocRecConvState`: `calloc` and `old = 0.0`. src/filter.c:248-258 -/
def RecConv.init (rc : RecConv) : RecState := ⟨rc.q.map fun _ => 0, 0⟩

/-- `yfRecConvStep`: new state and returned value.  `y` is a `double`, so adding the complex `zeta[k]`
to it keeps the real part only. src/filter.c:307-326 -/
noncomputable def RecConv.step (rc : RecConv) (s : RecState) (x : ℝ) : RecState × ℝ :=
  let zeta := List.zipWith (fun q z => q.q0 * z + q.q1 * (s.old : ℂ) + q.q2 * (x : ℂ)) rc.q s.zeta
  (⟨zeta, x⟩, zeta.foldl (fun y z => ((y : ℂ) + z).re) (rc.asymp * x))

/-- `yfRecConvFiltSeq`, loop body carried over the input. src/filter.c:336-337 -/
noncomputable def RecConv.filterFrom (rc : RecConv) : RecState → List ℝ → List ℝ
  | _, [] => []
  | s, x :: xs => (rc.step s x).2 :: rc.filterFrom (rc.step s x).1 xs

/-- `yfRecConvFiltSeq`. src/filter.c:329-343 -/
noncomputable def RecConv.filter (rc : RecConv) (x : List ℝ) : List ℝ := rc.filterFrom rc.init x

end Vulture
