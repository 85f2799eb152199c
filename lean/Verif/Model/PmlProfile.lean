import Verif.Model.Edges
import Mathlib.Analysis.SpecialFunctions.Log.Basic
/-
Grading of the absorbing layers. Real numbers stand for `real`.
The five arrays `gh`, `kh`, `bd`, `ad`, `ibd` are always written together at one index, and so are
`gd`, `kd`, `bh`, `ah`, `ibh`: they are modelled as one array of records each (`node`, `half`).
-/
namespace Vulture

/-- `gh[i]`, `kh[i]`, `bd[i]`, `ad[i]`, `ibd[i]` (or `gd`, `kd`, `bh`, `ah`, `ibh`). src/pml.c:55-84 -/
structure PmlCoef where
  g : ℝ
  k : ℝ
  b : ℝ
  a : ℝ
  ib : ℝ

/-- Parameters of a PML boundary. The order is an `int` in the code; negative orders are not modelled.
src/boundary.c:117-119, 164-165 -/
structure PmlParams where
  order : ℕ
  nEff : ℝ
  refCoeff : ℝ
  kmax : ℝ

/-- `pmlSigmaProfile`. src/pml.c:269-292 -/
noncomputable def pmlSigmaProfile (eta0 : ℝ) (x totalDepth meshSize : ℝ) (p : PmlParams) : ℝ :=
  (if p.refCoeff > 0 then -(p.order + 1) / (2 * eta0 * p.nEff * totalDepth) * Real.log p.refCoeff
   else 4 * (p.order + 1) / (5 * eta0 * p.nEff * meshSize)) * x ^ p.order

/-- `pmlKappaProfile`. src/pml.c:296-302 -/
def pmlKappaProfile (x : ℝ) (p : PmlParams) : ℝ := 1 + (p.kmax - 1) * x ^ p.order

/-- The five assignments at one index. src/pml.c:232-237, 244-250, 257-261 -/
noncomputable def pmlCoef (sprof kprof : ℝ) : PmlCoef where
  g := sprof
  k := kprof
  b := 1 / (kprof + sprof)
  a := (kprof - sprof) / (kprof + sprof)
  ib := kprof + sprof

/-- Both arrays of one axis. -/
structure PmlArrays where
  node : Arr PmlCoef
  half : Arr PmlCoef

/-- Value at one depth. src/pml.c:230-231 -/
noncomputable def pmlAt (dt eps0 eta0 total mesh : ℝ) (p : PmlParams) (depth : ℝ) : PmlCoef :=
  pmlCoef (0.5 * dt / eps0 * pmlSigmaProfile eta0 (depth / total) total mesh p)
    (pmlKappaProfile (depth / total) p)

/-- One of the loops: store the value at the current depth, advance the depth. src/pml.c:228-239,
253-263 -/
noncomputable def profileLoop (F : ℝ → PmlCoef) (delta : Int → ℝ) (low high : Int) (st : ℝ × Arr PmlCoef) :
    ℝ × Arr PmlCoef :=
  (intRange low high).foldl (fun st i => (st.1 + delta i, st.2.set i (F st.1))) st

/-- `setProfile`; `up` is `dir == +1`. src/pml.c:198-267 -/
noncomputable def setProfile (dt eps0 eta0 : ℝ) (de dh : Arr ℝ) (low high : Int) (up : Bool) (p : PmlParams)
    (A : PmlArrays) : PmlArrays :=
  let total := (intRange low high).foldl (fun t i => t + de i) 0
  let depthE := if up then 0 else total
  let depthH := if up then 0.5 * de low else total - 0.5 * de low
  let dir : ℝ := if up then 1 else -1
  let F := pmlAt dt eps0 eta0 total (de low) p
  let r := profileLoop F (fun i => dir * de i) low high (depthE, A.node)
  let node := if up then r.2.set (high + 1) (F r.1) else r.2
  { node := node, half := (profileLoop F (fun i => dir * dh i) low high (depthH, A.half)).2 }

/-- `setPmlParameters` for one axis. `junk` is the uninitialised storage. src/pml.c:305-425 -/
noncomputable def setPmlParameters (dt eps0 eta0 : ℝ) (c : Cfg) (a : Axis) (de dh : Arr ℝ) (par : Face → PmlParams)
    (junk : PmlArrays) : PmlArrays :=
  let one : PmlCoef := ⟨0, 1, 1, 1, 1⟩
  let A0 : PmlArrays := ⟨junk.node.fill (c.gobox a.lo - 1) (c.gobox a.hi) fun _ _ => one,
    junk.half.fill (c.gobox a.lo - 1) (c.gobox a.hi) fun _ _ => one⟩
  let A1 := if c.bt a.lo = .pml then
      setProfile dt eps0 eta0 de dh (c.gobox a.lo) (c.gibox a.lo - 1) false (par a.lo) A0 else A0
  if c.bt a.hi = .pml then
    setProfile dt eps0 eta0 de dh (c.gibox a.hi) (c.gobox a.hi - 1) true (par a.hi) A1 else A1

end Vulture
