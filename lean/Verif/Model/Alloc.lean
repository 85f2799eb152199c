import Verif.Model.Prog
/-
Sizes of the arrays the field updates work on.
Models: src/grid.c:457-580 (`allocGridArrays`), src/pml.c:632-790 (`allocPmlArrays`).
-/
namespace Vulture

/-- Valid first/second/third indices of the `numCells[XDIR] x numCells[YDIR] x numCells[ZDIR]`
arrays. src/grid.c:466-572 -/
def InGrid (c : Cfg) (i j k : Int) : Prop :=
  (0 ≤ i ∧ i < c.numCells .x) ∧ (0 ≤ j ∧ j < c.numCells .y) ∧ (0 ≤ k ∧ k < c.numCells .z)

/-- Valid indices of `Px[r]` .. `Bz[r]`, which exist for PML faces only and have
`fplim[..HI] - fplim[..LO] + 1` elements per direction. src/pml.c:640-690 -/
def InSlab (c : Cfg) (r : Face) (fc : Fc) (i j k : Int) : Prop :=
  c.bt r = .pml ∧
  (0 ≤ i ∧ i < c.fplim r fc .xhi - c.fplim r fc .xlo + 1) ∧
  (0 ≤ j ∧ j < c.fplim r fc .yhi - c.fplim r fc .ylo + 1) ∧
  (0 ≤ k ∧ k < c.fplim r fc .zhi - c.fplim r fc .zlo + 1)

/-- An allocated element of the grid and PML arrays. -/
def Allocated (c : Cfg) : Loc → Prop
  | .fld _ i j k => InGrid c i j k
  | .pp r fc i j k => InSlab c r fc i j k
  | .p r fc i j k => InSlab c r fc i j k
  | .b r fc i j k => InSlab c r fc i j k
  | _ => False

/-- An allocated coefficient element of the grid, PML and Mur arrays (1-D arrays have `numCells` elements). src/grid.c:466-499,
541-572; src/pml.c:692-784; src/mur.c:52 -/
def CAllocated (c : Cfg) : CRef → Prop
  | .alpha _ i j k => InGrid c i j k
  | .beta _ i j k => InGrid c i j k
  | .gamma _ i j k => InGrid c i j k
  | .ide a i => 0 ≤ i ∧ i < c.numCells a
  | .idh a i => 0 ≤ i ∧ i < c.numCells a
  | .ad a i => 0 ≤ i ∧ i < c.numCells a
  | .bd a i => 0 ≤ i ∧ i < c.numCells a
  | .ibd a i => 0 ≤ i ∧ i < c.numCells a
  | .ah a i => 0 ≤ i ∧ i < c.numCells a
  | .bh a i => 0 ≤ i ∧ i < c.numCells a
  | .ibh a i => 0 ≤ i ∧ i < c.numCells a
  | .zeta _ => True
  | _ => False

/-- Every element a program touches is allocated. -/
def Safe (c : Cfg) (p : Prog) : Prop :=
  ∀ b ∈ p, (∀ l ∈ b.writes, Allocated c l) ∧ (∀ l ∈ b.reads, Allocated c l) ∧
    (∀ r ∈ b.coefs, CAllocated c r)

end Vulture

namespace Vulture
/-- `clearPml`: elements written, for *all* six regions, PML or not. src/pml.c:793-853 -/
def clearPml (c : Cfg) : List Loc :=
  Face.all.flatMap fun r =>
    let rel (fc : Fc) : List (Int × Int × Int) := boxLoop (fun f =>
      match f with
      | .xlo => 0 | .xhi => c.fplim r fc .xhi - c.fplim r fc .xlo
      | .ylo => 0 | .yhi => c.fplim r fc .yhi - c.fplim r fc .ylo
      | .zlo => 0 | .zhi => c.fplim r fc .zhi - c.fplim r fc .zlo)
    ([Fc.ex, .ey, .ez].flatMap fun fc => (rel fc).flatMap fun t =>
      [Loc.pp r fc t.1 t.2.1 t.2.2, Loc.p r fc t.1 t.2.1 t.2.2]) ++
    ([Fc.hx, .hy, .hz].flatMap fun fc => (rel fc).map fun t => Loc.b r fc t.1 t.2.1 t.2.2)

/-- `clearGrid`: elements written. src/grid.c:682-706 -/
def clearGrid (c : Cfg) : List Loc :=
  (boxLoop (fun f => match f with
    | .xlo => c.gobox .xlo - 1 | .xhi => c.gobox .xhi
    | .ylo => c.gobox .ylo - 1 | .yhi => c.gobox .yhi
    | .zlo => c.gobox .zlo - 1 | .zhi => c.gobox .zhi)).flatMap fun t =>
    [Fc.ex, .ey, .ez, .hx, .hy, .hz].map fun fc => Loc.fld fc t.1 t.2.1 t.2.2
end Vulture
