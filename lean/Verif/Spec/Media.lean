import Verif.Spec.Grid
/- Which samples a masked box contains. Only positions are used. -/
namespace Vulture.Spec

/-- Twice the position of a sample along an axis. -/
def samplePos (fc : Fc) (i j k : Int) (a : Axis) : Int :=
  match a with | .x => pos2 fc .x i | .y => pos2 fc .y j | .z => pos2 fc .z k

/-- The sample lies in the plane of face `f` of the box. -/
def OnPlane (b : BBox) (f : Face) (fc : Fc) (i j k : Int) : Prop :=
  samplePos fc i j k f.axis = 2 * b f

/-- A box with a face mask contains a sample: it is in the closed box, and if it lies on a face then
that face is selected. -/
def Contains (b : BBox) (mask : Face → Bool) (fc : Fc) (i j k : Int) : Prop :=
  SampleIn b fc i j k ∧ ∀ f, OnPlane b f fc i j k → mask f = true

end Vulture.Spec

namespace Vulture.Spec

/-- The sample index nearest to `i` along an axis among the samples of the component inside the closed
box: node-plane components have indices `lo..hi`, half-cell components `lo..hi-1`. -/
def nearest (b : BBox) (fc : Fc) (a : Axis) (i : Int) : Int :=
  max (b a.lo) (min (b a.hi - pos2 fc a 0) i)

/-- A sample of the outer grid that is not on the metal backing of an absorbing layer. -/
def InLayers (c : Cfg) (fc : Fc) (i j k : Int) : Prop :=
  SampleIn c.gobox fc i j k ∧ ∀ f, c.bt f = .pml → samplePos fc i j k f.axis ≠ 2 * c.gobox f

end Vulture.Spec
