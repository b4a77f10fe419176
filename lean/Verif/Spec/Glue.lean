import Verif.Spec.EC
import Mathlib.Tactic.Ring
/-! Reference notion for the gluing isogeny. -/
namespace Festa
variable {K : Type*} [Field K] [DecidableEq K]

/-- The pairs of points of order four the image formula of `gluing_image` has no value for: one
component above the second kernel point `4 q`, the other above the sum `4 p + 4 q` of both. -/
def GlueExc {A A' : K} (p1 q1 : MPoint A) (p2 q2 : MPoint A') (r1 : MPoint A) (r2 : MPoint A') : Prop :=
  (2 • r1 = 4 • q1 ∧ 2 • r2 = 4 • p2 + 4 • q2) ∨ (2 • r1 = 4 • p1 + 4 • q1 ∧ 2 • r2 = 4 • q2)

end Festa
