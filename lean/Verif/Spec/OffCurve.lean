import Verif.Spec.EC
/-!
The curves on which the points that are not on `y² = x³ + A x² + x` lie.
-/
namespace Festa
variable {K : Type*} [Field K]

/-- The curve `y² = x³ + A x² + x + c`. -/
def montC (A c : K) : WeierstrassCurve.Affine K := ⟨0, A, 0, 1, c⟩

/-- `P` is a projective representation of the point `Q` of `y² = x³ + A x² + x + c`. -/
def PRepC {A c : K} (P : Pt K) : (montC A c).Point → Prop
  | .zero => P.Z = 0
  | .some x y _ => P.Z ≠ 0 ∧ P.X = x * P.Z ∧ P.Y = y * P.Z

end Festa
