import Verif.Model.EC
import Mathlib.AlgebraicGeometry.EllipticCurve.Affine.Point
/-!
Reference for the curve code: Mathlib's Weierstrass curve `y^2 = x^3 + A x^2 + x` and its group of
points.
-/
namespace Festa
variable {K : Type*} [Field K]

/-- The curve `y^2 = x^3 + A x^2 + x`. -/
def mont (A : K) : WeierstrassCurve.Affine K := ⟨0, A, 0, 1, 0⟩

/-- The group of points of `y^2 = x^3 + A x^2 + x`. -/
abbrev MPoint (A : K) := (mont A).Point

/-- A curve value as made by `Curve::new`: not singular, and `A24 = (A+2)/4`. -/
structure Crv.Good (E : Crv K) : Prop where
  two : (2 : K) ≠ 0
  disc : E.A * E.A ≠ 4
  a24 : 4 * E.A24 = E.A + 2

/-- `P` is a projective representation of the point `Q` of the curve. -/
def PRep {A : K} (P : Pt K) : MPoint A → Prop
  | .zero => P.Z = 0
  | .some x y _ => P.Z ≠ 0 ∧ P.X = x * P.Z ∧ P.Y = y * P.Z

/-- `(X : Z)` is the x-coordinate of `Q`, infinity being `(1 : 0)`. -/
def KRep {A : K} (X Z : K) : MPoint A → Prop
  | .zero => X ≠ 0 ∧ Z = 0
  | .some x _ _ => Z ≠ 0 ∧ X = x * Z

/-- Abscissa of a point, 0 for infinity. -/
def xc {A : K} : MPoint A → K
  | .zero => 0
  | .some x _ _ => x

/-- Ordinate of a point, 0 for infinity. -/
def yc {A : K} : MPoint A → K
  | .zero => 0
  | .some _ y _ => y

end Festa
