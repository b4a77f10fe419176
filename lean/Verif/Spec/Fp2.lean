import Verif.Model.Fp2
import Verif.Spec.FpDiv
import Mathlib.Algebra.QuadraticAlgebra.Basic
/-
Specification vocabulary for the extension field: the reference is Mathlib's quadratic algebra
`F_p[i]` with `i^2 = -1`.
-/
namespace Festa

/-- The reference extension ring `F_p[i]`, `i^2 = -1 + 0 i`. -/
abbrev F2 (P : FpParams) := QuadraticAlgebra (ZMod P.p) (-1) 0

/-- `a` is the code's representation of the element `z`. -/
def Rep2 (P : FpParams) (a : Fp2) (z : F2 P) : Prop := Rep P a.x0 z.re ∧ Rep P a.x1 z.im

/-- Representation invariant of the Rust type `Fp2`. -/
def Reduced2 (P : FpParams) (a : Fp2) : Prop := Reduced P a.x0 ∧ Reduced P a.x1

/-- The documented sign convention: the real part is an even integer, and when it is zero, so is
the imaginary part. -/
def SignZero {P : FpParams} (z : F2 P) : Prop :=
  z.re.val % 2 = 0 ∧ (z.re = 0 → z.im.val % 2 = 0)

end Festa
