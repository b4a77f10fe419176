import Verif.Spec.Pairing
/-!
The points for which the Miller loops of a logarithm meet no zero.
-/
namespace Festa

/-- If `X` is a multiple of `P`, the double-and-add chain of `n` for one of the two points never meets the other one or
its negative.  Nothing is asked of a point `X` that is not on the axis of `P`. -/
def AxisFree {H : Type*} [AddCommGroup H] (n : Nat) (P X : H) : Prop :=
  X ∈ AddSubgroup.zmultiples P → OffChain n P X ∧ OffChain n X P

end Festa
