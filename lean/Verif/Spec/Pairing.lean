import Verif.Spec.EC
import Mathlib.Algebra.Group.Subgroup.ZPowers.Basic
/-!
Words used in the statements about pairings.
-/
namespace Festa

/-- `P` and `Q` are a basis of order `D`: the relations between them are the multiples of `D`. -/
def IsBasis {H : Type*} [AddCommGroup H] (D : Nat) (P Q : H) : Prop :=
  ∀ a b : Int, a • P + b • Q = 0 ↔ (D : Int) ∣ a ∧ (D : Int) ∣ b

/-- None of the multiples of `P` that the double-and-add chain of `n` meets before its end is zero:
`n >> t` for `t ≥ 1`, and `2 (n >> t)` when one more addition follows it.  Points of exact order `n`
have this property. -/
def ChainFree {H : Type*} [AddCommGroup H] (n : Nat) (P : H) : Prop :=
  ∀ t, 1 ≤ t → t ≤ Nat.log2 n →
    (n >>> t) • P ≠ 0 ∧ (n.testBit (t - 1) = true → (2 * (n >>> t)) • P ≠ 0)

/-- Neither point is a multiple of the other. -/
def ND {H : Type*} [AddCommGroup H] (P Q : H) : Prop :=
  P ∉ AddSubgroup.zmultiples Q ∧ Q ∉ AddSubgroup.zmultiples P

/-- The multiples met by the double-and-add chain of `n`. -/
def InChain (n m : Nat) : Prop := ∃ t, m = n >>> t ∨ m = 2 * (n >>> (t + 1))

/-- The double-and-add chain of `n` for the point `P` never meets `X` or `-X`. -/
def OffChain {H : Type*} [AddCommGroup H] (n : Nat) (P X : H) : Prop :=
  ∀ m, InChain n m → X ≠ 0 ∧ X ≠ m • P ∧ X ≠ -(m • P)

end Festa
