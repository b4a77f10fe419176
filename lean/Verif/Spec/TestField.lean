import Verif.Model.EC
import Mathlib.Data.ZMod.Basic
import Mathlib.Algebra.Field.ZMod
import Mathlib.Tactic.NormNum.Prime
/-!
The field with 29 elements with a square root by search: a small field for concrete cases of the
statements about curves, which hold over every field.
-/
namespace Festa

instance : Fact (Nat.Prime 29) := ⟨by norm_num⟩

/-- The field with 29 elements. -/
abbrev F29 := ZMod 29

instance (a : F29) : Decidable (IsSquare a) :=
  decidable_of_iff (∃ r : F29, a = r * r) Iff.rfl

/-- Square root in the field with 29 elements by search. -/
def sqrt29 (a : F29) : F29 × Bool :=
  match ([0, 1, 2, 3, 4, 5, 6, 7, 8, 9, 10, 11, 12, 13, 14] : List F29).find? (fun r => r * r = a) with
  | some r => (r, true)
  | none => (0, false)

instance : RootOps F29 where
  sqrt := sqrt29
  legendre a := if a = 0 then 0 else if (sqrt29 a).2 then 1 else -1
  zeta := 12
  sqrt_sq := by decide +kernel
  sqrt_nonsq := by decide +kernel
  legendre_zero := by decide +kernel
  legendre_one := by decide +kernel
  legendre_neg := by decide +kernel
  zeta_sq := by decide +kernel
  two_ne := by decide +kernel

end Festa
