import Verif.Model.FpDiv
import Verif.Spec.Fp
/-
Specification vocabulary for the division: the relation that the correction constant must satisfy.
-/
namespace Festa

/-- The relation of the division constant to the modulus: it corrects the power of two left over by
the two loops of the division, and is in Montgomery form (comment at fp_gen.rs:927-938). -/
structure FpParams.DivValid (P : FpParams) : Prop where
  len : P.TFIXDIV_VAL.length = P.N
  lt : lval P.TFIXDIV_VAL < P.p
  val : lval P.TFIXDIV_VAL
    = 2 ^ (33 * P.num1 + 64 - P.num2) * P.R * P.R % P.p

end Festa
