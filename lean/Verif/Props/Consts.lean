import Verif.Lemmas.FestaParams
import Verif.Model.FestaConsts
import Verif.Spec.Scheme
/-! C02: the modulus is prime and the precomputed constants are coherent. -/
namespace Festa

/-- The hard-coded modulus is a prime of exactly 1293 bits congruent to 7 modulo 8, and `p + 1` is
the advertised basis order, `2^634` times an odd number. -/
theorem C02_modulus :
    festaFp.p.Prime ∧ 2 ^ 1292 ≤ festaFp.p ∧ festaFp.p < 2 ^ 1293 ∧ festaFp.p % 8 = 7 ∧
    ofSlice BIGUINT_MODULUS = festaFp.p ∧ ofSlice BASIS_ORDER = festaFp.p + 1 ∧
    ∃ q, q % 2 = 1 ∧ festaFp.p + 1 = 2 ^ L_POWER * q := by
  refine ⟨festa_prime, ?_, ?_, ?_, ?_, ?_, (festaFp.p + 1) / 2 ^ 634, ?_, ?_⟩ <;> decide +kernel

/-- Every other constant of the field has the value that the algorithms need. -/
theorem C02_field_constants :
    FpParams.Valid festaFp ∧ FpParams.RootValid festaFp ∧
    lval festaFp.TFIXDIV_VAL < festaFp.p ∧
    lval festaFp.TFIXDIV_VAL
      = 2 ^ (33 * 82 + 64 - 42 + 2 * 64 * 21) % festaFp.p :=
  ⟨festa_valid, festa_roots, by decide +kernel, by decide +kernel⟩

/-- The scheme parameters: each advertised product is the product of its factor list, the
factors are pairwise distinct primes, everything divides the basis order, the degrees are pairwise
coprime and odd, and the norm equation of the trapdoor holds. -/
theorem C02_scheme : SchemeParams (ofSlice D1) (ofSlice D2) (ofSlice DA) (ofSlice DA1)
    (ofSlice DA2) (ofSlice M1) (ofSlice M2) D1_FACTORED D2_FACTORED DA_FACTORED DA1_FACTORED
    DA2_FACTORED (ofSlice BASIS_ORDER) L_POWER THETA_ISOGENY_LENGTH := by
  constructor
  all_goals first | decide +kernel | skip
  · intro q hq
    have : q ∈ [3, 19, 29, 37, 83, 139, 167, 251, 419, 421, 701, 839, 1009, 1259, 3061, 3779,
      5, 7, 11, 13, 17, 41, 43, 71, 89, 127, 211, 281, 503, 631, 2309, 2521, 2647, 2729,
      59, 3023, 3359, 4409, 5039, 6299, 6719, 9181, 19531, 22679, 41161] := hq
    fin_cases this <;> norm_num

end Festa
