import Verif.Model.Festa
import Verif.Lemmas.DLog
import Mathlib.Data.Nat.ModEq
/-! What the precomputed values of `FESTACrypto` have to satisfy. -/
namespace Festa

/-- The precomputed numbers: `l = 2^e`; `d1`, `d2` are the odd coprime values of the factor lists;
`inv_scalar` is inverse to `d1 · d1d2 · m1` modulo `l`; `clear_d1` is the idempotent that is 1 modulo `l`
and 0 modulo `d1`, and so on; `g2 = m1 d1 / (m2 dA2 d2)` modulo `l`. -/
structure Crypto.Sound {K : Type} (chk : Bool) (S : Crypto K) : Prop where
  l_eq : S.l = 2 ^ S.c.lPower.toNat
  l_big : 2 ≤ S.c.lPower.toNat
  ok1 : S.c.f1.Ok chk
  ok2 : S.c.f2.Ok chk
  d1_eq : S.d1 = (S.c.f1.map fun q => q.1.toNat ^ q.2.toNat).prod
  d2_eq : S.d2 = (S.c.f2.map fun q => q.1.toNat ^ q.2.toNat).prod
  d1d2_eq : S.d1d2 = S.d1 * S.d2
  odd1 : S.d1 % 2 = 1
  odd2 : S.d2 % 2 = 1
  oddm1 : S.c.m1 % 2 = 1
  cop : Nat.Coprime S.d1 S.d2
  copm1 : Nat.Coprime S.c.m1 S.d2
  copm2 : Nat.Coprime S.c.m2 S.d1
  inv : S.invScalar * (S.d1 * S.d1d2 * S.c.m1) ≡ 1 [MOD S.l]
  clear1 : S.clearD1 ≡ 1 [MOD S.l] ∧ S.d1 ∣ S.clearD1
  clear2 : S.clearD2 ≡ 1 [MOD S.l] ∧ S.d2 ∣ S.clearD2
  clearl : S.clearLb ≡ 1 [MOD S.d2] ∧ S.l ∣ S.clearLb
  g2 : S.g2 * (S.c.m2 * S.c.dA2 * S.d2) ≡ S.c.m1 * S.d1 [MOD S.l]

end Festa
