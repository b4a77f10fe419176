import Mathlib.Data.Nat.Prime.Defs
import Mathlib.Data.List.Pairwise
/-! What the FESTA parameters must satisfy (specification for C02). -/
namespace Festa

/-- Product of a factor list of pairs (prime, exponent). -/
def factorProd (f : List (Nat × Nat)) : Nat := (f.map fun q => q.1 ^ q.2).prod

/-- The arithmetic requirements on the scheme parameters: `d1`, `d2`, `dA = dA1 * dA2` odd,
pairwise coprime; `2^l`, `d1`, `d2` and the square root of `dA` together divide the basis order
(a `dA`-isogeny is two successive isogenies of degree `√dA`); the factor lists
are lists of distinct primes; `m1^2 dA1 d1 + m2^2 dA2 d2 = 2^(theta length)`. -/
structure SchemeParams (d1 d2 dA dA1 dA2 m1 m2 : Nat) (f1 f2 fA fA1 fA2 : List (Nat × Nat))
    (order l tl : Nat) : Prop where
  d1_fact : factorProd f1 = d1
  d2_fact : factorProd f2 = d2
  dA_fact : factorProd fA = dA
  dA1_fact : factorProd fA1 ^ 2 = dA1
  dA2_fact : factorProd fA2 ^ 2 = dA2
  dA_split : dA1 * dA2 = dA
  distinct : ((f1 ++ f2 ++ fA).map Prod.fst).Nodup
  sub_lists : ((fA1 ++ fA2).map Prod.fst).Perm (fA.map Prod.fst)
  odd1 : d1 % 2 = 1
  odd2 : d2 % 2 = 1
  oddA : dA % 2 = 1
  cop12 : Nat.gcd d1 d2 = 1
  cop1A : Nat.gcd d1 dA = 1
  cop2A : Nat.gcd d2 dA = 1
  copA : Nat.gcd dA1 dA2 = 1
  divides : 2 ^ l * (d1 * d2 * (factorProd fA1 * factorProd fA2)) ∣ order
  norm : m1 ^ 2 * dA1 * d1 + m2 ^ 2 * dA2 * d2 = 2 ^ tl
  room : tl + 2 = l
  copm : Nat.gcd m1 (2 * dA2 * d2 * m2) = 1 ∧ Nat.gcd m2 (2 * dA1 * d1 * m1) = 1
  primes : ∀ q ∈ (f1 ++ f2 ++ fA).map Prod.fst, q.Prime

end Festa
