import Verif.Spec.Trapdoor
import Verif.Spec.Isogeny
import Verif.Spec.Pairing
/-!
What the keys and the values of the trapdoor function of the scheme are, in terms of isogenies and points.
-/
namespace Festa

section
variable {K : Type*} [Field K] [DecidableEq K] [RootOps K]

/-- `φ` is, up to sign, an isogeny of degree `d` computed by a chain of steps. -/
def IsIsog {E E' : Crv K} (φ : MPoint E.A →+ MPoint E'.A) (d : Nat) : Prop :=
  ∃ L, ∃ ψ : MPoint E.A →+ MPoint E'.A,
    IsChain E L E' ψ ∧ (L.map fun f => f.degree.toNat).prod = d ∧ (φ = ψ ∨ φ = -ψ)

end

/-- The norm equation of the scheme and the coprimality conditions between its degrees. -/
structure Crypto.Norm {K : Type} (S : Crypto K) : Prop where
  eq : S.c.m1 ^ 2 * S.c.dA1 * S.d1 + S.c.m2 ^ 2 * S.c.dA2 * S.d2 = 2 ^ S.c.thetaLen
  len : S.c.thetaLen + 2 = S.c.lPower.toNat
  pos : 1 ≤ S.c.thetaLen
  ne1 : S.c.f1 ≠ []
  ne2 : S.c.f2 ≠ []
  cop1 : S.c.m1.Coprime S.d1
  cop2 : S.c.m2.Coprime S.d2
  copA1 : S.c.dA1.Coprime S.d1
  copA2 : S.c.dA2.Coprime S.d2
  oddm2 : S.c.m2 % 2 = 1
  oddA1 : S.c.dA1 % 2 = 1
  oddA2 : S.c.dA2 % 2 = 1

variable {K : Type} [Field K] [DecidableEq K] [RootOps K]

/-- A key pair belonging to the isogenies `φA1 : E0 → EA'` and `φA2 : EA' → EA`, the points `Pb`, `Qb` and
`Pd1`, `Qd1` of `E0` and the points `PA`, `QA` of `EA`: the public key holds the images of `Pb` and `Qb`
masked by `a11` and `a22`; the secret key holds the images of `Pb + Pd1` and `Qb + Qd1` on `EA'`, and two
points `P2`, `Q2` of `EA'` that `φA2` takes to one and the same multiple of `PA` and `QA`. -/
structure KeyRel (S : Crypto K) (pk : PublicKey K) (sk : SecretKey K)
    (φA1 : MPoint S.E0.A →+ MPoint sk.EA'.A) (φA2 : MPoint sk.EA'.A →+ MPoint pk.EA.A)
    (Pb Qb Pd1 Qd1 : MPoint S.E0.A) (PA QA : MPoint pk.EA.A) : Prop where
  isog1 : IsIsog φA1 S.c.dA1
  isog2 : IsIsog φA2 S.c.dA2
  odd11 : sk.a11 % 2 = 1
  odd22 : sk.a22 % 2 = 1
  ra : PRep pk.RA (sk.a11 • φA2 (φA1 Pb))
  sa : PRep pk.SA (sk.a22 • φA2 (φA1 Qb))
  p1 : PRep sk.P1 (φA1 (Pb + Pd1))
  q1 : PRep sk.Q1 (φA1 (Qb + Qd1))
  basis : ∃ (k : Nat) (P2 Q2 : MPoint sk.EA'.A), k.Coprime S.d2 ∧ PRep sk.P2 P2 ∧ PRep sk.Q2 Q2 ∧
    S.d2 • P2 = 0 ∧ S.d2 • Q2 = 0 ∧ φA2 P2 = k • PA ∧ φA2 Q2 = k • QA

/-- A value of the trapdoor function: `φ1 : E0 → E1` has the kernel generated by `Pd1 + s1 Qd1`, and
`φ2 : EA → E2` the one generated by `PA + s2 QA`; the output holds the images of `Pb`, `Qb` and of the points
`RA`, `SA` of the public key, multiplied by `b11` and `b22`. -/
structure OutRel (S : Crypto K) (pk : PublicKey K) (m : TrapdoorInput) (c : TrapdoorOutput K)
    (φ1 : MPoint S.E0.A →+ MPoint c.E1.A) (φ2 : MPoint pk.EA.A →+ MPoint c.E2.A)
    (Pb Qb Pd1 Qd1 : MPoint S.E0.A) (RA SA PA QA : MPoint pk.EA.A) : Prop where
  isog1 : IsIsog φ1 S.d1
  isog2 : IsIsog φ2 S.d2
  ker1 : ∀ X, φ1 X = 0 ↔ X ∈ AddSubgroup.zmultiples (Pd1 + m.s1 • Qd1)
  ker2 : ∀ X, φ2 X = 0 ↔ X ∈ AddSubgroup.zmultiples (PA + m.s2 • QA)
  r1 : PRep c.R1 (m.b11 • φ1 Pb)
  s1 : PRep c.S1 (m.b22 • φ1 Qb)
  r2 : PRep c.R2 (m.b11 • φ2 RA)
  s2 : PRep c.S2 (m.b22 • φ2 SA)

/-- `ψ` is dual to `φ`, as far as points killed by `n` are concerned: both compositions are the
multiplication by the degree `d`, and the kernel of `ψ` is the image of the points killed by `d`. -/
structure DualOn {H H' : Type*} [AddCommGroup H] [AddCommGroup H'] (n d : Nat) (φ : H →+ H')
    (ψ : H' →+ H) : Prop where
  left : ∀ X, n • X = 0 → ψ (φ X) = d • X
  right : ∀ Y, n • Y = 0 → φ (ψ Y) = d • Y
  ker : ∀ Y, n • Y = 0 → ψ Y = 0 → ∃ X, d • X = 0 ∧ φ X = Y

end Festa
