import Verif.Spec.Keys
import Verif.Spec.JacChain
import Verif.Spec.AxisFree
/-! The runs of the scheme in which no exceptional case is met. -/
namespace Festa
variable {K : Type} [Field K] [DecidableEq K] [RootOps K]

/-- `torsion_basis` (supersingular.rs) returns the points `P`, `Q` of `E`. -/
def Finds (chk : Bool) (fuel : Nat) (E : Crv K) (fs : Factored) (ep : Nat) (P Q : MPoint E.A) : Prop :=
  ∃ p q, torsionBasis chk fuel E fs ep = some (p, q) ∧ PRep p P ∧ PRep q Q

/-- The generators of the kernel given to `product_isogeny` in `trapdoor_inverse`, festa.rs:508-511 and 516-520, 543-544. -/
def Crypto.glueGens (S : Crypto K) (c : TrapdoorOutput K) (sk : SecretKey K) : Option (CPt K × CPt K) := do
  let R2' ← c.E2.mulBig c.R2 (← xgcdBig sk.a11 S.l)
  let S2' ← c.E2.mulBig c.S2 (← xgcdBig sk.a22 S.l)
  let glueP2 ← c.E2.mulBig R2' S.g2
  let glueQ2 ← c.E2.mulBig S2' S.g2
  some (⟨c.R1, glueP2⟩, ⟨c.S1, glueQ2⟩)

/-- What is asked of a value `c` of the trapdoor function such that `trapdoor_inverse` meets no exceptional case. -/
structure Crypto.CleanOut (chk : Bool) (fuel : Nat) (S : Crypto K) (sk : SecretKey K) (c : TrapdoorOutput K) : Prop where
  /-- `torsion_basis` finds points on the two curves, and in neither case the second point is an exceptional multiple of the
  first (by `C41_free_partial` the points are then bases). -/
  basis1 : ∃ P Q : MPoint c.E1.A, P ≠ 0 ∧ AxisFree S.d1 P Q ∧ Finds chk fuel c.E1 S.c.f1 S.c.lPower.toNat P Q
  basis2 : ∃ P Q : MPoint c.E2.A, P ≠ 0 ∧ AxisFree S.d2 P Q ∧ Finds chk fuel c.E2 S.c.f2 S.c.lPower.toNat P Q
  /-- The theta chain meets no product before its end. -/
  chain : ∀ P Q, S.glueGens c sk = some (P, Q) → ∃ O T1 T2, gluingIsogeny ⟨c.E1, c.E2⟩
    (EProd.doubleIter ⟨c.E1, c.E2⟩ P (S.c.thetaLen - 1)) (EProd.doubleIter ⟨c.E1, c.E2⟩ Q (S.c.thetaLen - 1)) [P, Q] =
      (ThStr.new O, [T1, T2]) ∧ JacChain (S.c.thetaLen - 1) O T1 T2
  /-- The points brought to `EA'` are not killed by a number met in the Miller loop and, if they are on the first axis of
  a basis there, no zero is met in it. -/
  points : ∀ P Q x1 y1 x2 y2 E34 I1 I2 l1 l2, S.glueGens c sk = some (P, Q) →
    torsionBasis chk fuel c.E1 S.c.f1 S.c.lPower.toNat = some (x1, y1) →
    torsionBasis chk fuel c.E2 S.c.f2 S.c.lPower.toNat = some (x2, y2) →
    productIsogeny ⟨c.E1, c.E2⟩ P Q [⟨c.E1.add x1 c.R1, x2⟩, ⟨c.E1.add y1 c.S1, y2⟩] S.c.thetaLen S.c.strategy =
      some (E34, [I1, I2]) →
    chooseFactor chk sk.EA' E34 I1 I2 = some (l1, l2) → ∀ L : MPoint sk.EA'.A, PRep l1 L ∨ PRep l2 L →
      (∀ P1, PRep sk.P1 P1 → AxisFree S.d1 (S.l • P1) (S.d2 • (S.l • L))) ∧
      (∀ P2, PRep sk.P2 P2 → AxisFree S.d2 P2 (S.d1 • (S.l • L))) ∧
      ChainFree S.d1 (S.d2 • (S.l • L)) ∧ ChainFree S.d2 (S.d1 • (S.l • L))

end Festa
