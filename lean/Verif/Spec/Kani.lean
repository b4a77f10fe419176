import Verif.Spec.EC
import Verif.Model.Festa
/-! What it means that the factor of the codomain chosen in `trapdoor_inverse` holds the values of a map. -/
namespace Festa
variable {K : Type} [Field K] [DecidableEq K] [RootOps K]

/-- The curve `F` has the j-invariant of `EA`, and the points `G X` on `F`, brought to `EA` as in festa.rs:562-579, are `± Φ x`
there, `x` the pair of points held by `X`; for the pairs whose second component is killed by an odd number `s` such that
`s` times the first component has order a power of two, at least 8. -/
def Reads (EA F : Crv K) {E : EProd K} (G : CPt K → Pt K) (Φ : MPoint E.E1.A × MPoint E.E2.A → MPoint EA.A) : Prop :=
  F.jInvariant = EA.jInvariant ∧
  ∀ {X : CPt K} {x1 : MPoint E.E1.A} {x2 : MPoint E.E2.A}, PRep X.P1 x1 → PRep X.P2 x2 →
    (∃ s k : ℕ, s % 2 = 1 ∧ s • x2 = 0 ∧ 2 ^ k • s • x1 = 0 ∧ 4 • s • x1 ≠ 0) → Φ (x1, x2) ≠ 0 →
    PRep (if F.A = EA.A then G X else (CrvIso.new F EA).eval (G X)) (Φ (x1, x2)) ∨
      PRep (if F.A = EA.A then G X else (CrvIso.new F EA).eval (G X)) (-Φ (x1, x2))

end Festa
