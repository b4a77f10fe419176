import Verif.Model.Isogeny
import Verif.Spec.EC
import Mathlib.GroupTheory.OrderOfElement
import Mathlib.Algebra.BigOperators.Fin
/-!
What it means for the isogeny code to be right: the steps are group homomorphisms with the wanted
kernel, given on x-coordinates by the quotient of products over the kernel.
-/
namespace Festa
variable {K : Type*} [Field K] [DecidableEq K] [RootOps K]

/-- The value `f` computes the isogeny `φ` (up to sign): both curves are good; the kernel of `φ` is the
group generated by the kernel point, whose order is the degree; on x-coordinates `φ` is the quotient of
the two products over the kernel, a rational function of that degree; the new coefficient is the one of
the isogeny formulas `(A' + 2 : A' - 2) = ((A+2)^l ∏ (x+1)^8 : (A-2)^l ∏ (x-1)^8)`; and the evaluation code turns
every representation of a point `Q` into a representation of `φ Q` or `-φ Q`. -/
structure IsStep (f : KIso K) (φ : MPoint f.domain.A →+ MPoint f.codomain.A) : Prop where
  dom : f.domain.Good
  cod : f.codomain.Good
  ker : ∃ R : MPoint f.domain.A, PRep f.kernel R ∧ addOrderOf R = f.degree.toNat ∧
    (∀ Q, φ Q = 0 ↔ Q ∈ AddSubgroup.zmultiples R) ∧
    (∀ Q, Q ∉ AddSubgroup.zmultiples R →
      xc (φ Q) * (∏ i ∈ Finset.range ((f.degree.toNat - 1) / 2), (xc Q - xc ((i + 1) • R))) ^ 2 =
        xc Q * (∏ i ∈ Finset.range ((f.degree.toNat - 1) / 2), (xc Q * xc ((i + 1) • R) - 1)) ^ 2) ∧
    (f.codomain.A + 2) * ((f.domain.A - 2) ^ f.degree.toNat *
        ∏ i ∈ Finset.range ((f.degree.toNat - 1) / 2), (xc ((i + 1) • R) - 1) ^ 8) =
      (f.codomain.A - 2) * ((f.domain.A + 2) ^ f.degree.toNat *
        ∏ i ∈ Finset.range ((f.degree.toNat - 1) / 2), (xc ((i + 1) • R) + 1) ^ 8)
  eval : ∀ P Q, PRep P Q → PRep (f.eval P) (φ Q) ∨ PRep (f.eval P) (-φ Q)

/-- A list of isogeny values computes `φ` from the curve of `E` to the curve of `E'`: it is composed of
steps, each starting on the curve on which the one before ended. -/
inductive IsChain : (E : Crv K) → List (KIso K) → (E' : Crv K) → (MPoint E.A →+ MPoint E'.A) → Prop
  | nil {E : Crv K} : E.Good → IsChain E [] E (AddMonoidHom.id _)
  | cons {f : KIso K} {φ : MPoint f.domain.A →+ MPoint f.codomain.A} {fs : List (KIso K)} {E' : Crv K}
      {ψ : MPoint f.codomain.A →+ MPoint E'.A} :
      IsStep f φ → IsChain f.codomain fs E' ψ → IsChain f.domain (f :: fs) E' (ψ.comp φ)

end Festa
