import Verif.Lemmas.Fq
import Verif.Lemmas.Supersing
import Verif.Lemmas.WeilStep
import Verif.Spec.Keys
import Verif.Spec.ToyField
import Mathlib.Algebra.CharP.Algebra
/-!
The code's field and the small field as fields with `p²` elements, and the action of the Frobenius map along chains of
isogenies.
-/
namespace Festa
open WeierstrassCurve.Affine

/-- A field isomorphic to pairs over `ZMod p` has `p²` elements. -/
theorem quad_card {p : Nat} [NeZero p] (a b : ZMod p) {K : Type*} [Fintype K]
    (e : K ≃ QuadraticAlgebra (ZMod p) a b) : Fintype.card K = p ^ 2 := by
  rw [Fintype.card_congr (e.trans (QuadraticAlgebra.equivProd a b)), Fintype.card_prod, ZMod.card, pow_two]

instance factFestaPrime : Fact festaFp.p.Prime := ⟨festa_prime⟩

noncomputable instance fqFintype : Fintype Fq :=
  haveI : NeZero festaFp.p := ⟨festa_prime.ne_zero⟩
  Fintype.ofEquiv _ (Fq.equiv.toEquiv.trans (QuadraticAlgebra.equivProd (-1) 0)).symm

theorem fq_card : Fintype.card Fq = festaFp.p ^ 2 :=
  haveI : NeZero festaFp.p := ⟨festa_prime.ne_zero⟩
  quad_card _ _ Fq.equiv.toEquiv

theorem quad_charP {p : Nat} (a b : ZMod p) : CharP (QuadraticAlgebra (ZMod p) a b) p :=
  charP_of_injective_algebraMap (R := ZMod p) (A := QuadraticAlgebra (ZMod p) a b)
    (fun x y h => by simpa using congrArg QuadraticAlgebra.re h) p

instance fqCharP : CharP Fq festaFp.p :=
  haveI := quad_charP (p := festaFp.p) (-1) 0
  Fq.equiv.toRingHom.charP Fq.equiv.injective _

/-- The small field as pairs. -/
noncomputable def Toy.equiv : Toy ≃+* ToyRef where
  toFun := Toy.ref
  invFun z := ⟨z.re.val, z.im.val, ZMod.val_lt _, ZMod.val_lt _⟩
  left_inv x := Toy.ref_inj (by simp [Toy.ref])
  right_inv z := by simp [Toy.ref]
  map_add' := Toy.ref_add
  map_mul' := Toy.ref_mul
noncomputable instance toyFintype : Fintype Toy :=
  Fintype.ofEquiv _ (Toy.equiv.toEquiv.trans (QuadraticAlgebra.equivProd (-1) 0)).symm
theorem toy_card : Fintype.card Toy = toyP ^ 2 := quad_card _ _ Toy.equiv.toEquiv
instance toyCharP : CharP Toy toyP :=
  haveI := quad_charP (p := toyP) (-1) 0
  Toy.equiv.toRingHom.charP Toy.equiv.injective _

section
variable {K : Type*} [Field K] [DecidableEq K] [RootOps K] {p : Nat} [Fact p.Prime] [CharP K p] [Fintype K]
  (hc : Fintype.card K = p ^ 2)
include hc

theorem IsStep.frobNeg (hp : p % 4 = 3) {f : KIso K} {φ : MPoint f.domain.A →+ MPoint f.codomain.A} (hf : IsStep f φ)
    (hodd : f.degree.toNat % 2 = 1) (hF : FrobNeg p f.domain.A) : FrobNeg p f.codomain.A := by
  obtain ⟨R, -, ho, hk, hx, hcod⟩ := hf.ker
  obtain ⟨d, hd⟩ : ∃ d, f.degree.toNat = 2 * d + 1 := ⟨f.degree.toNat / 2, by omega⟩
  have hd2 : (f.degree.toNat - 1) / 2 = d := by omega
  rw [hd2] at hx hcod
  rw [hd] at ho
  refine FrobNeg.velu hc hp hf.dom.two hf.dom.disc ho rfl rfl ?_ hF
  rw [hd, Finset.prod_pow, Finset.prod_pow] at hcod
  linear_combination -hcod

theorem IsChain.frobNeg (hp : p % 4 = 3) {E E' : Crv K} {L : List (KIso K)} {φ : MPoint E.A →+ MPoint E'.A}
    (h : IsChain E L E' φ) (hodd : chainDegree L % 2 = 1) (hF : FrobNeg p E.A) : FrobNeg p E'.A := by
  induction h with
  | nil _ => exact hF
  | @cons f φ fs E' ψ hf hch ih =>
    have e : chainDegree (f :: fs) = f.degree.toNat * chainDegree fs := by simp [chainDegree]
    rw [e] at hodd
    have ho := Nat.odd_mul.mp (Nat.odd_iff.mpr hodd)
    exact ih (Nat.odd_iff.mp ho.2) (hf.frobNeg hc hp (Nat.odd_iff.mp ho.1) hF)

end
end Festa
