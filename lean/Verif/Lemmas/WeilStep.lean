import Verif.Lemmas.WeilVelu
import Verif.Lemmas.WeilBasis
import Verif.Lemmas.Velu
import Verif.Spec.Isogeny
/-! The Weil pairing and the isogenies of the code: the pairing of the images is the pairing raised to
the degree. -/
namespace Festa
open WeierstrassCurve.Affine
variable {K : Type*} [Field K] [DecidableEq K] {A A' : K}

/-- Two homomorphisms that agree up to sign at every point agree at two points with the same sign. -/
theorem common_sign {G H : Type*} [AddCommGroup G] [AddCommGroup H] {α β : G →+ H}
    (h : ∀ x, α x = β x ∨ α x = -β x) (x y : G) :
    (α x = β x ∧ α y = β y) ∨ (α x = -β x ∧ α y = -β y) := by
  have hs := h (x + y)
  rw [map_add, map_add] at hs
  rcases h x with hx | hx <;> rcases h y with hy | hy
  · exact Or.inl ⟨hx, hy⟩
  · rw [hx, hy] at hs
    rcases hs with hs | hs
    · left; refine ⟨hx, ?_⟩; rw [hy]; exact add_left_cancel hs
    · right; refine ⟨?_, hy⟩; rw [hx]
      rw [neg_add] at hs; exact add_right_cancel hs
  · rw [hx, hy] at hs
    rcases hs with hs | hs
    · left; refine ⟨?_, hy⟩; rw [hx]; exact add_right_cancel hs
    · right; refine ⟨hx, ?_⟩; rw [hy]
      rw [neg_add] at hs; exact add_left_cancel hs
  · exact Or.inr ⟨hx, hy⟩

theorem ND.neg_right {P Q : MPoint A} (h : ND P Q) : ND P (-Q) :=
  ⟨by rw [AddSubgroup.zmultiples_neg]; exact h.1, fun hm => h.2 (by simpa using hm)⟩

theorem we_neg_neg {P Q : MPoint A} {n : Nat} (hn : 1 ≤ n) (h : ND P Q) (hP : n • P = 0)
    (hQ : n • Q = 0) : we n (-P) (-Q) = we n P Q := by
  have hQ' : n • (-Q) = 0 := by rw [neg_nsmul, hQ, neg_zero]
  have h1 := we_neg hn h hP hQ
  have h2 := we_neg hn h.neg_right.symm hQ' hP
  have h3 := we_symm hn h.neg_right
  have h4 := we_symm hn h.neg_right.symm.neg_right
  have k := we_ne hn h.neg_right.symm
  have e1 : we n (-Q) P = we n P Q := by
    have := we_ne hn h.neg_right
    apply mul_left_cancel₀ this
    rw [h3, mul_comm, h1]
  have e2 : we n (-P) (-Q) = we n (-Q) P := by
    have := we_ne hn h.neg_right.symm.neg_right
    apply mul_left_cancel₀ this
    rw [h4, mul_comm, h2]
  rw [e2, e1]

/-- The kernel of odd order meets the `n`-torsion only in zero. -/
theorem ker_coprime {P S : MPoint A} {n m : Nat} (ho : addOrderOf P = m) (hco : n.Coprime m)
    (hS : n • S = 0) (hm : S ∈ AddSubgroup.zmultiples P) : S = 0 := by
  have h1 : addOrderOf S ∣ n := addOrderOf_dvd_of_nsmul_eq_zero hS
  have h2 : addOrderOf S ∣ m := by
    obtain ⟨j, rfl⟩ := AddSubgroup.mem_zmultiples_iff.mp hm
    rw [addOrderOf_dvd_iff_nsmul_eq_zero, ← ho, smul_comm, addOrderOf_nsmul_eq_zero, smul_zero]
  have := Nat.dvd_gcd h1 h2
  rw [hco] at this
  exact AddMonoid.addOrderOf_eq_one_iff.mp (Nat.dvd_one.mp this)

theorem ND.map {H H' : Type*} [AddCommGroup H] [AddCommGroup H'] {φ : H →+ H'} {n : Nat}
    (hk : ∀ S, n • S = 0 → φ S = 0 → S = 0) {P Q : H} (h : ND P Q) (hP : n • P = 0) (hQ : n • Q = 0) :
    ND (φ P) (φ Q) := by
  have key : ∀ P Q : H, n • P = 0 → n • Q = 0 → P ∉ AddSubgroup.zmultiples Q →
      φ P ∉ AddSubgroup.zmultiples (φ Q) := by
    intro P Q hP hQ h hm
    obtain ⟨j, hj⟩ := AddSubgroup.mem_zmultiples_iff.mp hm
    apply h
    have := hk (P - j • Q) (by rw [smul_sub, hP, smul_comm, hQ, smul_zero, sub_zero])
      (by rw [map_sub, map_zsmul, hj, sub_self])
    exact AddSubgroup.mem_zmultiples_iff.mpr ⟨j, (sub_eq_zero.mp this).symm⟩
  exact ⟨key P Q hP hQ h.1, key Q P hQ hP h.2⟩

theorem up_eq_map {L : Type*} [Field L] [DecidableEq L] (f : K →+* L) (h2 : (2 : L) ≠ 0)
    (hA : f A * f A ≠ 4) (P : MPoint A) : up f h2 hA P = mapHom f P := by
  rcases P with _ | ⟨x, y, h⟩ <;> rfl

/-- The isogeny of odd degree with the formulas of the code raises the pairing to the degree. -/
theorem weil_velu (h2 : (2 : K) ≠ 0) (hA : A * A ≠ 4) {R : MPoint A} {d : Nat}
    (hord : addOrderOf R = 2 * d + 1) {a e : K}
    (ha : a = (A + 2) ^ (2 * d + 1) * (∏ i ∈ Finset.range d, (xc ((i + 1) • R) + 1)) ^ 8)
    (he : e = (A - 2) ^ (2 * d + 1) * (∏ i ∈ Finset.range d, (xc ((i + 1) • R) - 1)) ^ 8)
    (hA' : A' * (a - e) = 2 * (a + e)) {φ : MPoint A →+ MPoint A'}
    (hker : ∀ Q, φ Q = 0 ↔ Q ∈ AddSubgroup.zmultiples R)
    (hx : ∀ Q, Q ∉ AddSubgroup.zmultiples R →
      xc (φ Q) * (∏ i ∈ Finset.range d, (xc Q - xc ((i + 1) • R))) ^ 2 =
        xc Q * (∏ i ∈ Finset.range d, (xc Q * xc ((i + 1) • R) - 1)) ^ 2)
    {P Q : MPoint A} {n : Nat} (hn : 1 ≤ n) (hco : n.Coprime (2 * d + 1)) (h : ND P Q) (hP : n • P = 0)
    (hQ : n • Q = 0) : we n (φ P) (φ Q) = we n P Q ^ (2 * d + 1) := by
  classical
  obtain ⟨-, h3⟩ := velu_full h2 hA hord ha he
  obtain ⟨-, ψ, hker0, hx0, h2', hA1, hA2, hF, k, φ', hord', hker', hφ', hk2, hcomm⟩ := h3 A' hA'
  -- the two homomorphisms agree up to sign
  have hs : ∀ S, φ S = ψ S ∨ φ S = -ψ S := by
    intro S
    by_cases hS : S ∈ AddSubgroup.zmultiples R
    · left; rw [(hker S).mpr hS, (hker0 S).mpr hS]
    · refine (xc_eq_iff (fun h => hS ((hker S).mp h)) (fun h => hS ((hker0 S).mp h))).mp ?_
      have hne : (∏ i ∈ Finset.range d, (xc S - xc ((i + 1) • R))) ^ 2 ≠ 0 := by
        refine pow_ne_zero _ (Finset.prod_ne_zero_iff.mpr fun i hi => sub_ne_zero.mpr ?_)
        have hi := Finset.mem_range.mp hi
        intro hxx
        have h0 : (i + 1) • R ≠ 0 := by
          intro h
          have := Nat.le_of_dvd (by omega) (addOrderOf_dvd_of_nsmul_eq_zero h)
          omega
        rcases (xc_eq_iff (P := S) (fun h => hS (by rw [h]; exact zero_mem _)) h0).mp hxx with e | e
        · exact hS (e ▸ AddSubgroup.nsmul_mem_zmultiples R _)
        · exact hS (e ▸ neg_mem (AddSubgroup.nsmul_mem_zmultiples R _))
      exact mul_right_cancel₀ hne ((hx S hS).trans (hx0 S hS).symm)
  have hk : ∀ S, n • S = 0 → ψ S = 0 → S = 0 := fun S h1 h2 =>
    ker_coprime hord hco h1 ((hker0 S).mp h2)
  have nd := h.map hk hP hQ
  have main : we n (ψ P) (ψ Q) = we n P Q ^ (2 * d + 1) := by
    have v := zmul_vd h2' hA1 hord'
    have w : VPhi φ' d _ k := ⟨zmul_half hord', hker', hφ', hk2⟩
    have hc := zmul_card hord'
    apply (algebraMap K (AlgebraicClosure K)).injective
    rw [map_pow, ← we_map _ _ _ n hn, ← we_map _ _ _ n hn, ← up_eq_map _ h2' hA1, ← up_eq_map _ h2' hA1,
      ← up_eq_map _ h2' hA2, ← up_eq_map _ h2' hA2, hcomm, hcomm]
    have := v.weil w (P := up _ h2' hA1 P) (Q := up _ h2' hA1 Q) hn (by rw [hc]; exact hco)
      (h.map (n := n) (fun S _ hS => up_inj (by rw [hS, map_zero])) hP hQ)
      (by rw [← map_nsmul, hP, map_zero]) (by rw [← map_nsmul, hQ, map_zero])
    rw [this, hc]
  rcases common_sign hs P Q with ⟨e1, e2⟩ | ⟨e1, e2⟩
  · rw [e1, e2, main]
  · rw [e1, e2, we_neg_neg hn nd (by rw [← map_nsmul, hP, map_zero]) (by rw [← map_nsmul, hQ, map_zero]),
      main]

section
variable [RootOps K]

theorem IsStep.weil {f : KIso K} {φ : MPoint f.domain.A →+ MPoint f.codomain.A} (hf : IsStep f φ)
    {n : Nat} (hn : 1 ≤ n) (hodd : f.degree.toNat % 2 = 1) (hco : n.Coprime f.degree.toNat) :
    (∀ S, n • S = 0 → φ S = 0 → S = 0) ∧ ∀ {P Q : MPoint f.domain.A}, ND P Q → n • P = 0 → n • Q = 0 →
      we n (φ P) (φ Q) = we n P Q ^ f.degree.toNat := by
  obtain ⟨R, -, ho, hk, hx, hc⟩ := hf.ker
  obtain ⟨d, hd⟩ : ∃ d, f.degree.toNat = 2 * d + 1 := ⟨f.degree.toNat / 2, by omega⟩
  have hd2 : (f.degree.toNat - 1) / 2 = d := by omega
  rw [hd2] at hx hc
  rw [hd] at ho hco ⊢
  refine ⟨fun S h1 h2 => ker_coprime ho hco h1 ((hk S).mp h2), fun h hP hQ =>
    weil_velu hf.dom.two hf.dom.disc ho rfl rfl ?_ hk hx hn hco h hP hQ⟩
  rw [hd, Finset.prod_pow, Finset.prod_pow] at hc
  linear_combination -hc

/-- The product of the degrees of a chain. -/
def chainDegree (L : List (KIso K)) : Nat := (L.map fun f => f.degree.toNat).prod

theorem IsChain.weil {E E' : Crv K} {L : List (KIso K)} {φ : MPoint E.A →+ MPoint E'.A}
    (h : IsChain E L E' φ) {n : Nat} (hn : 1 ≤ n) (hodd : chainDegree L % 2 = 1)
    (hco : n.Coprime (chainDegree L)) :
    (∀ S, n • S = 0 → φ S = 0 → S = 0) ∧ ∀ {P Q : MPoint E.A}, ND P Q → n • P = 0 → n • Q = 0 →
      we n (φ P) (φ Q) = we n P Q ^ chainDegree L := by
  induction h with
  | nil _ => exact ⟨fun S _ h => h, fun _ _ _ => by simp [chainDegree]⟩
  | @cons f φ fs E' ψ hf hc ih =>
    have e : chainDegree (f :: fs) = f.degree.toNat * chainDegree fs := by simp [chainDegree]
    rw [e] at hodd hco ⊢
    have ho := Nat.odd_mul.mp (Nat.odd_iff.mpr hodd)
    obtain ⟨i1, i2⟩ := ih (Nat.odd_iff.mp ho.2) hco.coprime_mul_left_right
    obtain ⟨s1, s2⟩ := hf.weil hn (Nat.odd_iff.mp ho.1) hco.coprime_mul_right_right
    refine ⟨fun S h1 h2 => s1 S h1 (i1 _ (by rw [← map_nsmul, h1, map_zero]) h2), fun h hP hQ => ?_⟩
    rw [AddMonoidHom.comp_apply, AddMonoidHom.comp_apply,
      i2 (h.map s1 hP hQ) (by rw [← map_nsmul, hP, map_zero]) (by rw [← map_nsmul, hQ, map_zero]),
      s2 h hP hQ, pow_mul]

end
end Festa
