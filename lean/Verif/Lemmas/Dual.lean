import Verif.Lemmas.FqCard
/-! The isogenies of the code over the algebraic closure, where they are surjective, and the dual isogenies. -/
namespace Festa
open WeierstrassCurve.Affine Polynomial

theorem hom_sign {G H : Type*} [AddCommGroup G] [AddCommGroup H] {α β : G →+ H}
    (h : ∀ x, α x = β x ∨ α x = -β x) : α = β ∨ α = -β := by
  by_cases h1 : ∀ x, α x = β x
  · exact Or.inl (AddMonoidHom.ext h1)
  · push Not at h1
    obtain ⟨x, hx⟩ := h1
    refine Or.inr (AddMonoidHom.ext fun y => ?_)
    rcases common_sign h x y with ⟨e, -⟩ | ⟨-, e⟩
    · exact absurd e hx
    · exact e

section
variable {L : Type*} [Field L] [DecidableEq L] [IsAlgClosed L] {A A' : L}

/-- Over an algebraically closed field every abscissa belongs to a point. -/
theorem exists_xc (h2 : (2 : L) ≠ 0) (hA : A * A ≠ 4) (x : L) : ∃ X : MPoint A, X ≠ 0 ∧ xc X = x := by
  obtain ⟨y, hy⟩ := IsAlgClosed.exists_pow_nat_eq (x * x * x + A * x * x + x) (n := 2) (by norm_num)
  refine ⟨.some x y (nonsing_of h2 hA (by rw [← hy]; ring)), Point.some_ne_zero _, rfl⟩

/-- The abscissae of two points of a group of odd order are not inverse to each other. -/
theorem xc_mul_ne_one (h2 : (2 : L) ≠ 0) (hA : A * A ≠ 4) {R : MPoint A} {d : Nat} (hord : addOrderOf R = 2 * d + 1)
    (i j : Nat) (hi : i < d) (hj : j < d) : xc ((i + 1) • R) * xc ((j + 1) • R) ≠ 1 := by
  intro h
  have hk := nonsing_of (A := A) (x := 0) (y := 0) h2 hA (by ring)
  obtain ⟨T, hT⟩ : ∃ T : MPoint A, T = .some 0 0 hk := ⟨_, rfl⟩
  have T0 : T ≠ 0 := by rw [hT]; exact Point.some_ne_zero hk
  have Tx : xc T = 0 := by rw [hT]; rfl
  have Ty : yc T = 0 := by rw [hT]; rfl
  have TT : T + T = 0 := (add_self_iff h2 T0).mpr Ty
  have n0 : ∀ i < d, (i + 1) • R ≠ 0 := by
    intro i hi h
    have := Nat.le_of_dvd (by omega) (addOrderOf_dvd_of_nsmul_eq_zero h)
    omega
  have notT : ∀ n : Int, n • R ≠ T := by
    intro n hn
    have e : (2 * n) • R = 0 := by rw [two_mul, add_zsmul, hn, TT]
    have d1 := addOrderOf_dvd_iff_zsmul_eq_zero.mpr e
    rw [hord] at d1
    have d2 : ((2 * d + 1 : Nat) : Int) ∣ n := by
      refine IsCoprime.dvd_of_dvd_mul_left ?_ d1
      exact ⟨1, -d, by push_cast; ring⟩
    rw [← hord] at d2
    exact T0 (by rw [← hn, addOrderOf_dvd_iff_zsmul_eq_zero.mp d2])
  have x0 : xc ((i + 1) • R) ≠ xc T := by
    rw [Tx]; intro e; rw [e, zero_mul] at h; exact zero_ne_one h
  have e := xc_add (n0 i hi) T0 x0
  rw [Tx, Ty] at e
  rw [Tx] at x0
  have e2 : xc ((i + 1) • R + T) = xc ((j + 1) • R) := by
    apply mul_right_cancel₀ (pow_ne_zero 2 x0)
    unfold sfun at e
    linear_combination e - xc ((i + 1) • R) * h
  have nT : (i + 1) • R + T ≠ 0 := by
    intro e
    exact notT (-(i + 1 : Nat)) (by rw [neg_zsmul, natCast_zsmul, neg_eq_iff_add_eq_zero]; exact e)
  rcases (xc_eq_iff nT (n0 j hj)).mp e2 with e | e
  · exact notT ((j + 1 : Nat) - (i + 1 : Nat)) (by
      rw [sub_zsmul, natCast_zsmul, natCast_zsmul, ← e]; abel)
  · exact notT (-(j + 1 : Nat) - (i + 1 : Nat)) (by
      rw [sub_zsmul, neg_zsmul, natCast_zsmul, natCast_zsmul, ← e]; abel)

/-- A homomorphism given on abscissae by the formulas of the code is surjective. -/
theorem velu_surj (h2 : (2 : L) ≠ 0) (hA : A * A ≠ 4) {R : MPoint A} {d : Nat} (hord : addOrderOf R = 2 * d + 1)
    {φ : MPoint A →+ MPoint A'} (hker : ∀ Q, φ Q = 0 ↔ Q ∈ AddSubgroup.zmultiples R)
    (hx : ∀ Q, Q ∉ AddSubgroup.zmultiples R →
      xc (φ Q) * (∏ i ∈ Finset.range d, (xc Q - xc ((i + 1) • R))) ^ 2 =
        xc Q * (∏ i ∈ Finset.range d, (xc Q * xc ((i + 1) • R) - 1)) ^ 2) (Y : MPoint A') :
    ∃ X, φ X = Y := by
  by_cases hY : Y = 0
  · exact ⟨0, by rw [map_zero, hY]⟩
  have ne0 : ∀ i < d, (i + 1) • R ≠ 0 := by
    intro i hi h
    have := Nat.le_of_dvd (by omega) (addOrderOf_dvd_of_nsmul_eq_zero h)
    omega
  have dbl0 : ∀ i < d, (i + 1) • R + (i + 1) • R ≠ 0 := by
    intro i hi h
    rw [← add_nsmul] at h
    have := Nat.le_of_dvd (by omega) (addOrderOf_dvd_of_nsmul_eq_zero h)
    omega
  have xne : ∀ i < d, xc ((i + 1) • R) ≠ 0 := fun i hi h => dbl0 i hi ((add_self_iff h2 (ne0 i hi)).mpr (yc_of_xc_zero h))
  -- the polynomial for the abscissa
  let N : L[X] := ∏ i ∈ Finset.range d, (C (xc ((i + 1) • R)) * X - 1)
  let D : L[X] := ∏ i ∈ Finset.range d, (X - C (xc ((i + 1) • R)))
  have hN : N.natDegree = d := by
    rw [natDegree_prod _ _ (fun i hi => ?_)]
    · rw [Finset.sum_congr rfl (g := fun _ => 1)]
      · simp
      · intro i hi
        have e : (C (xc ((i + 1) • R)) * X - 1 : L[X]) = C (xc ((i + 1) • R)) * X + C (-1) := by simp [sub_eq_add_neg]
        rw [e]
        exact natDegree_linear (xne i (Finset.mem_range.mp hi))
    · intro h
      have := congrArg (fun q => q.coeff 1) h
      simp [coeff_one] at this
      exact xne i (Finset.mem_range.mp hi) this
  have hN0 : N ≠ 0 := by
    intro h
    rcases Nat.eq_zero_or_pos d with hd | hd
    · subst hd; simp [N] at h
    · rw [h, natDegree_zero] at hN; omega
  have hD : D.natDegree = d := by
    rw [natDegree_prod_of_monic _ _ (fun i _ => monic_X_sub_C _)]
    simp only [natDegree_X_sub_C]
    simp
  have hdeg : (X * N ^ 2 - C (xc Y) * D ^ 2).degree ≠ 0 := by
    have a1 : (X * N ^ 2 : L[X]).natDegree = 2 * d + 1 := by
      rw [natDegree_X_mul (pow_ne_zero 2 hN0), natDegree_pow, hN]
    have a2 : (C (xc Y) * D ^ 2 : L[X]).natDegree ≤ 2 * d := by
      refine (natDegree_C_mul_le _ _).trans ?_
      rw [natDegree_pow, hD]
    have a3 : (X * N ^ 2 - C (xc Y) * D ^ 2).natDegree = 2 * d + 1 := by
      rw [natDegree_sub_eq_left_of_natDegree_lt (by omega), a1]
    intro h
    rw [degree_eq_natDegree (fun h => by rw [h] at a3; simp at a3), a3] at h
    exact absurd (by exact_mod_cast h) (Nat.succ_ne_zero (2 * d))
  obtain ⟨x, hxr⟩ := IsAlgClosed.exists_root _ hdeg
  have hxe : x * (∏ i ∈ Finset.range d, (x * xc ((i + 1) • R) - 1)) ^ 2 =
      xc Y * (∏ i ∈ Finset.range d, (x - xc ((i + 1) • R))) ^ 2 := by
    rw [IsRoot, eval_sub, sub_eq_zero] at hxr
    simp only [eval_mul, eval_pow, eval_X, eval_C, N, D, eval_prod, eval_sub, eval_one] at hxr
    rw [← hxr]
    simp only [mul_comm]
  obtain ⟨X0, hX0, hxX⟩ := exists_xc h2 hA x
  have hmem : X0 ∉ AddSubgroup.zmultiples R := by
    intro hm
    -- then `X0` is one of the listed points, up to sign
    have : ∃ i < d, xc X0 = xc ((i + 1) • R) := by
      obtain ⟨n, hn⟩ := AddSubgroup.mem_zmultiples_iff.mp hm
      have hfin : IsOfFinAddOrder R := addOrderOf_pos_iff.mp (by omega)
      obtain ⟨m, hm1, hm2⟩ : ∃ m < 2 * d + 1, m • R = X0 := by
        refine ⟨(n % (2 * d + 1 : Nat)).toNat, ?_, ?_⟩
        · have := Int.emod_lt_of_pos n (b := ((2 * d + 1 : Nat) : Int)) (by omega)
          omega
        · rw [← hn, ← natCast_zsmul, Int.toNat_of_nonneg (Int.emod_nonneg _ (by omega)), ← hord, mod_addOrderOf_zsmul]
      have hm0 : m ≠ 0 := by rintro rfl; exact hX0 (by rw [← hm2, zero_nsmul])
      rcases Nat.lt_or_ge d m with h | h
      · refine ⟨2 * d + 1 - m - 1, by omega, ?_⟩
        have e : (2 * d + 1 - m - 1 + 1) • R = -X0 := by
          rw [eq_neg_iff_add_eq_zero, ← hm2, ← add_nsmul, show 2 * d + 1 - m - 1 + 1 + m = 2 * d + 1 by omega, ← hord,
            addOrderOf_nsmul_eq_zero]
        rw [e, xc_neg]
      · exact ⟨m - 1, by omega, by rw [← hm2, show m - 1 + 1 = m by omega]⟩
    obtain ⟨i, hi, hxi⟩ := this
    rw [hxX] at hxi
    have hz : (∏ i ∈ Finset.range d, (x - xc ((i + 1) • R))) = 0 :=
      Finset.prod_eq_zero (Finset.mem_range.mpr hi) (sub_eq_zero.mpr hxi)
    rw [hz, zero_pow two_ne_zero, mul_zero, mul_eq_zero, pow_eq_zero_iff two_ne_zero] at hxe
    rcases hxe with h | h
    · exact xne i hi (hxi ▸ h)
    · obtain ⟨j, hj, h⟩ := Finset.prod_eq_zero_iff.mp h
      have hj := Finset.mem_range.mp hj
      rw [hxi, sub_eq_zero] at h
      exact xc_mul_ne_one h2 hA hord i j hi hj h
  have hne : (∏ i ∈ Finset.range d, (xc X0 - xc ((i + 1) • R))) ^ 2 ≠ 0 := by
    refine pow_ne_zero _ (Finset.prod_ne_zero_iff.mpr fun i hi => sub_ne_zero.mpr ?_)
    have hi := Finset.mem_range.mp hi
    intro hxx
    rcases (xc_eq_iff hX0 (ne0 i hi)).mp hxx with e | e
    · exact hmem (e ▸ AddSubgroup.nsmul_mem_zmultiples R _)
    · exact hmem (e ▸ neg_mem (AddSubgroup.nsmul_mem_zmultiples R _))
  have e := hx X0 hmem
  rw [hxX, hxe] at e
  rw [hxX] at hne
  have := mul_right_cancel₀ hne e
  rcases (xc_eq_iff (fun h => hmem ((hker X0).mp h)) hY).mp this with h | h
  · exact ⟨X0, h⟩
  · exact ⟨-X0, by rw [map_neg, h, neg_neg]⟩

end

section
variable {K : Type*} [Field K] [DecidableEq K] {A A' A'' : K}

open Classical in
/-- The isogeny over the algebraic closure: surjective, with a kernel killed by the degree. -/
def HasLift (φ : MPoint A →+ MPoint A') (d : Nat) : Prop :=
  ∃ φ' : MPoint (algebraMap K (AlgebraicClosure K) A) →+ MPoint (algebraMap K (AlgebraicClosure K) A'),
    (∀ X, φ' (mapHom (algebraMap K (AlgebraicClosure K)) X) = mapHom (algebraMap K (AlgebraicClosure K)) (φ X)) ∧
    Function.Surjective φ' ∧ ∀ X, φ' X = 0 → d • X = 0

open Classical in
theorem hasLift_id : HasLift (AddMonoidHom.id (MPoint A)) 1 :=
  ⟨AddMonoidHom.id _, fun _ => rfl, fun X => ⟨X, rfl⟩, fun X h => by rw [one_nsmul]; exact h⟩

open Classical in
theorem HasLift.comp {φ : MPoint A →+ MPoint A'} {ψ : MPoint A' →+ MPoint A''} {d d' : Nat} (h : HasLift φ d)
    (h' : HasLift ψ d') : HasLift (ψ.comp φ) (d * d') := by
  obtain ⟨f, f1, f2, f3⟩ := h
  obtain ⟨g, g1, g2, g3⟩ := h'
  refine ⟨g.comp f, fun X => ?_, g2.comp f2, fun X hX => ?_⟩
  · rw [AddMonoidHom.comp_apply, AddMonoidHom.comp_apply, f1, g1]
  · have := g3 _ hX
    rw [← map_nsmul] at this
    rw [mul_nsmul', f3 _ this]

open Classical in
theorem HasLift.neg {φ : MPoint A →+ MPoint A'} {d : Nat} (h : HasLift φ d) : HasLift (-φ) d := by
  obtain ⟨f, f1, f2, f3⟩ := h
  refine ⟨-f, fun X => ?_, fun Y => ?_, fun X hX => f3 X ?_⟩
  · rw [AddMonoidHom.neg_apply, AddMonoidHom.neg_apply, f1, map_neg]
  · obtain ⟨X, rfl⟩ := f2 Y
    exact ⟨-X, by rw [AddMonoidHom.neg_apply, map_neg, neg_neg]⟩
  · rwa [AddMonoidHom.neg_apply, neg_eq_zero] at hX

theorem velu_lift (h2 : (2 : K) ≠ 0) (hA : A * A ≠ 4) {R : MPoint A} {d : Nat}
    (hord : addOrderOf R = 2 * d + 1) {a e : K}
    (ha : a = (A + 2) ^ (2 * d + 1) * (∏ i ∈ Finset.range d, (xc ((i + 1) • R) + 1)) ^ 8)
    (he : e = (A - 2) ^ (2 * d + 1) * (∏ i ∈ Finset.range d, (xc ((i + 1) • R) - 1)) ^ 8)
    (hA' : A' * (a - e) = 2 * (a + e)) {φ : MPoint A →+ MPoint A'}
    (hker : ∀ Q, φ Q = 0 ↔ Q ∈ AddSubgroup.zmultiples R)
    (hx : ∀ Q, Q ∉ AddSubgroup.zmultiples R →
      xc (φ Q) * (∏ i ∈ Finset.range d, (xc Q - xc ((i + 1) • R))) ^ 2 =
        xc Q * (∏ i ∈ Finset.range d, (xc Q * xc ((i + 1) • R) - 1)) ^ 2) : HasLift φ (2 * d + 1) := by
  classical
  obtain ⟨-, h3⟩ := velu_full h2 hA hord ha he
  obtain ⟨-, ψ, hker0, hx0, h2', hA1, hA2, hF, k, φ', hord', hker', hφ', hk2, hcomm⟩ := h3 A' hA'
  have hs : ∀ S, φ S = ψ S ∨ φ S = -ψ S := by
    intro S
    by_cases hS : S ∈ AddSubgroup.zmultiples R
    · left; rw [(hker S).mpr hS, (hker0 S).mpr hS]
    · refine (xc_eq_iff (fun h => hS ((hker S).mp h)) (fun h => hS ((hker0 S).mp h))).mp ?_
      have hne : (∏ i ∈ Finset.range d, (xc S - xc ((i + 1) • R))) ^ 2 ≠ 0 := by
        refine pow_ne_zero _ (Finset.prod_ne_zero_iff.mpr fun i hi => sub_ne_zero.mpr ?_)
        have hi := Finset.mem_range.mp hi
        intro hxx
        have h0 : (i + 1) • R ≠ 0 := by
          intro h
          have := Nat.le_of_dvd (by omega) (addOrderOf_dvd_of_nsmul_eq_zero h)
          omega
        rcases (xc_eq_iff (P := S) (fun h => hS (by rw [h]; exact zero_mem _)) h0).mp hxx with e | e
        · exact hS (e ▸ AddSubgroup.nsmul_mem_zmultiples R _)
        · exact hS (e ▸ neg_mem (AddSubgroup.nsmul_mem_zmultiples R _))
      exact mul_right_cancel₀ hne ((hx S hS).trans (hx0 S hS).symm)
  have hψ : HasLift ψ (2 * d + 1) := by
    refine ⟨φ', fun X => ?_, fun Y => velu_surj h2' hA1 hord' hker' (fun Q hQ => ?_) Y, fun X hX => ?_⟩
    · rw [← up_eq_map _ h2' hA1, ← up_eq_map _ h2' hA2, hcomm]
    · rw [(hφ' Q hQ).1, ← zmul_cs hord', ← zmul_ns hord']
      exact fx_formula (zmul_half hord') hQ
    · obtain ⟨n, rfl⟩ := AddSubgroup.mem_zmultiples_iff.mp ((hker' X).mp hX)
      rw [smul_comm, ← hord', addOrderOf_nsmul_eq_zero, smul_zero]
  rcases hom_sign hs with rfl | rfl
  · exact hψ
  · exact hψ.neg

section
variable [RootOps K]

theorem IsStep.lift {f : KIso K} {φ : MPoint f.domain.A →+ MPoint f.codomain.A} (hf : IsStep f φ)
    (hodd : f.degree.toNat % 2 = 1) : HasLift φ f.degree.toNat := by
  obtain ⟨R, -, ho, hk, hx, hcod⟩ := hf.ker
  obtain ⟨d, hd⟩ : ∃ d, f.degree.toNat = 2 * d + 1 := ⟨f.degree.toNat / 2, by omega⟩
  have hd2 : (f.degree.toNat - 1) / 2 = d := by omega
  rw [hd2] at hx hcod
  rw [hd] at ho ⊢
  refine velu_lift hf.dom.two hf.dom.disc ho rfl rfl ?_ hk hx
  rw [hd, Finset.prod_pow, Finset.prod_pow] at hcod
  linear_combination -hcod

theorem IsChain.lift {E E' : Crv K} {L : List (KIso K)} {φ : MPoint E.A →+ MPoint E'.A}
    (h : IsChain E L E' φ) (hodd : chainDegree L % 2 = 1) : HasLift φ (chainDegree L) := by
  induction h with
  | nil _ => exact hasLift_id
  | @cons f φ fs E' ψ hf hch ih =>
    have e : chainDegree (f :: fs) = f.degree.toNat * chainDegree fs := by simp [chainDegree]
    rw [e] at hodd ⊢
    have ho := Nat.odd_mul.mp (Nat.odd_iff.mpr hodd)
    exact (hf.lift (Nat.odd_iff.mp ho.1)).comp (ih (Nat.odd_iff.mp ho.2))

theorem IsIsog.lift {E E' : Crv K} {φ : MPoint E.A →+ MPoint E'.A} {d : Nat} (h : IsIsog φ d) (hd : d % 2 = 1) :
    HasLift φ d := by
  obtain ⟨L, ψ, h, rfl, rfl | rfl⟩ := h
  · exact h.lift hd
  · exact (h.lift hd).neg

end

open Classical in
/-- The dual of an isogeny of curves on which the Frobenius map is `-p`, with its description over the closure. -/
theorem lift_dual {p : Nat} [Fact p.Prime] [CharP K p] [Fintype K] (hc : Fintype.card K = p ^ 2)
    (h2 : (2 : K) ≠ 0) (hA : A * A ≠ 4) (hF : FrobNeg p A) (hF' : FrobNeg p A') {φ : MPoint A →+ MPoint A'} {d : Nat}
    {f : MPoint (algebraMap K (AlgebraicClosure K) A) →+ MPoint (algebraMap K (AlgebraicClosure K) A')}
    (f1 : ∀ X, f (mapHom (algebraMap K (AlgebraicClosure K)) X) = mapHom (algebraMap K (AlgebraicClosure K)) (φ X))
    (f2 : Function.Surjective f) (f3 : ∀ X, f X = 0 → d • X = 0) :
    ∃ ψ : MPoint A' →+ MPoint A, (∀ X, ψ (φ X) = d • X) ∧ (∀ Y, φ (ψ Y) = d • Y) ∧
      (∀ Y, d ∣ p + 1 → ψ Y = 0 → ∃ X, d • X = 0 ∧ φ X = Y) ∧
      ∀ Y X, f X = mapHom (algebraMap K (AlgebraicClosure K)) Y → mapHom (algebraMap K (AlgebraicClosure K)) (ψ Y) = d • X := by
  have inj : ∀ {B : K} {X Y : MPoint B}, mapHom (algebraMap K (AlgebraicClosure K)) X =
      mapHom (algebraMap K (AlgebraicClosure K)) Y → X = Y := fun e => mapPt_inj (algebraMap K (AlgebraicClosure K)) e
  -- the preimages
  have key : ∀ Y : MPoint A', ∃ (Z : MPoint A) (X : MPoint (algebraMap K (AlgebraicClosure K) A)),
      f X = mapHom (algebraMap K (AlgebraicClosure K)) Y ∧ mapHom (algebraMap K (AlgebraicClosure K)) Z = d • X := by
    intro Y
    obtain ⟨X, hX⟩ := f2 (mapHom (algebraMap K (AlgebraicClosure K)) Y)
    have h0 : f ((p + 1) • X) = 0 := by
      rw [map_nsmul, hX, ← map_nsmul, hF'.kill hc Y, map_zero]
    obtain ⟨Z, hZ⟩ := hF.rational hc h2 hA (X := d • X) (by rw [smul_comm]; exact f3 _ h0)
    exact ⟨Z, X, hX, hZ⟩
  have uniq : ∀ {X X'}, f X = f X' → d • X = d • X' := by
    intro X X' e
    have := f3 (X - X') (by rw [map_sub, e, sub_self])
    rwa [smul_sub, sub_eq_zero] at this
  choose g u hu hg using key
  let ψ : MPoint A' →+ MPoint A := AddMonoidHom.mk' g (fun Y Y' => inj (by
    rw [map_add, hg, hg, hg, ← smul_add]
    exact uniq (by rw [hu, map_add, map_add, hu, hu])))
  have hψ : ∀ Y, ψ Y = g Y := fun _ => rfl
  refine ⟨ψ, fun X => inj ?_, fun Y => inj ?_, fun Y hd h0 => ?_, fun Y X hX => ?_⟩
  · rw [hψ, hg, map_nsmul]
    exact uniq (by rw [hu, f1])
  · rw [hψ, ← f1, hg, map_nsmul, hu, map_nsmul]
  · have e : d • u Y = 0 := by rw [← hg, ← hψ, h0, map_zero]
    obtain ⟨c, hc'⟩ := hd
    obtain ⟨X, hX⟩ := hF.rational hc h2 hA (X := u Y) (by rw [hc', mul_comm, mul_nsmul', e, nsmul_zero])
    refine ⟨X, inj ?_, inj ?_⟩
    · rw [map_nsmul, hX, e, map_zero]
    · rw [← f1, hX, hu]
  · rw [hψ, hg]
    exact uniq (by rw [hu, hX])

/-- The dual of an isogeny of curves on which the Frobenius map is `-p`. -/
theorem HasLift.dual {p : Nat} [Fact p.Prime] [CharP K p] [Fintype K] (hc : Fintype.card K = p ^ 2)
    (h2 : (2 : K) ≠ 0) (hA : A * A ≠ 4) (hF : FrobNeg p A) (hF' : FrobNeg p A') {φ : MPoint A →+ MPoint A'} {d : Nat}
    (h : HasLift φ d) :
    ∃ ψ : MPoint A' →+ MPoint A, (∀ X, ψ (φ X) = d • X) ∧ (∀ Y, φ (ψ Y) = d • Y) ∧
      ∀ Y, d ∣ p + 1 → ψ Y = 0 → ∃ X, d • X = 0 ∧ φ X = Y := by
  obtain ⟨f, f1, f2, f3⟩ := h
  obtain ⟨ψ, h1, h2, h3, -⟩ := lift_dual hc h2 hA hF hF' f1 f2 f3
  exact ⟨ψ, h1, h2, h3⟩

end
end Festa
