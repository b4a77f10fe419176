import Verif.Lemmas.PolyHom
/-! Isogenies over an algebraically closed field: onto, with a kernel of the right size, and given by rational functions
of the right degree. -/
namespace Festa
open WeierstrassCurve.Affine Polynomial Filter

section
variable {L : Type*} [Field L] [DecidableEq L] {A A' A'' : L}

/-- An isogeny of degree `d`. -/
structure Isg (φ : MPoint A →+ MPoint A') (d : ℕ) : Prop where
  pos : d ≠ 0
  surj : Function.Surjective φ
  kill : ∀ X, φ X = 0 → d • X = 0
  card : Nat.card φ.ker = d
  poly : PolyX φ d

theorem Isg.fin {φ : MPoint A →+ MPoint A'} {d : ℕ} (h : Isg φ d) : {X | φ X = 0}.Finite :=
  Set.finite_coe_iff.mp (Nat.finite_of_card_ne_zero (α := φ.ker) (by rw [h.card]; exact h.pos))

theorem Isg.tendsto {φ : MPoint A →+ MPoint A'} {d : ℕ} (h : Isg φ d) : Tendsto φ cofinite cofinite := tendsto_hom h.fin

theorem Isg.id : Isg (AddMonoidHom.id (MPoint A)) 1 :=
  ⟨one_ne_zero, fun X => ⟨X, rfl⟩, fun X h => by rw [one_nsmul]; exact h, by
    rw [Nat.card_eq_one_iff_exists]
    exact ⟨0, fun x => Subtype.ext x.2⟩, PolyX.id⟩

theorem Isg.neg {φ : MPoint A →+ MPoint A'} {d : ℕ} (h : Isg φ d) : Isg (-φ) d := by
  refine ⟨h.pos, fun Y => ?_, fun X hX => h.kill X ?_, ?_, h.poly.neg⟩
  · obtain ⟨X, rfl⟩ := h.surj Y
    exact ⟨-X, by rw [AddMonoidHom.neg_apply, map_neg, neg_neg]⟩
  · rwa [AddMonoidHom.neg_apply, neg_eq_zero] at hX
  · rw [← h.card]
    congr 2
    ext x
    simp [AddMonoidHom.mem_ker]

theorem Isg.comp {φ : MPoint A →+ MPoint A'} {ψ : MPoint A' →+ MPoint A''} {d d' : ℕ} (h : Isg φ d) (h' : Isg ψ d') :
    Isg (ψ.comp φ) (d * d') := by
  refine ⟨mul_ne_zero h.pos h'.pos, h'.surj.comp h.surj, fun X hX => ?_, ?_, h.poly.comp h'.poly h.fin⟩
  · have := h'.kill _ hX
    rw [← map_nsmul] at this
    rw [mul_nsmul', h.kill _ this]
  · rw [card_ker_comp _ _ h.surj, h.card, h'.card]

/-- The formulas of the code give an isogeny. -/
theorem velu_isg [IsAlgClosed L] (h2 : (2 : L) ≠ 0) (hA : A * A ≠ 4) {R : MPoint A} {d : Nat} (hord : addOrderOf R = 2 * d + 1)
    {φ : MPoint A →+ MPoint A'} (hker : ∀ Q, φ Q = 0 ↔ Q ∈ AddSubgroup.zmultiples R)
    (hx : ∀ Q, Q ∉ AddSubgroup.zmultiples R →
      xc (φ Q) * (∏ i ∈ Finset.range d, (xc Q - xc ((i + 1) • R))) ^ 2 =
        xc Q * (∏ i ∈ Finset.range d, (xc Q * xc ((i + 1) • R) - 1)) ^ 2) : Isg φ (2 * d + 1) := by
  have hk : φ.ker = AddSubgroup.zmultiples R := by
    ext x; rw [AddMonoidHom.mem_ker, hker]
  have hcard : Nat.card φ.ker = 2 * d + 1 := by rw [hk, Nat.card_zmultiples, hord]
  have hfin : {X | φ X = 0}.Finite :=
    Set.finite_coe_iff.mp (Nat.finite_of_card_ne_zero (α := φ.ker) (by rw [hcard]; omega))
  refine ⟨by omega, fun Y => velu_surj h2 hA hord hker hx Y, fun X hX => ?_, hcard, ?_⟩
  · obtain ⟨n, rfl⟩ := AddSubgroup.mem_zmultiples_iff.mp ((hker X).mp hX)
    rw [smul_comm, ← hord, addOrderOf_nsmul_eq_zero, smul_zero]
  · have dp : ∀ (f : ℕ → L[X]), (∀ i, (f i).natDegree ≤ 1) → (∏ i ∈ Finset.range d, f i).natDegree ≤ d := by
      intro f hf
      refine (natDegree_prod_le _ _).trans ?_
      refine (Finset.sum_le_sum (g := fun _ => 1) fun i _ => hf i).trans ?_
      simp
    refine ⟨X * ((∏ i ∈ Finset.range d, (X * C (xc ((i + 1) • R)) - 1)) * (∏ i ∈ Finset.range d, (X * C (xc ((i + 1) • R)) - 1))),
      (∏ i ∈ Finset.range d, (X - C (xc ((i + 1) • R)))) * (∏ i ∈ Finset.range d, (X - C (xc ((i + 1) • R)))), ?_, ?_, ?_⟩
    · have := deg_mul (natDegree_X_le (R := L)) (deg_sq (dp (fun i => X * C (xc ((i + 1) • R)) - 1) fun i =>
        deg_sub (deg_C natDegree_X_le) (by simp)))
      omega
    · have := deg_sq (dp (fun i => X - C (xc ((i + 1) • R))) fun i => deg_sub natDegree_X_le (by simp))
      omega
    · have e1 : ∀ᶠ T : MPoint A in cofinite, φ T ≠ 0 := by
        rw [eventually_cofinite]
        exact hfin.subset fun x hx => not_not.mp hx
      filter_upwards [e1] with T t1
      have hT : T ∉ AddSubgroup.zmultiples R := fun h => t1 ((hker T).mpr h)
      have t0 : T ≠ 0 := fun h => t1 (by rw [h, map_zero])
      refine ⟨t1, ?_, ?_⟩
      · simp only [eval_mul, eval_prod, eval_sub, eval_X, eval_C]
        refine mul_self_ne_zero.mpr (Finset.prod_ne_zero_iff.mpr fun i hi => sub_ne_zero.mpr ?_)
        have hi := Finset.mem_range.mp hi
        intro hxx
        have h0 : (i + 1) • R ≠ 0 := by
          intro h
          have := Nat.le_of_dvd (by omega) (addOrderOf_dvd_of_nsmul_eq_zero h)
          omega
        rcases (xc_eq_iff t0 h0).mp hxx with e | e
        · exact hT (e ▸ AddSubgroup.nsmul_mem_zmultiples R _)
        · exact hT (e ▸ neg_mem (AddSubgroup.nsmul_mem_zmultiples R _))
      · have := hx T hT
        simp only [eval_mul, eval_prod, eval_sub, eval_X, eval_C, eval_one]
        rw [← pow_two, this, pow_two]

variable [IsAlgClosed L]

omit [IsAlgClosed L] in
theorem Isg.ev_ne {φ : MPoint A →+ MPoint A'} {d : ℕ} (h : Isg φ d) (Q : MPoint A') : ∀ᶠ T in cofinite, φ T ≠ Q :=
  h.tendsto.eventually (Festa.ev_ne Q)

/-- The ordinate of the image is the ordinate times a rational function of the abscissa. -/
theorem PolyX.ord (h2 : (2 : L) ≠ 0) (hA : A * A ≠ 4) {φ : MPoint A →+ MPoint A'} {d : ℕ} (hA' : A' * A' ≠ 4) (h : PolyX φ d)
    (ht : Tendsto φ cofinite cofinite) :
    ∃ R S : L[X], ∀ᶠ T in cofinite, S.eval (xc T) ≠ 0 ∧ yc (φ T) * S.eval (xc T) = yc T * R.eval (xc T) := by
  obtain ⟨P, Q, dP, dQ, h⟩ := h
  have := infinite_points h2 hA
  have h4 : (4 : L) ≠ 0 := by
    rw [show (4 : L) = 2 * 2 by norm_num]; exact mul_ne_zero h2 h2
  -- a point for comparison
  obtain ⟨Q0, q0, qf, qy⟩ : ∃ Q0 : MPoint A, Q0 ≠ 0 ∧ φ Q0 ≠ 0 ∧ yc (φ Q0) ≠ 0 := by
    have t2 : ∀ᶠ T : MPoint A' in cofinite, 2 • T ≠ 0 := by
      rw [eventually_cofinite]
      exact (torsion_finite h2 hA' two_ne_zero).subset fun x hx => not_not.mp hx
    obtain ⟨Q0, a, b, c⟩ := ((Festa.ev_ne (A := A) 0).and ((ht.eventually (Festa.ev_ne 0)).and (ht.eventually t2))).exists
    exact ⟨Q0, a, b, fun e => c (by rw [two_nsmul]; exact (add_self_iff h2 b).mpr e)⟩
  let f : L[X] := X ^ 3 + C A * X ^ 2 + X
  let c : L[X] := (X - C (xc Q0)) ^ 2
  let a : L[X] := f + C (yc Q0 ^ 2) - (C A + X + C (xc Q0)) * (X - C (xc Q0)) ^ 2
  let b : L[X] := C (-(2 * yc Q0))
  obtain ⟨P0, P1, eP⟩ := conj_eval f a b c d P dP
  obtain ⟨Z0, Z1, eZ⟩ := conj_eval f a b c d Q dQ
  refine ⟨C (-2) * (P0 * Z1 - P1 * Z0) * (P - C (xc (φ Q0)) * Q) ^ 2 * C (-1), C (4 * yc (φ Q0)) * (Z0 * Z0 - f * (Z1 * Z1)) * Q ^ 2, ?_⟩
  have hp := (tendsto_add Q0).eventually h
  have hm := (tendsto_add (-Q0)).eventually h
  filter_upwards [h, hp, hm, Festa.ev_ne 0, Festa.ev_ne Q0, Festa.ev_ne (-Q0), ht.eventually (Festa.ev_ne (φ Q0)),
    ht.eventually (Festa.ev_ne (-φ Q0))] with T ⟨t1, t2, t3⟩ ⟨u1, u2, u3⟩ ⟨v1, v2, v3⟩ n0 n1 n2 m1 m2
  -- coordinates
  have nx : xc T ≠ xc Q0 := by
    intro e
    rcases (xc_eq_iff n0 q0).mp e with e | e
    · exact n1 e
    · exact n2 e
  have mx : xc (φ T) ≠ xc (φ Q0) := by
    intro e
    rcases (xc_eq_iff t1 qf).mp e with e | e
    · exact m1 e
    · exact m2 e
  have add_x : ∀ {B : L} {X Y : MPoint B}, X ≠ 0 → Y ≠ 0 → xc X ≠ xc Y → xc (X + Y) * (xc X - xc Y) ^ 2 =
      (yc X - yc Y) ^ 2 - (B + xc X + xc Y) * (xc X - xc Y) ^ 2 := by
    intro B X Y hX hY hxy
    obtain ⟨x1, y1, k1, rfl⟩ := exists_some hX
    obtain ⟨x2, y2, k2, rfl⟩ := exists_some hY
    simp only [xc, yc] at hxy ⊢
    have hd : x2 - x1 ≠ 0 := sub_ne_zero.mpr (Ne.symm hxy)
    obtain ⟨k, e⟩ := add_gen (h1 := k1) (h2 := k2) hxy (l := (y2 - y1) / (x2 - x1)) (by field_simp)
    rw [e]
    simp only
    field_simp
    ring
  have cT : yc T * yc T = f.eval (xc T) := by
    obtain ⟨x1, y1, k1, rfl⟩ := exists_some n0
    have := curve_eq k1
    simp only [f, eval_add, eval_mul, eval_pow, eval_X, eval_C, xc, yc]
    linear_combination this
  have a1 := add_x n0 q0 nx
  have a2 := add_x n0 (neg_ne_zero.mpr q0) (by rwa [xc_neg])
  have b1 := add_x t1 qf mx
  have b2 := add_x t1 (neg_ne_zero.mpr qf) (by rwa [xc_neg])
  rw [xc_neg, yc_neg] at a2 b2
  rw [← map_add] at b1
  rw [← map_neg, ← map_add] at b2
  have c1 : xc (T + Q0) * c.eval (xc T) = a.eval (xc T) + b.eval (xc T) * yc T := by
    simp only [a, b, c, eval_add, eval_sub, eval_mul, eval_pow, eval_X, eval_C] at cT ⊢
    linear_combination a1 + cT
  have c2 : xc (T + -Q0) * c.eval (xc T) = a.eval (xc T) + b.eval (xc T) * -yc T := by
    simp only [a, b, c, eval_add, eval_sub, eval_mul, eval_pow, eval_X, eval_C] at cT ⊢
    linear_combination a2 + cT
  have p1 := eP _ _ _ cT c1
  have p2 := eP _ _ _ (by rw [neg_mul_neg]; exact cT) c2
  have z1 := eZ _ _ _ cT c1
  have z2 := eZ _ _ _ (by rw [neg_mul_neg]; exact cT) c2
  have nc : c.eval (xc T) ≠ 0 := by
    simp only [c, eval_pow, eval_sub, eval_X, eval_C]
    exact pow_ne_zero _ (sub_ne_zero.mpr nx)
  have w1 : Z0.eval (xc T) + yc T * Z1.eval (xc T) ≠ 0 := by rw [← z1]; exact mul_ne_zero (pow_ne_zero _ nc) u2
  have w2 : Z0.eval (xc T) + -yc T * Z1.eval (xc T) ≠ 0 := by rw [← z2]; exact mul_ne_zero (pow_ne_zero _ nc) v2
  have x1 : xc (φ (T + Q0)) * (Z0.eval (xc T) + yc T * Z1.eval (xc T)) = P0.eval (xc T) + yc T * P1.eval (xc T) := by
    rw [← z1, ← p1, ← u3]; ring
  have x2 : xc (φ (T + -Q0)) * (Z0.eval (xc T) + -yc T * Z1.eval (xc T)) = P0.eval (xc T) + -yc T * P1.eval (xc T) := by
    rw [← z2, ← p2, ← v3]; ring
  have hden : (C (4 * yc (φ Q0)) * (Z0 * Z0 - f * (Z1 * Z1)) * Q ^ 2).eval (xc T) =
      4 * yc (φ Q0) * ((Z0.eval (xc T) + yc T * Z1.eval (xc T)) * (Z0.eval (xc T) + -yc T * Z1.eval (xc T))) * Q.eval (xc T) ^ 2 := by
    simp only [eval_mul, eval_sub, eval_pow, eval_C]
    linear_combination (4 * yc (φ Q0) * Z1.eval (xc T) ^ 2 * Q.eval (xc T) ^ 2) * cT
  rw [hden]
  refine ⟨mul_ne_zero (mul_ne_zero (mul_ne_zero h4 qy) (mul_ne_zero w1 w2)) (pow_ne_zero _ t2), ?_⟩
  have hY : 4 * yc (φ T) * yc (φ Q0) = -(xc (φ (T + Q0)) - xc (φ (T + -Q0))) * (xc (φ T) - xc (φ Q0)) ^ 2 := by
    linear_combination b1 - b2
  simp only [eval_mul, eval_sub, eval_pow, eval_C]
  rw [← t3]
  generalize Z0.eval (xc T) = z0 at *
  generalize Z1.eval (xc T) = s1 at *
  generalize P0.eval (xc T) = p0 at *
  generalize P1.eval (xc T) = r1 at *
  generalize Q.eval (xc T) = q at *
  generalize xc (φ T) = xt at *
  linear_combination ((z0 + yc T * s1) * (z0 + -yc T * s1) * q ^ 2) * hY - (z0 + -yc T * s1) * q ^ 2 * (xt - xc (φ Q0)) ^ 2 * x1 +
    (z0 + yc T * s1) * q ^ 2 * (xt - xc (φ Q0)) ^ 2 * x2

end

section
variable {K : Type*} [Field K] [DecidableEq K] {A A' A'' : K}

open Classical in
/-- The isogeny over the algebraic closure. -/
def HasIsg (φ : MPoint A →+ MPoint A') (d : Nat) : Prop :=
  ∃ φ' : MPoint (algebraMap K (AlgebraicClosure K) A) →+ MPoint (algebraMap K (AlgebraicClosure K) A'),
    (∀ X, φ' (mapHom (algebraMap K (AlgebraicClosure K)) X) = mapHom (algebraMap K (AlgebraicClosure K)) (φ X)) ∧ Isg φ' d

open Classical in
theorem HasIsg.id : HasIsg (AddMonoidHom.id (MPoint A)) 1 := ⟨AddMonoidHom.id _, fun _ => rfl, Isg.id⟩

open Classical in
theorem HasIsg.comp {φ : MPoint A →+ MPoint A'} {ψ : MPoint A' →+ MPoint A''} {d d' : Nat} (h : HasIsg φ d)
    (h' : HasIsg ψ d') : HasIsg (ψ.comp φ) (d * d') := by
  obtain ⟨f, f1, f2⟩ := h
  obtain ⟨g, g1, g2⟩ := h'
  exact ⟨g.comp f, fun X => by rw [AddMonoidHom.comp_apply, AddMonoidHom.comp_apply, f1, g1], f2.comp g2⟩

open Classical in
theorem HasIsg.neg {φ : MPoint A →+ MPoint A'} {d : Nat} (h : HasIsg φ d) : HasIsg (-φ) d := by
  obtain ⟨f, f1, f2⟩ := h
  exact ⟨-f, fun X => by rw [AddMonoidHom.neg_apply, AddMonoidHom.neg_apply, f1, map_neg], f2.neg⟩

theorem velu_hasIsg (h2 : (2 : K) ≠ 0) (hA : A * A ≠ 4) {R : MPoint A} {d : Nat}
    (hord : addOrderOf R = 2 * d + 1) {a e : K}
    (ha : a = (A + 2) ^ (2 * d + 1) * (∏ i ∈ Finset.range d, (xc ((i + 1) • R) + 1)) ^ 8)
    (he : e = (A - 2) ^ (2 * d + 1) * (∏ i ∈ Finset.range d, (xc ((i + 1) • R) - 1)) ^ 8)
    (hA' : A' * (a - e) = 2 * (a + e)) {φ : MPoint A →+ MPoint A'}
    (hker : ∀ Q, φ Q = 0 ↔ Q ∈ AddSubgroup.zmultiples R)
    (hx : ∀ Q, Q ∉ AddSubgroup.zmultiples R →
      xc (φ Q) * (∏ i ∈ Finset.range d, (xc Q - xc ((i + 1) • R))) ^ 2 =
        xc Q * (∏ i ∈ Finset.range d, (xc Q * xc ((i + 1) • R) - 1)) ^ 2) : HasIsg φ (2 * d + 1) := by
  classical
  obtain ⟨-, h3⟩ := velu_full h2 hA hord ha he
  obtain ⟨-, ψ, hker0, hx0, h2', hA1, hA2, hF, k, φ', hord', hker', hφ', hk2, hcomm⟩ := h3 A' hA'
  have hs : ∀ S, φ S = ψ S ∨ φ S = -ψ S := by
    intro S
    by_cases hS : S ∈ AddSubgroup.zmultiples R
    · left; rw [(hker S).mpr hS, (hker0 S).mpr hS]
    · refine (xc_eq_iff (fun h => hS ((hker S).mp h)) (fun h => hS ((hker0 S).mp h))).mp ?_
      have hne : (∏ i ∈ Finset.range d, (xc S - xc ((i + 1) • R))) ^ 2 ≠ 0 := by
        refine pow_ne_zero _ (Finset.prod_ne_zero_iff.mpr fun i hi => sub_ne_zero.mpr ?_)
        have hi := Finset.mem_range.mp hi
        intro hxx
        have h0 : (i + 1) • R ≠ 0 := by
          intro h
          have := Nat.le_of_dvd (by omega) (addOrderOf_dvd_of_nsmul_eq_zero h)
          omega
        rcases (xc_eq_iff (P := S) (fun h => hS (by rw [h]; exact zero_mem _)) h0).mp hxx with e | e
        · exact hS (e ▸ AddSubgroup.nsmul_mem_zmultiples R _)
        · exact hS (e ▸ neg_mem (AddSubgroup.nsmul_mem_zmultiples R _))
      exact mul_right_cancel₀ hne ((hx S hS).trans (hx0 S hS).symm)
  have hψ : HasIsg ψ (2 * d + 1) := by
    refine ⟨φ', fun X => ?_, velu_isg h2' hA1 hord' hker' (fun Q hQ => ?_)⟩
    · rw [← up_eq_map _ h2' hA1, ← up_eq_map _ h2' hA2, hcomm]
    · rw [(hφ' Q hQ).1, ← zmul_cs hord', ← zmul_ns hord']
      exact fx_formula (zmul_half hord') hQ
  rcases hom_sign hs with rfl | rfl
  · exact hψ
  · exact hψ.neg

variable [RootOps K]

theorem IsStep.isg {f : KIso K} {φ : MPoint f.domain.A →+ MPoint f.codomain.A} (hf : IsStep f φ)
    (hodd : f.degree.toNat % 2 = 1) : HasIsg φ f.degree.toNat := by
  obtain ⟨R, -, ho, hk, hx, hcod⟩ := hf.ker
  obtain ⟨d, hd⟩ : ∃ d, f.degree.toNat = 2 * d + 1 := ⟨f.degree.toNat / 2, by omega⟩
  have hd2 : (f.degree.toNat - 1) / 2 = d := by omega
  rw [hd2] at hx hcod
  rw [hd] at ho ⊢
  refine velu_hasIsg hf.dom.two hf.dom.disc ho rfl rfl ?_ hk hx
  rw [hd, Finset.prod_pow, Finset.prod_pow] at hcod
  linear_combination -hcod

theorem IsChain.isg {E E' : Crv K} {L : List (KIso K)} {φ : MPoint E.A →+ MPoint E'.A}
    (h : IsChain E L E' φ) (hodd : chainDegree L % 2 = 1) : HasIsg φ (chainDegree L) := by
  induction h with
  | nil _ => exact HasIsg.id
  | @cons f φ fs E' ψ hf hch ih =>
    have e : chainDegree (f :: fs) = f.degree.toNat * chainDegree fs := by simp [chainDegree]
    rw [e] at hodd ⊢
    have ho := Nat.odd_mul.mp (Nat.odd_iff.mpr hodd)
    exact (hf.isg (Nat.odd_iff.mp ho.1)).comp (ih (Nat.odd_iff.mp ho.2))

/-- The isogenies of the scheme are isogenies over the algebraic closure. -/
theorem IsIsog.isg {E E' : Crv K} {φ : MPoint E.A →+ MPoint E'.A} {d : Nat} (h : IsIsog φ d) (hd : d % 2 = 1) :
    HasIsg φ d := by
  obtain ⟨L, ψ, h, rfl, rfl | rfl⟩ := h
  · exact h.isg hd
  · exact (h.isg hd).neg

end
end Festa
