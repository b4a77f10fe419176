import Verif.Lemmas.VeluProd
import Mathlib.LinearAlgebra.Lagrange
import Mathlib.FieldTheory.IsAlgClosed.Basic
/-! `∏ (s - x(Q + g))` as a polynomial in `s`. -/
namespace Festa
open WeierstrassCurve.Affine Polynomial
variable {L : Type*} [Field L] [DecidableEq L] {A : L}
variable {G : AddSubgroup (MPoint A)} [Fintype G]

/-- `cs` as a polynomial. -/
noncomputable def cP (G : AddSubgroup (MPoint A)) [Fintype G] : L[X] := ∏ g ∈ gs G, (X - C (xc g.1))

/-- `ns` as a polynomial. -/
noncomputable def nP (G : AddSubgroup (MPoint A)) [Fintype G] : L[X] := X * ∏ g ∈ gs G, (X * C (xc g.1) - 1)

/-- `∏ (X - x(Q+g))`. -/
noncomputable def rP (G : AddSubgroup (MPoint A)) [Fintype G] (Q : MPoint A) : L[X] :=
  ∏ g : G, (X - C (xc (Q + g.1)))

theorem cP_eval (s : L) : (cP G).eval s = cs G s := by
  unfold cP cs
  rw [eval_prod]; simp

theorem nP_eval (s : L) : (nP G).eval s = ns G s := by
  unfold nP ns
  rw [eval_mul, eval_prod]; simp only [eval_X, eval_sub, eval_mul, eval_C, eval_one]

theorem rP_eval (Q : MPoint A) (s : L) : (rP G Q).eval s = ∏ g : G, (s - xc (Q + g.1)) := by
  unfold rP
  rw [eval_prod]; simp

theorem cP_degree : (cP G).degree < Fintype.card G := by
  unfold cP
  rw [degree_prod]
  simp only [degree_X_sub_C, Finset.sum_const, nsmul_eq_mul, mul_one]
  have := card_gs (G := G)
  exact_mod_cast (by omega : (gs G).card < Fintype.card G)

theorem rP_monic (Q : MPoint A) : (rP G Q).Monic := monic_prod_of_monic _ _ fun _ _ => monic_X_sub_C _

theorem rP_degree (Q : MPoint A) : (rP G Q).degree = Fintype.card G := by
  unfold rP
  rw [degree_prod]
  simp only [degree_X_sub_C, Finset.sum_const, nsmul_eq_mul, mul_one, Finset.card_univ]

theorem nP_degree (h2 : (2 : L) ≠ 0) (hodd : Odd (Fintype.card G)) (Q : MPoint A) :
    (nP G - C (px G) * rP G Q).degree < Fintype.card G := by
  have e : nP G = C (px G) * (X * ∏ g ∈ gs G, (X - C ((xc g.1)⁻¹))) := by
    unfold nP px
    rw [map_prod, mul_left_comm, ← Finset.prod_mul_distrib]
    congr 1
    refine Finset.prod_congr rfl fun g hg => ?_
    rw [mul_sub, ← C_mul, mul_inv_cancel₀ (gs_xc_ne h2 hodd hg), C_1, mul_comm]
  rw [e, ← mul_sub]
  have hm : (X * ∏ g ∈ gs G, (X - C ((xc g.1)⁻¹)) : L[X]).Monic :=
    monic_X.mul (monic_prod_of_monic _ _ fun _ _ => monic_X_sub_C _)
  have hd : (X * ∏ g ∈ gs G, (X - C ((xc g.1)⁻¹)) : L[X]).degree = Fintype.card G := by
    rw [degree_mul, degree_prod]
    simp only [degree_X_sub_C, Finset.sum_const, nsmul_eq_mul, mul_one, degree_X]
    have := card_gs (G := G)
    rw [← this]; push_cast; ring
  rw [degree_C_mul (px_ne h2 hodd)]
  refine lt_of_lt_of_eq (degree_sub_lt_left (hd.trans (rP_degree Q).symm) hm.ne_zero ?_) hd
  rw [hm.leadingCoeff, (rP_monic Q).leadingCoeff]

theorem sub_degree (h2 : (2 : L) ≠ 0) (hodd : Odd (Fintype.card G)) (Q : MPoint A) (c : L) :
    (nP G - C c * cP G - C (px G) * rP G Q).degree < Fintype.card G := by
  rw [sub_right_comm]
  refine lt_of_le_of_lt (degree_sub_le _ _) (max_lt (nP_degree h2 hodd Q) ?_)
  refine lt_of_le_of_lt (degree_mul_le _ _) ?_
  refine lt_of_le_of_lt ?_ (cP_degree (G := G))
  calc _ ≤ 0 + (cP G).degree := add_le_add degree_C_le le_rfl
    _ = _ := zero_add _

/-- The identity when the orbit has distinct abscissas. -/
theorem norm_good (h2 : (2 : L) ≠ 0) (hodd : Odd (Fintype.card G)) {d : Nat} {e : Nat → G} (hH : IsHalf G d e)
    {Q : MPoint A} (hQ : Q + Q ∉ G) :
    nP G - C (fx G Q) * cP G = C (px G) * rP G Q := by
  have hQ0 : Q ∉ G := fun h => hQ (G.add_mem h h)
  refine eq_of_degree_sub_lt_of_eval_index_eq (s := (Finset.univ : Finset G))
    (v := fun g : G => xc (Q + g.1)) ?_ ?_ ?_
  · intro a _ b _ h
    rcases (xc_eq_iff (add_ne hQ0 a) (add_ne hQ0 b)).mp h with e | e
    · exact Subtype.ext (add_left_cancel e)
    · exfalso
      apply hQ
      have : Q + Q = -(a.1 + b.1) := by
        rw [← sub_eq_zero]
        rw [← sub_eq_zero] at e
        rw [← e]; abel
      rw [this]
      exact G.neg_mem (G.add_mem a.2 b.2)
  · rw [Finset.card_univ]
    exact sub_degree h2 hodd Q _
  · intro g _
    have hg : Q + g.1 ∉ G := fun h => hQ0 ((G.add_mem_cancel_right g.2).mp h)
    rw [eval_sub, eval_mul, eval_mul, eval_C, eval_C, cP_eval, nP_eval, rP_eval,
      ← fx_formula hH hg, fx_shift g.2, sub_self]
    rw [Finset.prod_eq_zero (Finset.mem_univ g) (sub_self _), mul_zero]

theorem phi3_poly (r x s : L) :
    (phi3 (C A) X (C x) (C s) : L[X]).eval r = phi3 A r x s := by
  simp [phi3, sfun]; ring

/-- The square of the product in terms of the abscissa only. -/
theorem sq_prod {Q : MPoint A} (hQ : Q ∉ G) (s : L) :
    (∏ g : G, (s - xc (Q + g.1))) ^ 2 * cs G (xc Q) ^ 2 =
      (s - xc Q) ^ 2 * ∏ g ∈ gs G, phi3 A (xc Q) (xc g.1) s := by
  rw [prod_split, ZeroMemClass.coe_zero, add_zero, mul_pow, mul_assoc]
  congr 1
  have e : ∏ g ∈ gs G, (s - xc (Q + g.1)) = ∏ g ∈ gs G, (s - xc (Q - g.1)) := by
    rw [← prod_gs_neg]
    refine Finset.prod_congr rfl fun g _ => ?_
    rw [NegMemClass.coe_neg, sub_eq_add_neg Q]
  unfold cs
  rw [pow_two]
  conv_lhs => enter [1, 2]; rw [e]
  rw [← Finset.prod_mul_distrib, ← Finset.prod_pow, ← Finset.prod_mul_distrib]
  exact Finset.prod_congr rfl fun g hg => pair_eq hQ hg s

/-- The squared identity for all abscissas. -/
theorem sq_ident [IsAlgClosed L] (h2 : (2 : L) ≠ 0) (hA : A * A ≠ 4) (hodd : Odd (Fintype.card G))
    {d : Nat} {e : Nat → G} (hH : IsHalf G d e) (r s : L) :
    px G ^ 2 * ((s - r) ^ 2 * ∏ g ∈ gs G, phi3 A r (xc g.1) s) =
      (ns G s * cs G r - ns G r * cs G s) ^ 2 := by
  have key : (X ^ 3 + C A * X ^ 2 + X) *
      (∏ g ∈ gs G, ((X ^ 2 - 1) ^ 2 - C (4 * xc g.1) * (X ^ 3 + C A * X ^ 2 + X))) *
      (C (px G ^ 2) * ((C s - X) ^ 2 * ∏ g ∈ gs G, phi3 (C A) X (C (xc g.1)) (C s)) -
        (C (ns G s) * cP G - nP G * C (cs G s)) ^ 2) = 0 := by
    apply Polynomial.funext
    intro r
    by_cases hr : r ^ 3 + A * r ^ 2 + r = 0
    · simp [hr]
    by_cases hr2 : ∃ g ∈ gs G, (r ^ 2 - 1) ^ 2 - 4 * xc g.1 * (r ^ 3 + A * r ^ 2 + r) = 0
    · obtain ⟨g, hg, e⟩ := hr2
      rw [eval_mul, eval_mul, eval_prod, Finset.prod_eq_zero hg, mul_zero, zero_mul, eval_zero]
      simpa using e
    have hsq : px G ^ 2 * ((s - r) ^ 2 * ∏ g ∈ gs G, phi3 A r (xc g.1) s) =
      (ns G s * cs G r - ns G r * cs G s) ^ 2 := by
      obtain ⟨y, hy⟩ := IsAlgClosed.exists_pow_nat_eq (r ^ 3 + A * r ^ 2 + r) (n := 2) (by norm_num)
      have hk := nonsing_of h2 hA (x := r) (y := y) (by linear_combination hy)
      have hy0 : y ≠ 0 := by
        rintro rfl
        exact hr (by rw [← hy]; ring)
      obtain ⟨Q, hQx, hQy, hQ0⟩ : ∃ Q : MPoint A, xc Q = r ∧ yc Q = y ∧ Q ≠ 0 :=
        ⟨.some r y hk, rfl, rfl, Point.some_ne_zero hk⟩
      have hd : Q + Q ≠ 0 := fun h => hy0 (by rw [← hQy]; exact (add_self_iff h2 hQ0).mp h)
      have hQ : Q + Q ∉ G := by
        intro hm
        apply hr2
        refine ⟨⟨_, hm⟩, mem_gs.mpr fun h => hd (congrArg Subtype.val h), ?_⟩
        have := xc_double h2 hd
        rw [hQx, hQy, hy] at this
        linear_combination -this
      have hQ' : Q ∉ G := fun h => hQ (G.add_mem h h)
      have h3 := norm_good h2 hodd hH hQ
      have h4 := congrArg (fun p => eval s p) h3
      simp only [eval_sub, eval_mul, eval_C, cP_eval, nP_eval, rP_eval] at h4
      have h5 := sq_prod hQ' s
      have h6 := fx_formula hH hQ'
      rw [hQx] at h5 h6
      rw [← h5, ← h6]
      linear_combination (-(px G * (∏ g : G, (s - xc (Q + g.1)))) - (ns G s - fx G Q * cs G s)) *
        cs G r ^ 2 * h4
    rw [eval_mul, eval_zero]
    refine mul_eq_zero_of_right _ ?_
    rw [← sub_eq_zero] at hsq
    rw [← hsq]
    simp only [eval_sub, eval_mul, eval_pow, eval_C, eval_X, eval_prod, phi3_poly, cP_eval, nP_eval]
  have n1 : (X ^ 3 + C A * X ^ 2 + X : L[X]) ≠ 0 := by
    have : (X ^ 3 + C A * X ^ 2 + X : L[X]) = X * (X ^ 2 + C A * X + 1) := by ring
    rw [this]
    refine mul_ne_zero X_ne_zero fun h => ?_
    have := congrArg (fun p => eval 0 p) h
    simp at this
  have n2 : (∏ g ∈ gs G, ((X ^ 2 - 1) ^ 2 - C (4 * xc g.1) * (X ^ 3 + C A * X ^ 2 + X)) : L[X]) ≠ 0 := by
    refine Finset.prod_ne_zero_iff.mpr fun g _ h => ?_
    have := congrArg (fun p => eval 0 p) h
    simp at this
  have := (mul_eq_zero.mp key).resolve_left (mul_ne_zero n1 n2)
  have := congrArg (fun p => eval r p) this
  simp only [eval_sub, eval_mul, eval_pow, eval_C, eval_X, eval_prod, phi3_poly, cP_eval, nP_eval,
    eval_zero] at this
  exact sub_eq_zero.mp this

/-- The identity for every point outside the subgroup. -/
theorem norm_poly [IsAlgClosed L] (h2 : (2 : L) ≠ 0) (hA : A * A ≠ 4) (hodd : Odd (Fintype.card G))
    {d : Nat} {e : Nat → G} (hH : IsHalf G d e) {Q : MPoint A} (hQ : Q ∉ G) :
    nP G - C (fx G Q) * cP G = C (px G) * rP G Q := by
  have hsq : (nP G - C (fx G Q) * cP G) ^ 2 = (C (px G) * rP G Q) ^ 2 := by
    apply Polynomial.funext
    intro s
    have h1 := sq_ident h2 hA hodd hH (xc Q) s
    rw [← sq_prod hQ, ← fx_formula hH hQ] at h1
    simp only [eval_sub, eval_mul, eval_pow, eval_C, cP_eval, nP_eval, rP_eval]
    apply mul_right_cancel₀ (pow_ne_zero 2 (cs_ne hQ))
    linear_combination -h1
  rcases sq_eq_sq_iff_eq_or_eq_neg.mp hsq with e | e
  · exact e
  · exfalso
    have h := sub_degree h2 hodd Q (fx G Q)
    rw [e] at h
    have e2 : -(C (px G) * rP G Q) - C (px G) * rP G Q = C (-(2 * px G)) * rP G Q := by
      rw [C_neg, C_mul, C_ofNat]; ring
    rw [e2, degree_C_mul (neg_ne_zero.mpr (mul_ne_zero h2 (px_ne h2 hodd))), rP_degree] at h
    exact lt_irrefl _ h

end Festa
