import Verif.Lemmas.VeluNorm
/-! The relations between the coordinates of the images. -/
namespace Festa
open WeierstrassCurve.Affine
variable {L : Type*} [Field L] [DecidableEq L] {A : L}
variable {G : AddSubgroup (MPoint A)} [Fintype G]

/-- What the relations need: a non-singular curve over a field of odd characteristic and a finite
subgroup of odd order. -/
structure VD (G : AddSubgroup (MPoint A)) [Fintype G] : Prop where
  h2 : (2 : L) ≠ 0
  hA : A * A ≠ 4
  hodd : Odd (Fintype.card G)
  half : ∃ (d : Nat) (e : Nat → G), IsHalf G d e

variable (v : VD G)
include v

theorem VD.formula {Q : MPoint A} (hQ : Q ∉ G) : fx G Q * cs G (xc Q) = ns G (xc Q) := by
  obtain ⟨d, e, hH⟩ := v.half
  exact fx_formula hH hQ

theorem VD.px_ne : px G ≠ 0 := Festa.px_ne v.h2 v.hodd
theorem VD.py_ne : py G ≠ 0 := Festa.py_ne v.h2 v.hodd

theorem VD.neg_prod (f : G → L) : ∏ g : G, -f g = -∏ g : G, f g := by
  rw [Finset.prod_neg, Finset.card_univ, v.hodd.neg_one_pow, neg_one_mul]

theorem VD.cs_inv {s : L} (hs : s ≠ 0) : s ^ Fintype.card G * cs G s⁻¹ = ns G s := by
  unfold cs ns
  rw [← card_gs, pow_succ', mul_assoc, ← Finset.prod_const, ← Finset.prod_mul_distrib]
  congr 1
  rw [← prod_gs_neg_one v.hodd]
  refine Finset.prod_congr rfl fun g _ => ?_
  rw [mul_sub, mul_inv_cancel₀ hs]; ring

theorem VD.ns_inv {s : L} (hs : s ≠ 0) : s ^ Fintype.card G * ns G s⁻¹ = cs G s := by
  unfold cs ns
  rw [← card_gs, pow_succ', mul_mul_mul_comm, mul_inv_cancel₀ hs, one_mul, ← Finset.prod_const,
    ← Finset.prod_mul_distrib, ← prod_gs_neg_one v.hodd]
  refine Finset.prod_congr rfl fun g _ => ?_
  rw [mul_sub, ← mul_assoc, mul_inv_cancel₀ hs]; ring

theorem VD.cs_zero : cs G (0 : L) = px G := by
  unfold cs px
  simp_rw [zero_sub]
  rw [prod_gs_neg_one v.hodd]

omit v in
theorem ns_zero : ns G (0 : L) = 0 := zero_mul _

variable [IsAlgClosed L]

theorem VD.norm {Q : MPoint A} (hQ : Q ∉ G) (s : L) :
    px G * ∏ g : G, (s - xc (Q + g.1)) = ns G s - fx G Q * cs G s := by
  obtain ⟨d, e, hH⟩ := v.half
  have := congrArg (fun p => Polynomial.eval s p) (norm_poly v.h2 v.hA v.hodd hH hQ)
  simp only [Polynomial.eval_sub, Polynomial.eval_mul, Polynomial.eval_C, cP_eval, nP_eval, rP_eval] at this
  exact this.symm

theorem VD.norm_pt {Q R : MPoint A} (hQ : Q ∉ G) (hR : R ∉ G) :
    px G * ∏ g : G, (xc R - xc (Q + g.1)) = cs G (xc R) * (fx G R - fx G Q) := by
  rw [v.norm hQ, ← v.formula hR]; ring

theorem VD.norm_pt' {Q R : MPoint A} (hQ : Q ∉ G) (hR : R ∉ G) :
    px G * ∏ g : G, (xc (Q + g.1) - xc R) = cs G (xc R) * (fx G Q - fx G R) := by
  have : ∏ g : G, (xc (Q + g.1) - xc R) = -∏ g : G, (xc R - xc (Q + g.1)) := by
    rw [← v.neg_prod]
    exact Finset.prod_congr rfl fun g _ => (neg_sub _ _).symm
  rw [this, mul_neg, v.norm_pt hQ hR]; ring

theorem VD.norm_rev {Q : MPoint A} (hQ : Q ∉ G) (s : L) :
    px G * ∏ g : G, (xc (Q + g.1) * s - 1) = fx G Q * ns G s - cs G s := by
  by_cases hs : s = 0
  · subst hs
    simp only [mul_zero, zero_sub, ns_zero, v.cs_zero]
    rw [v.neg_prod, Finset.prod_const_one]; ring
  · have h := v.norm hQ s⁻¹
    have e : ∏ g : G, (xc (Q + g.1) * s - 1) =
        -(s ^ Fintype.card G * ∏ g : G, (s⁻¹ - xc (Q + g.1))) := by
      rw [← Finset.card_univ, ← Finset.prod_const, ← Finset.prod_mul_distrib, ← v.neg_prod]
      refine Finset.prod_congr rfl fun g _ => ?_
      rw [mul_sub, mul_inv_cancel₀ hs]; ring
    rw [e, ← v.cs_inv hs, ← v.ns_inv hs]
    linear_combination -(s ^ Fintype.card G) * h

omit v [IsAlgClosed L] [Fintype G] in
theorem shift_ne {Q R : MPoint A} (hQ : Q ∉ G) (hR : R ∉ G) (h1 : Q + R ∉ G) (h3 : Q - R ∉ G) (g : G) :
    xc (Q + g.1) ≠ xc R := by
  intro h
  rcases (xc_eq_iff (add_ne hQ g) (ne_of_not_mem hR)).mp h with e | e
  · apply h3
    have : Q - R = -g.1 := by rw [← e]; abel
    rw [this]; exact G.neg_mem g.2
  · apply h1
    have : Q + R = -g.1 := by
      have : R = -(Q + g.1) := by rw [e, neg_neg]
      rw [this]; abel
    rw [this]; exact G.neg_mem g.2

omit v [IsAlgClosed L] in
theorem fx_add (Q R : MPoint A) : fx G (Q + R) = ∏ g : G, xc (Q + g.1 + R) := by
  unfold fx
  exact Finset.prod_congr rfl fun g _ => by rw [add_right_comm]

omit v [IsAlgClosed L] in
theorem prod_add (s : L) (Q R : MPoint A) :
    ∏ g : G, (s - xc (Q + R + g.1)) = ∏ g : G, (s - xc (Q + g.1 + R)) :=
  Finset.prod_congr rfl fun g _ => by rw [add_right_comm]

omit [IsAlgClosed L] in
/-- The product over the orbit of `(s - x(U + R)) (s - x(U - R))`. -/
theorem VD.orbit {Q R : MPoint A} (hQ : Q ∉ G) (hR : R ∉ G) (h1 : Q + R ∉ G) (h3 : Q - R ∉ G) (s : L) :
    (∏ g : G, (s - xc (Q + R + g.1))) * (∏ g : G, (s - xc (Q - R + g.1))) *
      (∏ g : G, (xc (Q + g.1) - xc R)) ^ 2 = ∏ g : G, phi3 A (xc (Q + g.1)) (xc R) s := by
  rw [sub_eq_add_neg Q R, prod_add, prod_add, ← Finset.prod_pow, ← Finset.prod_mul_distrib,
    ← Finset.prod_mul_distrib]
  refine Finset.prod_congr rfl fun g _ => ?_
  rw [← phi3_eq (add_ne hQ g) (ne_of_not_mem hR) (shift_ne hQ hR h1 h3 g) s, ← sub_eq_add_neg]

/-- Product of the images of sum and difference. -/
theorem VD.rel_prod {Q R : MPoint A} (hQ : Q ∉ G) (hR : R ∉ G) (h1 : Q + R ∉ G) (h3 : Q - R ∉ G) :
    fx G (Q + R) * fx G (Q - R) * (fx G Q - fx G R) ^ 2 = (fx G Q * fx G R - 1) ^ 2 := by
  have h := v.orbit hQ hR h1 h3 0
  have a1 := v.norm h1 0
  have a2 := v.norm h3 0
  have a3 := v.norm_pt' hQ hR
  have a4 := v.norm_rev hQ (xc R)
  simp_rw [phi3_zero] at h
  rw [Finset.prod_pow] at h
  rw [ns_zero, v.cs_zero] at a1 a2
  rw [← v.formula hR] at a4
  have hc := cs_ne hR
  have hp := v.px_ne
  have a1' : ∏ g : G, (0 - xc (Q + R + g.1)) = -fx G (Q + R) := by
    apply mul_left_cancel₀ hp; linear_combination a1
  have a2' : ∏ g : G, (0 - xc (Q - R + g.1)) = -fx G (Q - R) := by
    apply mul_left_cancel₀ hp; linear_combination a2
  rw [a1', a2'] at h
  generalize ∏ g : G, (xc (Q + g.1) - xc R) = u at *
  generalize ∏ g : G, (xc (Q + g.1) * xc R - 1) = w at *
  apply mul_left_cancel₀ (pow_ne_zero 2 hc)
  linear_combination px G ^ 2 * h + (px G * w + (cs G (xc R) * (fx G Q * fx G R - 1))) * a4
    - fx G (Q + R) * fx G (Q - R) * (px G * u + cs G (xc R) * (fx G Q - fx G R)) * a3

omit [IsAlgClosed L] in
/-- `∏ (x(Q + h) - x_h)^2`. -/
theorem VD.tangent {Q : MPoint A} (hQ : Q ∉ G) :
    (∏ g ∈ gs G, (xc (Q + g.1) - xc g.1)) ^ 2 * cs G (xc Q) = 4 ^ (gs G).card * py G ^ 2 := by
  have e : ∏ g ∈ gs G, (xc (Q + g.1) - xc g.1) = ∏ g ∈ gs G, (xc (Q - g.1) - xc g.1) := by
    rw [← prod_gs_neg]
    refine Finset.prod_congr rfl fun g _ => ?_
    rw [NegMemClass.coe_neg, sub_eq_add_neg Q, xc_neg]
  have h : (∏ g ∈ gs G, (xc (Q + g.1) - xc g.1)) ^ 2 * cs G (xc Q) ^ 2 =
      4 ^ (gs G).card * py G ^ 2 * cs G (xc Q) := by
    have e2 : cs G (xc Q) = ∏ g ∈ gs G, (xc (g.1 + g.1) - xc Q) := by
      unfold cs
      have := prod_gs_dbl v.hodd (fun g : G => xc g.1 - xc Q)
      simp only [AddMemClass.coe_add] at this
      rw [this, ← prod_gs_neg_one v.hodd]
      exact Finset.prod_congr rfl fun g _ => neg_sub _ _
    conv_rhs => rw [e2]
    rw [pow_two]
    conv_lhs => enter [1, 2]; rw [e]
    unfold cs py
    rw [← Finset.prod_const, ← Finset.prod_pow, ← Finset.prod_pow, ← Finset.prod_mul_distrib,
      ← Finset.prod_mul_distrib, ← Finset.prod_mul_distrib, ← Finset.prod_mul_distrib]
    refine Finset.prod_congr rfl fun g hg => ?_
    have h1 := pair_eq hQ hg (xc g.1)
    have hd : g.1 + g.1 ≠ 0 := fun h => dbl_ne v.hodd (mem_gs.mp hg) (Subtype.ext h)
    rw [phi3_self_pt v.h2 hd] at h1
    linear_combination h1
  apply mul_right_cancel₀ (cs_ne hQ)
  linear_combination h

/-- The relation for the difference of the images, up to the constant of the ordinates. -/
theorem VD.rel_diff {Q R : MPoint A} (hQ : Q ∉ G) (hR : R ∉ G) (h1 : Q + R ∉ G) (h3 : Q - R ∉ G) :
    (fx G (Q - R) - fx G (Q + R)) * (fx G Q - fx G R) ^ 2 * py G ^ 2 =
      4 * px G ^ 3 * fy G Q * fy G R := by
  have hp := v.px_ne
  have hy := v.py_ne
  have h4 : (4 : L) ^ (gs G).card ≠ 0 := pow_ne_zero _ (by
    have : (4 : L) = 2 * 2 := by norm_num
    rw [this]; exact mul_ne_zero v.h2 v.h2)
  have hxne : ∀ g : G, xc (Q + g.1) ≠ xc (R + g.1) := by
    intro g h
    rcases (xc_eq_iff (add_ne hQ g) (add_ne hR g)).mp h with e | e
    · exact h3 (by rw [add_right_cancel e, sub_self]; exact G.zero_mem)
    · apply h1
      have : Q + R = -(g.1 + g.1) := by
        have e' : Q = -(R + g.1) - g.1 := by rw [← e]; abel
        rw [e']; abel
      rw [this]
      exact G.neg_mem (G.add_mem g.2 g.2)
  -- the product of the differences
  have hD : (∏ g : G, (xc (Q - R) - xc (Q + R + g.1))) *
      (∏ g : G, (xc (Q + g.1) - xc (R + g.1))) ^ 2 = 4 ^ (gs G).card * 4 * fy G Q * fy G R := by
    have e := prod_dbl v.hodd (fun g : G => xc (Q - R) - xc (Q + R + g.1))
    simp only [AddMemClass.coe_add] at e
    rw [← e, ← pow_succ, card_gs, ← Finset.card_univ, ← Finset.prod_const]
    unfold fy
    rw [← Finset.prod_pow, ← Finset.prod_mul_distrib, ← Finset.prod_mul_distrib, ← Finset.prod_mul_distrib]
    refine Finset.prod_congr rfl fun g _ => ?_
    have := xc_add_sub (add_ne hQ g) (add_ne hR g) (hxne g)
    rw [show Q + g.1 - (R + g.1) = Q - R by abel,
      show Q + g.1 + (R + g.1) = Q + R + (g.1 + g.1) by abel] at this
    exact this
  -- the same product through the four point relation
  have hF : 4 ^ (gs G).card * py G ^ 2 * (∏ g : G, (xc (Q + g.1) - xc (R + g.1))) ^ 2 * cs G (xc (Q - R)) =
      (∏ g : G, (xc Q - xc (R + g.1))) * (∏ g : G, (xc (Q + g.1) - xc R)) *
      ((∏ g ∈ gs G, (xc (Q + g.1) - xc g.1)) ^ 2 * (∏ g ∈ gs G, (xc (R + g.1) - xc g.1)) ^ 2) := by
    have e1 : cs G (xc (Q - R)) = ∏ g ∈ gs G, (xc (g.1 + g.1) - xc (Q - R)) := by
      unfold cs
      have := prod_gs_dbl v.hodd (fun g : G => xc g.1 - xc (Q - R))
      simp only [AddMemClass.coe_add] at this
      rw [this, ← prod_gs_neg_one v.hodd]
      exact Finset.prod_congr rfl fun g _ => neg_sub _ _
    have e2 := prod_gs_dbl v.hodd (fun g : G => xc Q - xc (R + g.1))
    have e3 := prod_gs_dbl v.hodd (fun g : G => xc (Q + g.1) - xc R)
    simp only [AddMemClass.coe_add] at e2 e3
    rw [prod_split (fun g : G => xc (Q + g.1) - xc (R + g.1)),
      prod_split (fun g : G => xc Q - xc (R + g.1)), prod_split (fun g : G => xc (Q + g.1) - xc R)]
    simp only [ZeroMemClass.coe_zero, add_zero]
    have key : 4 ^ (gs G).card * py G ^ 2 * (∏ g ∈ gs G, (xc (Q + g.1) - xc (R + g.1))) ^ 2 *
        cs G (xc (Q - R)) =
      (∏ g ∈ gs G, (xc Q - xc (R + g.1))) * (∏ g ∈ gs G, (xc (Q + g.1) - xc R)) *
      ((∏ g ∈ gs G, (xc (Q + g.1) - xc g.1)) ^ 2 * (∏ g ∈ gs G, (xc (R + g.1) - xc g.1)) ^ 2) := by
      rw [e1, ← e2, ← e3]
      unfold py
      rw [← Finset.prod_const]
      simp only [← Finset.prod_pow, ← Finset.prod_mul_distrib]
      refine Finset.prod_congr rfl fun g hg => ?_
      have hd : g.1 + g.1 ≠ 0 := fun h => dbl_ne v.hodd (mem_gs.mp hg) (Subtype.ext h)
      have hQ' : Q + g.1 ∉ G := fun h => hQ ((G.add_mem_cancel_right g.2).mp h)
      have hR' : R + g.1 ∉ G := fun h => hR ((G.add_mem_cancel_right g.2).mp h)
      have := four_points v.h2 (add_ne hQ g) (add_ne hR g) hd (hxne g) (xc_ne_gs hQ' hg) (xc_ne_gs hR' hg)
      rw [show Q + g.1 - (R + g.1) = Q - R by abel, show Q + g.1 - g.1 = Q by abel,
        show R + g.1 - g.1 = R by abel, add_assoc Q, add_assoc R] at this
      linear_combination this
    linear_combination (xc Q - xc R) ^ 2 * key
  have t1 := v.tangent hQ
  have t2 := v.tangent hR
  have n1 := v.norm_pt hR hQ
  have n2 := v.norm_pt' hQ hR
  have n3 := v.norm_pt h1 h3
  have c1 := cs_ne hQ
  have c2 := cs_ne hR
  generalize (∏ g ∈ gs G, (xc (Q + g.1) - xc g.1)) ^ 2 = E1 at *
  generalize (∏ g ∈ gs G, (xc (R + g.1) - xc g.1)) ^ 2 = E2 at *
  generalize ∏ g : G, (xc Q - xc (R + g.1)) = N1 at *
  generalize ∏ g : G, (xc (Q + g.1) - xc R) = N2 at *
  generalize ∏ g : G, (xc (Q - R) - xc (Q + R + g.1)) = N3 at *
  generalize (∏ g : G, (xc (Q + g.1) - xc (R + g.1))) ^ 2 = D2 at *
  generalize (4 : L) ^ (gs G).card = q at *
  generalize cs G (xc Q) = cq at *
  generalize cs G (xc R) = cr at *
  generalize cs G (xc (Q - R)) = cv at *
  generalize fx G Q = a at *
  generalize fx G R = b at *
  generalize fx G (Q - R) = s at *
  generalize fx G (Q + R) = t at *
  generalize px G = p at *
  generalize py G = w at *
  generalize fy G Q = fq at *
  generalize fy G R = fr at *
  -- `px² D² c(V) = 4^(l-1) py² (a - b)²`
  have hii : p ^ 2 * D2 * cv = q * w ^ 2 * (a - b) ^ 2 := by
    apply mul_left_cancel₀ (mul_ne_zero h4 (pow_ne_zero 2 hy))
    calc q * w ^ 2 * (p ^ 2 * D2 * cv) = p ^ 2 * (q * w ^ 2 * D2 * cv) := by ring
      _ = (p * N1) * (p * N2) * (E1 * E2) := by rw [hF]; ring
      _ = (a - b) ^ 2 * (E1 * cq) * (E2 * cr) := by rw [n1, n2]; ring
      _ = q * w ^ 2 * (q * w ^ 2 * (a - b) ^ 2) := by rw [t1, t2]; ring
  apply mul_left_cancel₀ h4
  calc q * ((s - t) * (a - b) ^ 2 * w ^ 2) = (s - t) * (q * w ^ 2 * (a - b) ^ 2) := by ring
    _ = p ^ 2 * D2 * (cv * (s - t)) := by rw [← hii]; ring
    _ = p ^ 3 * (N3 * D2) := by rw [← n3]; ring
    _ = q * (4 * p ^ 3 * fq * fr) := by rw [hD]; ring

end Festa
