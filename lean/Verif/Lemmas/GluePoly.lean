import Verif.Lemmas.PolyIso
import Verif.Lemmas.Glue
import Mathlib.RingTheory.IntegralClosure.IntegrallyClosed
import Mathlib.RingTheory.Polynomial.UniqueFactorization
import Mathlib.RingTheory.Polynomial.RationalRoot
/-! The gluing of two isogenies from one curve, as a vector of polynomials. -/
namespace Festa
open WeierstrassCurve.Affine Polynomial Filter
variable {L : Type*} [Field L] [DecidableEq L] [IsAlgClosed L] {A A1 A2 : L}

omit [DecidableEq L] [IsAlgClosed L] in
/-- A rational function whose square is a polynomial is a polynomial. -/
theorem sq_poly {N D G : L[X]} (hD : D ≠ 0) (h : N ^ 2 = G * D ^ 2) : ∃ t, N = D * t ∧ t ^ 2 = G := by
  obtain ⟨t, ht⟩ := (IsIntegrallyClosed.pow_dvd_pow_iff (n := 2) (by norm_num)).mp (⟨G, by rw [h, mul_comm]⟩ : D ^ 2 ∣ N ^ 2)
  refine ⟨t, ht, ?_⟩
  rw [ht, mul_pow, mul_comm] at h
  exact mul_right_cancel₀ (pow_ne_zero 2 hD) h

theorem glue_poly (h2 : (2 : L) ≠ 0) (hA : A * A ≠ 4) (hA1 : A1 * A1 ≠ 4) (hA2 : A2 * A2 ≠ 4)
    (D F : L) {e l m w e' l' m' w' : L} (hm : m ≠ 0) (hm' : m' ≠ 0)
    (hC : ∀ r : MPoint A1, OnC m (U0 e l r) (U1 e l m r) (UY m w r))
    (hC' : ∀ r : MPoint A2, OnC m' (U0 e' l' r) (U1 e' l' m' r) (UY m' w' r))
    {α : MPoint A →+ MPoint A1} {β : MPoint A →+ MPoint A2} {a b : ℕ} (hα : PolyX α a) (hβ : PolyX β b)
    (tα : Tendsto α cofinite cofinite) (tβ : Tendsto β cofinite cofinite) :
    ∃ v : ThPt L[X], v.Deg (2 * (a + b)) ∧
      ∀ᶠ T in cofinite, (gW D F e l m w e' l' m' w' (α T) (β T)).Same (v.ev (xc T)) := by
  obtain ⟨R, S, hS⟩ := hα.ord h2 hA hA1 tα
  obtain ⟨R', S', hS'⟩ := hβ.ord h2 hA hA2 tβ
  obtain ⟨P, Q, dP, dQ, h⟩ := hα
  obtain ⟨P', Q', dP', dQ', h'⟩ := hβ
  have h4 : (4 : L) ≠ 0 := by
    rw [show (4 : L) = 2 * 2 by norm_num]; exact mul_ne_zero h2 h2
  have := infinite_points h2 hA
  obtain ⟨a0, ha0⟩ : ∃ a0 : L[X], a0 = C l⁻¹ * (P - C e * Q) - Q := ⟨_, rfl⟩
  obtain ⟨a1, ha1⟩ : ∃ a1 : L[X], a1 = C m * (C l⁻¹ * (P - C e * Q) + Q) := ⟨_, rfl⟩
  obtain ⟨b0, hb0⟩ : ∃ b0 : L[X], b0 = C l'⁻¹ * (P' - C e' * Q') - Q' := ⟨_, rfl⟩
  obtain ⟨b1, hb1⟩ : ∃ b1 : L[X], b1 = C m' * (C l'⁻¹ * (P' - C e' * Q') + Q') := ⟨_, rfl⟩
  have da0 : a0.natDegree ≤ a := ha0 ▸ deg_sub (deg_C' (deg_sub dP (deg_C' dQ))) dQ
  have da1 : a1.natDegree ≤ a := ha1 ▸ deg_C' (deg_add (deg_C' (deg_sub dP (deg_C' dQ))) dQ)
  have db0 : b0.natDegree ≤ b := hb0 ▸ deg_sub (deg_C' (deg_sub dP' (deg_C' dQ'))) dQ'
  have db1 : b1.natDegree ≤ b := hb1 ▸ deg_C' (deg_add (deg_C' (deg_sub dP' (deg_C' dQ'))) dQ')
  obtain ⟨κ, hκ⟩ : ∃ κ : L, κ = 4 * F / D * (2 * m ^ 2 / w) * (2 * m' ^ 2 / w') := ⟨_, rfl⟩
  let f : L[X] := X ^ 3 + C A * X ^ 2 + X
  let G : L[X] := C ((4 * F / D) ^ 2 / (4 * m ^ 2 * (4 * m' ^ 2))) *
    (((C (m ^ 2) * (a0 * a0) - a1 * a1) * (a0 * a0 - C (m ^ 2) * (a1 * a1))) *
      ((C (m' ^ 2) * (b0 * b0) - b1 * b1) * (b0 * b0 - C (m' ^ 2) * (b1 * b1))))
  have dG : G.natDegree ≤ 4 * (a + b) := by
    have e1 : ((C (m ^ 2) * (a0 * a0) - a1 * a1) * (a0 * a0 - C (m ^ 2) * (a1 * a1))).natDegree ≤ 2 * a + 2 * a :=
      deg_mul (deg_sub (deg_C' (deg_sq da0)) (deg_sq da1)) (deg_sub (deg_sq da0) (deg_C' (deg_sq da1)))
    have e2 : ((C (m' ^ 2) * (b0 * b0) - b1 * b1) * (b0 * b0 - C (m' ^ 2) * (b1 * b1))).natDegree ≤ 2 * b + 2 * b :=
      deg_mul (deg_sub (deg_C' (deg_sq db0)) (deg_sq db1)) (deg_sub (deg_sq db0) (deg_C' (deg_sq db1)))
    have e3 : G.natDegree ≤ _ := deg_C' (deg_mul e1 e2)
    omega
  -- the values
  have key : ∀ᶠ T in cofinite, (S * S').eval (xc T) ≠ 0 ∧ Q.eval (xc T) ≠ 0 ∧ Q'.eval (xc T) ≠ 0 ∧
      U0 e l (α T) * Q.eval (xc T) = a0.eval (xc T) ∧ U1 e l m (α T) * Q.eval (xc T) = a1.eval (xc T) ∧
      U0 e' l' (β T) * Q'.eval (xc T) = b0.eval (xc T) ∧ U1 e' l' m' (β T) * Q'.eval (xc T) = b1.eval (xc T) ∧
      (4 * F * UY m w (α T) * UY m' w' (β T) / D * (Q.eval (xc T) * Q'.eval (xc T)) ^ 2) * (S * S').eval (xc T) =
        (C κ * (Q * Q') ^ 2 * f * (R * R')).eval (xc T) ∧
      (4 * F * UY m w (α T) * UY m' w' (β T) / D * (Q.eval (xc T) * Q'.eval (xc T)) ^ 2) ^ 2 = G.eval (xc T) := by
    filter_upwards [h, h', hS, hS', Festa.ev_ne 0] with T ⟨t1, t2, t3⟩ ⟨u1, u2, u3⟩ ⟨s1, s2⟩ ⟨r1, r2⟩ n0
    have c1 := hC (α T)
    have c2 := hC' (β T)
    have cT : yc T * yc T = f.eval (xc T) := by
      obtain ⟨x1, y1, k1, rfl⟩ := exists_some n0
      have := curve_eq k1
      simp only [f, eval_add, eval_mul, eval_pow, eval_X, eval_C, xc, yc]
      linear_combination this
    have v0 : U0 e l (α T) * Q.eval (xc T) = a0.eval (xc T) := by
      obtain ⟨x1, y1, k1, hk⟩ := exists_some t1
      rw [hk] at t3 ⊢
      change x1 * _ = _ at t3
      simp only [U0, gcs, ha0, eval_sub, eval_mul, eval_C]
      rw [← t3, div_eq_mul_inv]; ring
    have v1 : U1 e l m (α T) * Q.eval (xc T) = a1.eval (xc T) := by
      obtain ⟨x1, y1, k1, hk⟩ := exists_some t1
      rw [hk] at t3 ⊢
      change x1 * _ = _ at t3
      simp only [U1, gcs, ha1, eval_sub, eval_add, eval_mul, eval_C]
      rw [← t3, div_eq_mul_inv]; ring
    have w0 : U0 e' l' (β T) * Q'.eval (xc T) = b0.eval (xc T) := by
      obtain ⟨x1, y1, k1, hk⟩ := exists_some u1
      rw [hk] at u3 ⊢
      change x1 * _ = _ at u3
      simp only [U0, gcs, hb0, eval_sub, eval_mul, eval_C]
      rw [← u3, div_eq_mul_inv]; ring
    have w1 : U1 e' l' m' (β T) * Q'.eval (xc T) = b1.eval (xc T) := by
      obtain ⟨x1, y1, k1, hk⟩ := exists_some u1
      rw [hk] at u3 ⊢
      change x1 * _ = _ at u3
      simp only [U1, gcs, hb1, eval_sub, eval_add, eval_mul, eval_C]
      rw [← u3, div_eq_mul_inv]; ring
    have y1 : UY m w (α T) = 2 * m ^ 2 / w * yc (α T) := by
      obtain ⟨x1, y1, k1, hk⟩ := exists_some t1
      rw [hk]
      simp only [UY, gcy, yc]; ring
    have y2 : UY m' w' (β T) = 2 * m' ^ 2 / w' * yc (β T) := by
      obtain ⟨x1, y1, k1, hk⟩ := exists_some u1
      rw [hk]
      simp only [UY, gcy, yc]; ring
    refine ⟨by rw [eval_mul]; exact mul_ne_zero s1 r1, t2, u2, v0, v1, w0, w1, ?_, ?_⟩
    · simp only [eval_mul, eval_pow, eval_C, y1, y2, ← cT, hκ]
      linear_combination (4 * F / D * (2 * m ^ 2 / w) * (2 * m' ^ 2 / w') * (Q.eval (xc T) * Q'.eval (xc T)) ^ 2) *
        (yc (β T) * eval (xc T) S' * s2 + yc T * R.eval (xc T) * r2)
    · simp only [G, eval_mul, eval_sub, eval_C, ← v0, ← v1, ← w0, ← w1]
      unfold OnC at c1 c2
      generalize U0 e l (α T) = x0 at *
      generalize U1 e l m (α T) = x1 at *
      generalize U0 e' l' (β T) = z0 at *
      generalize U1 e' l' m' (β T) = z1 at *
      generalize UY m w (α T) = y at *
      generalize UY m' w' (β T) = y' at *
      generalize Q.eval (xc T) = q at *
      generalize Q'.eval (xc T) = q' at *
      rw [show (4 * F * y * y' / D * (q * q') ^ 2) ^ 2 = (4 * F / D) ^ 2 / (4 * m ^ 2 * (4 * m' ^ 2)) *
        ((4 * m ^ 2 * y ^ 2) * (4 * m' ^ 2 * y' ^ 2) * (q * q') ^ 4) by field_simp, c1, c2]
      ring
  have hD : S * S' ≠ 0 := by
    obtain ⟨T, hT⟩ := key.exists
    intro h0
    exact hT.1 (by rw [h0, eval_zero])
  have hN : (C κ * (Q * Q') ^ 2 * f * (R * R')) ^ 2 = G * (S * S') ^ 2 := by
    rw [← sub_eq_zero]
    refine poly_zero h2 hA ?_
    filter_upwards [key] with T ⟨_, _, _, _, _, _, _, k1, k2⟩
    rw [eval_sub, eval_pow, ← k1, eval_mul (p := G), ← k2, eval_pow]
    ring
  obtain ⟨t, ht, htG⟩ := sq_poly hD hN
  have dt : t.natDegree ≤ 2 * (a + b) := by
    have := dG
    rw [← htG, natDegree_pow] at this
    omega
  refine ⟨⟨(a0 * a0 + a1 * a1) * (b0 * b0 + b1 * b1), C D⁻¹ * ((a0 * a0 - a1 * a1) * (b0 * b0 - b1 * b1)),
    C (4 / F) * ((a0 * a1) * (b0 * b1)), t⟩, ⟨?_, ?_, ?_, dt⟩, ?_⟩
  · exact (deg_mul (deg_add (deg_sq da0) (deg_sq da1)) (deg_add (deg_sq db0) (deg_sq db1))).trans (by omega)
  · exact (deg_C' (c := D⁻¹) (deg_mul (deg_sub (deg_sq da0) (deg_sq da1)) (deg_sub (deg_sq db0) (deg_sq db1)))).trans (by omega)
  · exact (deg_C' (c := 4 / F) (deg_mul (deg_mul da0 da1) (deg_mul db0 db1))).trans (by omega)
  · filter_upwards [key] with T ⟨k0, q0, q0', v0, v1, w0, w1, k1, k2⟩
    have et : 4 * F * UY m w (α T) * UY m' w' (β T) / D * (Q.eval (xc T) * Q'.eval (xc T)) ^ 2 = t.eval (xc T) := by
      rw [ht, eval_mul (q := t), mul_comm] at k1
      exact mul_left_cancel₀ k0 k1
    refine ⟨(Q.eval (xc T) * Q'.eval (xc T)) ^ 2, pow_ne_zero _ (mul_ne_zero q0 q0'), ?_⟩
    simp only [ThPt.ev, gW, gw, ThPt.mk.injEq, ThPt.scale, eval_add, eval_sub, eval_mul, eval_C, ← v0, ← v1, ← w0, ← w1, ← et]
    refine ⟨?_, ?_, ?_, ?_⟩ <;> ring

end Festa
