import Verif.Lemmas.Divisible
import Verif.Lemmas.ChainDeg
import Mathlib.Order.Filter.Cofinite
import Mathlib.Algebra.Polynomial.Div
/-! Homomorphisms between the points of Montgomery curves over an algebraically closed field that are given by
rational functions of bounded degree. -/
namespace Festa
open WeierstrassCurve.Affine Polynomial Filter

section
variable {L : Type*} [Field L]

/-- The value at a fraction, homogenised. -/
theorem hom_eval {N D : L[X]} {e : ℕ} (hN : N.natDegree ≤ e) (hD : D.natDegree ≤ e) :
    ∀ (d : ℕ) (P : L[X]), P.natDegree ≤ d → ∃ R : L[X], R.natDegree ≤ d * e ∧
      ∀ x t, t * D.eval x = N.eval x → R.eval x = D.eval x ^ d * P.eval t := by
  intro d
  induction d with
  | zero =>
    intro P hP
    refine ⟨C (P.coeff 0), by simp, fun x t _ => ?_⟩
    rw [eq_C_of_natDegree_le_zero hP]
    simp
  | succ d ih =>
    intro P hP
    obtain ⟨R, hR, eR⟩ := ih P.divX (by rw [natDegree_divX_eq_natDegree_tsub_one]; omega)
    refine ⟨C (P.coeff 0) * D ^ (d + 1) + N * R, ?_, fun x t h => ?_⟩
    · refine deg_add (deg_C' ((natDegree_pow_le).trans (Nat.mul_le_mul_left _ hD))) ?_
      have := deg_mul hN hR
      rw [Nat.succ_mul, add_comm]
      exact this
    · have e := congrArg (eval t) (divX_mul_X_add P)
      simp only [eval_add, eval_mul, eval_X, eval_C] at e
      simp only [eval_add, eval_mul, eval_C, eval_pow, eR x t h, ← h, ← e]
      ring

/-- The value at an expression with a square root, homogenised. -/
theorem conj_eval (f a b c : L[X]) : ∀ (d : ℕ) (P : L[X]), P.natDegree ≤ d → ∃ P0 P1 : L[X],
    ∀ x y t, y * y = f.eval x → t * c.eval x = a.eval x + b.eval x * y →
      c.eval x ^ d * P.eval t = P0.eval x + y * P1.eval x := by
  intro d
  induction d with
  | zero =>
    intro P hP
    refine ⟨C (P.coeff 0), 0, fun x y t _ _ => ?_⟩
    rw [eq_C_of_natDegree_le_zero hP]
    simp
  | succ d ih =>
    intro P hP
    obtain ⟨R0, R1, hR⟩ := ih P.divX (by rw [natDegree_divX_eq_natDegree_tsub_one]; omega)
    refine ⟨C (P.coeff 0) * c ^ (d + 1) + a * R0 + b * f * R1, a * R1 + b * R0, fun x y t hy h => ?_⟩
    have e := congrArg (eval t) (divX_mul_X_add P)
    simp only [eval_add, eval_mul, eval_X, eval_C] at e
    simp only [eval_add, eval_mul, eval_C, eval_pow, ← e]
    linear_combination (t * c.eval x) * hR x y t hy h + (R0.eval x + y * R1.eval x) * h + (b.eval x * R1.eval x) * hy
end

section
variable {L : Type*} [Field L] [DecidableEq L] {A A' A'' : L}

/-- Almost all points have an abscissa outside of a finite set. -/
theorem tendsto_xc : Tendsto (xc : MPoint A → L) cofinite cofinite :=
  Tendsto.cofinite_of_finite_preimage_singleton fun x => (xc_fibre_finite (A := A) x).to_subtype

theorem ev_ne_zero {P : L[X]} (hP : P ≠ 0) : ∀ᶠ T : MPoint A in cofinite, P.eval (xc T) ≠ 0 := by
  refine tendsto_xc.eventually (p := fun x => P.eval x ≠ 0) ?_
  rw [eventually_cofinite]
  refine (Finset.finite_toSet P.roots.toFinset).subset fun x hx => ?_
  exact Multiset.mem_toFinset.mpr ((mem_roots hP).mpr (not_not.mp hx))

omit [DecidableEq L] in
theorem ev_ne (Q : MPoint A) : ∀ᶠ T : MPoint A in cofinite, T ≠ Q := by
  rw [eventually_cofinite]
  exact (Set.finite_singleton Q).subset fun x hx => not_not.mp hx

theorem tendsto_hom {φ : MPoint A →+ MPoint A'} (hf : {X | φ X = 0}.Finite) : Tendsto φ cofinite cofinite := by
  refine Tendsto.cofinite_of_finite_preimage_singleton fun y => ?_
  by_cases h : ∃ X, φ X = y
  · obtain ⟨X, rfl⟩ := h
    refine ((hf.image (fun Z => X + Z)).subset fun Y hY => ⟨Y - X, ?_, by abel⟩).to_subtype
    change φ (Y - X) = 0
    rw [map_sub, show φ Y = φ X from hY, sub_self]
  · push Not at h
    exact ((Set.finite_empty).subset fun Y hY => (h Y hY).elim).to_subtype

theorem tendsto_add (Q : MPoint A) : Tendsto (fun T : MPoint A => T + Q) cofinite cofinite :=
  Function.Injective.tendsto_cofinite (add_left_injective Q)

/-- The abscissa of the image is a quotient of polynomials of degree at most `d` in the abscissa. -/
def PolyX (φ : MPoint A →+ MPoint A') (d : ℕ) : Prop :=
  ∃ P Q : L[X], P.natDegree ≤ d ∧ Q.natDegree ≤ d ∧ ∀ᶠ T in cofinite, φ T ≠ 0 ∧ Q.eval (xc T) ≠ 0 ∧
    xc (φ T) * Q.eval (xc T) = P.eval (xc T)

theorem PolyX.id : PolyX (AddMonoidHom.id (MPoint A)) 1 := by
  refine ⟨X, 1, natDegree_X_le, by simp, ?_⟩
  filter_upwards [ev_ne 0] with T hT
  exact ⟨hT, by simp, by simp⟩

theorem PolyX.neg {φ : MPoint A →+ MPoint A'} {d : ℕ} (h : PolyX φ d) : PolyX (-φ) d := by
  obtain ⟨P, Q, hP, hQ, h⟩ := h
  refine ⟨P, Q, hP, hQ, ?_⟩
  filter_upwards [h] with T hT
  rw [AddMonoidHom.neg_apply, xc_neg, neg_ne_zero]
  exact hT

theorem PolyX.comp {φ : MPoint A →+ MPoint A'} {ψ : MPoint A' →+ MPoint A''} {d d' : ℕ} (h : PolyX φ d) (h' : PolyX ψ d')
    (hf : {X | φ X = 0}.Finite) : PolyX (ψ.comp φ) (d * d') := by
  obtain ⟨P, Q, hP, hQ, h⟩ := h
  obtain ⟨P', Q', hP', hQ', h'⟩ := h'
  obtain ⟨R, dR, eR⟩ := hom_eval hP hQ d' P' hP'
  obtain ⟨S, dS, eS⟩ := hom_eval hP hQ d' Q' hQ'
  refine ⟨R, S, by rwa [mul_comm], by rwa [mul_comm], ?_⟩
  filter_upwards [h, (tendsto_hom hf).eventually h'] with T ⟨t1, t2, t3⟩ ⟨u1, u2, u3⟩
  rw [eR _ _ t3, eS _ _ t3]
  refine ⟨u1, mul_ne_zero (pow_ne_zero _ t2) u2, ?_⟩
  rw [AddMonoidHom.comp_apply, ← u3]
  ring

/-- The abscissa of a multiple, with degrees. -/
theorem exists_mul_deg (h2 : (2 : L) ≠ 0) (hA : A * A ≠ 4) (n : Nat) (hn : n ≠ 0) :
    ∃ U V : L[X], U.natDegree ≤ n ^ 2 ∧ V.natDegree + 1 ≤ n ^ 2 ∧ (n % 2 = 1 → U.eval 0 = 0) ∧ (n % 2 = 0 → V.eval 0 = 0) ∧
      ∀ P : MPoint A, P ≠ 0 → xc P ≠ 0 → KRep (U.eval (xc P)) (V.eval (xc P)) (n • P) := by
  have hE := crv_good h2 hA
  have h4 : (4 : L) ≠ 0 := by
    rw [show (4 : L) = 2 * 2 by norm_num]; exact mul_ne_zero h2 h2
  induction n using Nat.strong_induction_on with
  | _ n ih =>
    rcases Nat.lt_or_ge n 2 with h | h
    · obtain rfl : n = 1 := by omega
      exact ⟨X, 1, by simp, by simp, by simp, by simp, fun P hP _ => by rw [one_nsmul, krep_iff hP]; simp⟩
    · obtain ⟨m, hm | hm⟩ := Nat.even_or_odd' n
      · obtain ⟨U, V, dU, dV, zU, zV, hUV⟩ := ih m (by omega) (by omega)
        have dV' : V.natDegree ≤ m ^ 2 := by omega
        have dUV : (C 4 * (U * V)).natDegree ≤ m ^ 2 + (m ^ 2 - 1) := deg_C' (deg_mul dU (by omega))
        refine ⟨(U + V) * (U + V) * ((U - V) * (U - V)),
          ((C 4 * (U * V)) * C ((A + 2) / 4) + (U - V) * (U - V)) * (C 4 * (U * V)), ?_, ?_, by omega, ?_, fun P hP hx => ?_⟩
        · have := deg_mul (deg_sq (deg_add dU dV')) (deg_sq (deg_sub dU dV'))
          rw [hm, mul_pow]
          omega
        · have a1 : (C 4 * (U * V) * C ((A + 2) / 4) + (U - V) * (U - V)).natDegree ≤ 2 * m ^ 2 :=
            deg_add (deg_C (dUV.trans (by omega))) (deg_sq (deg_sub dU dV'))
          have := deg_mul a1 dUV
          have : 1 ≤ m ^ 2 := Nat.one_le_iff_ne_zero.mpr (pow_ne_zero _ (by omega))
          rw [hm, mul_pow]
          omega
        · intro _
          have : U.eval 0 * V.eval 0 = 0 := by
            rcases Nat.mod_two_eq_zero_or_one m with h | h
            · rw [zV h, mul_zero]
            · rw [zU h, zero_mul]
          simp only [eval_mul, eval_C, this, mul_zero]
        · have := krep_dbl hE (hUV P hP hx)
          rw [← mul_nsmul', ← hm] at this
          simp only [Crv.xDbl] at this
          have e4 : U.eval (xc P) * V.eval (xc P) * 4 = (U.eval (xc P) + V.eval (xc P)) * (U.eval (xc P) + V.eval (xc P)) -
            (U.eval (xc P) - V.eval (xc P)) * (U.eval (xc P) - V.eval (xc P)) := by ring
          simp only [eval_mul, eval_add, eval_sub, eval_C]
          rw [mul_comm 4 (_ * _), e4]
          exact this
      · obtain ⟨U0, V0, dU0, dV0, zU0, zV0, h0⟩ := ih m (by omega) (by omega)
        obtain ⟨U1, V1, dU1, dV1, zU1, zV1, h1⟩ := ih (m + 1) (by omega) (by omega)
        have hs : X ∣ U0 * U1 - V0 * V1 := by
          rw [X_dvd_iff, coeff_zero_eq_eval_zero, eval_sub, eval_mul, eval_mul]
          rcases Nat.mod_two_eq_zero_or_one m with h | h
          · rw [zV0 h, zU1 (by omega)]; ring
          · rw [zU0 h, zV1 (by omega)]; ring
        obtain ⟨s, hs⟩ := hs
        have hsq : (m + 1) ^ 2 = m ^ 2 + 2 * m + 1 := by ring
        have ds : s.natDegree + 1 ≤ m ^ 2 + (m + 1) ^ 2 := by
          by_cases s0 : s = 0
          · rw [s0, natDegree_zero]; omega
          · rw [← natDegree_X_mul s0, ← hs]
            exact deg_sub (deg_mul dU0 dU1) (deg_mul (by omega) (by omega))
        have dt : (U0 * V1 - V0 * U1).natDegree + 1 ≤ m ^ 2 + (m + 1) ^ 2 := by
          have : (U0 * V1 - V0 * U1).natDegree ≤ m ^ 2 + (m + 1) ^ 2 - 1 := by
            refine deg_sub ((deg_mul dU0 (show V1.natDegree ≤ (m + 1) ^ 2 - 1 by omega)).trans (by omega)) ?_
            exact (deg_mul (show V0.natDegree ≤ m ^ 2 - 1 by omega) dU1).trans (by omega)
          omega
        have hn2 : n ^ 2 = 4 * m ^ 2 + 4 * m + 1 := by rw [hm]; ring
        refine ⟨X * (s * s), (U0 * V1 - V0 * U1) * (U0 * V1 - V0 * U1), ?_, ?_, by simp, by omega, fun P hP hx => ?_⟩
        · have := deg_mul (natDegree_X_le (R := L)) (deg_sq (show s.natDegree ≤ m ^ 2 + (m + 1) ^ 2 - 1 by omega))
          omega
        · have := deg_sq (show (U0 * V1 - V0 * U1).natDegree ≤ m ^ 2 + (m + 1) ^ 2 - 1 by omega)
          omega
        · have k0 := h0 P hP hx
          have k1 := h1 P hP hx
          rcases P with _ | ⟨x, y, k⟩
          · exact absurd rfl hP
          rw [succ_nsmul] at k1
          have := krep_xadd hE k0 k1 hx (one_ne_zero) (mul_one _).symm
          rw [← add_assoc, ← two_nsmul, ← mul_nsmul', ← succ_nsmul, ← hm] at this
          simp only [xAdd, one_mul] at this
          have es := congrArg (eval x) hs
          simp only [eval_sub, eval_mul, eval_X] at es
          have hx' : x ≠ 0 := hx
          have := krep_mul (c := (4 * x)⁻¹) (inv_ne_zero (mul_ne_zero h4 hx')) this
          change KRep (eval x _) (eval x _) _
          convert this using 1
          · simp only [eval_mul, eval_X, xc]
            rw [eq_inv_mul_iff_mul_eq₀ (mul_ne_zero h4 hx')]
            linear_combination (-4 * (x * eval x s + (U0.eval x * U1.eval x - V0.eval x * V1.eval x))) * es
          · simp only [eval_mul, eval_sub, xc]
            rw [eq_inv_mul_iff_mul_eq₀ (mul_ne_zero h4 hx')]
            ring

variable [IsAlgClosed L]

theorem infinite_points (h2 : (2 : L) ≠ 0) (hA : A * A ≠ 4) : Infinite (MPoint A) := by
  obtain ⟨V, -, -, hV⟩ := exists_chain h2 hA
  exact Infinite.of_injective V (fun a b h => hV (congrArg xc h))

/-- A polynomial that vanishes at almost all points is zero. -/
theorem poly_zero (h2 : (2 : L) ≠ 0) (hA : A * A ≠ 4) {P : L[X]} (h : ∀ᶠ T : MPoint A in cofinite, P.eval (xc T) = 0) : P = 0 := by
  by_contra hP
  have := infinite_points h2 hA
  obtain ⟨T, h1, h2⟩ := (h.and (ev_ne_zero hP)).exists
  exact h2 h1

theorem PolyX.mul (h2 : (2 : L) ≠ 0) (hA : A * A ≠ 4) {n : ℕ} (hn : n ≠ 0) : PolyX (nsmulAddMonoidHom (α := MPoint A) n) (n ^ 2) := by
  obtain ⟨U, V, dU, dV, -, -, h⟩ := exists_mul_deg h2 hA n hn
  refine ⟨U, V, dU, by omega, ?_⟩
  have e1 : ∀ᶠ T : MPoint A in cofinite, n • T ≠ 0 := by
    rw [eventually_cofinite]
    exact (torsion_finite h2 hA hn).subset fun x hx => not_not.mp hx
  filter_upwards [e1, ev_ne 0, ev_ne_zero (X_ne_zero (R := L))] with T t1 t2 t3
  rw [eval_X] at t3
  have := h T t2 t3
  rw [krep_iff t1] at this
  exact ⟨t1, this.1, this.2.symm⟩

end
end Festa
