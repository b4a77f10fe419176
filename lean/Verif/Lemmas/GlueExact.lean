import Verif.Lemmas.RiemannChain
/-! Which pairs of points gluing sends to the null point. -/
namespace Festa
variable {K : Type*} [Field K] [DecidableEq K]

namespace FacPts
variable {E : Crv K} {p q : MPoint E.A} {e L m w : K} (h : FacPts E p q e L m w)
include h

/-- Only the points of order two and infinity have no ordinate. -/
theorem four_of_UY {r : MPoint E.A} (hr : UY m w r = 0) : ∃ a b : ℕ, r = a • (4 • p) + b • (4 • q) := by
  have hc := h.onC r
  have hm := h.fac.nm
  rw [OnC, hr] at hc
  obtain ⟨c, -, c0, c1, -⟩ := h.add_fp 0
  obtain ⟨d, -, d0, d1, -⟩ := h.add_fq 0
  obtain ⟨f, -, f0, f1, -⟩ := h.add_fq (4 • p)
  rw [zero_add] at c0 c1 d0 d1
  have z0 : U0 e L (0 : MPoint E.A) = 1 := rfl
  have z1 : U1 e L m (0 : MPoint E.A) = m := rfl
  rw [c1] at f0
  rw [c0] at f1
  rw [z0] at c0 d1 f1
  rw [z1] at c1 d0 f0
  have t2 : 2 • (4 • p + 4 • q) = 0 := by rw [nsmul_add, h.two_fp, h.two_fq, add_zero]
  have : (m * U0 e L r - U1 e L m r) * (m * U0 e L r + U1 e L m r) * ((U0 e L r - m * U1 e L m r) * (U0 e L r + m * U1 e L m r)) = 0 := by
    linear_combination -hc
  rcases mul_eq_zero.mp this with h1 | h1 <;> rcases mul_eq_zero.mp h1 with h1 | h1
  · refine ⟨0, 0, ?_⟩
    simp only [zero_nsmul, add_zero]
    exact h.eq_of_mul (nsmul_zero 2) (by rw [z0, z1]; linear_combination h1)
  · refine ⟨1, 0, ?_⟩
    rw [zero_nsmul, one_nsmul, add_zero]
    exact h.eq_of_mul h.two_fp (by rw [c0, c1]; linear_combination c * h1)
  · refine ⟨0, 1, ?_⟩
    rw [zero_nsmul, one_nsmul, zero_add]
    exact h.eq_of_mul h.two_fq (by rw [d0, d1]; linear_combination d * h1)
  · refine ⟨1, 1, ?_⟩
    rw [one_nsmul, one_nsmul]
    exact h.eq_of_mul t2 (by rw [f0, f1]; linear_combination -(f * c) * h1)

/-- The point with the ratio of infinity. -/
theorem zero_of_ratio {r : MPoint E.A} (hr : U1 e L m r = m * U0 e L r) : r = 0 := by
  have z0 : U0 e L (0 : MPoint E.A) = 1 := rfl
  have z1 : U1 e L m (0 : MPoint E.A) = m := rfl
  exact h.eq_of_mul (nsmul_zero 2) (by rw [z0, z1, hr]; ring)

end FacPts

/-- The algebra when one component is infinity. -/
theorem glue_zero_aux {m m' D F v0 v1 c : K} (h : GOK m m' D F) (hv : ¬ (v0 = 0 ∧ v1 = 0))
    (e1 : (1 + m ^ 2) * (v0 ^ 2 + v1 ^ 2) = c) (e2 : (1 - m ^ 2) * (v0 ^ 2 - v1 ^ 2) / D = c * D)
    (e3 : 4 * m * (v0 * v1) / F = c * F) : v1 = m' * v0 := by
  have hp := h.p; have hq := h.q; have hp' := h.p'
  rw [div_eq_iff h.nD, mul_assoc, ← pow_two, h.hD, ← e1] at e2
  rw [div_eq_iff h.nF, mul_assoc c, ← pow_two, h.hF, ← e1] at e3
  have a : (v0 ^ 2 - v1 ^ 2) * (1 + m' ^ 2) = (v0 ^ 2 + v1 ^ 2) * (1 - m' ^ 2) := by
    apply mul_left_cancel₀ hq
    rw [← mul_assoc, e2]
    field_simp
  have b : v0 * v1 * (1 + m' ^ 2) = m' * (v0 ^ 2 + v1 ^ 2) := by
    apply mul_left_cancel₀ (mul_ne_zero (four_ne h.two) h.nm)
    rw [← mul_assoc, e3]
    field_simp
  have a' : m' ^ 2 * v0 ^ 2 = v1 ^ 2 := mul_left_cancel₀ h.two (by linear_combination a)
  have n0 : v0 ≠ 0 := by
    intro h0
    rw [h0] at a'
    exact hv ⟨h0, by simpa using a'.symm⟩
  apply mul_left_cancel₀ n0
  apply mul_right_cancel₀ hp'
  linear_combination b - m' * a'

omit [DecidableEq K] in
theorem GOK.swap {m m' D F : K} (h : GOK m m' D F) : GOK m' m D F :=
  ⟨h.two, h.nm', h.nm, h.p', h.q', h.p, h.q, h.nD, h.nF, by rw [h.hD, mul_comm (1 - m ^ 2), mul_comm (1 + m ^ 2)],
    by rw [h.hF, mul_comm m, mul_comm (1 + m ^ 2)]⟩

variable {E : EProd K} {P8 Q8 : CPt K} {p1 q1 : MPoint E.E1.A} {p2 q2 : MPoint E.E2.A}
  {e L m w e' L' m' w' : K}

/-- **Gluing sends just the points of its kernel to the null point.** -/
theorem GluePts.exact (h : GluePts E P8 Q8 p1 q1 p2 q2 e L m w e' L' m' w') (hn : ThNull (glueNull E P8 Q8))
    {R : CPt K} {r1 : MPoint E.E1.A} {r2 : MPoint E.E2.A} (h1 : PRep R.P1 r1) (h2 : PRep R.P2 r2)
    (x : ¬ GlueExc p1 q1 p2 q2 r1 r2) (hi : (glueNull E P8 Q8).Same (glue E P8 Q8 R)) :
    ∃ a b : ℕ, r1 = a • (4 • p1) + b • (4 • q1) ∧ r2 = a • (4 • p2) + b • (4 • q2) := by
  have ok := h.ok
  have sm : ∀ {R : CPt K} {r1 : MPoint E.E1.A} {r2 : MPoint E.E2.A}, PRep R.P1 r1 → PRep R.P2 r2 →
      ¬ GlueExc p1 q1 p2 q2 r1 r2 → (glueNull E P8 Q8).Same (glue E P8 Q8 R) →
      (gn (gD e L m e' L' m' p1 p2) (gF e L m e' L' m' q1 q2)).Same
        (gW (gD e L m e' L' m' p1 p2) (gF e L m e' L' m' q1 q2) e L m w e' L' m' w' r1 r2) := by
    intro R r1 r2 h1 h2 x hi
    refine same_of_had h.g1.two ?_
    rw [← h.null hn]
    exact hi.trans (h.image hn h1 h2 x).symm
  have n4 := four_ne h.g1.two
  -- one component has no ordinate
  have hY : UY m w r1 = 0 ∨ UY m' w' r2 = 0 := by
    obtain ⟨c, hc, ez⟩ := sm h1 h2 x hi
    have := congrArg ThPt.T ez
    simp only [gW, gw, gn, ThPt.scale, mul_zero, div_eq_zero_iff, ok.nD, or_false, mul_eq_zero, n4, ok.nF, false_or] at this
    exact this
  have neg2 : ∀ {A : K} {S : MPoint A}, 2 • S = 0 → S + S = 0 := fun h => by rwa [two_nsmul] at h
  have tor : ∀ {A : K} {S T : MPoint A} (a b : ℕ), 2 • S = 0 → 2 • T = 0 → 2 • (a • S + b • T) = 0 := by
    intro A S T a b hS hT
    rw [nsmul_add, ← mul_nsmul', ← mul_nsmul', mul_comm 2 a, mul_comm 2 b, mul_nsmul', mul_nsmul', hS, hT, nsmul_zero,
      nsmul_zero, add_zero]
  -- translate that component to infinity
  obtain ⟨a, b, hab⟩ : ∃ a b : ℕ, r1 = a • (4 • p1) + b • (4 • q1) ∨ r2 = a • (4 • p2) + b • (4 • q2) := by
    rcases hY with hY | hY
    · obtain ⟨a, b, hab⟩ := h.f1.four_of_UY hY
      exact ⟨a, b, .inl hab⟩
    · obtain ⟨a, b, hab⟩ := h.f2.four_of_UY hY
      exact ⟨a, b, .inr hab⟩
  have t1 : 2 • (a • (4 • p1) + b • (4 • q1)) = 0 := tor a b h.f1.two_fp h.f1.two_fq
  have t2 : 2 • (a • (4 • p2) + b • (4 • q2)) = 0 := tor a b h.f2.two_fp h.f2.two_fq
  obtain ⟨R', h1', h2'⟩ : ∃ R' : CPt K, PRep R'.P1 (r1 + (a • (4 • p1) + b • (4 • q1))) ∧
      PRep R'.P2 (r2 + (a • (4 • p2) + b • (4 • q2))) := by
    obtain ⟨A, hA⟩ := exists_prep (r1 + (a • (4 • p1) + b • (4 • q1)))
    obtain ⟨B, hB⟩ := exists_prep (r2 + (a • (4 • p2) + b • (4 • q2)))
    exact ⟨⟨A, B⟩, hA, hB⟩
  have hk := h.add_kernel hn a b h1 h2 h1' h2' x
  obtain ⟨c, hc, ez⟩ := sm h1' h2' (h.exc_add t1 t2 x) (hi.trans hk)
  have e1 := congrArg ThPt.X ez
  have e2 := congrArg ThPt.Y ez
  have e3 := congrArg ThPt.Z ez
  simp only [gW, gw, gn, ThPt.scale, mul_one] at e1 e2 e3
  refine ⟨a, b, ?_⟩
  rcases hab with hab | hab
  · refine ⟨hab, ?_⟩
    rw [hab, neg2 t1] at e1 e2 e3
    have z0 : U0 e L (0 : MPoint E.E1.A) = 1 := rfl
    have z1 : U1 e L m (0 : MPoint E.E1.A) = m := rfl
    rw [z0, z1, one_pow] at e1 e2
    rw [z0, z1, one_mul] at e3
    have := h.f2.zero_of_ratio (glue_zero_aux ok (h.f2.nz _) e1 e2 e3)
    rw [← add_left_inj, neg2 t2]
    exact this
  · refine ⟨?_, hab⟩
    rw [hab, neg2 t2] at e1 e2 e3
    have z0 : U0 e' L' (0 : MPoint E.E2.A) = 1 := rfl
    have z1 : U1 e' L' m' (0 : MPoint E.E2.A) = m' := rfl
    rw [z0, z1, one_pow, mul_comm] at e1
    rw [z0, z1, one_pow, mul_comm (U0 e L _ ^ 2 - _)] at e2
    rw [z0, z1, one_mul] at e3
    have := h.f1.zero_of_ratio (glue_zero_aux ok.swap (h.f1.nz _) e1 e2 (by rw [← e3]; ring))
    rw [← add_left_inj, neg2 t1]
    exact this

end Festa
