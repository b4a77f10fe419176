import Verif.Lemmas.JacAdd
/-! The relations of `JacAdd` hold for all points of a curve. -/
namespace Festa
open WeierstrassCurve.Affine
variable {K : Type*} [Field K]

section
variable {m l u0 u1 Y : K} {V W S D : ThPt K}

theorem JacAdd.scale (h : JacAdd m l V W S D) {c : K} (hc : c ≠ 0) : JacAdd m (c * l) V W (S.scale c) D := by
  refine ⟨mul_ne_zero hc h.ne, ?_, ?_, ?_, ?_, ?_, ?_, ?_, ?_, ?_, ?_, ?_, ?_, ?_, ?_, ?_, ?_⟩ <;>
    simp only [ThPt.scale]
  · linear_combination c * h.aa
  · linear_combination c * h.bb
  · linear_combination c * h.cc
  · linear_combination c * h.yy
  · linear_combination c * h.ab
  · linear_combination c * h.ba
  · linear_combination c * h.ac
  · linear_combination c * h.ca
  · linear_combination c * h.bc
  · linear_combination c * h.cb
  · linear_combination c * h.ay
  · linear_combination c * h.ya
  · linear_combination c * h.yb
  · linear_combination c * h.byy
  · linear_combination c * h.cy
  · linear_combination c * h.yc

/-- Adding the neutral element. -/
theorem jac_zero_right (hY : OnC m u0 u1 Y) : JacAdd m 1 (jv u0 u1 Y) (jv 1 m 0) (jv u0 u1 Y) (jv u0 u1 Y) := by
  rw [OnC] at hY
  refine ⟨one_ne_zero, ?_, ?_, ?_, ?_, ?_, ?_, ?_, ?_, ?_, ?_, ?_, ?_, ?_, ?_, ?_, ?_⟩ <;> simp only [jv]
  all_goals first
    | ring1
    | linear_combination 4 * hY

/-- Adding to the neutral element. -/
theorem jac_zero_left (hY : OnC m u0 u1 Y) : JacAdd m 1 (jv 1 m 0) (jv u0 u1 Y) (jv u0 u1 Y) (jv u0 u1 (-Y)) := by
  rw [OnC] at hY
  refine ⟨one_ne_zero, ?_, ?_, ?_, ?_, ?_, ?_, ?_, ?_, ?_, ?_, ?_, ?_, ?_, ?_, ?_, ?_⟩ <;> simp only [jv]
  all_goals first
    | ring1
    | linear_combination -4 * hY

/-- Doubling. -/
theorem jac_dbl (h2 : (2 : K) ≠ 0) (hm : m ≠ 0) (hp : 1 + m ^ 2 ≠ 0) (hq : 1 - m ^ 2 ≠ 0) (hY : OnC m u0 u1 Y) :
    JacAdd m 4 (jv u0 u1 Y) (jv u0 u1 Y) (jv (gd m u0 u1).1 (gd m u0 u1).2 (gy m u0 u1 Y)) (jv 1 m 0) := by
  rw [OnC] at hY
  obtain ⟨A, hA⟩ : ∃ A, A = u0 ^ 2 + u1 ^ 2 := ⟨_, rfl⟩
  obtain ⟨B, hB⟩ : ∃ B, B = u0 ^ 2 - u1 ^ 2 := ⟨_, rfl⟩
  obtain ⟨C, hC⟩ : ∃ C, C = 2 * u0 * u1 := ⟨_, rfl⟩
  obtain ⟨M, hM⟩ : ∃ M, M = 1 + m ^ 2 := ⟨_, rfl⟩
  obtain ⟨N, hN⟩ : ∃ N, N = 1 - m ^ 2 := ⟨_, rfl⟩
  have hCC : C ^ 2 = A ^ 2 - B ^ 2 := by rw [hA, hB, hC]; ring
  have hYY : 16 * m ^ 2 * Y ^ 2 = M ^ 2 * B ^ 2 - N ^ 2 * A ^ 2 := by
    rw [hA, hB, hM, hN]; linear_combination 4 * hY
  have hMN : M ^ 2 - N ^ 2 = 4 * m ^ 2 := by rw [hM, hN]; ring
  have eg : gd m u0 u1 = (A ^ 2 / M + B ^ 2 / N, (A ^ 2 / M - B ^ 2 / N) / m) := by rw [gd, hA, hB, hM, hN]
  have ey : gy m u0 u1 Y = 4 * (A * B * C * Y) / (m * (M * N)) := by rw [gy, hA, hB, hC, hM, hN]; ring
  rw [← hM] at hp
  rw [← hN] at hq
  have m2 : m ^ 2 = M - 1 := by rw [hM]; ring
  have N2 : N = 2 - M := by rw [hN, m2]; ring
  have eX : (A ^ 2 / M + B ^ 2 / N) ^ 2 + ((A ^ 2 / M - B ^ 2 / N) / m) ^ 2 =
      (A ^ 4 * N ^ 2 - 2 * A ^ 2 * B ^ 2 * N ^ 2 + M ^ 2 * B ^ 4) / (m ^ 2 * M * N ^ 2) := by
    rw [N2] at hq ⊢
    field_simp
    rw [m2]; ring
  have eY : (A ^ 2 / M + B ^ 2 / N) ^ 2 - ((A ^ 2 / M - B ^ 2 / N) / m) ^ 2 =
      (2 * M ^ 2 * A ^ 2 * B ^ 2 - N ^ 2 * A ^ 4 - M ^ 2 * B ^ 4) / (m ^ 2 * M ^ 2 * N) := by
    rw [N2] at hq ⊢
    field_simp
    rw [m2]; ring
  have eZ : 2 * (A ^ 2 / M + B ^ 2 / N) * ((A ^ 2 / M - B ^ 2 / N) / m) =
      2 * (A ^ 4 * N ^ 2 - B ^ 4 * M ^ 2) / (m * M ^ 2 * N ^ 2) := by
    field_simp; ring
  have cy : 16 * m ^ 2 * (C * Y * (C * Y)) = (A ^ 2 - B ^ 2) * (M ^ 2 * B ^ 2 - N ^ 2 * A ^ 2) := by
    rw [← hYY, ← hCC]; ring
  have ay : 16 * m ^ 2 * (A * Y * (A * Y)) = A ^ 2 * (M ^ 2 * B ^ 2 - N ^ 2 * A ^ 2) := by rw [← hYY]; ring
  have byy : 16 * m ^ 2 * (B * Y * (B * Y)) = B ^ 2 * (M ^ 2 * B ^ 2 - N ^ 2 * A ^ 2) := by rw [← hYY]; ring
  have ac : A * C * (A * C) = A ^ 2 * (A ^ 2 - B ^ 2) := by rw [← hCC]; ring
  have bc : B * C * (B * C) = B ^ 2 * (A ^ 2 - B ^ 2) := by rw [← hCC]; ring
  have o1 : (1 : K) ^ 2 + m ^ 2 = M := by rw [hM]; ring
  have o2 : (1 : K) ^ 2 - m ^ 2 = N := by rw [hN]; ring
  have h4 := four_ne h2
  refine ⟨four_ne h2, ?_, ?_, ?_, ?_, ?_, ?_, ?_, ?_, ?_, ?_, ?_, ?_, ?_, ?_, ?_, ?_⟩ <;>
    simp only [jv, eg, ey, ← hA, ← hB, ← hC, ← hM, ← hN, eX, eY, eZ, o1, o2, mul_one] <;>
    clear hA hB hC hM hN o1 o2 eX eY eZ eg ey hY
  · field_simp; ring
  · field_simp; ring
  · field_simp; ring
  · ring
  · field_simp; linear_combination cy + A ^ 2 * B ^ 2 * hMN
  · field_simp; linear_combination -cy + A ^ 2 * B ^ 2 * hMN
  · rw [ac, byy]; field_simp; ring
  · rw [ac, byy]; field_simp; ring
  · rw [bc, ay]; field_simp; ring
  · rw [bc, ay]; field_simp; ring
  · ring
  · field_simp; ring
  · field_simp; ring
  · ring
  · ring
  · field_simp; ring

end
variable [DecidableEq K] {A e L m w : K}

/-- The sum of two points with different abscissas. -/
theorem Fac.sum (h : Fac A e L m) (hw : w ≠ 0)
    (hT : w * w = (e + L) * (e + L) * (e + L) + A * (e + L) * (e + L) + (e + L)) {x1 y1 x2 y2 : K}
    (k1 : (mont A).Nonsingular x1 y1) (k2 : (mont A).Nonsingular x2 y2) (hx : x1 ≠ x2) :
    ∃ x3 y3 k3 l, (Point.some x1 y1 k1 : MPoint A) + .some x2 y2 k2 = .some x3 y3 k3 ∧
      l * (gcs e L x2 - gcs e L x1) = gcy m w y2 - gcy m w y1 ∧
      -((1 + m ^ 2) * (1 - m ^ 2)) * gcs e L x3 = l ^ 2 - 2 * (1 + m ^ 4) + (1 + m ^ 2) * (1 - m ^ 2) * (gcs e L x1 + gcs e L x2) ∧
      gcy m w y3 = l * (gcs e L x1 - gcs e L x3) - gcy m w y1 := by
  have hd : x2 - x1 ≠ 0 := sub_ne_zero.mpr (Ne.symm hx)
  obtain ⟨k3, e3⟩ := add_gen (h1 := k1) (h2 := k2) hx (div_mul_cancel₀ (y2 - y1) hd)
  have hl := div_mul_cancel₀ (y2 - y1) hd
  generalize (y2 - y1) / (x2 - x1) = l at *
  have hL := h.nL
  have hc := h.curveT hT
  have hx1 : x1 = e + L * gcs e L x1 := by rw [gcs, mul_div_cancel₀ _ hL]; ring
  have hx2 : x2 = e + L * gcs e L x2 := by rw [gcs, mul_div_cancel₀ _ hL]; ring
  have hx3 : l * l - A - x1 - x2 = e + L * gcs e L (l * l - A - x1 - x2) := by
    rw [gcs, mul_div_cancel₀ _ hL]; ring
  refine ⟨_, _, k3, 2 * m ^ 2 * L / w * l, e3, ?_, ?_, ?_⟩
  · simp only [gcs, gcy]
    field_simp
    linear_combination (2 * m ^ 2) * hl
  · have hl2 : (2 * m ^ 2 * L / w * l) ^ 2 * L = -((1 + m ^ 2) * (1 - m ^ 2)) * l ^ 2 := by
      have hw2 := pow_ne_zero 2 hw
      rw [mul_pow, div_pow, div_mul_eq_mul_div, div_mul_eq_mul_div, div_eq_iff hw2]
      linear_combination l ^ 2 * hc
    apply mul_left_cancel₀ hL
    generalize 2 * m ^ 2 * L / w * l = t at *
    generalize gcs e L (l * l - A - x1 - x2) = s3 at *
    generalize gcs e L x1 = s1 at *
    generalize gcs e L x2 = s2 at *
    subst hx1 hx2
    linear_combination -hl2 + ((1 + m ^ 2) * (1 - m ^ 2)) * hx3 + h.cub
  · generalize l * l - A - x1 - x2 = x3
    simp only [gcs, gcy]
    field_simp
    ring

namespace FacPts
variable {E : Crv K} {p q : MPoint E.A} {e L m w : K} (h : FacPts E p q e L m w)
include h

/-- **Addition on one factor.** -/
theorem jac (r s : MPoint E.A) : ∃ l, JacAdd m l (jv (U0 e L r) (U1 e L m r) (UY m w r))
    (jv (U0 e L s) (U1 e L m s) (UY m w s)) (jv (U0 e L (r + s)) (U1 e L m (r + s)) (UY m w (r + s)))
    (jv (U0 e L (r - s)) (U1 e L m (r - s)) (UY m w (r - s))) := by
  have z0 : jv (U0 e L (0 : MPoint E.A)) (U1 e L m (0 : MPoint E.A)) (UY m w (0 : MPoint E.A)) = jv 1 m 0 := rfl
  have dbl : ∀ r : MPoint E.A, ∃ l, JacAdd m l (jv (U0 e L r) (U1 e L m r) (UY m w r))
      (jv (U0 e L r) (U1 e L m r) (UY m w r)) (jv (U0 e L (r + r)) (U1 e L m (r + r)) (UY m w (r + r)))
      (jv 1 m 0) := by
    intro r
    obtain ⟨c, hc, d1, d2⟩ := h.dbl r
    have := jac_dbl (u0 := U0 e L r) (u1 := U1 e L m r) (Y := UY m w r) h.fac.two h.fac.nm h.fac.np h.fac.nq (h.onC r)
    rw [d1, d2, two_nsmul] at this
    have hs := this.scale (c := (c ^ 2)⁻¹) (inv_ne_zero (pow_ne_zero 2 hc))
    refine ⟨(c ^ 2)⁻¹ * 4, ?_⟩
    convert hs using 1
    simp only [jv, ThPt.scale, ThPt.mk.injEq]
    refine ⟨?_, ?_, ?_, ?_⟩ <;> field_simp
  by_cases hs0 : s = 0
  · subst hs0
    rw [add_zero, sub_zero, z0]
    exact ⟨1, jac_zero_right (h.onC r)⟩
  by_cases hr0 : r = 0
  · subst hr0
    rw [zero_add, zero_sub, z0]
    obtain ⟨n1, n2, n3⟩ := FacPts.neg (e := e) (L := L) (m := m) (w := w) s
    rw [n1, n2, n3]
    exact ⟨1, jac_zero_left (h.onC s)⟩
  by_cases hrs : r = s
  · subst hrs
    rw [sub_self, z0]
    exact dbl r
  by_cases hrs' : r = -s
  · have hsr : s = -r := by rw [hrs', neg_neg]
    subst hsr
    rw [add_neg_cancel, z0, sub_neg_eq_add]
    obtain ⟨n1, n2, n3⟩ := FacPts.neg (e := e) (L := L) (m := m) (w := w) r
    rw [n1, n2, n3]
    obtain ⟨l, hl⟩ := dbl r
    exact ⟨l, hl.swap⟩
  obtain ⟨x1, y1, k1, rfl⟩ := exists_some hr0
  obtain ⟨x2, y2, k2, rfl⟩ := exists_some hs0
  have hx : x1 ≠ x2 := by
    rintro rfl
    have h1 := curve_eq k1
    have h2 := curve_eq k2
    have : (y1 - y2) * (y1 + y2) = 0 := by linear_combination h1 - h2
    rcases mul_eq_zero.mp this with h0 | h0
    · exact hrs ((pt_congr (h := k1) rfl (sub_eq_zero.mp h0)).choose_spec)
    · apply hrs'
      obtain ⟨k', e1⟩ := neg_pt k2
      rw [e1]
      exact (pt_congr (h := k1) rfl (eq_neg_of_add_eq_zero_left h0)).choose_spec
  obtain ⟨x3, y3, k3, l, e3, a1, a2, a3⟩ := h.fac.sum h.yT h.cT k1 k2 hx
  obtain ⟨k2', e2⟩ := neg_pt k2
  obtain ⟨x4, y4, k4, l', e4, b1, b2, b3⟩ := h.fac.sum h.yT h.cT k1 k2' hx
  rw [sub_eq_add_neg, e2, e3, e4]
  simp only [U0, U1, UY]
  have g : gcy m w (-y2) = -gcy m w y2 := by simp only [gcy]; ring
  rw [g] at b1
  refine ⟨_, jac_gen h.fac.np h.fac.nq rfl rfl ?_ ?_ ?_ a1 ?_ a3 b1 ?_ b3⟩
  · intro h0
    apply hx
    simp only [gcs] at h0
    have hL := h.fac.nL
    field_simp at h0
    linear_combination h0
  · linear_combination h.fac.gcy_sq h.yT h.cT (curve_eq k1)
  · linear_combination h.fac.gcy_sq h.yT h.cT (curve_eq k2)
  · linear_combination a2
  · linear_combination b2

end FacPts
end Festa
