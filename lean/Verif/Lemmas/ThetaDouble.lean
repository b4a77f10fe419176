import Verif.Lemmas.ThetaIso
/-! The doubling formula factors through a dual isogeny, preserves the Kummer surface and commutes
with isogenies. -/
namespace Festa
variable {K : Type*} [Field K]

theorem double_eq {O : ThPt K} (h : ThNull O) (P : ThPt K) :
    (ThStr.new O).double P =
      (((P.sqTheta.mul P.sqTheta).div O.sqTheta).had.div O).scale (O.X * O.sqTheta.X) := by
  have := h.nz.X; have := h.nz.Y; have := h.nz.Z; have := h.nz.T
  have := h.dual.X; have := h.dual.Y; have := h.dual.Z; have := h.dual.T
  simp only [ThStr.double, ThStr.new]
  generalize O.sqTheta = S at *
  generalize P.sqTheta = V at *
  simp only [ThPt.had, ThPt.mul, ThPt.div, ThPt.scale, ThPt.mk.injEq]
  refine ⟨?_, ?_, ?_, ?_⟩ <;> field_simp

theorem NZ.scale {P : ThPt K} (h : P.NZ) {c : K} (hc : c ≠ 0) : (P.scale c).NZ :=
  ⟨mul_ne_zero hc h.X, mul_ne_zero hc h.Y, mul_ne_zero hc h.Z, mul_ne_zero hc h.T⟩

theorem NZ.of_sqTheta {A O : ThPt K} {l : K} (h : DualOf O A l) :
    A.sqTheta = (⟨O.X ^ 2, O.Y ^ 2, O.Z ^ 2, O.T ^ 2⟩ : ThPt K).scale (4 * l) := by
  have e : A.sqTheta = (O.sqTheta.scale l).had := by
    simp only [ThPt.sqTheta, ← pow_two, h.X, h.Y, h.Z, h.T]; rfl
  rw [e, had_scale, ThPt.sqTheta, had_had, scale_scale]
  simp only [ThPt.scale, pow_two]

/-- Being dual is symmetric. -/
theorem DualOf.symm (h2 : (2 : K) ≠ 0) {A O : ThPt K} {l : K} (h : DualOf O A l) : DualOf A O (4 * l)⁻¹ := by
  have h4 : (4 : K) * l ≠ 0 := mul_ne_zero (by rw [show (4 : K) = 2 * 2 by norm_num]; exact mul_ne_zero h2 h2) h.ne
  have e := NZ.of_sqTheta h
  refine ⟨inv_ne_zero h4, ?_, ?_, ?_, ?_⟩ <;> rw [e] <;> simp only [ThPt.scale] <;>
    rw [inv_mul_cancel_left₀ h4]

theorem DualOf.nz_dual (h2 : (2 : K) ≠ 0) {A O : ThPt K} {l : K} (h : DualOf O A l) (hO : O.NZ) :
    A.sqTheta.NZ := by
  have h4 : (4 : K) * l ≠ 0 := mul_ne_zero (by rw [show (4 : K) = 2 * 2 by norm_num]; exact mul_ne_zero h2 h2) h.ne
  rw [NZ.of_sqTheta h]
  exact NZ.scale ⟨pow_ne_zero 2 hO.X, pow_ne_zero 2 hO.Y, pow_ne_zero 2 hO.Z, pow_ne_zero 2 hO.T⟩ h4

theorem sqTheta_div {A O : ThPt K} {l : K} (h : DualOf O A l) (V : ThPt K) :
    (V.div A).sqTheta = (((V.mul V).div O.sqTheta).had).scale l⁻¹ := by
  have e : ((V.mul V).div O.sqTheta).scale l⁻¹ =
      ⟨V.X / A.X * (V.X / A.X), V.Y / A.Y * (V.Y / A.Y), V.Z / A.Z * (V.Z / A.Z), V.T / A.T * (V.T / A.T)⟩ := by
    simp only [ThPt.mul, ThPt.div, ThPt.scale, ← pow_two, div_pow, h.X, h.Y, h.Z, h.T,
      ThPt.mk.injEq]
    refine ⟨?_, ?_, ?_, ?_⟩ <;> · rw [inv_mul_eq_div, div_div, mul_comm l]
  rw [← had_scale, e]; rfl

theorem div_scale (c : K) (P Q : ThPt K) : (P.scale c).div Q = (P.div Q).scale c := by
  simp only [ThPt.div, ThPt.scale, mul_div_assoc]

/-- Doubling is the dual isogeny after the isogeny. -/
theorem double_via {A O : ThPt K} {l : K} (h : DualOf O A l) (hO : ThNull O) (P : ThPt K) :
    (((P.sqTheta.div A).sqTheta.div O)).Same ((ThStr.new O).double P) := by
  refine ⟨l * (O.X * O.sqTheta.X), mul_ne_zero h.ne (mul_ne_zero hO.nz.X hO.dual.X), ?_⟩
  rw [double_eq hO, sqTheta_div h, div_scale, scale_scale, ← mul_assoc, inv_mul_cancel₀ h.ne, one_mul]

theorem kummer_double_of_dual (h2 : (2 : K) ≠ 0) {A O P : ThPt K} {l : K} (h : DualOf O A l) (hO : ThNull O)
    (hP : OnKummer O P) : OnKummer O ((ThStr.new O).double P) :=
  (kummer_iso (h.symm h2) (h.nz_dual h2 hO.nz) (kummer_iso h hO.dual hP)).same (double_via h hO P)

/-! ### Commutation -/

/-- Convolution over the Klein four group. -/
def ThPt.conv (P Q : ThPt K) : ThPt K :=
  ⟨P.X * Q.X + P.Y * Q.Y + P.Z * Q.Z + P.T * Q.T, P.X * Q.Y + P.Y * Q.X + P.Z * Q.T + P.T * Q.Z,
   P.X * Q.Z + P.Z * Q.X + P.Y * Q.T + P.T * Q.Y, P.X * Q.T + P.T * Q.X + P.Y * Q.Z + P.Z * Q.Y⟩

theorem had_mul_had (P Q : ThPt K) : P.had.mul Q.had = (P.conv Q).had := by
  simp only [ThPt.had, ThPt.mul, ThPt.conv, ThPt.mk.injEq]; refine ⟨?_, ?_, ?_, ?_⟩ <;> ring

theorem sqTheta_had (P : ThPt K) : P.had.sqTheta = (P.conv P).scale 4 := by
  simp only [ThPt.had, ThPt.sqTheta, ThPt.scale, ThPt.conv, ThPt.mk.injEq]
  refine ⟨?_, ?_, ?_, ?_⟩ <;> ring

private theorem rel_aux (hh : (2 : K) ≠ 0) {a b c d x y z t e0 e1 e2 e3 v0 v1 v2 v3 : K}
    (h0 : e0 = a^2+b^2+c^2+d^2) (h1 : e1 = a^2-b^2+c^2-d^2)
    (h2 : e2 = a^2+b^2-c^2-d^2) (h3 : e3 = a^2-b^2-c^2+d^2)
    (k0 : v0 = x^2+y^2+z^2+t^2) (k1 : v1 = x^2-y^2+z^2-t^2)
    (k2 : v2 = x^2+y^2-z^2-t^2) (k3 : v3 = x^2-y^2-z^2+t^2)
    (na : a ≠ 0) (nb : b ≠ 0) (nc : c ≠ 0) (nd : d ≠ 0)
    (n0 : e0 ≠ 0) (n1 : e1 ≠ 0) (n2 : e2 ≠ 0) (n3 : e3 ≠ 0) (nn : 2*(a*b+c*d) ≠ 0)
    (hk : kummer ⟨a, b, c, d⟩ ⟨x, y, z, t⟩ = 0) :
    b*((v0^2/e0+v1^2/e1+v2^2/e2+v3^2/e3)/a) + a*((v0^2/e0-v1^2/e1+v2^2/e2-v3^2/e3)/b)
      + d*((v0^2/e0+v1^2/e1-v2^2/e2-v3^2/e3)/c) + c*((v0^2/e0-v1^2/e1-v2^2/e2+v3^2/e3)/d)
    = 4*((2*(x*y+z*t))^2/(2*(a*b+c*d))) := by
  have key := double_rel (x := x) (y := y) (z := z) (t := t) h0 h1 h2 h3 rfl rfl rfl rfl
  simp only [kummer] at hk
  rw [← k0, ← k1, ← k2, ← k3] at key
  rw [← h0, ← h1, ← h2, ← h3] at hk
  rw [hk, mul_zero] at key
  clear hk h0 h1 h2 h3 k0 k1 k2 k3
  have i0 : v0^2/e0 = v0^2*e1*e2*e3/(e0*e1*e2*e3) := by field_simp
  have i1 : v1^2/e1 = v1^2*e0*e2*e3/(e0*e1*e2*e3) := by field_simp
  have i2 : v2^2/e2 = v2^2*e0*e1*e3/(e0*e1*e2*e3) := by field_simp
  have i3 : v3^2/e3 = v3^2*e0*e1*e2/(e0*e1*e2*e3) := by field_simp
  rw [i0, i1, i2, i3]
  clear i0 i1 i2 i3
  generalize v0^2*e1*e2*e3 = w0 at *
  generalize v1^2*e0*e2*e3 = w1 at *
  generalize v2^2*e0*e1*e3 = w2 at *
  generalize v3^2*e0*e1*e2 = w3 at *
  have hE : e0*e1*e2*e3 ≠ 0 := mul_ne_zero (mul_ne_zero (mul_ne_zero n0 n1) n2) n3
  generalize e0*e1*e2*e3 = E at *
  have nn' : a*b+c*d ≠ 0 := right_ne_zero_of_mul nn
  rw [eq_comm, mul_div_assoc', div_eq_iff nn]
  field_simp
  apply mul_left_cancel₀ hh
  linear_combination -key

theorem conv_rel (h2 : (2 : K) ≠ 0) {A U : ThPt K} (hA : A.NZ) (hd : A.sqTheta.NZ) (hc : (A.conv A).NZ)
    (hk : OnKummer A U) :
    ((((U.sqTheta.mul U.sqTheta).div A.sqTheta).had.div A).conv A) =
      (((U.conv U).mul (U.conv U)).div (A.conv A)).scale 4 := by
  obtain ⟨a, b, c, d⟩ := A
  obtain ⟨x, y, z, t⟩ := U
  obtain ⟨na, nb, nc, nd⟩ := hA
  obtain ⟨n0, n1, n2, n3⟩ := hd
  obtain ⟨m0, m1, m2, m3⟩ := hc
  simp only at na nb nc nd
  have e0 : (⟨a, b, c, d⟩ : ThPt K).sqTheta.X = a^2+b^2+c^2+d^2 := by simp only [ThPt.sqTheta, ThPt.had]; ring
  have e1 : (⟨a, b, c, d⟩ : ThPt K).sqTheta.Y = a^2-b^2+c^2-d^2 := by simp only [ThPt.sqTheta, ThPt.had]; ring
  have e2 : (⟨a, b, c, d⟩ : ThPt K).sqTheta.Z = a^2+b^2-c^2-d^2 := by simp only [ThPt.sqTheta, ThPt.had]; ring
  have e3 : (⟨a, b, c, d⟩ : ThPt K).sqTheta.T = a^2-b^2-c^2+d^2 := by simp only [ThPt.sqTheta, ThPt.had]; ring
  have v0 : (⟨x, y, z, t⟩ : ThPt K).sqTheta.X = x^2+y^2+z^2+t^2 := by simp only [ThPt.sqTheta, ThPt.had]; ring
  have v1 : (⟨x, y, z, t⟩ : ThPt K).sqTheta.Y = x^2-y^2+z^2-t^2 := by simp only [ThPt.sqTheta, ThPt.had]; ring
  have v2 : (⟨x, y, z, t⟩ : ThPt K).sqTheta.Z = x^2+y^2-z^2-t^2 := by simp only [ThPt.sqTheta, ThPt.had]; ring
  have v3 : (⟨x, y, z, t⟩ : ThPt K).sqTheta.T = x^2-y^2-z^2+t^2 := by simp only [ThPt.sqTheta, ThPt.had]; ring
  have c0 : ((⟨a, b, c, d⟩ : ThPt K).conv ⟨a, b, c, d⟩).X = a^2+b^2+c^2+d^2 := by simp only [ThPt.conv]; ring
  have c1 : ((⟨a, b, c, d⟩ : ThPt K).conv ⟨a, b, c, d⟩).Y = 2*(a*b+c*d) := by simp only [ThPt.conv]; ring
  have c2 : ((⟨a, b, c, d⟩ : ThPt K).conv ⟨a, b, c, d⟩).Z = 2*(a*c+b*d) := by simp only [ThPt.conv]; ring
  have c3 : ((⟨a, b, c, d⟩ : ThPt K).conv ⟨a, b, c, d⟩).T = 2*(a*d+c*b) := by simp only [ThPt.conv]; ring
  have u0 : ((⟨x, y, z, t⟩ : ThPt K).conv ⟨x, y, z, t⟩).X = x^2+y^2+z^2+t^2 := by simp only [ThPt.conv]; ring
  have u1 : ((⟨x, y, z, t⟩ : ThPt K).conv ⟨x, y, z, t⟩).Y = 2*(x*y+z*t) := by simp only [ThPt.conv]; ring
  have u2 : ((⟨x, y, z, t⟩ : ThPt K).conv ⟨x, y, z, t⟩).Z = 2*(x*z+y*t) := by simp only [ThPt.conv]; ring
  have u3 : ((⟨x, y, z, t⟩ : ThPt K).conv ⟨x, y, z, t⟩).T = 2*(x*t+z*y) := by simp only [ThPt.conv]; ring
  rw [c1] at m1
  rw [c2] at m2
  rw [c3] at m3
  have r1 := rel_aux h2 e0 e1 e2 e3 v0 v1 v2 v3 na nb nc nd n0 n1 n2 n3 m1 hk
  have r2 := rel_aux h2 (a := a) (b := c) (c := b) (d := d) (x := x) (y := z) (z := y) (t := t)
    (e0 := (⟨a, b, c, d⟩ : ThPt K).sqTheta.X) (e1 := (⟨a, b, c, d⟩ : ThPt K).sqTheta.Z)
    (e2 := (⟨a, b, c, d⟩ : ThPt K).sqTheta.Y) (e3 := (⟨a, b, c, d⟩ : ThPt K).sqTheta.T)
    (v0 := (⟨x, y, z, t⟩ : ThPt K).sqTheta.X) (v1 := (⟨x, y, z, t⟩ : ThPt K).sqTheta.Z)
    (v2 := (⟨x, y, z, t⟩ : ThPt K).sqTheta.Y) (v3 := (⟨x, y, z, t⟩ : ThPt K).sqTheta.T)
    (by rw [e0]; ring) (by rw [e2]; ring) (by rw [e1]; ring) (by rw [e3]; ring)
    (by rw [v0]; ring) (by rw [v2]; ring) (by rw [v1]; ring) (by rw [v3]; ring)
    na nc nb nd n0 n2 n1 n3 m2 (by have := hk; simp only [OnKummer, kummer] at this ⊢; linear_combination this)
  have r3 := rel_aux h2 (a := a) (b := d) (c := c) (d := b) (x := x) (y := t) (z := z) (t := y)
    (e0 := (⟨a, b, c, d⟩ : ThPt K).sqTheta.X) (e1 := (⟨a, b, c, d⟩ : ThPt K).sqTheta.Y)
    (e2 := (⟨a, b, c, d⟩ : ThPt K).sqTheta.T) (e3 := (⟨a, b, c, d⟩ : ThPt K).sqTheta.Z)
    (v0 := (⟨x, y, z, t⟩ : ThPt K).sqTheta.X) (v1 := (⟨x, y, z, t⟩ : ThPt K).sqTheta.Y)
    (v2 := (⟨x, y, z, t⟩ : ThPt K).sqTheta.T) (v3 := (⟨x, y, z, t⟩ : ThPt K).sqTheta.Z)
    (by rw [e0]; ring) (by rw [e1]; ring) (by rw [e3]; ring) (by rw [e2]; ring)
    (by rw [v0]; ring) (by rw [v1]; ring) (by rw [v3]; ring) (by rw [v2]; ring)
    na nd nc nb n0 n1 n3 n2 m3 (by have := hk; simp only [OnKummer, kummer] at this ⊢; linear_combination this)
  have r0 : ∀ g0 g1 g2 g3 : K, a*((g0+g1+g2+g3)/a) + b*((g0-g1+g2-g3)/b) + c*((g0+g1-g2-g3)/c)
      + d*((g0-g1-g2+g3)/d) = 4*g0 := by
    intro g0 g1 g2 g3
    field_simp; ring
  have r0 := r0 ((⟨x, y, z, t⟩ : ThPt K).sqTheta.X ^ 2 / (⟨a, b, c, d⟩ : ThPt K).sqTheta.X)
    ((⟨x, y, z, t⟩ : ThPt K).sqTheta.Y ^ 2 / (⟨a, b, c, d⟩ : ThPt K).sqTheta.Y)
    ((⟨x, y, z, t⟩ : ThPt K).sqTheta.Z ^ 2 / (⟨a, b, c, d⟩ : ThPt K).sqTheta.Z)
    ((⟨x, y, z, t⟩ : ThPt K).sqTheta.T ^ 2 / (⟨a, b, c, d⟩ : ThPt K).sqTheta.T)
  have w0 : ((⟨a, b, c, d⟩ : ThPt K).conv ⟨a, b, c, d⟩).X = (⟨a, b, c, d⟩ : ThPt K).sqTheta.X := by rw [c0, e0]
  have w0' : ((⟨x, y, z, t⟩ : ThPt K).conv ⟨x, y, z, t⟩).X = (⟨x, y, z, t⟩ : ThPt K).sqTheta.X := by rw [u0, v0]
  clear e0 e1 e2 e3 v0 v1 v2 v3 c0 u0
  generalize (⟨a, b, c, d⟩ : ThPt K).sqTheta = S at *
  generalize (⟨x, y, z, t⟩ : ThPt K).sqTheta = V at *
  generalize (⟨x, y, z, t⟩ : ThPt K).conv ⟨x, y, z, t⟩ = cU at *
  generalize hcA : (⟨a, b, c, d⟩ : ThPt K).conv ⟨a, b, c, d⟩ = cA at *
  ext
  · simp only [ThPt.scale, ThPt.div, ThPt.mul, w0, w0', ← pow_two]
    rw [← r0]; simp only [ThPt.conv, ThPt.had]; ring
  · simp only [ThPt.scale, ThPt.div, ThPt.mul, c1, u1, ← pow_two]
    rw [← r1]; simp only [ThPt.conv, ThPt.had]; ring
  · simp only [ThPt.scale, ThPt.div, ThPt.mul, c2, u2, ← pow_two]
    rw [← r2]; simp only [ThPt.conv, ThPt.had]; ring
  · simp only [ThPt.scale, ThPt.div, ThPt.mul, c3, u3, ← pow_two]
    rw [← r3]; simp only [ThPt.conv, ThPt.had]; ring

/-- Doubling on the codomain and on the domain agree under the isogeny, in dual coordinates. -/
theorem double_comm (h2 : (2 : K) ≠ 0) {A O U : ThPt K} {l : K} (h : DualOf O A l) (hO : ThNull O)
    (hA : ThNull A.had) (hk : OnKummer A U) :
    (((U.sqTheta.div O).sqTheta.div A).had).Same ((ThStr.new A.had).double U.had) := by
  have hAn := h.nz hO.dual
  have hAd := h.nz_dual h2 hO.nz
  have h4 : (4 : K) ≠ 0 := by rw [show (4 : K) = 2 * 2 by norm_num]; exact mul_ne_zero h2 h2
  have hc : (A.conv A).NZ := by
    have := hA.dual
    rw [sqTheta_had] at this
    exact ⟨right_ne_zero_of_mul this.X, right_ne_zero_of_mul this.Y, right_ne_zero_of_mul this.Z,
      right_ne_zero_of_mul this.T⟩
  have key := conv_rel h2 hAn hAd hc hk
  generalize hL : ((U.sqTheta.mul U.sqTheta).div A.sqTheta).had.div A = L at key
  have e1 : ((U.sqTheta.div O).sqTheta.div A).had = L.had.scale (4 * l) := by
    rw [sqTheta_div (h.symm h2), div_scale, had_scale, hL, inv_inv]
  have e2 : ((ThStr.new A.had).double U.had) = L.had.scale (4 * (A.had.X * A.had.sqTheta.X) * 4⁻¹) := by
    rw [double_eq hA, sqTheta_had, sqTheta_had]
    have e3 : ((((U.conv U).scale 4).mul ((U.conv U).scale 4)).div ((A.conv A).scale 4)) =
        (((U.conv U).mul (U.conv U)).div (A.conv A)).scale 4 := by
      have := hc.X; have := hc.Y; have := hc.Z; have := hc.T
      simp only [ThPt.scale, ThPt.mul, ThPt.div, ThPt.mk.injEq]
      refine ⟨?_, ?_, ?_, ?_⟩ <;> · field_simp
    rw [e3, ← key, ← had_mul_had]
    have e4 : ((L.had.mul A.had).div A.had) = L.had := by
      have := hA.nz.X; have := hA.nz.Y; have := hA.nz.Z; have := hA.nz.T
      ext <;> simp only [ThPt.mul, ThPt.div] <;> field_simp
    rw [e4]
    congr 1
    simp only [ThPt.scale]
    field_simp
  rw [e1, e2]
  refine ⟨(A.had.X * A.had.sqTheta.X) * (4 * l)⁻¹, ?_, ?_⟩
  · exact mul_ne_zero (mul_ne_zero hA.nz.X hA.dual.X) (inv_ne_zero (mul_ne_zero h4 h.ne))
  · rw [scale_scale]; congr 1
    have := h.ne
    field_simp

end Festa
