import Verif.Lemmas.ThetaMore
/-! Riemann relations between a sum and a difference of two points on a Kummer surface in theta
coordinates, and how an isogeny carries them over.  Nothing here models code; `wf` and `Riem` are
only used inside proofs. -/
namespace Festa
variable {K : Type*} [Field K]

/-- The ten even bilinear forms `Σ_t χ(t) S_{t+i} D_t`: four with `i = 0`, two for each other `i`. -/
def wf (j : Fin 10) (S D : ThPt K) : K :=
  match j with
  | 0 => S.X * D.X + S.Y * D.Y + S.Z * D.Z + S.T * D.T
  | 1 => S.X * D.X - S.Y * D.Y + S.Z * D.Z - S.T * D.T
  | 2 => S.X * D.X + S.Y * D.Y - S.Z * D.Z - S.T * D.T
  | 3 => S.X * D.X - S.Y * D.Y - S.Z * D.Z + S.T * D.T
  | 4 => S.X * D.Y + S.Y * D.X + (S.Z * D.T + S.T * D.Z)
  | 5 => S.X * D.Y + S.Y * D.X - (S.Z * D.T + S.T * D.Z)
  | 6 => S.X * D.Z + S.Z * D.X + (S.Y * D.T + S.T * D.Y)
  | 7 => S.X * D.Z + S.Z * D.X - (S.Y * D.T + S.T * D.Y)
  | 8 => S.X * D.T + S.T * D.X + (S.Y * D.Z + S.Z * D.Y)
  | 9 => S.X * D.T + S.T * D.X - (S.Y * D.Z + S.Z * D.Y)

/-- `S` and `D` are related to `X` and `Y` like a sum and a difference. -/
def Riem (O X Y S D : ThPt K) : Prop :=
  ∃ c : K, c ≠ 0 ∧ ∀ j, wf j S D * wf j O O = c * (wf j X X * wf j Y Y)

/-- The six even constants that do not appear in `ThNull`. -/
structure SixNZ (O : ThPt K) : Prop where
  h4 : wf 4 O O ≠ 0
  h5 : wf 5 O O ≠ 0
  h6 : wf 6 O O ≠ 0
  h7 : wf 7 O O ≠ 0
  h8 : wf 8 O O ≠ 0
  h9 : wf 9 O O ≠ 0

theorem wf_comm (j : Fin 10) (S D : ThPt K) : wf j S D = wf j D S := by
  fin_cases j <;> simp only [wf] <;> ring

theorem wf_scale_left (j : Fin 10) (c : K) (S D : ThPt K) : wf j (S.scale c) D = c * wf j S D := by
  fin_cases j <;> simp only [wf, ThPt.scale] <;> ring

theorem wf_scale_right (j : Fin 10) (c : K) (S D : ThPt K) : wf j S (D.scale c) = c * wf j S D := by
  rw [wf_comm, wf_scale_left, wf_comm]

theorem wf_scale_both (j : Fin 10) (c : K) (S : ThPt K) : wf j (S.scale c) (S.scale c) = c ^ 2 * wf j S S := by
  rw [wf_scale_left, wf_scale_right]; ring

theorem Riem.same {O X Y S D O' X' Y' S' D' : ThPt K} (h : Riem O X Y S D) (hO : O.Same O')
    (hX : X.Same X') (hY : Y.Same Y') (hS : S.Same S') (hD : D.Same D') : Riem O' X' Y' S' D' := by
  obtain ⟨c, hc, h⟩ := h
  obtain ⟨o, ho, rfl⟩ := hO
  obtain ⟨x, hx, rfl⟩ := hX
  obtain ⟨y, hy, rfl⟩ := hY
  obtain ⟨s, hs, rfl⟩ := hS
  obtain ⟨d, hd, rfl⟩ := hD
  refine ⟨c * s * d * o ^ 2 / (x ^ 2 * y ^ 2), div_ne_zero (by simp [*]) (by simp [*]), fun j => ?_⟩
  rw [wf_scale_left, wf_scale_right, wf_scale_both, wf_scale_both, wf_scale_both, div_mul_eq_mul_div,
    eq_div_iff (by simp [*])]
  linear_combination s * d * o ^ 2 * (x ^ 2 * y ^ 2) * h j

theorem Riem.swap {O X Y S D : ThPt K} (h : Riem O X Y S D) : Riem O X Y D S := by
  obtain ⟨c, hc, h⟩ := h
  exact ⟨c, hc, fun j => by rw [wf_comm, h]⟩

theorem Riem.symm {O X Y S D : ThPt K} (h : Riem O X Y S D) : Riem O Y X S D := by
  obtain ⟨c, hc, h⟩ := h
  exact ⟨c, hc, fun j => by rw [h, mul_comm (wf j X X)]⟩

theorem Riem.null (O X : ThPt K) : Riem O X O X X :=
  ⟨1, one_ne_zero, fun j => by rw [one_mul]⟩

/-- Hadamard's transform carries the relation over. -/
theorem Riem.had {O X Y S D : ThPt K} (h : Riem O X Y S D) :
    Riem O.had X.had Y.had S.had D.had := by
  obtain ⟨c, hc, h⟩ := h
  have w0 : ∀ S D : ThPt K, wf 0 S.had D.had = 4 * wf 0 S D := by
    intro S D; simp only [wf, ThPt.had]; ring
  have w1 : ∀ S D : ThPt K, wf 1 S.had D.had = 4 * wf 4 S D := by
    intro S D; simp only [wf, ThPt.had]; ring
  have w2 : ∀ S D : ThPt K, wf 2 S.had D.had = 4 * wf 6 S D := by
    intro S D; simp only [wf, ThPt.had]; ring
  have w3 : ∀ S D : ThPt K, wf 3 S.had D.had = 4 * wf 8 S D := by
    intro S D; simp only [wf, ThPt.had]; ring
  have w4 : ∀ S D : ThPt K, wf 4 S.had D.had = 4 * wf 1 S D := by
    intro S D; simp only [wf, ThPt.had]; ring
  have w5 : ∀ S D : ThPt K, wf 5 S.had D.had = 4 * wf 7 S D := by
    intro S D; simp only [wf, ThPt.had]; ring
  have w6 : ∀ S D : ThPt K, wf 6 S.had D.had = 4 * wf 2 S D := by
    intro S D; simp only [wf, ThPt.had]; ring
  have w7 : ∀ S D : ThPt K, wf 7 S.had D.had = 4 * wf 5 S D := by
    intro S D; simp only [wf, ThPt.had]; ring
  have w8 : ∀ S D : ThPt K, wf 8 S.had D.had = 4 * wf 3 S D := by
    intro S D; simp only [wf, ThPt.had]; ring
  have w9 : ∀ S D : ThPt K, wf 9 S.had D.had = 4 * wf 9 S D := by
    intro S D; simp only [wf, ThPt.had]; ring
  refine ⟨c, hc, fun j => ?_⟩
  fin_cases j
  · show wf 0 _ _ * wf 0 _ _ = c * (wf 0 _ _ * wf 0 _ _); simp only [w0]; linear_combination 16 * h 0
  · show wf 1 _ _ * wf 1 _ _ = c * (wf 1 _ _ * wf 1 _ _); simp only [w1]; linear_combination 16 * h 4
  · show wf 2 _ _ * wf 2 _ _ = c * (wf 2 _ _ * wf 2 _ _); simp only [w2]; linear_combination 16 * h 6
  · show wf 3 _ _ * wf 3 _ _ = c * (wf 3 _ _ * wf 3 _ _); simp only [w3]; linear_combination 16 * h 8
  · show wf 4 _ _ * wf 4 _ _ = c * (wf 4 _ _ * wf 4 _ _); simp only [w4]; linear_combination 16 * h 1
  · show wf 5 _ _ * wf 5 _ _ = c * (wf 5 _ _ * wf 5 _ _); simp only [w5]; linear_combination 16 * h 7
  · show wf 6 _ _ * wf 6 _ _ = c * (wf 6 _ _ * wf 6 _ _); simp only [w6]; linear_combination 16 * h 2
  · show wf 7 _ _ * wf 7 _ _ = c * (wf 7 _ _ * wf 7 _ _); simp only [w7]; linear_combination 16 * h 5
  · show wf 8 _ _ * wf 8 _ _ = c * (wf 8 _ _ * wf 8 _ _); simp only [w8]; linear_combination 16 * h 3
  · show wf 9 _ _ * wf 9 _ _ = c * (wf 9 _ _ * wf 9 _ _); simp only [w9]; linear_combination 16 * h 9

/-! ### The doubling relation -/

/-- Four times the double of a point, without denominators cleared. -/
def dblv (O X : ThPt K) : ThPt K := ((X.sqTheta.mul X.sqTheta).div O.sqTheta).had.div O

private theorem wf_dblv_even {O : ThPt K} (hO : ThNull O) (X : ThPt K) :
    wf 0 (dblv O X) O * wf 0 O O = 4 * wf 0 X X ^ 2 ∧ wf 1 (dblv O X) O * wf 1 O O = 4 * wf 1 X X ^ 2 ∧
    wf 2 (dblv O X) O * wf 2 O O = 4 * wf 2 X X ^ 2 ∧ wf 3 (dblv O X) O * wf 3 O O = 4 * wf 3 X X ^ 2 := by
  obtain ⟨hx, hy, hz, ht⟩ := hO.nz
  obtain ⟨dx, dy, dz, dt⟩ := hO.dual
  have e0 : wf 0 O O = O.sqTheta.X := by simp only [wf, ThPt.sqTheta, ThPt.had]; ring
  have e1 : wf 1 O O = O.sqTheta.Y := by simp only [wf, ThPt.sqTheta, ThPt.had]; ring
  have e2 : wf 2 O O = O.sqTheta.Z := by simp only [wf, ThPt.sqTheta, ThPt.had]; ring
  have e3 : wf 3 O O = O.sqTheta.T := by simp only [wf, ThPt.sqTheta, ThPt.had]; ring
  have f0 : wf 0 X X = X.sqTheta.X := by simp only [wf, ThPt.sqTheta, ThPt.had]; ring
  have f1 : wf 1 X X = X.sqTheta.Y := by simp only [wf, ThPt.sqTheta, ThPt.had]; ring
  have f2 : wf 2 X X = X.sqTheta.Z := by simp only [wf, ThPt.sqTheta, ThPt.had]; ring
  have f3 : wf 3 X X = X.sqTheta.T := by simp only [wf, ThPt.sqTheta, ThPt.had]; ring
  rw [e0, e1, e2, e3, f0, f1, f2, f3]
  generalize hS : O.sqTheta = S at *
  simp only [dblv, hS]
  generalize X.sqTheta = V at *
  simp only [wf, ThPt.had, ThPt.mul, ThPt.div, div_mul_cancel₀ _ hx, div_mul_cancel₀ _ hy,
    div_mul_cancel₀ _ hz, div_mul_cancel₀ _ ht]
  refine ⟨?_, ?_, ?_, ?_⟩
  · field_simp; ring
  · field_simp; ring
  · field_simp; ring
  · field_simp; ring

private theorem dbl_aux {a b c d : K} (p0 p1 p2 p3 m e0 e1 e2 e3 s0 s1 s2 s3 : K)
    (ha : a ≠ 0) (hb : b ≠ 0) (hc : c ≠ 0) (hd : d ≠ 0)
    (h0 : e0 = p0 + 2 * p1 + 2 * p2 + 2 * p3) (h1 : e1 = p0 - 2 * p1 + 2 * p2 - 2 * p3)
    (h2 : e2 = p0 + 2 * p1 - 2 * p2 - 2 * p3) (h3 : e3 = p0 - 2 * p1 - 2 * p2 + 2 * p3)
    (g0 : s0 = a ^ 2 + b ^ 2 + c ^ 2 + d ^ 2) (g1 : s1 = a ^ 2 - b ^ 2 + c ^ 2 - d ^ 2)
    (g2 : s2 = a ^ 2 + b ^ 2 - c ^ 2 - d ^ 2) (g3 : s3 = a ^ 2 - b ^ 2 - c ^ 2 + d ^ 2)
    (n0 : s0 ≠ 0) (n1 : s1 ≠ 0) (n2 : s2 ≠ 0) (n3 : s3 ≠ 0)
    (k : (a^2*b^2-c^2*d^2)*(a^2*c^2-b^2*d^2)*(a^2*d^2-b^2*c^2) * p0
      - (a^4+b^4-c^4-d^4)*(a^2*c^2-b^2*d^2)*(a^2*d^2-b^2*c^2)*p1
      - (a^4-b^4+c^4-d^4)*(a^2*b^2-c^2*d^2)*(a^2*d^2-b^2*c^2)*p2
      - (a^4-b^4-c^4+d^4)*(a^2*b^2-c^2*d^2)*(a^2*c^2-b^2*d^2)*p3
      + 2*(a*b*c*d)*(s0*s1*s2*s3)*m = 0) :
    ((e0/s0+e1/s1+e2/s2+e3/s3)/a*b + (e0/s0-e1/s1+e2/s2-e3/s3)/b*a
      + ((e0/s0+e1/s1-e2/s2-e3/s3)/c*d + (e0/s0-e1/s1-e2/s2+e3/s3)/d*c)) * (2*(a*b+c*d))
      = 16 * (p1 + 2 * m) := by
  have hne : a * b * c * d * (s0 * s1 * s2 * s3) ≠ 0 :=
    mul_ne_zero (mul_ne_zero (mul_ne_zero (mul_ne_zero ha hb) hc) hd)
      (mul_ne_zero (mul_ne_zero (mul_ne_zero n0 n1) n2) n3)
  apply mul_left_cancel₀ hne
  have : a * b * c * d * (s0 * s1 * s2 * s3) * (((e0/s0+e1/s1+e2/s2+e3/s3)/a*b + (e0/s0-e1/s1+e2/s2-e3/s3)/b*a
      + ((e0/s0+e1/s1-e2/s2-e3/s3)/c*d + (e0/s0-e1/s1-e2/s2+e3/s3)/d*c)) * (2*(a*b+c*d))) =
      2*(a*b+c*d)*((b^2*c*d)*(e0*s1*s2*s3+e1*s0*s2*s3+e2*s0*s1*s3+e3*s0*s1*s2)
      + (a^2*c*d)*(e0*s1*s2*s3-e1*s0*s2*s3+e2*s0*s1*s3-e3*s0*s1*s2)
      + (d^2*a*b)*(e0*s1*s2*s3+e1*s0*s2*s3-e2*s0*s1*s3-e3*s0*s1*s2)
      + (c^2*a*b)*(e0*s1*s2*s3-e1*s0*s2*s3-e2*s0*s1*s3+e3*s0*s1*s2)) := by
    field_simp; ring
  rw [this]
  subst h0 h1 h2 h3 g0 g1 g2 g3
  linear_combination (-16) * k

private theorem wf_dblv_odd {O : ThPt K} (hO : ThNull O) {X : ThPt K} (hX : OnKummer O X) :
    wf 4 (dblv O X) O * wf 4 O O = 4 * wf 4 X X ^ 2 ∧ wf 5 (dblv O X) O * wf 5 O O = 4 * wf 5 X X ^ 2 ∧
    wf 6 (dblv O X) O * wf 6 O O = 4 * wf 6 X X ^ 2 ∧ wf 7 (dblv O X) O * wf 7 O O = 4 * wf 7 X X ^ 2 ∧
    wf 8 (dblv O X) O * wf 8 O O = 4 * wf 8 X X ^ 2 ∧ wf 9 (dblv O X) O * wf 9 O O = 4 * wf 9 X X ^ 2 := by
  obtain ⟨ha, hb, hc, hd⟩ := hO.nz
  obtain ⟨n0, n1, n2, n3⟩ := hO.dual
  have hX : kummer O X = 0 := hX
  simp only [kummer] at hX
  obtain ⟨a, b, c, d⟩ := O
  obtain ⟨x, y, z, t⟩ := X
  simp only at ha hb hc hd hX
  have g0 : (⟨a, b, c, d⟩ : ThPt K).sqTheta.X = a ^ 2 + b ^ 2 + c ^ 2 + d ^ 2 := by
    simp only [ThPt.sqTheta, ThPt.had]; ring
  have g1 : (⟨a, b, c, d⟩ : ThPt K).sqTheta.Y = a ^ 2 - b ^ 2 + c ^ 2 - d ^ 2 := by
    simp only [ThPt.sqTheta, ThPt.had]; ring
  have g2 : (⟨a, b, c, d⟩ : ThPt K).sqTheta.Z = a ^ 2 + b ^ 2 - c ^ 2 - d ^ 2 := by
    simp only [ThPt.sqTheta, ThPt.had]; ring
  have g3 : (⟨a, b, c, d⟩ : ThPt K).sqTheta.T = a ^ 2 - b ^ 2 - c ^ 2 + d ^ 2 := by
    simp only [ThPt.sqTheta, ThPt.had]; ring
  have h0 : (⟨x, y, z, t⟩ : ThPt K).sqTheta.X * (⟨x, y, z, t⟩ : ThPt K).sqTheta.X =
      x^4+y^4+z^4+t^4 + 2*(x^2*y^2+z^2*t^2) + 2*(x^2*z^2+y^2*t^2) + 2*(x^2*t^2+y^2*z^2) := by
    simp only [ThPt.sqTheta, ThPt.had]; ring
  have h1 : (⟨x, y, z, t⟩ : ThPt K).sqTheta.Y * (⟨x, y, z, t⟩ : ThPt K).sqTheta.Y =
      x^4+y^4+z^4+t^4 - 2*(x^2*y^2+z^2*t^2) + 2*(x^2*z^2+y^2*t^2) - 2*(x^2*t^2+y^2*z^2) := by
    simp only [ThPt.sqTheta, ThPt.had]; ring
  have h2 : (⟨x, y, z, t⟩ : ThPt K).sqTheta.Z * (⟨x, y, z, t⟩ : ThPt K).sqTheta.Z =
      x^4+y^4+z^4+t^4 + 2*(x^2*y^2+z^2*t^2) - 2*(x^2*z^2+y^2*t^2) - 2*(x^2*t^2+y^2*z^2) := by
    simp only [ThPt.sqTheta, ThPt.had]; ring
  have h3 : (⟨x, y, z, t⟩ : ThPt K).sqTheta.T * (⟨x, y, z, t⟩ : ThPt K).sqTheta.T =
      x^4+y^4+z^4+t^4 - 2*(x^2*y^2+z^2*t^2) - 2*(x^2*z^2+y^2*t^2) + 2*(x^2*t^2+y^2*z^2) := by
    simp only [ThPt.sqTheta, ThPt.had]; ring
  simp only [dblv, ThPt.mul]
  generalize (⟨x, y, z, t⟩ : ThPt K).sqTheta.X * (⟨x, y, z, t⟩ : ThPt K).sqTheta.X = e0 at *
  generalize (⟨x, y, z, t⟩ : ThPt K).sqTheta.Y * (⟨x, y, z, t⟩ : ThPt K).sqTheta.Y = e1 at *
  generalize (⟨x, y, z, t⟩ : ThPt K).sqTheta.Z * (⟨x, y, z, t⟩ : ThPt K).sqTheta.Z = e2 at *
  generalize (⟨x, y, z, t⟩ : ThPt K).sqTheta.T * (⟨x, y, z, t⟩ : ThPt K).sqTheta.T = e3 at *
  simp only [ThPt.div]
  generalize (⟨a, b, c, d⟩ : ThPt K).sqTheta.X = s0 at *
  generalize (⟨a, b, c, d⟩ : ThPt K).sqTheta.Y = s1 at *
  generalize (⟨a, b, c, d⟩ : ThPt K).sqTheta.Z = s2 at *
  generalize (⟨a, b, c, d⟩ : ThPt K).sqTheta.T = s3 at *
  rw [← g0, ← g1, ← g2, ← g3] at hX
  simp only [wf, ThPt.had]
  refine ⟨?_, ?_, ?_, ?_, ?_, ?_⟩
  · have := dbl_aux (x^4+y^4+z^4+t^4) (x^2*y^2+z^2*t^2) (x^2*z^2+y^2*t^2) (x^2*t^2+y^2*z^2) (x*y*z*t)
      e0 e1 e2 e3 s0 s1 s2 s3 ha hb hc hd h0 h1 h2 h3 g0 g1 g2 g3 n0 n1 n2 n3 (by linear_combination hX)
    linear_combination this
  · have := dbl_aux (x^4+y^4+z^4+t^4) (x^2*y^2+z^2*t^2) (x^2*z^2+y^2*t^2) (x^2*t^2+y^2*z^2) (-(x*y*z*t))
      e0 e1 e2 e3 s0 s1 s2 s3 ha hb hc (neg_ne_zero.mpr hd) h0 h1 h2 h3 (by rw [g0]; ring) (by rw [g1]; ring)
      (by rw [g2]; ring) (by rw [g3]; ring) n0 n1 n2 n3 (by linear_combination hX)
    simp only [div_neg] at this
    linear_combination this
  · have := dbl_aux (x^4+y^4+z^4+t^4) (x^2*z^2+y^2*t^2) (x^2*y^2+z^2*t^2) (x^2*t^2+y^2*z^2) (x*y*z*t)
      e0 e2 e1 e3 s0 s2 s1 s3 ha hc hb hd (by rw [h0]; ring) (by rw [h2]; ring) (by rw [h1]; ring) (by rw [h3]; ring)
      (by rw [g0]; ring) (by rw [g2]; ring) (by rw [g1]; ring) (by rw [g3]; ring) n0 n2 n1 n3 (by linear_combination hX)
    linear_combination this
  · have := dbl_aux (x^4+y^4+z^4+t^4) (x^2*z^2+y^2*t^2) (x^2*y^2+z^2*t^2) (x^2*t^2+y^2*z^2) (-(x*y*z*t))
      e0 e2 e1 e3 s0 s2 s1 s3 ha hc hb (neg_ne_zero.mpr hd) (by rw [h0]; ring) (by rw [h2]; ring) (by rw [h1]; ring) (by rw [h3]; ring)
      (by rw [g0]; ring) (by rw [g2]; ring) (by rw [g1]; ring) (by rw [g3]; ring) n0 n2 n1 n3 (by linear_combination hX)
    simp only [div_neg] at this
    linear_combination this
  · have := dbl_aux (x^4+y^4+z^4+t^4) (x^2*t^2+y^2*z^2) (x^2*z^2+y^2*t^2) (x^2*y^2+z^2*t^2) (x*y*z*t)
      e0 e1 e3 e2 s0 s1 s3 s2 ha hd hc hb (by rw [h0]; ring) (by rw [h1]; ring) (by rw [h3]; ring) (by rw [h2]; ring)
      (by rw [g0]; ring) (by rw [g1]; ring) (by rw [g3]; ring) (by rw [g2]; ring) n0 n1 n3 n2 (by linear_combination hX)
    linear_combination this
  · have := dbl_aux (x^4+y^4+z^4+t^4) (x^2*t^2+y^2*z^2) (x^2*z^2+y^2*t^2) (x^2*y^2+z^2*t^2) (-(x*y*z*t))
      e0 e1 e3 e2 s0 s1 s3 s2 ha hd hc (neg_ne_zero.mpr hb) (by rw [h0]; ring) (by rw [h1]; ring) (by rw [h3]; ring) (by rw [h2]; ring)
      (by rw [g0]; ring) (by rw [g1]; ring) (by rw [g3]; ring) (by rw [g2]; ring) n0 n1 n3 n2 (by linear_combination hX)
    simp only [div_neg] at this
    linear_combination this

theorem wf_dblv {O : ThPt K} (hO : ThNull O) {X : ThPt K} (hX : OnKummer O X) (j : Fin 10) :
    wf j (dblv O X) O * wf j O O = 4 * wf j X X ^ 2 := by
  obtain ⟨a0, a1, a2, a3⟩ := wf_dblv_even hO X
  obtain ⟨a4, a5, a6, a7, a8, a9⟩ := wf_dblv_odd hO hX
  fin_cases j
  exacts [a0, a1, a2, a3, a4, a5, a6, a7, a8, a9]

theorem dblv_same {O : ThPt K} (hO : ThNull O) (X : ThPt K) : (dblv O X).Same ((ThStr.new O).double X) :=
  ⟨O.X * O.sqTheta.X, mul_ne_zero hO.nz.X hO.dual.X, double_eq hO X⟩

/-- A point on the surface is related to itself, with its double as the sum. -/
theorem Riem.double (h2 : (2 : K) ≠ 0) {O : ThPt K} (hO : ThNull O) {X : ThPt K} (hX : OnKummer O X) :
    Riem O X X ((ThStr.new O).double X) O :=
  Riem.same (S := dblv O X) ⟨4, four_ne h2, fun j => by rw [wf_dblv hO hX, pow_two]⟩
    (.refl _) (.refl _) (.refl _) (dblv_same hO X) (.refl _)

end Festa
