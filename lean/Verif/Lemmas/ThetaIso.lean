import Verif.Lemmas.Theta
/-! Squared theta coordinates map Kummer surfaces to Kummer surfaces. -/
namespace Festa
variable {K : Type*} [Field K]

/-- The Kummer quartic in terms of the squares and of the product of all coordinates. -/
def kummerSq (a b c d x y z t m : K) : K :=
  (a*b-c*d)*(a*c-b*d)*(a*d-b*c) * (x^2+y^2+z^2+t^2)
    - (a^2+b^2-c^2-d^2)*(a*c-b*d)*(a*d-b*c)*(x*y+z*t)
    - (a^2-b^2+c^2-d^2)*(a*b-c*d)*(a*d-b*c)*(x*z+y*t)
    - (a^2-b^2-c^2+d^2)*(a*b-c*d)*(a*c-b*d)*(x*t+y*z)
    + 2*((a+b+c+d)*(a-b+c-d)*(a+b-c-d)*(a-b-c+d))*m

theorem kummer_eq_sq (O P : ThPt K) : kummer O P = kummerSq (O.X^2) (O.Y^2) (O.Z^2) (O.T^2)
    (P.X^2) (P.Y^2) (P.Z^2) (P.T^2) (O.X*O.Y*O.Z*O.T*(P.X*P.Y*P.Z*P.T)) := by
  simp only [kummer, kummerSq]; ring

/-- Coordinatewise quotient. -/
def ThPt.div (P Q : ThPt K) : ThPt K := ⟨P.X / Q.X, P.Y / Q.Y, P.Z / Q.Z, P.T / Q.T⟩
/-- Coordinatewise product. -/
def ThPt.mul (P Q : ThPt K) : ThPt K := ⟨P.X * Q.X, P.Y * Q.Y, P.Z * Q.Z, P.T * Q.T⟩

/-- `A` is a dual null point over `O`: its squares are proportional to the squared theta
coordinates of `O`. -/
structure DualOf (O A : ThPt K) (l : K) : Prop where
  ne : l ≠ 0
  X : A.X ^ 2 = l * O.sqTheta.X
  Y : A.Y ^ 2 = l * O.sqTheta.Y
  Z : A.Z ^ 2 = l * O.sqTheta.Z
  T : A.T ^ 2 = l * O.sqTheta.T

theorem DualOf.nz {O A : ThPt K} {l : K} (h : DualOf O A l) (hO : O.sqTheta.NZ) : A.NZ := by
  refine ⟨fun e => ?_, fun e => ?_, fun e => ?_, fun e => ?_⟩
  · exact mul_ne_zero h.ne hO.X (by rw [← h.X, e]; ring)
  · exact mul_ne_zero h.ne hO.Y (by rw [← h.Y, e]; ring)
  · exact mul_ne_zero h.ne hO.Z (by rw [← h.Z, e]; ring)
  · exact mul_ne_zero h.ne hO.T (by rw [← h.T, e]; ring)

private theorem kiso_aux {a b c d x y z t e0 e1 e2 e3 s0 s1 s2 s3 l m : K}
    (h0 : e0 = a+b+c+d) (h1 : e1 = a-b+c-d) (h2 : e2 = a+b-c-d) (h3 : e3 = a-b-c+d)
    (m0 : s0 = x+y+z+t) (m1 : s1 = x-y+z-t) (m2 : s2 = x+y-z-t) (m3 : s3 = x-y-z+t)
    (n0 : e0 ≠ 0) (n1 : e1 ≠ 0) (n2 : e2 ≠ 0) (n3 : e3 ≠ 0) (hl : l ≠ 0)
    (hm : m ^ 2 = a*b*c*d*(x*y*z*t))
    (hk : kummerSq a b c d x y z t m = 0) :
    kummerSq (l*e0) (l*e1) (l*e2) (l*e3) (s0^2/(l*e0)) (s1^2/(l*e1)) (s2^2/(l*e2)) (s3^2/(l*e3))
      (s0*s1*s2*s3) = 0 := by
  have key := pres_aux x y z t m0 m1 m2 m3 h0 h1 h2 h3 rfl rfl rfl rfl rfl rfl rfl rfl rfl rfl rfl rfl
    rfl rfl rfl rfl
  have hz : (((a*b-c*d)*(a*c-b*d)*(a*d-b*c)) * (x^2+y^2+z^2+t^2)
      - ((a^2+b^2-c^2-d^2)*(a*c-b*d)*(a*d-b*c))*(x*y+z*t)
      - ((a^2-b^2+c^2-d^2)*(a*b-c*d)*(a*d-b*c))*(x*z+y*t)
      - ((a^2-b^2-c^2+d^2)*(a*b-c*d)*(a*c-b*d))*(x*t+y*z))^2
      - (4*(a*b*c*d)*(e0*e1*e2*e3)^2)*(x*y*z*t) = 0 := by
    rw [kummerSq, ← h0, ← h1, ← h2, ← h3] at hk
    generalize ((a*b-c*d)*(a*c-b*d)*(a*d-b*c)) * (x^2+y^2+z^2+t^2)
      - ((a^2+b^2-c^2-d^2)*(a*c-b*d)*(a*d-b*c))*(x*y+z*t)
      - ((a^2-b^2+c^2-d^2)*(a*b-c*d)*(a*d-b*c))*(x*z+y*t)
      - ((a^2-b^2-c^2+d^2)*(a*b-c*d)*(a*c-b*d))*(x*t+y*z) = F at hk ⊢
    linear_combination (F - 2*(e0*e1*e2*e3)*m)*hk + 4*(e0*e1*e2*e3)^2*hm
  rw [hz, mul_zero] at key
  have d1 : e0*e1 - e2*e3 = 4*(a*c-b*d) := by subst h0 h1 h2 h3; ring
  have d2 : e0*e2 - e1*e3 = 4*(a*b-c*d) := by subst h0 h1 h2 h3; ring
  have d3 : e0*e3 - e1*e2 = 4*(a*d-b*c) := by subst h0 h1 h2 h3; ring
  have f1 : e0^2+e1^2-e2^2-e3^2 = 8*(a*c+b*d) := by subst h0 h1 h2 h3; ring
  have f2 : e0^2-e1^2+e2^2-e3^2 = 8*(a*b+c*d) := by subst h0 h1 h2 h3; ring
  have f3 : e0^2-e1^2-e2^2+e3^2 = 8*(a*d+b*c) := by subst h0 h1 h2 h3; ring
  have g0 : e0+e1+e2+e3 = 4*a := by subst h0 h1 h2 h3; ring
  have g1 : e0-e1+e2-e3 = 4*b := by subst h0 h1 h2 h3; ring
  have g2 : e0+e1-e2-e3 = 4*c := by subst h0 h1 h2 h3; ring
  have g3 : e0-e1-e2+e3 = 4*d := by subst h0 h1 h2 h3; ring
  have e : kummerSq (l*e0) (l*e1) (l*e2) (l*e3) (s0^2/(l*e0)) (s1^2/(l*e1)) (s2^2/(l*e2))
      (s3^2/(l*e3)) (s0*s1*s2*s3) =
      l^6*((e0*e1-e2*e3)*(e0*e2-e1*e3)*(e0*e3-e1*e2))
        *((s0^2/(l*e0))^2+(s1^2/(l*e1))^2+(s2^2/(l*e2))^2+(s3^2/(l*e3))^2)
      - l^6*((e0^2+e1^2-e2^2-e3^2)*(e0*e2-e1*e3)*(e0*e3-e1*e2))
        *(s0^2/(l*e0)*(s1^2/(l*e1))+s2^2/(l*e2)*(s3^2/(l*e3)))
      - l^6*((e0^2-e1^2+e2^2-e3^2)*(e0*e1-e2*e3)*(e0*e3-e1*e2))
        *(s0^2/(l*e0)*(s2^2/(l*e2))+s1^2/(l*e1)*(s3^2/(l*e3)))
      - l^6*((e0^2-e1^2-e2^2+e3^2)*(e0*e1-e2*e3)*(e0*e2-e1*e3))
        *(s0^2/(l*e0)*(s3^2/(l*e3))+s1^2/(l*e1)*(s2^2/(l*e2)))
      + 2*l^4*((e0+e1+e2+e3)*(e0-e1+e2-e3)*(e0+e1-e2-e3)*(e0-e1-e2+e3))*(s0*s1*s2*s3) := by
    rw [kummerSq]; ring
  rw [e, d1, d2, d3, f1, f2, f3, g0, g1, g2, g3]
  clear e d1 d2 d3 f1 f2 f3 g0 g1 g2 g3 hz hk h0 h1 h2 h3 m0 m1 m2 m3 hm
  generalize a*c-b*d = D2 at key ⊢
  generalize a*b-c*d = D1 at key ⊢
  generalize a*d-b*c = D3 at key ⊢
  generalize a*c+b*d = N1 at key ⊢
  generalize a*b+c*d = N2 at key ⊢
  generalize a*d+b*c = N3 at key ⊢
  have hE : l*(e0*e1*e2*e3) ≠ 0 := mul_ne_zero hl (mul_ne_zero (mul_ne_zero (mul_ne_zero n0 n1) n2) n3)
  obtain ⟨j, hj⟩ : ∃ j, l*(e0*e1*e2*e3)*j = 1 := ⟨_, mul_inv_cancel₀ hE⟩
  have i0 : s0^2/(l*e0) = s0^2*(e1*e2*e3)*j := by field_simp; linear_combination -s0^2*hj
  have i1 : s1^2/(l*e1) = s1^2*(e0*e2*e3)*j := by field_simp; linear_combination -s1^2*hj
  have i2 : s2^2/(l*e2) = s2^2*(e0*e1*e3)*j := by field_simp; linear_combination -s2^2*hj
  have i3 : s3^2/(l*e3) = s3^2*(e0*e1*e2)*j := by field_simp; linear_combination -s3^2*hj
  rw [i0, i1, i2, i3]
  clear i0 i1 i2 i3
  linear_combination 64*l^6*j^2*key - 512*l^4*(a*b*c*d)*(s0*s1*s2*s3)*(l*(e0*e1*e2*e3)*j+1)*hj

/-- Squared theta coordinates divided by a dual null point lead from the Kummer surface of `O` to
that of `A`. -/
theorem kummer_iso {O A P : ThPt K} {l : K} (h : DualOf O A l) (hO : O.sqTheta.NZ)
    (hP : OnKummer O P) : OnKummer A (P.sqTheta.div A) := by
  have hA := h.nz hO
  have hm : A.X*A.Y*A.Z*A.T*((P.sqTheta.div A).X*(P.sqTheta.div A).Y*(P.sqTheta.div A).Z*(P.sqTheta.div A).T)
      = P.sqTheta.X*P.sqTheta.Y*P.sqTheta.Z*P.sqTheta.T := by
    have := hA.X; have := hA.Y; have := hA.Z; have := hA.T
    simp only [ThPt.div]; field_simp
  rw [OnKummer, kummer_eq_sq, hm]
  simp only [ThPt.div, div_pow, h.X, h.Y, h.Z, h.T]
  rw [OnKummer, kummer_eq_sq] at hP
  refine kiso_aux ?_ ?_ ?_ ?_ ?_ ?_ ?_ ?_ hO.X hO.Y hO.Z hO.T h.ne ?_ hP <;>
    (try simp only [ThPt.sqTheta, ThPt.had]) <;> ring

end Festa
