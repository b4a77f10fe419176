import Verif.Lemmas.ThetaPoly
/-! Lemmas on theta points: the Kummer surface under the Hadamard transform, under squared theta
coordinates and under doubling; isogenies commute with doubling. -/
namespace Festa
variable {K : Type*} [Field K]

/-! ### Projective classes -/

theorem scale_scale (c d : K) (P : ThPt K) : (P.scale c).scale d = P.scale (c * d) := by
  simp [ThPt.scale]; refine ⟨?_, ?_, ?_, ?_⟩ <;> ring

theorem scale_one (P : ThPt K) : P.scale 1 = P := by simp [ThPt.scale]

theorem ThPt.Same.refl (P : ThPt K) : P.Same P := ⟨1, one_ne_zero, (scale_one P).symm⟩

theorem ThPt.Same.symm {P Q : ThPt K} (h : P.Same Q) : Q.Same P := by
  obtain ⟨c, hc, rfl⟩ := h
  exact ⟨c⁻¹, inv_ne_zero hc, by rw [scale_scale, mul_inv_cancel₀ hc, scale_one]⟩

theorem ThPt.Same.trans {P Q R : ThPt K} (h : P.Same Q) (h' : Q.Same R) : P.Same R := by
  obtain ⟨c, hc, rfl⟩ := h
  obtain ⟨d, hd, rfl⟩ := h'
  exact ⟨c * d, mul_ne_zero hc hd, by rw [scale_scale]⟩

theorem same_scale (c : K) (hc : c ≠ 0) (P : ThPt K) : P.Same (P.scale c) := ⟨c, hc, rfl⟩

theorem had_scale (c : K) (P : ThPt K) : (P.scale c).had = P.had.scale c := by
  simp only [ThPt.had, ThPt.scale, ThPt.mk.injEq]; refine ⟨?_, ?_, ?_, ?_⟩ <;> ring

theorem sqTheta_scale (c : K) (P : ThPt K) : (P.scale c).sqTheta = P.sqTheta.scale (c ^ 2) := by
  simp only [ThPt.sqTheta, ThPt.had, ThPt.scale, ThPt.mk.injEq]; refine ⟨?_, ?_, ?_, ?_⟩ <;> ring

theorem had_had (P : ThPt K) : P.had.had = P.scale 4 := by
  simp only [ThPt.had, ThPt.scale, ThPt.mk.injEq]; refine ⟨?_, ?_, ?_, ?_⟩ <;> ring

theorem double_scale (Th : ThStr K) (c : K) (P : ThPt K) :
    Th.double (P.scale c) = (Th.double P).scale (c ^ 4) := by
  rw [ThStr.double, ThStr.double, sqTheta_scale]
  simp only [ThPt.had, ThPt.scale, ThPt.mk.injEq]; refine ⟨?_, ?_, ?_, ?_⟩ <;> ring

theorem double_same (Th : ThStr K) {P Q : ThPt K} (h : P.Same Q) :
    (Th.double P).Same (Th.double Q) := by
  obtain ⟨c, hc, rfl⟩ := h
  exact ⟨c ^ 4, pow_ne_zero 4 hc, double_scale Th c P⟩

theorem doubleIter_same (Th : ThStr K) {P Q : ThPt K} (h : P.Same Q) (n : Nat) :
    (Th.doubleIter P n).Same (Th.doubleIter Q n) := by
  induction n with
  | zero => exact h
  | succ n ih =>
    rw [ThStr.doubleIter, ThStr.doubleIter, Function.iterate_succ_apply', Function.iterate_succ_apply']
    exact double_same Th ih

/-! ### The Kummer surface -/

theorem kummer_scale (c : K) (O P : ThPt K) : kummer O (P.scale c) = c ^ 4 * kummer O P := by
  simp only [kummer, ThPt.scale]; ring

theorem kummer_scale_null (c : K) (O P : ThPt K) : kummer (O.scale c) P = c ^ 12 * kummer O P := by
  simp only [kummer, ThPt.scale]; ring

theorem OnKummer.same {O P Q : ThPt K} (h : OnKummer O P) (hs : P.Same Q) : OnKummer O Q := by
  obtain ⟨c, -, rfl⟩ := hs
  rw [OnKummer, kummer_scale, h, mul_zero]

theorem OnKummer.same_null {O O' P : ThPt K} (h : OnKummer O P) (hs : O.Same O') : OnKummer O' P := by
  obtain ⟨c, -, rfl⟩ := hs
  rw [OnKummer, kummer_scale_null, h, mul_zero]

theorem kummer_self (O : ThPt K) : kummer O O = 0 := by
  simp only [kummer]; ring

section
variable (a b c d : K)

private theorem khad (x y z t p q1 q2 q3 r : K) (x' y' z' t' : K)
    (hx : x' = x+y+z+t) (hy : y' = x-y+z-t) (hz : z' = x+y-z-t) (ht : t' = x-y-z+t)
    (p' q1' q2' q3' r' : K)
    (h0 : 4*p' - 2*q1' - 2*q2' - 2*q3' + r' = 65536*p)
    (h1 : 24*p' + 4*q1' - 12*q2' + 4*q3' - 2*r' = -65536*q1)
    (h2 : 24*p' - 12*q1' + 4*q2' + 4*q3' - 2*r' = -65536*q2)
    (h3 : 24*p' + 4*q1' + 4*q2' - 12*q3' - 2*r' = -65536*q3)
    (h4 : 96*p' + 16*q1' + 16*q2' + 16*q3' + 8*r' = 65536*r) :
    p'*(x'^4+y'^4+z'^4+t'^4) - q1'*(x'^2*y'^2+z'^2*t'^2) - q2'*(x'^2*z'^2+y'^2*t'^2)
      - q3'*(x'^2*t'^2+y'^2*z'^2) + r'*(x'*y'*z'*t') =
    65536*(p*(x^4+y^4+z^4+t^4) - q1*(x^2*y^2+z^2*t^2) - q2*(x^2*z^2+y^2*t^2)
      - q3*(x^2*t^2+y^2*z^2) + r*(x*y*z*t)) := by
  subst hx hy hz ht
  linear_combination h0*(x^4+y^4+z^4+t^4) + h1*(x^2*y^2+z^2*t^2) + h2*(x^2*z^2+y^2*t^2)
      + h3*(x^2*t^2+y^2*z^2) + h4*(x*y*z*t)

end

theorem kummer_had (O P : ThPt K) : kummer O.had P.had = 65536 * kummer O P := by
  obtain ⟨a, b, c, d⟩ := O
  obtain ⟨x, y, z, t⟩ := P
  refine khad x y z t _ _ _ _ _ _ _ _ _ (by simp only [ThPt.had]; ring) (by simp only [ThPt.had]; ring)
    (by simp only [ThPt.had]; ring) (by simp only [ThPt.had]; ring) _ _ _ _ _ ?_ ?_ ?_ ?_ ?_ <;>
  · simp only [ThPt.had]; ring

end Festa
