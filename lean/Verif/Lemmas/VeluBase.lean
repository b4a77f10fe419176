import Verif.Lemmas.EC
/-! Coordinates of points and the addition formulas in the form used for the isogeny formulas. -/
namespace Festa
open WeierstrassCurve.Affine
variable {K : Type*} [Field K]

/-- `(u r + 1)(u + r) + 2 A u r`. -/
def sfun {R : Type*} [CommRing R] (A u r : R) : R := (u * r + 1) * (u + r) + 2 * A * u * r

/-- The form vanishing at the abscissas of points with `±U ± R ± S = 0`. -/
def phi3 {R : Type*} [CommRing R] (A u r s : R) : R := (u - r) ^ 2 * s ^ 2 - 2 * sfun A u r * s + (u * r - 1) ^ 2

variable {A : K}

theorem pt_nonsing {P : MPoint A} (h : P ≠ 0) : (mont A).Nonsingular (xc P) (yc P) := by
  rcases P with _ | ⟨x, y, k⟩
  · exact absurd rfl h
  · exact k

theorem pt_eq_some {P : MPoint A} (h : P ≠ 0) : P = .some (xc P) (yc P) (pt_nonsing h) := by
  rcases P with _ | ⟨x, y, k⟩
  · exact absurd rfl h
  · rfl

theorem yc_sq {P : MPoint A} (h : P ≠ 0) : yc P ^ 2 = xc P ^ 3 + A * xc P ^ 2 + xc P := by
  linear_combination curve_eq (pt_nonsing h)

theorem xc_neg (P : MPoint A) : xc (-P) = xc P := by
  rcases P with _ | ⟨x, y, k⟩
  · rfl
  · obtain ⟨h', e⟩ := neg_pt k
    rw [e]; rfl

theorem yc_neg (P : MPoint A) : yc (-P) = -yc P := by
  rcases P with _ | ⟨x, y, k⟩
  · exact neg_zero.symm
  · obtain ⟨h', e⟩ := neg_pt k
    rw [e]; rfl

theorem pt_ext {P Q : MPoint A} (hP : P ≠ 0) (hQ : Q ≠ 0) (hx : xc P = xc Q) (hy : yc P = yc Q) :
    P = Q := by
  rcases P with _ | ⟨x, y, k⟩
  · exact absurd rfl hP
  rcases Q with _ | ⟨x', y', k'⟩
  · exact absurd rfl hQ
  simp only [xc, yc] at hx hy
  subst hx; subst hy; rfl

variable [DecidableEq K]

theorem xc_eq_iff {P Q : MPoint A} (hP : P ≠ 0) (hQ : Q ≠ 0) : xc P = xc Q ↔ P = Q ∨ P = -Q := by
  constructor
  · intro h
    have h1 := yc_sq hP
    have h2 := yc_sq hQ
    rw [h, ← h2] at h1
    rcases sq_eq_sq_iff_eq_or_eq_neg.mp h1 with e | e
    · exact Or.inl (pt_ext hP hQ h e)
    · exact Or.inr (pt_ext hP (neg_ne_zero.mpr hQ) (by rw [xc_neg, h]) (by rw [yc_neg, e]))
  · rintro (rfl | rfl)
    · rfl
    · rw [xc_neg]

theorem xc_add {P Q : MPoint A} (hP : P ≠ 0) (hQ : Q ≠ 0) (hx : xc P ≠ xc Q) :
    xc (P + Q) * (xc P - xc Q) ^ 2 = sfun A (xc P) (xc Q) - 2 * yc P * yc Q := by
  rcases P with _ | ⟨x, y, k⟩
  · exact absurd rfl hP
  rcases Q with _ | ⟨x', y', k'⟩
  · exact absurd rfl hQ
  simp only [xc, yc] at hx ⊢
  have hne : x' - x ≠ 0 := sub_ne_zero.mpr (Ne.symm hx)
  have hl : (y' - y) / (x' - x) * (x' - x) = y' - y := div_mul_cancel₀ _ hne
  generalize (y' - y) / (x' - x) = l at hl
  obtain ⟨h, e⟩ := add_gen (h1 := k) (h2 := k') hx hl
  rw [e]
  simp only [sfun]
  have e1 := curve_eq k
  have e2 := curve_eq k'
  linear_combination (l * (x' - x) + (y' - y)) * hl + e1 + e2

theorem xc_sub {P Q : MPoint A} (hP : P ≠ 0) (hQ : Q ≠ 0) (hx : xc P ≠ xc Q) :
    xc (P - Q) * (xc P - xc Q) ^ 2 = sfun A (xc P) (xc Q) + 2 * yc P * yc Q := by
  have := xc_add hP (neg_ne_zero.mpr hQ) (by rwa [xc_neg])
  rw [xc_neg, yc_neg] at this
  rw [sub_eq_add_neg, this]; ring

/-- Sum and difference of two points are the roots of `phi3`. -/
theorem phi3_eq {P Q : MPoint A} (hP : P ≠ 0) (hQ : Q ≠ 0) (hx : xc P ≠ xc Q) (s : K) :
    (s - xc (P + Q)) * (s - xc (P - Q)) * (xc P - xc Q) ^ 2 = phi3 A (xc P) (xc Q) s := by
  have h1 := xc_add hP hQ hx
  have h2 := xc_sub hP hQ hx
  have e1 := yc_sq hP
  have e2 := yc_sq hQ
  have hne : (xc P - xc Q) ^ 2 ≠ 0 := pow_ne_zero _ (sub_ne_zero.mpr hx)
  generalize xc (P + Q) = a at *
  generalize xc (P - Q) = b at *
  generalize xc P = x at *
  generalize xc Q = z at *
  apply mul_right_cancel₀ hne
  unfold phi3
  have : a * (x - z) ^ 2 * (b * (x - z) ^ 2) =
      (sfun A x z - 2 * yc P * yc Q) * (sfun A x z + 2 * yc P * yc Q) := by rw [h1, h2]
  have e3 : (sfun A x z - 2 * yc P * yc Q) * (sfun A x z + 2 * yc P * yc Q) =
      (x - z) ^ 2 * (x * z - 1) ^ 2 := by
    unfold sfun
    linear_combination (-4 * yc Q ^ 2) * e1 - 4 * (x ^ 3 + A * x ^ 2 + x) * e2
  linear_combination this + e3 - s * (x - z) ^ 2 * (h1 + h2)

theorem xc_add_sub {P Q : MPoint A} (hP : P ≠ 0) (hQ : Q ≠ 0) (hx : xc P ≠ xc Q) :
    (xc (P - Q) - xc (P + Q)) * (xc P - xc Q) ^ 2 = 4 * yc P * yc Q := by
  linear_combination xc_sub hP hQ hx - xc_add hP hQ hx

theorem add_self_iff (h2 : (2 : K) ≠ 0) {P : MPoint A} (hP : P ≠ 0) : P + P = 0 ↔ yc P = 0 := by
  rw [add_eq_zero_iff_eq_neg]
  constructor
  · intro h
    have := congrArg yc h
    rw [yc_neg] at this
    exact (mul_eq_zero.mp (show 2 * yc P = 0 by linear_combination this)).resolve_left h2
  · intro h
    exact pt_ext hP (neg_ne_zero.mpr hP) (xc_neg P).symm (by rw [yc_neg, h, neg_zero])

theorem xc_double (h2 : (2 : K) ≠ 0) {P : MPoint A} (hP : P + P ≠ 0) :
    xc (P + P) * (4 * yc P ^ 2) = (xc P ^ 2 - 1) ^ 2 := by
  have hP0 : P ≠ 0 := by rintro rfl; exact hP (add_zero _)
  have hy : yc P ≠ 0 := fun h => hP ((add_self_iff h2 hP0).mpr h)
  rcases P with _ | ⟨x, y, k⟩
  · exact absurd rfl hP0
  simp only [xc, yc] at hy ⊢
  have hl : (3 * x * x + 2 * A * x + 1) / (2 * y) * (2 * y) = 3 * x * x + 2 * A * x + 1 :=
    div_mul_cancel₀ _ (mul_ne_zero h2 hy)
  generalize (3 * x * x + 2 * A * x + 1) / (2 * y) = l at hl
  obtain ⟨h3, e⟩ := add_dbl (h := k) (h' := k) h2 hy hl
  rw [e]
  have hc := curve_eq k
  linear_combination (l * (2 * y) + (3 * x * x + 2 * A * x + 1)) * hl - 4 * (A + 2 * x) * hc

omit [DecidableEq K] in
theorem phi3_self (u r : K) : phi3 A u r r = (r ^ 2 - 1) ^ 2 - 4 * u * (r ^ 3 + A * r ^ 2 + r) := by
  unfold phi3 sfun; ring

theorem phi3_self_pt (h2 : (2 : K) ≠ 0) {P : MPoint A} (hP : P + P ≠ 0) (u : K) :
    phi3 A u (xc P) (xc P) = 4 * yc P ^ 2 * (xc (P + P) - u) := by
  have hP0 : P ≠ 0 := by rintro rfl; exact hP (add_zero _)
  rw [phi3_self, ← yc_sq hP0]
  linear_combination -xc_double h2 hP

omit [DecidableEq K] in
theorem phi3_zero (u r : K) : phi3 A u r 0 = (u * r - 1) ^ 2 := by unfold phi3; ring

omit [DecidableEq K] in
theorem phi3_root {t : K} (ht : t ^ 2 + A * t + 1 = 0) (u r : K) :
    phi3 A u r t = (u * r - t * (u + r) + 1) ^ 2 := by
  unfold phi3 sfun
  linear_combination (-4 * u * r) * ht

/-- The relation behind the sign of the isogeny. -/
theorem four_points (h2 : (2 : K) ≠ 0) {P Q H : MPoint A} (hP : P ≠ 0) (hQ : Q ≠ 0) (hH : H + H ≠ 0)
    (h1 : xc P ≠ xc Q) (h3 : xc P ≠ xc H) (h4 : xc Q ≠ xc H) :
    4 * yc H ^ 2 * (xc P - xc Q) ^ 2 * (xc (H + H) - xc (P - Q)) =
      (xc (P - H) - xc (Q + H)) * (xc (P + H) - xc (Q - H)) * (xc P - xc H) ^ 2 * (xc Q - xc H) ^ 2 := by
  have hH0 : H ≠ 0 := by rintro rfl; exact hH (add_zero _)
  have a1 := xc_sub hP hQ h1
  have a2 := xc_double h2 hH
  have a3 := xc_sub hP hH0 h3
  have a4 := xc_add hP hH0 h3
  have a5 := xc_sub hQ hH0 h4
  have a6 := xc_add hQ hH0 h4
  have e1 := yc_sq hP
  have e2 := yc_sq hQ
  have e3 := yc_sq hH0
  have n1 : (xc P - xc H) ^ 2 ≠ 0 := pow_ne_zero _ (sub_ne_zero.mpr h3)
  have n2 : (xc Q - xc H) ^ 2 ≠ 0 := pow_ne_zero _ (sub_ne_zero.mpr h4)
  generalize xc (P - Q) = w1 at *
  generalize xc (H + H) = w2 at *
  generalize xc (P - H) = w3 at *
  generalize xc (P + H) = w4 at *
  generalize xc (Q - H) = w5 at *
  generalize xc (Q + H) = w6 at *
  generalize xc P = a at *
  generalize xc Q = b at *
  generalize xc H = c at *
  generalize yc P = p at *
  generalize yc Q = q at *
  generalize yc H = r at *
  apply mul_right_cancel₀ (mul_ne_zero n1 n2)
  have l1 : 4 * r ^ 2 * (a - b) ^ 2 * (w2 - w1) =
      (a - b) ^ 2 * (c ^ 2 - 1) ^ 2 - 4 * r ^ 2 * (sfun A a b + 2 * p * q) := by
    linear_combination (a - b) ^ 2 * a2 - 4 * r ^ 2 * a1
  have r1 : (w3 - w6) * ((a - c) ^ 2 * (b - c) ^ 2) =
      (sfun A a c + 2 * p * r) * (b - c) ^ 2 - (sfun A b c - 2 * q * r) * (a - c) ^ 2 := by
    linear_combination (b - c) ^ 2 * a3 - (a - c) ^ 2 * a6
  have r2 : (w4 - w5) * ((a - c) ^ 2 * (b - c) ^ 2) =
      (sfun A a c - 2 * p * r) * (b - c) ^ 2 - (sfun A b c + 2 * q * r) * (a - c) ^ 2 := by
    linear_combination (b - c) ^ 2 * a4 - (a - c) ^ 2 * a5
  have key : ((a - b) ^ 2 * (c ^ 2 - 1) ^ 2 - 4 * r ^ 2 * (sfun A a b + 2 * p * q)) *
      ((a - c) ^ 2 * (b - c) ^ 2) =
      ((sfun A a c + 2 * p * r) * (b - c) ^ 2 - (sfun A b c - 2 * q * r) * (a - c) ^ 2) *
      ((sfun A a c - 2 * p * r) * (b - c) ^ 2 - (sfun A b c + 2 * q * r) * (a - c) ^ 2) := by
    unfold sfun
    linear_combination (4 * r ^ 2 * (b - c) ^ 4) * e1 + (4 * r ^ 2 * (a - c) ^ 4) * e2 +
      (-4 * ((a * b + 1) * (a + b) + 2 * A * a * b) * (a - c) ^ 2 * (b - c) ^ 2 +
        4 * (b - c) ^ 4 * (a ^ 3 + A * a ^ 2 + a) + 4 * (a - c) ^ 4 * (b ^ 3 + A * b ^ 2 + b)) * e3
  calc _ = (4 * r ^ 2 * (a - b) ^ 2 * (w2 - w1)) * ((a - c) ^ 2 * (b - c) ^ 2) := by ring
    _ = _ := by rw [l1, key, ← r1, ← r2]; ring

end Festa
