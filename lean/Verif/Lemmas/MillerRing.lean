import Verif.Lemmas.EC
import Mathlib.Algebra.Polynomial.Expand
import Mathlib.Algebra.Polynomial.Bivariate
import Mathlib.RingTheory.Norm.Basic
import Mathlib.RingTheory.Ideal.Operations
import Mathlib.Tactic.LinearCombination
/-!
The functions of Miller's algorithm as elements of Mathlib's coordinate ring: `numC V W` is the line
through `V` and `W`, `denC S` the vertical line through `S`.  Their ideals factor into point ideals,
so products of them with the same divisor agree up to a constant; a leading coefficient at infinity
shows the constant is one.  The result is the four-point identity `num_four`.
-/
namespace Festa
open Polynomial WeierstrassCurve WeierstrassCurve.Affine WeierstrassCurve.Affine.CoordinateRing
open scoped Polynomial.Bivariate
variable {K : Type*} [Field K]

/-! ### The leading coefficient at infinity -/

/-- `p + q y` with `x = s^2`, `y = s^3`. -/
noncomputable def ringInf (p q : K[X]) : K[X] := expand K 2 p + expand K 2 q * X ^ 3

theorem ringInf_deg (p q : K[X]) (hq : q ≠ 0) : 2 * q.natDegree + 3 ≤ (ringInf p q).natDegree := by
  apply le_natDegree_of_ne_zero
  have h1 : (expand K 2 p).coeff (2 * q.natDegree + 3) = 0 := by
    rw [coeff_expand (by norm_num), if_neg]; omega
  rw [ringInf, coeff_add, h1, zero_add, coeff_mul_X_pow, mul_comm 2, coeff_expand_mul (by norm_num)]
  exact leadingCoeff_ne_zero.mpr hq

/-- `z` has leading coefficient one at infinity. -/
def MonicC {A : K} (z : (mont A).CoordinateRing) : Prop :=
  ∃ p q : K[X], z = p • (1 : (mont A).CoordinateRing) + q • mk (mont A) Y ∧ (ringInf p q).Monic

theorem monicC_mul {A : K} {z w : (mont A).CoordinateRing} (hz : MonicC z) (hw : MonicC w) :
    MonicC (z * w) := by
  obtain ⟨p, q, rfl, h⟩ := hz
  obtain ⟨p', q', rfl, h'⟩ := hw
  refine ⟨p * p' + q * q' * (X ^ 3 + C A * X ^ 2 + X), p * q' + q * p', ?_, ?_⟩
  · have e := smul_basis_mul_Y (W' := mont A) p q
    have e2 := smul_basis_mul_C (W' := mont A) p' p q
    have e3 : (p • (1 : (mont A).CoordinateRing) + q • mk (mont A) Y) *
        (p' • (1 : (mont A).CoordinateRing) + q' • mk (mont A) Y) =
        (p • (1 : (mont A).CoordinateRing) + q • mk (mont A) Y) * mk (mont A) (C p') +
        ((p • (1 : (mont A).CoordinateRing) + q • mk (mont A) Y) * mk (mont A) Y) *
          mk (mont A) (C q') := by
      simp only [CoordinateRing.smul]; ring
    rw [e3, e, e2, smul_basis_mul_C]
    have h1 : (mont A).a₁ = 0 := rfl
    have h2 : (mont A).a₂ = A := rfl
    have h3 : (mont A).a₃ = 0 := rfl
    have h4 : (mont A).a₄ = 1 := rfl
    have h6 : (mont A).a₆ = 0 := rfl
    simp only [h1, h2, h3, h4, h6, CoordinateRing.smul, map_add, map_sub, map_mul, map_zero, map_one]
    ring
  · have e : ringInf (p * p' + q * q' * (X ^ 3 + C A * X ^ 2 + X)) (p * q' + q * p') =
        ringInf p q * ringInf p' q' + expand K 2 (q * q') * (C A * X ^ 4 + X ^ 2) := by
      simp only [ringInf, map_add, map_mul, map_pow, expand_X, expand_C]
      ring
    rw [e]
    by_cases hq : q * q' = 0
    · rw [hq]; simpa using h.mul h'
    have hq1 : q ≠ 0 := left_ne_zero_of_mul hq
    have hq2 : q' ≠ 0 := right_ne_zero_of_mul hq
    refine (h.mul h').add_of_left ?_
    have d1 := ringInf_deg p q hq1
    have d2 := ringInf_deg p' q' hq2
    have d3 : (expand K 2 (q * q') * (C A * X ^ 4 + X ^ 2)).natDegree ≤
        (q.natDegree + q'.natDegree) * 2 + 4 := by
      refine natDegree_mul_le.trans (add_le_add ?_ ?_)
      · rw [natDegree_expand, natDegree_mul hq1 hq2]
      · refine (natDegree_add_le _ _).trans (max_le ((natDegree_C_mul_le _ _).trans ?_) ?_)
        · simp
        · simp
    have hne : ringInf p q * ringInf p' q' ≠ 0 := (h.mul h').ne_zero
    rw [degree_eq_natDegree hne]
    refine degree_le_natDegree.trans_lt ?_
    rw [Nat.cast_lt, h.natDegree_mul h']
    omega

theorem monicC_one {A : K} : MonicC (1 : (mont A).CoordinateRing) :=
  ⟨1, 0, by simp, by simp [ringInf]⟩

theorem monicC_const {A : K} {z : (mont A).CoordinateRing} {c : K} (hz : MonicC z)
    (hc : MonicC (mk (mont A) (C (C c)) * z)) : c = 1 := by
  obtain ⟨p, q, rfl, h⟩ := hz
  obtain ⟨p', q', e, h'⟩ := hc
  have e1 : (C c * p - p') • (1 : (mont A).CoordinateRing) + (C c * q - q') • mk (mont A) Y = 0 := by
    have : mk (mont A) (C (C c)) * (p • (1 : (mont A).CoordinateRing) + q • mk (mont A) Y) =
        (C c * p) • (1 : (mont A).CoordinateRing) + (C c * q) • mk (mont A) Y := by
      rw [mul_comm, smul_basis_mul_C, mul_comm p, mul_comm q]
    rw [this] at e
    rw [sub_smul, sub_smul]
    linear_combination e
  obtain ⟨h1, h2⟩ := smul_basis_eq_zero e1
  rw [← sub_eq_zero.mp h1, ← sub_eq_zero.mp h2] at h'
  have e2 : ringInf (C c * p) (C c * q) = C c * ringInf p q := by
    simp only [ringInf, map_mul, expand_C]; ring
  rw [e2, Monic, leadingCoeff_mul, leadingCoeff_C, h.leadingCoeff, mul_one] at h'
  exact h'

theorem monicC_X {A : K} (x : K) : MonicC (XClass (mont A) x) := by
  refine ⟨X - C x, 0, ?_, ?_⟩
  · simp [XClass, CoordinateRing.smul]
  · simp only [ringInf, map_sub, expand_X, expand_C, map_zero, zero_mul, add_zero]
    exact monic_X_pow_sub_C x (by norm_num)

theorem monicC_Y {A : K} (x y l : K) : MonicC (YClass (mont A) (linePolynomial x y l)) := by
  refine ⟨-linePolynomial x y l, 1, ?_, ?_⟩
  · simp only [YClass, CoordinateRing.smul, map_neg, map_sub, map_one, mul_one, one_mul]; ring
  · rw [ringInf, map_neg, map_one, one_mul, add_comm]
    refine monic_X_pow_add ?_
    rw [degree_neg]
    refine degree_le_natDegree.trans_lt ?_
    rw [natDegree_expand, Nat.cast_lt]
    have : (linePolynomial x y l).natDegree ≤ 1 := by
      unfold linePolynomial
      compute_degree
    omega

/-! ### Units are constants -/

theorem unit_const {A : K} {u : (mont A).CoordinateRing} (hu : IsUnit u) :
    ∃ c : K, u = mk (mont A) (C (C c)) := by
  obtain ⟨p, q, rfl⟩ := exists_smul_basis_eq u
  have h := hu.map (Algebra.norm K[X])
  have hd := degree_eq_zero_of_isUnit h
  rw [degree_norm_smul_basis] at hd
  have hq : q = 0 := by
    by_contra hq
    have h1 := le_max_right (2 • p.degree) (2 • q.degree + 3)
    rw [hd, degree_eq_natDegree hq] at h1
    have : ((2 * q.natDegree + 3 : ℕ) : WithBot ℕ) ≤ (0 : ℕ) := by
      simpa [two_nsmul, two_mul] using h1
    rw [Nat.cast_le] at this
    omega
  subst hq
  have hp : p.degree ≤ 0 := by
    by_contra hp
    have hp0 : p ≠ 0 := by rintro rfl; simp at hp
    have h1 := le_max_left (2 • p.degree) (2 • (0 : K[X]).degree + 3)
    rw [hd, degree_eq_natDegree hp0] at h1
    rw [degree_eq_natDegree hp0] at hp
    have h2 : ((2 * p.natDegree : ℕ) : WithBot ℕ) ≤ (0 : ℕ) := by
      simpa [two_nsmul, two_mul] using h1
    rw [Nat.cast_le] at h2
    apply hp
    have : p.natDegree = 0 := by omega
    rw [this]; rfl
  refine ⟨p.coeff 0, ?_⟩
  rw [← eq_C_of_degree_le_zero hp]
  simp [CoordinateRing.smul]

/-! ### Lines, vertical lines and their divisors -/

variable {A : K}

/-- The vertical line through a point (one for infinity). -/
noncomputable def denC : MPoint A → (mont A).CoordinateRing
  | .zero => 1
  | .some x _ _ => XClass (mont A) x

/-- The ideal of functions vanishing at a point. -/
noncomputable def ptIdeal : MPoint A → Ideal (mont A).CoordinateRing
  | .zero => ⊤
  | .some x y _ => XYIdeal (mont A) x (C y)

theorem denC_ne (S : MPoint A) : denC S ≠ 0 := by
  rcases S with _ | ⟨x, y, h⟩
  · exact one_ne_zero
  · exact XClass_ne_zero x

theorem denC_monic (S : MPoint A) : MonicC (denC S) := by
  rcases S with _ | ⟨x, y, h⟩
  · exact monicC_one
  · exact monicC_X x

theorem ptIdeal_neg (S : MPoint A) : ptIdeal (-S) * ptIdeal S = Ideal.span {denC S} := by
  rcases S with _ | ⟨x, y, h⟩
  · change (⊤ : Ideal (mont A).CoordinateRing) * ⊤ = Ideal.span {1}
    rw [Ideal.mul_top, Ideal.span_singleton_one]
  · exact XYIdeal_neg_mul h

variable [DecidableEq K]

/-- The line through two points: the tangent if they agree, vertical if they are opposite or one of
them is infinity. -/
noncomputable def numC : MPoint A → MPoint A → (mont A).CoordinateRing
  | .zero, W => denC W
  | .some x y h, .zero => denC (.some x y h)
  | .some x₁ y₁ _, .some x₂ y₂ _ =>
    if x₁ = x₂ ∧ y₁ = (mont A).negY x₂ y₂ then XClass (mont A) x₁
    else YClass (mont A) (linePolynomial x₁ y₁ ((mont A).slope x₁ x₂ y₁ y₂))

theorem numC_monic (V W : MPoint A) : MonicC (numC V W) := by
  rcases V with _ | ⟨x, y, h⟩
  · exact denC_monic W
  · rcases W with _ | ⟨x', y', h'⟩
    · exact denC_monic (.some x y h)
    · by_cases hxy : x = x' ∧ y = (mont A).negY x' y'
      · have e2 : numC (Point.some x y h : MPoint A) (.some x' y' h') = XClass (mont A) x :=
          if_pos hxy
        rw [e2]; exact monicC_X x
      · have e2 : numC (Point.some x y h : MPoint A) (.some x' y' h') =
            YClass (mont A) (linePolynomial x y ((mont A).slope x x' y y')) := if_neg hxy
        rw [e2]; exact monicC_Y _ _ _

theorem numC_ideal (V W : MPoint A) :
    Ideal.span {numC V W} * ptIdeal (V + W) =
      Ideal.span {denC (V + W)} * (ptIdeal V * ptIdeal W) := by
  rcases V with _ | ⟨x, y, h⟩
  · change Ideal.span {denC W} * ptIdeal (0 + W) = Ideal.span {denC (0 + W)} * (⊤ * ptIdeal W)
    rw [zero_add, Ideal.top_mul]
  · rcases W with _ | ⟨x', y', h'⟩
    · change Ideal.span {denC (.some x y h)} * ptIdeal (.some x y h + 0) =
        Ideal.span {denC (.some x y h + 0)} * (ptIdeal (.some x y h) * ⊤)
      rw [add_zero, Ideal.mul_top]
    · by_cases hxy : x = x' ∧ y = (mont A).negY x' y'
      · have e : (Point.some x y h : MPoint A) + .some x' y' h' = 0 :=
          Point.add_of_Y_eq hxy.1 hxy.2
        have e2 : numC (Point.some x y h : MPoint A) (.some x' y' h') = XClass (mont A) x :=
          if_pos hxy
        rw [e, e2]
        have e3 : ptIdeal (0 : MPoint A) = ⊤ := rfl
        have e4 : denC (0 : MPoint A) = 1 := rfl
        rw [e3, e4, Ideal.mul_top, Ideal.span_singleton_one, Ideal.top_mul]
        obtain ⟨h1, h2⟩ := hxy
        subst h1
        subst h2
        exact (XYIdeal_neg_mul h').symm
      · have e := Point.add_some hxy (h₁ := h) (h₂ := h')
        have e2 : numC (Point.some x y h : MPoint A) (.some x' y' h') =
            YClass (mont A) (linePolynomial x y ((mont A).slope x x' y y')) := if_neg hxy
        rw [e, e2]
        exact (XYIdeal_mul_XYIdeal h.1 h'.1 hxy).symm

omit [DecidableEq K] in
/-- Two monic functions with the same ideal up to a common factor are equal. -/
theorem eq_of_ideal {z w d : (mont A).CoordinateRing} (J J' : Ideal (mont A).CoordinateRing)
    (hd : d ≠ 0) (hJ : J' * J = Ideal.span {d}) (hz : MonicC z) (hw : MonicC w)
    (h : Ideal.span {z} * J = Ideal.span {w} * J) : z = w := by
  have h1 : Ideal.span {z * d} = Ideal.span {w * d} := by
    rw [← Ideal.span_singleton_mul_span_singleton, ← Ideal.span_singleton_mul_span_singleton, ← hJ,
      mul_left_comm, mul_left_comm _ J', h]
  rw [Ideal.span_singleton_eq_span_singleton] at h1
  obtain ⟨u, hu⟩ := h1
  obtain ⟨c, hc⟩ := unit_const u.isUnit
  have e : mk (mont A) (C (C c)) * z = w := by
    apply mul_right_cancel₀ hd
    rw [← hu, ← hc]; ring
  have hc1 := monicC_const hz (c := c) (by rw [e]; exact hw)
  rw [← e, hc1]; simp

/-- The four-point identity: both sides have the divisor
`a + b + c + d + (-(a+b+c+d)) + …`. -/
theorem num_four (a b c d : MPoint A) :
    numC a b * numC c d * numC (a + b) (c + d) * (denC (a + c) * denC (b + d)) =
      numC a c * numC b d * numC (a + c) (b + d) * (denC (a + b) * denC (c + d)) := by
  have hT : a + b + (c + d) = a + c + (b + d) := add_add_add_comm a b c d
  have h1 := numC_ideal a b
  have h2 := numC_ideal c d
  have h3 := numC_ideal (a + b) (c + d)
  have h4 := numC_ideal a c
  have h5 := numC_ideal b d
  have h6 := numC_ideal (a + c) (b + d)
  rw [← hT] at h6
  have n1 := ptIdeal_neg (a + b)
  have n2 := ptIdeal_neg (c + d)
  have n3 := ptIdeal_neg (a + b + (c + d))
  have n4 := ptIdeal_neg (a + c)
  have n5 := ptIdeal_neg (b + d)
  refine eq_of_ideal (d := denC (a + b) * denC (c + d) * denC (a + b + (c + d)) *
      (denC (a + c) * denC (b + d)))
    (ptIdeal (a + b) * ptIdeal (c + d) * ptIdeal (a + b + (c + d)) *
      (ptIdeal (a + c) * ptIdeal (b + d)))
    (ptIdeal (-(a + b)) * ptIdeal (-(c + d)) * ptIdeal (-(a + b + (c + d))) *
      (ptIdeal (-(a + c)) * ptIdeal (-(b + d)))) ?_ ?_ ?_ ?_ ?_
  · exact mul_ne_zero (mul_ne_zero (mul_ne_zero (denC_ne _) (denC_ne _)) (denC_ne _))
      (mul_ne_zero (denC_ne _) (denC_ne _))
  · simp only [← Ideal.span_singleton_mul_span_singleton, ← n1, ← n2, ← n3, ← n4, ← n5]
    ring
  · exact monicC_mul (monicC_mul (monicC_mul (numC_monic _ _) (numC_monic _ _)) (numC_monic _ _))
      (monicC_mul (denC_monic _) (denC_monic _))
  · exact monicC_mul (monicC_mul (monicC_mul (numC_monic _ _) (numC_monic _ _)) (numC_monic _ _))
      (monicC_mul (denC_monic _) (denC_monic _))
  · simp only [← Ideal.span_singleton_mul_span_singleton]
    generalize Ideal.span {numC a b} = N1 at *
    generalize Ideal.span {numC c d} = N2 at *
    generalize Ideal.span {numC (a + b) (c + d)} = N3 at *
    generalize Ideal.span {numC a c} = N4 at *
    generalize Ideal.span {numC b d} = N5 at *
    generalize Ideal.span {numC (a + c) (b + d)} = N6 at *
    generalize Ideal.span {denC (a + b)} = D1 at *
    generalize Ideal.span {denC (c + d)} = D2 at *
    generalize Ideal.span {denC (a + b + (c + d))} = D3 at *
    generalize Ideal.span {denC (a + c)} = D4 at *
    generalize Ideal.span {denC (b + d)} = D5 at *
    generalize ptIdeal (a + b + (c + d)) = T at *
    generalize ptIdeal (a + b) = I1 at *
    generalize ptIdeal (c + d) = I2 at *
    generalize ptIdeal (a + c) = I4 at *
    generalize ptIdeal (b + d) = I5 at *
    clear n1 n2 n3 n4 n5
    calc N1 * N2 * N3 * (D4 * D5) * (I1 * I2 * T * (I4 * I5))
        = (N1 * I1) * (N2 * I2) * (N3 * T) * (D4 * D5) * (I4 * I5) := by ring
      _ = (N4 * I4) * (N5 * I5) * (N6 * T) * (D1 * D2) * (I1 * I2) := by
          rw [h1, h2, h3, h4, h5, h6]; ring
      _ = _ := by ring

end Festa
