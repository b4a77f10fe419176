import Verif.Spec.EC
import Mathlib.Tactic.LinearCombination
import Mathlib.Tactic.FieldSimp
/-! The curve code against Mathlib's group law on `y^2 = x^3 + A x^2 + x`. -/
namespace Festa
open WeierstrassCurve.Affine
variable {K : Type*} [Field K]

theorem curve_eq {A x y : K} (h : (mont A).Nonsingular x y) :
    y * y = x * x * x + A * x * x + x := by
  have := ((mont A).equation_iff x y).mp h.1
  simp only [mont] at this
  linear_combination this

/-- On a curve that is not singular every solution is a point. -/
theorem nonsing_of {A x y : K} (h2 : (2 : K) ≠ 0) (hA : A * A ≠ 4)
    (h : y * y = x * x * x + A * x * x + x) : (mont A).Nonsingular x y := by
  rw [WeierstrassCurve.Affine.nonsingular_iff']
  refine ⟨((mont A).equation_iff x y).mpr (by simp only [mont]; linear_combination h), ?_⟩
  by_cases hy : y = 0
  · left
    subst hy
    simp only [mont]
    intro hd
    -- common root of `x^3 + A x^2 + x` and its derivative
    have hx : x ≠ 0 := by
      rintro rfl
      apply one_ne_zero (α := K)
      linear_combination -hd
    have e1 : x * x + A * x + 1 = 0 := by
      have : x * (x * x + A * x + 1) = 0 := by linear_combination -h
      exact (mul_eq_zero.mp this).resolve_left hx
    have e2 : 2 * x + A = 0 := by
      have : x * (2 * x + A) = 0 := by linear_combination -hd - e1
      exact (mul_eq_zero.mp this).resolve_left hx
    apply hA
    have : A = -2 * x := by linear_combination e2
    subst this
    linear_combination -4 * e1
  · right
    simp only [mont]
    intro h0
    apply hy
    have : 2 * y = 0 := by linear_combination h0
    exact (mul_eq_zero.mp this).resolve_left h2

theorem negY_mont (A x y : K) : (mont A).negY x y = -y := by
  simp [WeierstrassCurve.Affine.negY, mont]

theorem neg_pt {A x y : K} (h : (mont A).Nonsingular x y) :
    ∃ h', -(Point.some x y h : MPoint A) = .some x (-y) h' := by
  have e := Point.neg_some h
  simp only [negY_mont] at e
  exact ⟨_, e⟩

theorem pt_congr {A x y x' y' : K} {h : (mont A).Nonsingular x y} (e : x = x') (e' : y = y') :
    ∃ h', (Point.some x y h : MPoint A) = .some x' y' h' := by
  subst e; subst e'; exact ⟨h, rfl⟩

variable [DecidableEq K]

theorem add_opp {A x y y' : K} {h : (mont A).Nonsingular x y} {h' : (mont A).Nonsingular x y'}
    (e : y = -y') : (Point.some x y h : MPoint A) + .some x y' h' = 0 :=
  Point.add_of_Y_eq rfl (by rw [negY_mont, e])

theorem add_gen {A x1 y1 x2 y2 l : K} {h1 : (mont A).Nonsingular x1 y1}
    {h2 : (mont A).Nonsingular x2 y2} (hx : x1 ≠ x2) (hl : l * (x2 - x1) = y2 - y1) :
    ∃ h, (Point.some x1 y1 h1 : MPoint A) + .some x2 y2 h2 =
      .some (l * l - A - x1 - x2) (l * (x1 - (l * l - A - x1 - x2)) - y1) h := by
  have e := Point.add_of_X_ne (h₁ := h1) (h₂ := h2) hx
  have hs : (mont A).slope x1 x2 y1 y2 = l := by
    rw [slope_of_X_ne hx]
    have : x1 - x2 ≠ 0 := sub_ne_zero.mpr hx
    field_simp
    linear_combination hl
  have eX : (mont A).addX x1 x2 ((mont A).slope x1 x2 y1 y2) = l * l - A - x1 - x2 := by
    rw [hs]; simp only [addX, mont]; ring
  have eY : (mont A).addY x1 x2 y1 ((mont A).slope x1 x2 y1 y2) =
      l * (x1 - (l * l - A - x1 - x2)) - y1 := by
    rw [addY, negAddY, eX, hs, negY_mont]; ring
  rw [e]
  exact pt_congr eX eY

theorem add_dbl {A x y l : K} {h : (mont A).Nonsingular x y} {h' : (mont A).Nonsingular x y}
    (h2 : (2 : K) ≠ 0) (hy : y ≠ 0) (hl : l * (2 * y) = 3 * x * x + 2 * A * x + 1) :
    ∃ h3, (Point.some x y h : MPoint A) + .some x y h' =
      .some (l * l - A - x - x) (l * (x - (l * l - A - x - x)) - y) h3 := by
  have hy' : y ≠ (mont A).negY x y := by
    rw [negY_mont]
    intro e
    exact hy ((mul_eq_zero.mp (show 2 * y = 0 by linear_combination e)).resolve_left h2)
  have e := Point.add_of_Y_ne (h₁ := h) (h₂ := h') hy'
  have hs : (mont A).slope x x y y = l := by
    rw [slope_of_Y_ne rfl hy', negY_mont]
    have : y - -y ≠ 0 := by
      rw [sub_neg_eq_add, ← two_mul]; exact mul_ne_zero h2 hy
    rw [div_eq_iff this]
    simp only [mont]
    linear_combination -hl
  have eX : (mont A).addX x x ((mont A).slope x x y y) = l * l - A - x - x := by
    rw [hs]; simp only [addX, mont]; ring
  have eY : (mont A).addY x x y ((mont A).slope x x y y) = l * (x - (l * l - A - x - x)) - y := by
    rw [addY, negAddY, eX, hs, negY_mont]; ring
  rw [e]
  exact pt_congr eX eY

omit [DecidableEq K] in
/-- The x-coordinates determine points up to sign. -/
theorem y_of_x_eq {A x y y' : K} (h : (mont A).Nonsingular x y) (h' : (mont A).Nonsingular x y') :
    y = y' ∨ y = -y' := by
  rw [← mul_self_eq_mul_self_iff]
  rw [curve_eq h, curve_eq h']

/-! ### Representations -/

omit [DecidableEq K] in
theorem prep_zero {A : K} {P : Pt K} : PRep P (0 : MPoint A) ↔ P.Z = 0 := Iff.rfl

omit [DecidableEq K] in
theorem prep_some {A x y : K} {h : (mont A).Nonsingular x y} {P : Pt K} :
    PRep P (.some x y h : MPoint A) ↔ P.Z ≠ 0 ∧ P.X = x * P.Z ∧ P.Y = y * P.Z := Iff.rfl

omit [DecidableEq K] in
/-- A representation determines the point. -/
theorem prep_unique {A : K} {P : Pt K} {Q Q' : MPoint A} (h : PRep P Q) (h' : PRep P Q') :
    Q = Q' := by
  rcases Q with _ | ⟨x, y, hq⟩ <;> rcases Q' with _ | ⟨x', y', hq'⟩
  · rfl
  · exact absurd h h'.1
  · exact absurd h' h.1
  · obtain ⟨hz, hx, hy⟩ := h
    obtain ⟨-, hx', hy'⟩ := h'
    have e1 : x = x' := mul_right_cancel₀ hz (hx.symm.trans hx')
    have e2 : y = y' := mul_right_cancel₀ hz (hy.symm.trans hy')
    subst e1; subst e2; rfl

omit [DecidableEq K] in
/-- Every point has a representation. -/
theorem exists_prep {A : K} (Q : MPoint A) : ∃ P, PRep P Q := by
  rcases Q with _ | ⟨x, y, h⟩
  · exact ⟨⟨0, 1, 0⟩, rfl⟩
  · exact ⟨⟨x, y, 1⟩, one_ne_zero, (mul_one _).symm, (mul_one _).symm⟩

omit [DecidableEq K] in
/-- Representations exist exactly for coordinate triples satisfying the projective equation. -/
theorem exists_prep_iff {A : K} (h2 : (2 : K) ≠ 0) (hA : A * A ≠ 4) (P : Pt K) :
    (∃ Q : MPoint A, PRep P Q) ↔
      P.Z = 0 ∨ P.Y * P.Y * P.Z = P.X * P.X * P.X + A * P.X * P.X * P.Z + P.X * P.Z * P.Z := by
  constructor
  · rintro ⟨Q, hQ⟩
    rcases Q with _ | ⟨x, y, h⟩
    · exact Or.inl hQ
    · obtain ⟨-, hx, hy⟩ := hQ
      right
      rw [hx, hy]
      linear_combination P.Z * P.Z * P.Z * curve_eq h
  · intro h
    by_cases hz : P.Z = 0
    · exact ⟨0, hz⟩
    · have he := h.resolve_left hz
      have : P.Y / P.Z * (P.Y / P.Z) = P.X / P.Z * (P.X / P.Z) * (P.X / P.Z) +
          A * (P.X / P.Z) * (P.X / P.Z) + P.X / P.Z := by
        field_simp
        linear_combination he
      exact ⟨.some _ _ (nonsing_of h2 hA this), hz, (div_mul_cancel₀ _ hz).symm,
        (div_mul_cancel₀ _ hz).symm⟩

omit [DecidableEq K] in
theorem prep_neg {A : K} {P : Pt K} {Q : MPoint A} (h : PRep P Q) : PRep P.neg (-Q) := by
  rcases Q with _ | ⟨x, y, hq⟩
  · exact h
  · obtain ⟨h', e⟩ := neg_pt hq
    rw [e]
    obtain ⟨hz, hx, hy⟩ := h
    exact ⟨hz, hx, by simp only [Pt.neg]; rw [hy]; ring⟩

theorem prep_equals {A : K} {P P' : Pt K} {Q Q' : MPoint A} (h : PRep P Q) (h' : PRep P' Q') :
    P.equals P' = true ↔ Q = Q' := by
  unfold Pt.equals
  rcases Q with _ | ⟨x, y, hq⟩ <;> rcases Q' with _ | ⟨x', y', hq'⟩
  · have h0 : P.Z = 0 := h
    have h0' : P'.Z = 0 := h'
    simp [h0, h0']
  · have h0 : P.Z = 0 := h
    simp [h0, h'.1]
  · have h0 : P'.Z = 0 := h'
    simp [h0, h.1]
  · obtain ⟨hz, hx, hy⟩ := h
    obtain ⟨hz', hx', hy'⟩ := h'
    have ex : P.X * P'.Z = P'.X * P.Z ↔ x = x' := by
      rw [hx, hx', show x * P.Z * P'.Z = x * (P.Z * P'.Z) by ring,
        show x' * P'.Z * P.Z = x' * (P.Z * P'.Z) by ring]
      exact mul_left_inj' (mul_ne_zero hz hz')
    have ey : P.Y * P'.Z = P'.Y * P.Z ↔ y = y' := by
      rw [hy, hy', show y * P.Z * P'.Z = y * (P.Z * P'.Z) by ring,
        show y' * P'.Z * P.Z = y' * (P.Z * P'.Z) by ring]
      exact mul_left_inj' (mul_ne_zero hz hz')
    simp only [hz, hz', ex, ey, decide_false, Bool.false_and, Bool.false_or, Bool.not_false,
      Bool.true_and, Bool.and_eq_true, decide_eq_true_eq, Point.some.injEq]

/-! ### Addition -/

theorem prep_add {E : Crv K} (hE : E.Good) {P1 P2 : Pt K} {Q1 Q2 : MPoint E.A}
    (h1 : PRep P1 Q1) (h2 : PRep P2 Q2) : PRep (E.add P1 P2) (Q1 + Q2) := by
  rcases Q1 with _ | ⟨x1, y1, k1⟩
  · -- infinity + P2
    have hz : P1.Z = 0 := h1
    change PRep _ (0 + Q2)
    rw [zero_add]
    rcases Q2 with _ | ⟨x2, y2, k2⟩
    · have hz2 : P2.Z = 0 := h2
      change (E.add P1 P2).Z = 0
      simp [Crv.add, Pt.cond, cond', hz, hz2]
    · have : E.add P1 P2 = P2 := by
        simp [Crv.add, Pt.cond, cond', hz, h2.1]
      rw [this]; exact h2
  rcases Q2 with _ | ⟨x2, y2, k2⟩
  · have hz : P2.Z = 0 := h2
    change PRep _ (_ + 0)
    rw [add_zero]
    have : E.add P1 P2 = P1 := by
      simp [Crv.add, Pt.cond, cond', hz]
    rw [this]; exact h1
  obtain ⟨z1, X1, Y1⟩ := h1
  obtain ⟨z2, X2, Y2⟩ := h2
  have z12 : P1.Z * P2.Z ≠ 0 := mul_ne_zero z1 z2
  by_cases hx : x1 = x2
  · subst hx
    have eT : P2.X * P1.Z - P1.X * P2.Z = 0 := by rw [X1, X2]; ring
    by_cases hy : y1 = y2
    · subst hy
      have eL : P2.Y * P1.Z - P1.Y * P2.Z = 0 := by rw [Y1, Y2]; ring
      by_cases hy0 : y1 = 0
      · -- doubling a point of order two
        rw [add_opp (by rw [hy0]; ring)]
        change (E.add P1 P2).Z = 0
        have : P1.Y = 0 := by rw [Y1, hy0]; ring
        simp [Crv.add, Pt.cond, cond', z1, z2, eT, this]
      · have hl : (3 * x1 * x1 + 2 * E.A * x1 + 1) / (2 * y1) * (2 * y1) =
          3 * x1 * x1 + 2 * E.A * x1 + 1 := div_mul_cancel₀ _ (mul_ne_zero hE.two hy0)
        generalize (3 * x1 * x1 + 2 * E.A * x1 + 1) / (2 * y1) = l at hl
        obtain ⟨h3, e⟩ := add_dbl (h := k1) (h' := k2) hE.two hy0 hl
        rw [e]
        simp only [Crv.add, Pt.cond, cond', z1, z2, eT, eL, decide_true, Bool.and_self,
          decide_false, if_true, Bool.false_eq_true, if_false]
        have eTd : 2 * (P1.Y * P1.Z) = 2 * y1 * (P1.Z * P1.Z) := by rw [Y1]; ring
        have eLd : 3 * (P1.X * P1.X) + P1.Z * P1.Z +
            E.A * ((P1.X + P1.Z) * (P1.X + P1.Z) - P1.X * P1.X - P1.Z * P1.Z) =
            l * (2 * y1 * (P1.Z * P1.Z)) := by
          rw [X1]; linear_combination -(P1.Z * P1.Z) * hl
        rw [eTd, eLd, X1, X2, Y1]
        have ht : 2 * y1 * (P1.Z * P1.Z) ≠ 0 := mul_ne_zero (mul_ne_zero hE.two hy0) (mul_ne_zero z1 z1)
        generalize 2 * y1 * (P1.Z * P1.Z) = t at ht
        refine ⟨mul_ne_zero z12 (mul_ne_zero ht (mul_ne_zero ht ht)), ?_, ?_⟩ <;> ring
    · -- opposite points
      have hopp : y1 = -y2 := (y_of_x_eq k1 k2).resolve_left hy
      rw [add_opp hopp]
      change (E.add P1 P2).Z = 0
      have eL : P2.Y * P1.Z - P1.Y * P2.Z ≠ 0 := by
        rw [Y1, Y2]
        intro h0
        apply hy
        have : (y2 - y1) * (P1.Z * P2.Z) = 0 := by linear_combination h0
        exact (sub_eq_zero.mp ((mul_eq_zero.mp this).resolve_right z12)).symm
      simp [Crv.add, Pt.cond, cond', z1, z2, eT, eL]
  · have hd : x2 - x1 ≠ 0 := sub_ne_zero.mpr (Ne.symm hx)
    have hl : (y2 - y1) / (x2 - x1) * (x2 - x1) = y2 - y1 := div_mul_cancel₀ _ hd
    generalize (y2 - y1) / (x2 - x1) = l at hl
    obtain ⟨h3, e⟩ := add_gen (h1 := k1) (h2 := k2) hx hl
    rw [e]
    have eT : P2.X * P1.Z - P1.X * P2.Z = (x2 - x1) * (P1.Z * P2.Z) := by rw [X1, X2]; ring
    have eL : P2.Y * P1.Z - P1.Y * P2.Z = l * ((x2 - x1) * (P1.Z * P2.Z)) := by
      rw [Y1, Y2]; linear_combination -(P1.Z * P2.Z) * hl
    have ht : (x2 - x1) * (P1.Z * P2.Z) ≠ 0 := mul_ne_zero hd z12
    simp only [Crv.add, Pt.cond, cond', z1, z2, eT, eL, ht, Bool.false_and,
      decide_false, Bool.false_eq_true, if_false]
    rw [X1, X2, Y1]
    generalize (x2 - x1) * (P1.Z * P2.Z) = t at ht
    refine ⟨mul_ne_zero z12 (mul_ne_zero ht (mul_ne_zero ht ht)), ?_, ?_⟩ <;> ring

theorem prep_sub {E : Crv K} (hE : E.Good) {P1 P2 : Pt K} {Q1 Q2 : MPoint E.A}
    (h1 : PRep P1 Q1) (h2 : PRep P2 Q2) : PRep (E.sub P1 P2) (Q1 - Q2) := by
  rw [sub_eq_add_neg]; exact prep_add hE h1 (prep_neg h2)

/-! ### Doubling -/

omit [DecidableEq K] in
/-- A point with `y = 0` has `x^2 ≠ 1`. -/
theorem x_sq_ne_one {E : Crv K} (hE : E.Good) {x : K} (h : (mont E.A).Nonsingular x 0) :
    x * x - 1 ≠ 0 := by
  intro h1
  have e := curve_eq h
  have hx : x ≠ 0 := by rintro rfl; exact one_ne_zero (α := K) (by linear_combination -h1)
  have e1 : x * (2 + E.A * x) = 0 := by linear_combination -e - x * h1
  have e2 := (mul_eq_zero.mp e1).resolve_left hx
  apply hE.disc
  linear_combination (E.A * x - 2) * e2 - E.A * E.A * h1

theorem two_mul_pt {E : Crv K} (hE : E.Good) {x y : K} (h : (mont E.A).Nonsingular x y)
    (hy : y ≠ 0) : ∃ x' y' h', (Point.some x y h + .some x y h : MPoint E.A) = .some x' y' h' ∧
      x' * (4 * (y * y)) = (x * x - 1) * (x * x - 1) ∧
      y' * (8 * (y * y * y)) = (x * x - 1) *
        ((x * x + 1) * (x * x + 1 + E.A * (2 * x)) + (2 * x) * (2 * x)) := by
  have hl : (3 * x * x + 2 * E.A * x + 1) / (2 * y) * (2 * y) =
    3 * x * x + 2 * E.A * x + 1 := div_mul_cancel₀ _ (mul_ne_zero hE.two hy)
  generalize (3 * x * x + 2 * E.A * x + 1) / (2 * y) = l at hl
  obtain ⟨h3, e⟩ := add_dbl (h := h) (h' := h) hE.two hy hl
  have hc := curve_eq h
  have ex : (l * l - E.A - x - x) * (4 * (y * y)) = (x * x - 1) * (x * x - 1) := by
    linear_combination (l * (2 * y) + (3 * x * x + 2 * E.A * x + 1)) * hl
      - 4 * (E.A + 2 * x) * hc
  refine ⟨_, _, h3, e, ex, ?_⟩
  linear_combination -(l * (2 * y)) * ex + (4 * (y * y) * x - (x * x - 1) * (x * x - 1)) * hl +
    (-8 * y * y - 8 * (x*x*x + E.A * x * x + x) + 4 * x * (3 * x * x + 2 * E.A * x + 1)) * hc

theorem prep_double {E : Crv K} (hE : E.Good) {P : Pt K} {Q : MPoint E.A} (h : PRep P Q) :
    PRep (E.double P) (2 • Q) := by
  rw [two_nsmul]
  rcases Q with _ | ⟨x, y, k⟩
  · have hz : P.Z = 0 := h
    change (E.double P).Z = 0
    simp [Crv.double, hz]
  · obtain ⟨hz, hX, hY⟩ := h
    by_cases hy : y = 0
    · rw [add_opp (by rw [hy]; ring)]
      change (E.double P).Z = 0
      simp [Crv.double, hY, hy]
    · obtain ⟨x', y', k', e, e1, e2⟩ := two_mul_pt hE k hy
      rw [e]
      simp only [Crv.double, hX, hY]
      refine ⟨?_, ?_, ?_⟩
      · have : 2 * (y * P.Z * P.Z) ≠ 0 := mul_ne_zero hE.two (mul_ne_zero (mul_ne_zero hy hz) hz)
        exact mul_ne_zero this (mul_ne_zero this this)
      · linear_combination -(2 * y * P.Z ^ 6) * e1
      · linear_combination -(P.Z ^ 6) * e2

theorem prep_doubleIter {E : Crv K} (hE : E.Good) {P : Pt K} {Q : MPoint E.A} (h : PRep P Q)
    (n : Nat) : PRep (E.doubleIter P n) ((2 ^ n) • Q) := by
  unfold Crv.doubleIter
  induction n with
  | zero => simpa using h
  | succ n ih =>
    rw [Function.iterate_succ_apply', pow_succ]
    have := prep_double hE ih
    rwa [← mul_nsmul] at this

end Festa
