import Verif.Spec.OffCurve
import Mathlib.Tactic.LinearCombination
import Mathlib.Tactic.FieldSimp
/-! The addition of the code on the curves `y² = x³ + A x² + x + c`, as in Lemmas/EC.lean. -/
namespace Festa
open WeierstrassCurve.Affine
variable {K : Type*} [Field K]

theorem curve_eqC {A c x y : K} (h : (montC A c).Nonsingular x y) : y * y = x * x * x + A * x * x + x + c := by
  have := ((montC A c).equation_iff x y).mp h.1
  simp only [montC] at this
  linear_combination this

theorem negY_montC (A c x y : K) : (montC A c).negY x y = -y := by
  simp [WeierstrassCurve.Affine.negY, montC]

theorem neg_ptC {A c x y : K} (h : (montC A c).Nonsingular x y) :
    ∃ h', -(Point.some x y h : (montC A c).Point) = .some x (-y) h' := by
  have e := Point.neg_some h
  simp only [negY_montC] at e
  exact ⟨_, e⟩

theorem pt_congrC {A c x y x' y' : K} {h : (montC A c).Nonsingular x y} (e : x = x') (e' : y = y') :
    ∃ h', (Point.some x y h : (montC A c).Point) = .some x' y' h' := by
  subst e; subst e'; exact ⟨h, rfl⟩

variable [DecidableEq K]

theorem add_oppC {A c x y y' : K} {h : (montC A c).Nonsingular x y} {h' : (montC A c).Nonsingular x y'}
    (e : y = -y') : (Point.some x y h : (montC A c).Point) + .some x y' h' = 0 :=
  Point.add_of_Y_eq rfl (by rw [negY_montC, e])

theorem add_genC {A c x1 y1 x2 y2 l : K} {h1 : (montC A c).Nonsingular x1 y1}
    {h2 : (montC A c).Nonsingular x2 y2} (hx : x1 ≠ x2) (hl : l * (x2 - x1) = y2 - y1) :
    ∃ h, (Point.some x1 y1 h1 : (montC A c).Point) + .some x2 y2 h2 =
      .some (l * l - A - x1 - x2) (l * (x1 - (l * l - A - x1 - x2)) - y1) h := by
  have e := Point.add_of_X_ne (h₁ := h1) (h₂ := h2) hx
  have hs : (montC A c).slope x1 x2 y1 y2 = l := by
    rw [slope_of_X_ne hx]
    have : x1 - x2 ≠ 0 := sub_ne_zero.mpr hx
    field_simp
    linear_combination hl
  have eX : (montC A c).addX x1 x2 ((montC A c).slope x1 x2 y1 y2) = l * l - A - x1 - x2 := by
    rw [hs]; simp only [addX, montC]; ring
  have eY : (montC A c).addY x1 x2 y1 ((montC A c).slope x1 x2 y1 y2) =
      l * (x1 - (l * l - A - x1 - x2)) - y1 := by
    rw [addY, negAddY, eX, hs, negY_montC]; ring
  rw [e]
  exact pt_congrC eX eY

theorem add_dblC {A c x y l : K} {h : (montC A c).Nonsingular x y} {h' : (montC A c).Nonsingular x y}
    (h2 : (2 : K) ≠ 0) (hy : y ≠ 0) (hl : l * (2 * y) = 3 * x * x + 2 * A * x + 1) :
    ∃ h3, (Point.some x y h : (montC A c).Point) + .some x y h' =
      .some (l * l - A - x - x) (l * (x - (l * l - A - x - x)) - y) h3 := by
  have hy' : y ≠ (montC A c).negY x y := by
    rw [negY_montC]
    intro e
    exact hy ((mul_eq_zero.mp (show 2 * y = 0 by linear_combination e)).resolve_left h2)
  have e := Point.add_of_Y_ne (h₁ := h) (h₂ := h') hy'
  have hs : (montC A c).slope x x y y = l := by
    rw [slope_of_Y_ne rfl hy', negY_montC]
    have : y - -y ≠ 0 := by
      rw [sub_neg_eq_add, ← two_mul]; exact mul_ne_zero h2 hy
    rw [div_eq_iff this]
    simp only [montC]
    linear_combination -hl
  have eX : (montC A c).addX x x ((montC A c).slope x x y y) = l * l - A - x - x := by
    rw [hs]; simp only [addX, montC]; ring
  have eY : (montC A c).addY x x y ((montC A c).slope x x y y) = l * (x - (l * l - A - x - x)) - y := by
    rw [addY, negAddY, eX, hs, negY_montC]; ring
  rw [e]
  exact pt_congrC eX eY

omit [DecidableEq K] in
theorem y_of_x_eqC {A c x y y' : K} (h : (montC A c).Nonsingular x y) (h' : (montC A c).Nonsingular x y') :
    y = y' ∨ y = -y' := by
  rw [← mul_self_eq_mul_self_iff]
  rw [curve_eqC h, curve_eqC h']

theorem prep_addC {E : Crv K} {c : K} (hE : (2 : K) ≠ 0) {P1 P2 : Pt K} {Q1 Q2 : (montC E.A c).Point}
    (h1 : PRepC P1 Q1) (h2 : PRepC P2 Q2) : PRepC (E.add P1 P2) (Q1 + Q2) := by
  rcases Q1 with _ | ⟨x1, y1, k1⟩
  · -- infinity + P2
    have hz : P1.Z = 0 := h1
    change PRepC _ (0 + Q2)
    rw [zero_add]
    rcases Q2 with _ | ⟨x2, y2, k2⟩
    · have hz2 : P2.Z = 0 := h2
      change (E.add P1 P2).Z = 0
      simp [Crv.add, Pt.cond, cond', hz, hz2]
    · have : E.add P1 P2 = P2 := by
        simp [Crv.add, Pt.cond, cond', hz, h2.1]
      rw [this]; exact h2
  rcases Q2 with _ | ⟨x2, y2, k2⟩
  · have hz : P2.Z = 0 := h2
    change PRepC _ (_ + 0)
    rw [add_zero]
    have : E.add P1 P2 = P1 := by
      simp [Crv.add, Pt.cond, cond', hz]
    rw [this]; exact h1
  obtain ⟨z1, X1, Y1⟩ := h1
  obtain ⟨z2, X2, Y2⟩ := h2
  have z12 : P1.Z * P2.Z ≠ 0 := mul_ne_zero z1 z2
  by_cases hx : x1 = x2
  · subst hx
    have eT : P2.X * P1.Z - P1.X * P2.Z = 0 := by rw [X1, X2]; ring
    by_cases hy : y1 = y2
    · subst hy
      have eL : P2.Y * P1.Z - P1.Y * P2.Z = 0 := by rw [Y1, Y2]; ring
      by_cases hy0 : y1 = 0
      · -- doubling a point of order two
        rw [add_oppC (by rw [hy0]; ring)]
        change (E.add P1 P2).Z = 0
        have : P1.Y = 0 := by rw [Y1, hy0]; ring
        simp [Crv.add, Pt.cond, cond', z1, z2, eT, this]
      · have hl : (3 * x1 * x1 + 2 * E.A * x1 + 1) / (2 * y1) * (2 * y1) =
          3 * x1 * x1 + 2 * E.A * x1 + 1 := div_mul_cancel₀ _ (mul_ne_zero hE hy0)
        generalize (3 * x1 * x1 + 2 * E.A * x1 + 1) / (2 * y1) = l at hl
        obtain ⟨h3, e⟩ := add_dblC (h := k1) (h' := k2) hE hy0 hl
        rw [e]
        simp only [Crv.add, Pt.cond, cond', z1, z2, eT, eL, decide_true, Bool.and_self,
          decide_false, if_true, Bool.false_eq_true, if_false]
        have eTd : 2 * (P1.Y * P1.Z) = 2 * y1 * (P1.Z * P1.Z) := by rw [Y1]; ring
        have eLd : 3 * (P1.X * P1.X) + P1.Z * P1.Z +
            E.A * ((P1.X + P1.Z) * (P1.X + P1.Z) - P1.X * P1.X - P1.Z * P1.Z) =
            l * (2 * y1 * (P1.Z * P1.Z)) := by
          rw [X1]; linear_combination -(P1.Z * P1.Z) * hl
        rw [eTd, eLd, X1, X2, Y1]
        have ht : 2 * y1 * (P1.Z * P1.Z) ≠ 0 := mul_ne_zero (mul_ne_zero hE hy0) (mul_ne_zero z1 z1)
        generalize 2 * y1 * (P1.Z * P1.Z) = t at ht
        refine ⟨mul_ne_zero z12 (mul_ne_zero ht (mul_ne_zero ht ht)), ?_, ?_⟩ <;> ring
    · -- opposite points
      have hopp : y1 = -y2 := (y_of_x_eqC k1 k2).resolve_left hy
      rw [add_oppC hopp]
      change (E.add P1 P2).Z = 0
      have eL : P2.Y * P1.Z - P1.Y * P2.Z ≠ 0 := by
        rw [Y1, Y2]
        intro h0
        apply hy
        have : (y2 - y1) * (P1.Z * P2.Z) = 0 := by linear_combination h0
        exact (sub_eq_zero.mp ((mul_eq_zero.mp this).resolve_right z12)).symm
      simp [Crv.add, Pt.cond, cond', z1, z2, eT, eL]
  · have hd : x2 - x1 ≠ 0 := sub_ne_zero.mpr (Ne.symm hx)
    have hl : (y2 - y1) / (x2 - x1) * (x2 - x1) = y2 - y1 := div_mul_cancel₀ _ hd
    generalize (y2 - y1) / (x2 - x1) = l at hl
    obtain ⟨h3, e⟩ := add_genC (h1 := k1) (h2 := k2) hx hl
    rw [e]
    have eT : P2.X * P1.Z - P1.X * P2.Z = (x2 - x1) * (P1.Z * P2.Z) := by rw [X1, X2]; ring
    have eL : P2.Y * P1.Z - P1.Y * P2.Z = l * ((x2 - x1) * (P1.Z * P2.Z)) := by
      rw [Y1, Y2]; linear_combination -(P1.Z * P2.Z) * hl
    have ht : (x2 - x1) * (P1.Z * P2.Z) ≠ 0 := mul_ne_zero hd z12
    simp only [Crv.add, Pt.cond, cond', z1, z2, eT, eL, ht, Bool.false_and,
      decide_false, Bool.false_eq_true, if_false]
    rw [X1, X2, Y1]
    generalize (x2 - x1) * (P1.Z * P2.Z) = t at ht
    refine ⟨mul_ne_zero z12 (mul_ne_zero ht (mul_ne_zero ht ht)), ?_, ?_⟩ <;> ring

end Festa
