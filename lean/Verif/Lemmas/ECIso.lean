import Verif.Lemmas.EC
import Mathlib.AlgebraicGeometry.EllipticCurve.VariableChange
/-! Changes of variables between Montgomery curves. -/
namespace Festa
open WeierstrassCurve WeierstrassCurve.Affine
variable {K : Type*} [Field K]

/-- The two curves are isomorphic over `K`. -/
def IsoOver (A B : K) : Prop := ∃ C : VariableChange K, C • mont A = mont B

theorem mont_disc (A : K) : (mont A).Δ = 16 * (A * A - 4) := by
  simp only [WeierstrassCurve.Δ, WeierstrassCurve.b₂, WeierstrassCurve.b₄, WeierstrassCurve.b₆,
    WeierstrassCurve.b₈, mont]; ring

theorem mont_elliptic {A : K} (h2 : (2 : K) ≠ 0) (hA : A * A ≠ 4) : (mont A).IsElliptic := by
  refine ⟨?_⟩
  rw [mont_disc, isUnit_iff_ne_zero]
  refine mul_ne_zero ?_ (sub_ne_zero.mpr hA)
  rw [show (16 : K) = 2 ^ 4 by norm_num]
  exact pow_ne_zero _ h2

theorem j_eq {E : Crv K} (h2 : (2 : K) ≠ 0) (hA : E.A * E.A ≠ 4) [hell : (mont E.A).IsElliptic] :
    (mont E.A).j = E.jInvariant := by
  rw [WeierstrassCurve.j, Units.val_inv_eq_inv_val, WeierstrassCurve.coe_Δ', mont_disc]
  have h4 : E.A * E.A - 4 ≠ 0 := sub_ne_zero.mpr hA
  have h16 : (16 : K) ≠ 0 := by
    rw [show (16 : K) = 2 ^ 4 by norm_num]; exact pow_ne_zero _ h2
  have c4 : (mont E.A).c₄ = 16 * (E.A * E.A - 3) := by
    simp only [WeierstrassCurve.c₄, WeierstrassCurve.b₂, WeierstrassCurve.b₄, mont]; ring
  rw [c4, Crv.jInvariant, eq_div_iff h4]
  generalize E.A * E.A - 4 = D at h4 ⊢
  generalize E.A * E.A - 3 = N
  field_simp
  ring

/-- What an isomorphism of Montgomery curves looks like. -/
theorem isoOver_elim {A B : K} (h2 : (2 : K) ≠ 0) (h : IsoOver A B) :
    ∃ u v w : K, w ≠ 0 ∧ u = w * w ∧ 3 * v + B = u * A ∧ 3 * v * v + 2 * B * v + 1 = u * u ∧
      v * (v * v + B * v + 1) = 0 := by
  obtain ⟨⟨⟨w, w', hw, hw'⟩, r, s, t⟩, e⟩ := h
  have e1 := congrArg WeierstrassCurve.a₁ e
  have e2 := congrArg WeierstrassCurve.a₂ e
  have e3 := congrArg WeierstrassCurve.a₃ e
  have e4 := congrArg WeierstrassCurve.a₄ e
  have e6 := congrArg WeierstrassCurve.a₆ e
  simp only [variableChange_a₁, variableChange_a₂, variableChange_a₃, variableChange_a₄,
    variableChange_a₆, mont, Units.inv_mk] at e1 e2 e3 e4 e6
  have hw0 : w' ≠ 0 := left_ne_zero_of_mul_eq_one hw'
  have hs : s = 0 := by
    have := (mul_eq_zero.mp e1).resolve_left hw0
    rw [zero_add] at this
    exact (mul_eq_zero.mp this).resolve_left h2
  subst hs
  have ht : t = 0 := by
    have := (mul_eq_zero.mp e3).resolve_left (pow_ne_zero _ hw0)
    simp only [zero_add, mul_zero, add_zero] at this
    exact (mul_eq_zero.mp this).resolve_left h2
  subst ht
  have e6' : r * (1 + r * A + r * r) = 0 := by
    have := (mul_eq_zero.mp e6).resolve_left (pow_ne_zero _ hw0)
    linear_combination this
  refine ⟨w' * w', -(w' * w' * r), w', hw0, rfl, ?_, ?_, ?_⟩
  · linear_combination -e2
  · linear_combination -e4 + (2 * (-(w' * w' * r))) * (-e2)
  · linear_combination -(w' ^ 6) * e6' + w' ^ 4 * r ^ 2 * (-e2) - w' ^ 2 * r * (-e4)

/-- The map `(x, y) ↦ (u x + v, w y)`. -/
theorem iso_point {A B u v w x y : K} (h2 : (2 : K) ≠ 0) (hB : B * B ≠ 4) (hw : w * w = u * u * u)
    (e1 : 3 * v + B = u * A) (e2 : 3 * v * v + 2 * B * v + 1 = u * u)
    (e3 : v * (v * v + B * v + 1) = 0) (h : (mont A).Nonsingular x y) :
    (mont B).Nonsingular (u * x + v) (w * y) := by
  apply nonsing_of h2 hB
  have c := curve_eq h
  linear_combination (w * w) * c + (x ^ 3 + A * x ^ 2 + x) * hw -
    u ^ 2 * x ^ 2 * e1 - u * x * e2 - e3

/-- The map on the groups of points. -/
def isoMap {A B u v w : K} (hp : ∀ x y, (mont A).Nonsingular x y →
    (mont B).Nonsingular (u * x + v) (w * y)) : MPoint A → MPoint B
  | .zero => .zero
  | .some x y h => .some (u * x + v) (w * y) (hp x y h)

variable [DecidableEq K]

theorem isoMap_add {A B u v w : K} (h2 : (2 : K) ≠ 0) (hu : u ≠ 0) (hw0 : w ≠ 0)
    (hw : w * w = u * u * u) (e1 : 3 * v + B = u * A) (e2 : 3 * v * v + 2 * B * v + 1 = u * u)
    (hp : ∀ x y, (mont A).Nonsingular x y → (mont B).Nonsingular (u * x + v) (w * y))
    (P Q : MPoint A) : isoMap hp (P + Q) = isoMap hp P + isoMap hp Q := by
  rcases P with _ | ⟨x1, y1, k1⟩
  · change isoMap hp (0 + Q) = 0 + isoMap hp Q
    rw [zero_add, zero_add]
  rcases Q with _ | ⟨x2, y2, k2⟩
  · change isoMap hp (_ + 0) = _ + 0
    rw [add_zero, add_zero]
  by_cases hx : x1 = x2
  · subst hx
    by_cases hyy : y1 = -y2
    · rw [add_opp hyy]
      change (0 : MPoint B) = _
      exact (add_opp (A := B) (by rw [hyy]; ring)).symm
    · have hy : y1 = y2 := (y_of_x_eq k1 k2).resolve_right hyy
      subst hy
      have hy0 : y1 ≠ 0 := by rintro rfl; exact hyy (by ring)
      have h2y : 2 * y1 ≠ 0 := mul_ne_zero h2 hy0
      have hl : (3 * x1 * x1 + 2 * A * x1 + 1) / (2 * y1) * (2 * y1) = 3 * x1 * x1 + 2 * A * x1 + 1 :=
        div_mul_cancel₀ _ h2y
      generalize (3 * x1 * x1 + 2 * A * x1 + 1) / (2 * y1) = l at hl
      obtain ⟨h3, e⟩ := add_dbl (h := k1) (h' := k2) h2 hy0 hl
      have hl' : (w * l / u) * (2 * (w * y1)) =
          3 * (u * x1 + v) * (u * x1 + v) + 2 * B * (u * x1 + v) + 1 := by
        field_simp
        linear_combination (w * w) * hl + (3 * x1 * x1 + 2 * A * x1 + 1) * hw
          - 2 * u ^ 2 * x1 * e1 - u * e2
      obtain ⟨h3', e'⟩ := add_dbl (h := hp x1 y1 k1) (h' := hp x1 y1 k2) h2 (mul_ne_zero hw0 hy0) hl'
      rw [e]
      simp only [isoMap]
      rw [e', Point.some.injEq]
      have hsq : w * l / u * (w * l / u) = u * (l * l) := by
        field_simp
        linear_combination l ^ 2 * hw
      have hx3 : u * (l * l - A - x1 - x1) + v =
          w * l / u * (w * l / u) - B - (u * x1 + v) - (u * x1 + v) := by
        rw [hsq]; linear_combination e1
      refine ⟨hx3, ?_⟩
      rw [← hx3]
      field_simp
      ring
  · have hd : x2 - x1 ≠ 0 := sub_ne_zero.mpr (Ne.symm hx)
    have hl : (y2 - y1) / (x2 - x1) * (x2 - x1) = y2 - y1 := div_mul_cancel₀ _ hd
    generalize (y2 - y1) / (x2 - x1) = l at hl
    obtain ⟨h3, e⟩ := add_gen (h1 := k1) (h2 := k2) hx hl
    have hl' : (w * l / u) * ((u * x2 + v) - (u * x1 + v)) = w * y2 - w * y1 := by
      rw [show u * x2 + v - (u * x1 + v) = u * (x2 - x1) by ring, ← mul_assoc, div_mul_cancel₀ _ hu]
      linear_combination w * hl
    have hx' : u * x1 + v ≠ u * x2 + v := by
      intro h
      exact hx (mul_left_cancel₀ hu (add_right_cancel h))
    obtain ⟨h3', e'⟩ := add_gen (h1 := hp x1 y1 k1) (h2 := hp x2 y2 k2) hx' hl'
    rw [e]
    simp only [isoMap]
    rw [e', Point.some.injEq]
    have hsq : w * l / u * (w * l / u) = u * (l * l) := by
      field_simp
      linear_combination l ^ 2 * hw
    have hx3 : u * (l * l - A - x1 - x2) + v =
        w * l / u * (w * l / u) - B - (u * x1 + v) - (u * x2 + v) := by
      rw [hsq]; linear_combination e1
    refine ⟨hx3, ?_⟩
    rw [← hx3]
    field_simp
    ring

omit [DecidableEq K] in
theorem isoMap_bij {A B u v w : K} (hu : u ≠ 0) (hw0 : w ≠ 0)
    (hp : ∀ x y, (mont A).Nonsingular x y → (mont B).Nonsingular (u * x + v) (w * y))
    (h2 : (2 : K) ≠ 0) (hA : A * A ≠ 4) (hw : w * w = u * u * u) (e1 : 3 * v + B = u * A)
    (e2 : 3 * v * v + 2 * B * v + 1 = u * u) (e3 : v * (v * v + B * v + 1) = 0) :
    Function.Bijective (isoMap hp) := by
  constructor
  · rintro (_ | ⟨x, y, k⟩) (_ | ⟨x', y', k'⟩) h
    · rfl
    · exact absurd h.symm (Point.some_ne_zero _)
    · exact absurd h (Point.some_ne_zero _)
    · simp only [isoMap, Point.some.injEq] at h
      have e : x = x' := mul_left_cancel₀ hu (add_right_cancel h.1)
      have e' : y = y' := mul_left_cancel₀ hw0 h.2
      subst e; subst e'; rfl
  · rintro (_ | ⟨x, y, k⟩)
    · exact ⟨.zero, rfl⟩
    · have k' : (mont A).Nonsingular ((x - v) / u) (y / w) := by
        apply nonsing_of h2 hA
        have c := curve_eq k
        have hX : (x - v) / u * u = x - v := div_mul_cancel₀ _ hu
        have hY : y / w * w = y := div_mul_cancel₀ _ hw0
        generalize (x - v) / u = X at hX ⊢
        generalize y / w = Y at hY ⊢
        have hx : x = X * u + v := by rw [hX]; ring
        subst hY; rw [hx] at c
        apply mul_left_cancel₀ (mul_ne_zero hw0 hw0)
        linear_combination c - (X ^ 3 + A * X ^ 2 + X) * hw +
          u ^ 2 * X ^ 2 * e1 + u * X * e2 + e3
      refine ⟨.some _ _ k', ?_⟩
      simp only [isoMap, Point.some.injEq]
      exact ⟨by rw [mul_div_cancel₀ _ hu]; ring, mul_div_cancel₀ _ hw0⟩

theorem exists_iso {A B : K} {u v w : K}
    (hp : ∀ x y, (mont A).Nonsingular x y → (mont B).Nonsingular (u * x + v) (w * y))
    (hb : Function.Bijective (isoMap hp))
    (ha : ∀ P Q, isoMap hp (P + Q) = isoMap hp P + isoMap hp Q) :
    ∃ φ : MPoint A ≃+ MPoint B, ∀ Q, φ Q = isoMap hp Q :=
  ⟨{ Equiv.ofBijective (isoMap hp) hb with map_add' := ha }, fun _ => rfl⟩

end Festa
