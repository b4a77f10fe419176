import Verif.Lemmas.Weil
import Verif.Lemmas.VeluBase
/-!
The value of Miller's quotient of lines in terms of half points: with `V = S + B`, `W = S - B` and
`X = S + C` it is `2 y(S) (x(C) - x(B)) / ((x(S) - x(B)) (x(C) - x(S)))`.
-/
namespace Festa
open WeierstrassCurve.Affine WeierstrassCurve.Affine.CoordinateRing
variable {K : Type*} [Field K] [DecidableEq K] {A : K}

/-- The line through two points that are not opposite, in coordinates. -/
theorem chord {P Q : MPoint A} (hP : P ≠ 0) (hQ : Q ≠ 0) (h : P + Q ≠ 0) :
    ∃ m, xc (P + Q) = m ^ 2 - A - xc P - xc Q ∧ yc (P + Q) = -(yc P + m * (xc (P + Q) - xc P)) ∧
      m * (xc P - xc Q) = yc P - yc Q ∧
      (P = Q → 2 * m * yc P = 3 * xc P ^ 2 + 2 * A * xc P + 1) ∧
      ∀ X : MPoint A, X ≠ 0 → xc X ≠ xc (P + Q) →
        gv P Q X * (xc X - xc (P + Q)) = yc X - (m * (xc X - xc P) + yc P) := by
  rcases P with _ | ⟨x1, y1, h1⟩
  · exact absurd rfl hP
  rcases Q with _ | ⟨x2, y2, h2⟩
  · exact absurd rfl hQ
  have hxy : ¬(x1 = x2 ∧ y1 = (mont A).negY x2 y2) := fun h' => h (Point.add_of_Y_eq h'.1 h'.2)
  have e := Point.add_some hxy (h₁ := h1) (h₂ := h2)
  have e1 : xc ((Point.some x1 y1 h1 : MPoint A) + .some x2 y2 h2) =
      (mont A).addX x1 x2 ((mont A).slope x1 x2 y1 y2) := by rw [e]; rfl
  have e2 : yc ((Point.some x1 y1 h1 : MPoint A) + .some x2 y2 h2) =
      (mont A).addY x1 x2 y1 ((mont A).slope x1 x2 y1 y2) := by rw [e]; rfl
  have a1 : (mont A).a₁ = 0 := rfl
  have a2 : (mont A).a₂ = A := rfl
  refine ⟨(mont A).slope x1 x2 y1 y2, ?_, ?_, ?_, ?_, ?_⟩
  · rw [e1, addX, a1, a2]; change _ = _ - x1 - x2; ring
  · rw [e2, addY, negY_mont, negAddY, ← e1]; change -(_ * (_ - x1) + y1) = -(y1 + _ * (_ - x1)); ring
  · change _ * (x1 - x2) = y1 - y2
    by_cases hx : x1 = x2
    · have hy' : y1 ≠ (mont A).negY x2 y2 := fun h => hxy ⟨hx, h⟩
      rw [Y_eq_of_Y_ne h1.1 h2.1 hx hy', hx]; ring
    · rw [slope_of_X_ne hx, div_mul_cancel₀ _ (sub_ne_zero.mpr hx)]
  · intro hPQ
    injection hPQ with ex ey
    subst ex; subst ey
    change 2 * _ * y1 = 3 * x1 ^ 2 + 2 * A * x1 + 1
    have hy' : y1 ≠ (mont A).negY x1 y1 := fun h => hxy ⟨rfl, h⟩
    have hd : y1 - (mont A).negY x1 y1 ≠ 0 := sub_ne_zero.mpr hy'
    rw [slope_of_Y_ne rfl hy']
    rw [negY_mont] at hd ⊢
    have h4 : (mont A).a₄ = 1 := rfl
    rw [a1, a2, h4]
    have h := div_mul_cancel₀ (3 * x1 ^ 2 + 2 * A * x1 + 1 - 0 * y1) hd
    linear_combination h
  · intro X hX hne
    rcases X with _ | ⟨x, y, k⟩
    · exact absurd rfl hX
    have e5 : numC (Point.some x1 y1 h1 : MPoint A) (.some x2 y2 h2) =
        YClass (mont A) (linePolynomial x1 y1 ((mont A).slope x1 x2 y1 y2)) := if_neg hxy
    have e6 : evalPt (.some x y k : MPoint A) (denC ((Point.some x1 y1 h1 : MPoint A) + .some x2 y2 h2)) =
        x - xc ((Point.some x1 y1 h1 : MPoint A) + .some x2 y2 h2) := by
      rw [e]; exact evalPt_den _ _
    unfold gv
    rw [e5, e6, evalPt_Y]
    exact div_mul_cancel₀ _ (sub_ne_zero.mpr hne)

theorem gv_opp {P X : MPoint A} (hP : P ≠ 0) (hX : X ≠ 0) : gv P (-P) X = xc X - xc P := by
  unfold gv
  rw [numC_neg P hP, add_neg_cancel]
  rcases X with _ | ⟨x, y, k⟩
  · exact absurd rfl hX
  rcases P with _ | ⟨x', y', k'⟩
  · exact absurd rfl hP
  change _ / evalPt (.some x y k) (1 : (mont A).CoordinateRing) = _
  rw [evalPt_one, div_one, evalPt_den]
  rfl

theorem xc_ne {P Q : MPoint A} (hP : P ≠ 0) (hQ : Q ≠ 0) (h1 : P + Q ≠ 0) (h2 : P - Q ≠ 0) :
    xc P ≠ xc Q := fun h => by
  rcases (xc_eq_iff hP hQ).mp h with e | e
  · exact h2 (sub_eq_zero.mpr e)
  · exact h1 (by rw [e, neg_add_cancel])

/-- The tangent at `S`, at `S + C`. -/
theorem gv_tangent {S C : MPoint A} (hS : S ≠ 0) (hC : C ≠ 0) (hSS : S + S ≠ 0) (h1 : S + C ≠ 0)
    (h2 : C - S ≠ 0) (h3 : S + C + (S + S) ≠ 0) :
    gv S S (S + C) * (xc C - xc S) = 2 * yc S := by
  obtain ⟨m, e1, e2, -, e4, e5⟩ := chord hS hS hSS
  obtain ⟨n, f1, f2, f3, -, -⟩ := chord hS hC h1
  have hx : xc C ≠ xc S := xc_ne hC hS (by rwa [add_comm]) h2
  have hX : xc (S + C) ≠ xc (S + S) := xc_ne h1 hSS h3 (by rwa [add_sub_add_left_eq_sub])
  have g := e5 _ h1 hX
  have e4 := e4 rfl
  have cS := yc_sq hS
  have cC := yc_sq hC
  have hd : xc C - xc S ≠ 0 := sub_ne_zero.mpr hx
  have hk : 2 * yc S * (n - m) = (xc C - xc S) * (xc S - xc (S + C)) := by
    have h := mul_left_cancel₀ hd (show (xc C - xc S) * (n * (yc C + yc S)) = (xc C - xc S) *
      (xc C ^ 2 + xc C * xc S + xc S ^ 2 + A * (xc C + xc S) + 1) by
        linear_combination -(yc C + yc S) * f3 + cC - cS)
    linear_combination h - e4 + (xc C - xc S) * f1 - n * f3
  apply mul_right_cancel₀ (sub_ne_zero.mpr hX)
  rw [mul_right_comm, g, f2]
  linear_combination -(n + m) * hk - 2 * yc S * f1 + 2 * yc S * e1

/-- The lines through `V` and `±R`. -/
theorem gv_pair {V R X : MPoint A} (hV : V ≠ 0) (hR : R ≠ 0) (hX : X ≠ 0) (h1 : V + R ≠ 0) (h2 : V - R ≠ 0)
    (h3 : X + V ≠ 0) (h4 : X - V ≠ 0) (h5 : X - (V + R) ≠ 0) (h6 : X - (V - R) ≠ 0)
    (h7 : X + (V + R) ≠ 0) (h8 : X + (V - R) ≠ 0) :
    gv V R X * gv V (-R) X * (xc (X - V) - xc R) = (xc X - xc R) * (xc V - xc R) := by
  have hR' : -R ≠ 0 := neg_ne_zero.mpr hR
  have h2' : V + -R ≠ 0 := by rwa [← sub_eq_add_neg]
  obtain ⟨m, -, -, e3, -, e5⟩ := chord hV hR h1
  obtain ⟨n, -, -, f3, -, f5⟩ := chord hV hR' h2'
  have hx1 := xc_ne hX h1 h7 h5
  have hx2 := xc_ne hX h2' (by rwa [← sub_eq_add_neg]) (by rwa [← sub_eq_add_neg])
  have g1 := e5 X hX hx1
  have g2 := f5 X hX hx2
  rw [← sub_eq_add_neg] at g2 hx2
  rw [xc_neg, yc_neg] at f3
  have hVR := xc_ne hV hR h1 h2
  have hXV := xc_ne hX hV h3 h4
  have p1 := phi3_eq hV hR hVR (xc X)
  have p2 := phi3_eq hX hV hXV (xc R)
  have ps : phi3 A (xc V) (xc R) (xc X) = phi3 A (xc X) (xc V) (xc R) := by unfold phi3 sfun; ring
  have ha := xc_add hX hV hXV
  have cX := yc_sq hX
  have cV := yc_sq hV
  have cR := yc_sq hR
  have d1 : xc X - xc (V + R) ≠ 0 := sub_ne_zero.mpr hx1
  have d2 : xc X - xc (V - R) ≠ 0 := sub_ne_zero.mpr hx2
  have d3 : xc V - xc R ≠ 0 := sub_ne_zero.mpr hVR
  have d4 : xc X - xc V ≠ 0 := sub_ne_zero.mpr hXV
  -- the product of the numerators
  have hn : (yc X - (m * (xc X - xc V) + yc V)) * (yc X - (n * (xc X - xc V) + yc V)) * (xc V - xc R) ^ 2 =
      -((xc X - xc R) * (xc V - xc R) * (xc R - xc (X + V)) * (xc X - xc V) ^ 2) := by
    have n1 : (yc X - (m * (xc X - xc V) + yc V)) * (xc V - xc R) =
      (xc V - xc R) * (yc X - yc V) - (yc V - yc R) * (xc X - xc V) := by linear_combination -(xc X - xc V) * e3
    have n2 : (yc X - (n * (xc X - xc V) + yc V)) * (xc V - xc R) =
      (xc V - xc R) * (yc X - yc V) - (yc V + yc R) * (xc X - xc V) := by linear_combination -(xc X - xc V) * f3
    have : (yc X - (m * (xc X - xc V) + yc V)) * (yc X - (n * (xc X - xc V) + yc V)) * (xc V - xc R) ^ 2 =
      ((yc X - (m * (xc X - xc V) + yc V)) * (xc V - xc R)) *
        ((yc X - (n * (xc X - xc V) + yc V)) * (xc V - xc R)) := by ring
    rw [this, n1, n2]
    unfold sfun at ha
    linear_combination -(xc X - xc R) * (xc V - xc R) * ha +
      (xc V - xc R) ^ 2 * cX + (xc X - xc R) ^ 2 * cV - (xc X - xc V) ^ 2 * cR
  have hxs : xc R - xc (X + V) ≠ 0 ∧ xc R - xc (X - V) ≠ 0 := by
    have : (xc R - xc (X + V)) * (xc R - xc (X - V)) * (xc X - xc V) ^ 2 ≠ 0 := by
      rw [p2, ← ps, ← p1]
      exact mul_ne_zero (mul_ne_zero d1 d2) (pow_ne_zero 2 d3)
    have := (mul_ne_zero_iff.mp this).1
    exact mul_ne_zero_iff.mp this
  apply mul_left_cancel₀ (mul_ne_zero (mul_ne_zero hxs.1 (pow_ne_zero 2 d4)) hxs.2)
  have hp : (xc X - xc (V + R)) * (xc X - xc (V - R)) * (xc V - xc R) ^ 2 =
    (xc R - xc (X + V)) * (xc R - xc (X - V)) * (xc X - xc V) ^ 2 := by rw [p1, ps, p2]
  have hg : gv V R X * gv V (-R) X * ((xc X - xc (V + R)) * (xc X - xc (V - R)) * (xc V - xc R) ^ 2) =
      -((xc X - xc R) * (xc V - xc R) * (xc R - xc (X + V)) * (xc X - xc V) ^ 2) := by
    rw [← hn, ← g1, ← g2]; ring
  rw [hp] at hg
  linear_combination (xc (X - V) - xc R) * hg

/-- Miller's quotient of lines in terms of half points. -/
theorem gv_half {S B C : MPoint A} (hS : S ≠ 0) (hB : B ≠ 0) (hC : C ≠ 0) (hSS : S + S ≠ 0)
    (h1 : S + B ≠ 0) (h2 : S - B ≠ 0) (h3 : S + C ≠ 0) (h4 : C - S ≠ 0) (h5 : C + B ≠ 0) (h6 : C - B ≠ 0)
    (h7 : S + C + S ≠ 0) (h8 : S + C + (S + S) ≠ 0) (h9 : S + C + (S + B) ≠ 0) (h10 : S + C + (S - B) ≠ 0)
    (h11 : S + C + B ≠ 0) (h12 : S + C - B ≠ 0) :
    gv (S + B) (S - B) (S + C) * ((xc S - xc B) * (xc C - xc S)) = 2 * yc S * (xc C - xc B) := by
  have den : ∀ {D : MPoint A}, S + C - D ≠ 0 → S + C + D ≠ 0 → evalPt (S + C) (denC D) ≠ 0 := fun a b =>
    denC_eval_ne h3 (sub_ne_zero.mp a) (fun e => b (by rw [e, neg_add_cancel]))
  have f := gv_four (a := S) (b := B) (c := S) (d := -B) (X := S + C)
    (den (by rwa [add_sub_add_left_eq_sub]) h9)
    (den (by rwa [← sub_eq_add_neg, add_sub_sub_cancel]) (by rwa [← sub_eq_add_neg]))
    (den (by rwa [add_sub_add_left_eq_sub]) h8)
    (by rw [add_neg_cancel]; exact den (by rwa [sub_zero]) (by rwa [add_zero]))
    (den (by rwa [← sub_eq_add_neg, add_add_sub_cancel, add_sub_add_left_eq_sub])
      (by rwa [← sub_eq_add_neg, add_add_sub_cancel]))
  rw [add_neg_cancel, gv_opp hB h3, gv_zero_right (den (by rwa [add_sub_add_left_eq_sub]) h8), mul_one,
    ← sub_eq_add_neg] at f
  have t := gv_tangent hS hC hSS h3 h4 h8
  have p := gv_pair hS hB h3 h1 h2 h7 (by rwa [add_sub_cancel_left]) (by rwa [add_sub_add_left_eq_sub])
    (by rwa [add_sub_sub_cancel]) h9 h10
  rw [add_sub_cancel_left] at p
  have hx : xc (S + C) - xc B ≠ 0 := sub_ne_zero.mpr (xc_ne h3 hB h11 h12)
  apply mul_left_cancel₀ hx
  linear_combination (-gv (S + B) (S - B) (S + C) * (xc C - xc S)) * p + (xc C - xc B) * (xc C - xc S) * f +
    (xc (S + C) - xc B) * (xc C - xc B) * t
end Festa
