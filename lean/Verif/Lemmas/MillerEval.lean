import Verif.Lemmas.MillerRing
import Mathlib.Tactic.FieldSimp
import Mathlib.Tactic.LinearCombination
import Mathlib.Algebra.Group.Subgroup.Defs
/-!
Values of Miller's functions at points.  `gv V W X` is the value at `X` of the line through `V` and
`W` over the vertical line through `V + W`.  Besides the four-point identity inherited from the
coordinate ring, the file proves the reciprocity between the lines through `V, W` and the lines
through `Q, R`.
-/
namespace Festa
open Polynomial WeierstrassCurve WeierstrassCurve.Affine WeierstrassCurve.Affine.CoordinateRing
open scoped Polynomial.Bivariate
variable {K : Type*} [Field K] {A : K}

/-- The value of a function at a point (zero at infinity). -/
noncomputable def evalPt : MPoint A → (mont A).CoordinateRing → K
  | .zero, _ => 0
  | .some _ _ h, z => AdjoinRoot.evalEval h.1 z

theorem evalPt_mul (X : MPoint A) (z w : (mont A).CoordinateRing) :
    evalPt X (z * w) = evalPt X z * evalPt X w := by
  rcases X with _ | ⟨x, y, h⟩
  · exact (mul_zero _).symm
  · exact map_mul (AdjoinRoot.evalEval h.1) z w

theorem evalPt_X {x y : K} (h : (mont A).Nonsingular x y) (a : K) :
    evalPt (.some x y h) (XClass (mont A) a) = x - a := by
  exact (AdjoinRoot.evalEval_mk h.1 _).trans (by rw [evalEval_C]; simp)

theorem evalPt_Y {x y : K} (h : (mont A).Nonsingular x y) (a b l : K) :
    evalPt (.some x y h) (YClass (mont A) (linePolynomial a b l)) = y - (l * (x - a) + b) := by
  exact (AdjoinRoot.evalEval_mk h.1 _).trans
    (by rw [evalEval_sub, evalEval_X, evalEval_C, linePolynomial]; simp)

theorem evalPt_den {x y x' y' : K} (h : (mont A).Nonsingular x y) (h' : (mont A).Nonsingular x' y') :
    evalPt (.some x y h) (denC (.some x' y' h' : MPoint A)) = x - x' := evalPt_X h x'

theorem evalPt_one {x y : K} (h : (mont A).Nonsingular x y) :
    evalPt (.some x y h) (1 : (mont A).CoordinateRing) = 1 :=
  map_one (AdjoinRoot.evalEval h.1)

/-- The vertical line through a point vanishes at that point and its opposite only. -/
theorem denC_eval_ne {X S : MPoint A} (hX : X ≠ 0) (h1 : X ≠ S) (h2 : X ≠ -S) :
    evalPt X (denC S) ≠ 0 := by
  rcases X with _ | ⟨x, y, h⟩
  · exact absurd rfl hX
  · rcases S with _ | ⟨x', y', h'⟩
    · change evalPt (.some x y h) (1 : (mont A).CoordinateRing) ≠ 0
      rw [evalPt_one]; exact one_ne_zero
    · change evalPt (.some x y h) (XClass (mont A) x') ≠ 0
      rw [evalPt_X, sub_ne_zero]
      rintro rfl
      rcases y_of_x_eq h h' with rfl | rfl
      · exact h1 rfl
      · obtain ⟨h3, e⟩ := neg_pt h'
        exact h2 e.symm

variable [DecidableEq K]

/-- The line through two points that are not opposite. -/
theorem line_data {x1 y1 x2 y2 : K} (h1 : (mont A).Nonsingular x1 y1)
    (h2 : (mont A).Nonsingular x2 y2) (hne : (Point.some x1 y1 h1 : MPoint A) + .some x2 y2 h2 ≠ 0) :
    ∃ m c x3 h3, (Point.some x1 y1 h1 : MPoint A) + .some x2 y2 h2 = .some x3 (-(m * x3 + c)) h3 ∧
      y1 = m * x1 + c ∧ y2 = m * x2 + c ∧
      (∀ t, t * t * t + A * t * t + t - (m * t + c) * (m * t + c) =
        (t - x1) * (t - x2) * (t - x3)) ∧
      (∀ x y h, evalPt (.some x y h : MPoint A)
        (numC (Point.some x1 y1 h1 : MPoint A) (.some x2 y2 h2)) = y - (m * x + c)) := by
  have hxy : ¬(x1 = x2 ∧ y1 = (mont A).negY x2 y2) := fun h => hne (Point.add_of_Y_eq h.1 h.2)
  obtain ⟨l, hl⟩ : ∃ l, l = (mont A).slope x1 x2 y1 y2 := ⟨_, rfl⟩
  have e := Point.add_some hxy (h₁ := h1) (h₂ := h2)
  have hy : (mont A).addY x1 x2 y1 l = -(l * (mont A).addX x1 x2 l + (y1 - l * x1)) := by
    rw [WeierstrassCurve.Affine.addY, negY_mont, WeierstrassCurve.Affine.negAddY]
    ring
  obtain ⟨h3, e3⟩ := pt_congr (h := nonsingular_add h1 h2 hxy)
    (congrArg ((mont A).addX x1 x2) hl.symm)
    ((congrArg ((mont A).addY x1 x2 y1) hl.symm).trans hy)
  refine ⟨l, y1 - l * x1, (mont A).addX x1 x2 l, h3, e.trans e3, by ring, ?_, ?_, ?_⟩
  · by_cases hx : x1 = x2
    · have hy' : y1 ≠ (mont A).negY x2 y2 := fun h => hxy ⟨hx, h⟩
      have := Y_eq_of_Y_ne h1.1 h2.1 hx hy'
      rw [← hx, ← this]; ring
    · rw [hl, slope_of_X_ne hx]
      have : x1 - x2 ≠ 0 := sub_ne_zero.mpr hx
      field_simp
      ring
  · intro t
    have e4 := congrArg (eval t) (addPolynomial_slope h1.1 h2.1 hxy)
    rw [← hl] at e4
    have h1' : (mont A).a₁ = 0 := rfl
    have h2' : (mont A).a₂ = A := rfl
    have h3' : (mont A).a₃ = 0 := rfl
    have h4' : (mont A).a₄ = 1 := rfl
    have h6' : (mont A).a₆ = 0 := rfl
    simp only [addPolynomial, linePolynomial, WeierstrassCurve.Affine.polynomial, h1', h2', h3', h4',
      h6', eval_add, eval_sub, eval_mul, eval_pow, eval_C, eval_X, eval_neg, map_zero, map_one,
      eval_zero, eval_one] at e4
    linear_combination -e4
  · intro x y h
    have e5 : numC (Point.some x1 y1 h1 : MPoint A) (.some x2 y2 h2) =
        YClass (mont A) (linePolynomial x1 y1 l) := by rw [hl]; exact if_neg hxy
    rw [e5, evalPt_Y]
    ring

/-- The value at `X` of the line through `V, W` over the vertical line through `V + W`. -/
noncomputable def gv (V W X : MPoint A) : K := evalPt X (numC V W) / evalPt X (denC (V + W))

theorem numC_comm_zero (V : MPoint A) : numC V 0 = denC V := by
  rcases V with _ | ⟨x, y, h⟩ <;> rfl

theorem numC_neg (V : MPoint A) (hV : V ≠ 0) : numC V (-V) = denC V := by
  rcases V with _ | ⟨x, y, h⟩
  · exact absurd rfl hV
  · obtain ⟨h', e⟩ := neg_pt h
    rw [e]
    exact if_pos ⟨rfl, by rw [negY_mont, neg_neg]⟩

theorem gv_zero_left {W X : MPoint A} (hX : evalPt X (denC W) ≠ 0) : gv 0 W X = 1 := by
  unfold gv
  rw [zero_add]
  exact div_self hX

theorem gv_zero_right {V X : MPoint A} (hX : evalPt X (denC V) ≠ 0) : gv V 0 X = 1 := by
  unfold gv
  rw [add_zero, numC_comm_zero]
  exact div_self hX

/-- The four-point identity for values. -/
theorem gv_four {a b c d X : MPoint A} (h1 : evalPt X (denC (a + b)) ≠ 0)
    (h2 : evalPt X (denC (c + d)) ≠ 0) (h3 : evalPt X (denC (a + c)) ≠ 0)
    (h4 : evalPt X (denC (b + d)) ≠ 0) (h5 : evalPt X (denC (a + b + (c + d))) ≠ 0) :
    gv a b X * gv c d X * gv (a + b) (c + d) X = gv a c X * gv b d X * gv (a + c) (b + d) X := by
  have e := congrArg (evalPt X) (num_four a b c d)
  simp only [evalPt_mul] at e
  unfold gv
  rw [add_add_add_comm a c b d]
  field_simp
  linear_combination e

/-! ### Reciprocity -/

/-- Two lines meet a cubic in points where each, evaluated on the other, gives opposite products. -/
theorem recip {m1 c1 m2 c2 x1 x2 x3 u1 u2 u3 : K}
    (h1 : ∀ t, t * t * t + A * t * t + t - (m1 * t + c1) * (m1 * t + c1) =
      (t - x1) * (t - x2) * (t - x3))
    (h2 : ∀ t, t * t * t + A * t * t + t - (m2 * t + c2) * (m2 * t + c2) =
      (t - u1) * (t - u2) * (t - u3)) :
    ((m2 - m1) * u1 + (c2 - c1)) * ((m2 - m1) * u2 + (c2 - c1)) * ((m2 - m1) * u3 + (c2 - c1)) =
      -(((m1 - m2) * x1 + (c1 - c2)) * ((m1 - m2) * x2 + (c1 - c2)) *
        ((m1 - m2) * x3 + (c1 - c2))) := by
  by_cases hm : m1 = m2
  · subst hm; ring
  · have hm' : m2 - m1 ≠ 0 := sub_ne_zero.mpr (Ne.symm hm)
    obtain ⟨t, ht⟩ : ∃ t, (m2 - m1) * t + (c2 - c1) = 0 := ⟨-(c2 - c1) / (m2 - m1), by field_simp; ring⟩
    have e1 := h1 t
    have e2 := h2 t
    have e : (t - x1) * (t - x2) * (t - x3) = (t - u1) * (t - u2) * (t - u3) := by
      rw [← e1, ← e2]
      have : m1 * t + c1 = m2 * t + c2 := by linear_combination -ht
      rw [this]
    have k1 : ∀ u, (m2 - m1) * u + (c2 - c1) = (m2 - m1) * (u - t) := fun u => by
      linear_combination ht
    have k2 : ∀ u, (m1 - m2) * u + (c1 - c2) = -((m2 - m1) * (u - t)) := fun u => by
      linear_combination -ht
    rw [k1, k1, k1, k2, k2, k2]
    linear_combination (m2 - m1) * (m2 - m1) * (m2 - m1) * e

omit [DecidableEq K] in
theorem recip_final {a1 a2 a3 b1 b2 b3 n k D1 D2 pn pk : K} (r : a1 * a2 * a3 = -(b1 * b2 * b3))
    (hn : n * a3 = pn) (hk : k * b3 = pk) (hD : pk * D2 = pn * D1) (ha : a3 ≠ 0) (hb : b3 ≠ 0) :
    a1 * a2 * k * D2 = -(b1 * b2 * n) * D1 := by
  apply mul_left_cancel₀ (mul_ne_zero ha hb)
  linear_combination (k * b3 * D2) * r - b1 * b2 * b3 * (D2 * hk - D1 * hn + hD)

/-- `gv Q R` extended by `-1` at infinity. -/
noncomputable def hv (Q R X : MPoint A) : K := if X = 0 then -1 else gv Q R X

section
variable {H : AddSubgroup (MPoint A)} {V W Q R : MPoint A}

omit [DecidableEq K] in
theorem ne_of_sub [DecidableEq K] {H : AddSubgroup (MPoint A)} {S X : MPoint A} (hS : S ∈ H)
    (hX : X ∉ H) : X ≠ 0 ∧ X ≠ S ∧ X ≠ -S :=
  ⟨fun h => hX (h ▸ H.zero_mem), fun h => hX (h ▸ hS), fun h => hX (h ▸ H.neg_mem hS)⟩

theorem denC_sub {S X : MPoint A} (hS : S ∈ H) (hX : X ∉ H) : evalPt X (denC S) ≠ 0 :=
  denC_eval_ne (ne_of_sub hS hX).1 (ne_of_sub hS hX).2.1 (ne_of_sub hS hX).2.2

theorem x_ne_sub {x y x' y' : K} {h : (mont A).Nonsingular x y} {h' : (mont A).Nonsingular x' y'}
    (hS : (Point.some x y h : MPoint A) ∈ H) (hX : (Point.some x' y' h' : MPoint A) ∉ H) :
    x' - x ≠ 0 := by
  have := denC_sub hS hX
  change evalPt (.some x' y' h') (XClass (mont A) x) ≠ 0 at this
  rwa [evalPt_X] at this

/-- `X` is finite and differs from `S` and `-S`. -/
def Ap (S X : MPoint A) : Prop := X ≠ 0 ∧ X ≠ S ∧ X ≠ -S

omit [DecidableEq K] in
theorem Ap.den {S X : MPoint A} (h : Ap S X) : evalPt X (denC S) ≠ 0 :=
  denC_eval_ne h.1 h.2.1 h.2.2

omit [DecidableEq K] in
theorem Ap.x_ne {x y x' y' : K} {h : (mont A).Nonsingular x y} {h' : (mont A).Nonsingular x' y'}
    (hS : Ap (Point.some x y h : MPoint A) (Point.some x' y' h')) : x' - x ≠ 0 := by
  have := hS.den
  change evalPt (.some x' y' h') (XClass (mont A) x) ≠ 0 at this
  rwa [evalPt_X] at this

/-- Reciprocity of the lines through `V, W` and through `Q, R`. -/
theorem gv_recip' (hQ0 : Q ≠ 0) (hR0 : R ≠ 0) (hQR0 : Q + R ≠ 0)
    (hWQ : Ap W Q) (hWR : Ap W R) (hWS : Ap W (Q + R)) (hVQ : Ap V Q) (hVR : Ap V R)
    (hVS : Ap V (Q + R)) (hTQ : Ap (V + W) Q) (hTR : Ap (V + W) R) (hTS : Ap (V + W) (Q + R)) :
    gv V W Q * gv V W R * hv Q R (V + W) = -(hv Q R V * hv Q R W * gv V W (Q + R)) := by
  by_cases hV0 : V = 0
  · subst hV0
    rw [gv_zero_left (hWQ.den), gv_zero_left (hWR.den),
      gv_zero_left (hWS.den), zero_add]
    have : hv Q R 0 = -1 := if_pos rfl
    rw [this]; ring
  by_cases hW0 : W = 0
  · subst hW0
    rw [gv_zero_right (hVQ.den), gv_zero_right (hVR.den),
      gv_zero_right (hVS.den), add_zero]
    have : hv Q R 0 = -1 := if_pos rfl
    rw [this]; ring
  have eV : hv Q R V = gv Q R V := if_neg hV0
  have eW : hv Q R W = gv Q R W := if_neg hW0
  rcases Q with _ | ⟨u1, v1, k1⟩
  · exact absurd rfl hQ0
  rcases R with _ | ⟨u2, v2, k2⟩
  · exact absurd rfl hR0
  obtain ⟨m2, c2, u3, k3, eS, f1, f2, f3, f4⟩ := line_data k1 k2 hQR0
  rcases V with _ | ⟨x1, y1, g1⟩
  · exact absurd rfl hV0
  rcases W with _ | ⟨x2, y2, g2⟩
  · exact absurd rfl hW0
  have dS : ∀ x y h, evalPt (.some x y h : MPoint A)
      (denC ((Point.some u1 v1 k1 : MPoint A) + .some u2 v2 k2)) = x - u3 := by
    intro x y h; rw [eS]; exact evalPt_X h u3
  rw [eS] at hVS hWS hTS
  rw [eV, eW]
  by_cases hVW0 : (Point.some x1 y1 g1 : MPoint A) + .some x2 y2 g2 = 0
  · -- vertical line through `V` and `W`
    have eO : hv (Point.some u1 v1 k1 : MPoint A) (.some u2 v2 k2)
      ((Point.some x1 y1 g1 : MPoint A) + .some x2 y2 g2) = -1 := if_pos hVW0
    have eN : (Point.some x2 y2 g2 : MPoint A) = -.some x1 y1 g1 := (neg_eq_of_add_eq_zero_right hVW0).symm
    obtain ⟨g', en⟩ := neg_pt g1
    rw [en] at eN
    injection eN with ex ey
    subst ex; subst ey
    have ev : ∀ x y h, gv (Point.some x2 y1 g1 : MPoint A) (.some x2 (-y1) g2) (.some x y h) =
        x - x2 := by
      intro x y h
      unfold gv
      rw [hVW0]
      have e0 : numC (Point.some x2 y1 g1 : MPoint A) (.some x2 (-y1) g2) = XClass (mont A) x2 :=
        if_pos ⟨rfl, by rw [negY_mont, neg_neg]⟩
      have e1 : denC (0 : MPoint A) = 1 := rfl
      rw [e0, e1, evalPt_X, evalPt_one, div_one]
    rw [eO, eS, ev, ev, ev]
    unfold gv
    rw [dS, dS, f4, f4]
    have d3 := hVS.x_ne
    have d4 : x2 - u3 ≠ 0 := by intro h; apply d3; linear_combination -h
    have hc := curve_eq g1
    have ht := f3 x2
    field_simp
    linear_combination -(u3 - x2) * (ht + hc)
  · obtain ⟨m1, c1, x3, g3, eT, l1, l2, l3, l4⟩ := line_data g1 g2 hVW0
    have dT : ∀ x y h, evalPt (.some x y h : MPoint A)
        (denC ((Point.some x1 y1 g1 : MPoint A) + .some x2 y2 g2)) = x - x3 := by
      intro x y h; rw [eT]; exact evalPt_X h x3
    have eO : hv (Point.some u1 v1 k1 : MPoint A) (.some u2 v2 k2)
      ((Point.some x1 y1 g1 : MPoint A) + .some x2 y2 g2) = gv (Point.some u1 v1 k1 : MPoint A)
        (.some u2 v2 k2) ((Point.some x1 y1 g1 : MPoint A) + .some x2 y2 g2) := if_neg hVW0
    rw [eO]
    rw [eT] at hTQ hTR hTS
    unfold gv
    simp only [eS, eT, evalPt_den, f4, l4]
    have a1 := hTQ.x_ne
    have a2 := hTR.x_ne
    have a3 := hTS.x_ne
    have a4 := hVS.x_ne
    have a5 := hWS.x_ne
    have b3 : x3 - u3 ≠ 0 := by intro h; apply a3; linear_combination -h
    have b4 : x1 - u3 ≠ 0 := by intro h; apply a4; linear_combination -h
    have b5 : x2 - u3 ≠ 0 := by intro h; apply a5; linear_combination -h
    have r := recip l3 f3
    have e1 := f3 u3
    have e2 := l3 x3
    rw [sub_self, mul_zero] at e1 e2
    have hn : (-(m2 * u3 + c2) - (m1 * u3 + c1)) * ((m2 - m1) * u3 + (c2 - c1)) =
        -((u3 - x1) * (u3 - x2) * (u3 - x3)) := by
      rw [← l3 u3]; linear_combination e1
    have hk : (-(m1 * x3 + c1) - (m2 * x3 + c2)) * ((m1 - m2) * x3 + (c1 - c2)) =
        -((x3 - u1) * (x3 - u2) * (x3 - u3)) := by
      rw [← f3 x3]; linear_combination e2
    have hn0 : (m2 - m1) * u3 + (c2 - c1) ≠ 0 := by
      intro h; rw [h, mul_zero] at hn
      exact mul_ne_zero (mul_ne_zero a4 a5) a3 (neg_eq_zero.mp hn.symm)
    have hk0 : (m1 - m2) * x3 + (c1 - c2) ≠ 0 := by
      intro h; rw [h, mul_zero] at hk
      refine mul_ne_zero (mul_ne_zero ?_ ?_) b3 (neg_eq_zero.mp hk.symm)
      · intro h; apply a1; linear_combination -h
      · intro h; apply a2; linear_combination -h
    rw [div_mul_div_comm, div_mul_div_comm, div_mul_div_comm, div_mul_div_comm, ← neg_div,
      div_eq_div_iff (mul_ne_zero (mul_ne_zero a1 a2) b3) (mul_ne_zero (mul_ne_zero b4 b5) a3)]
    have z1 : v1 - (m1 * u1 + c1) = (m2 - m1) * u1 + (c2 - c1) := by rw [f1]; ring
    have z2 : v2 - (m1 * u2 + c1) = (m2 - m1) * u2 + (c2 - c1) := by rw [f2]; ring
    have z3 : y1 - (m2 * x1 + c2) = (m1 - m2) * x1 + (c1 - c2) := by rw [l1]; ring
    have z4 : y2 - (m2 * x2 + c2) = (m1 - m2) * x2 + (c1 - c2) := by rw [l2]; ring
    rw [z1, z2, z3, z4]
    exact recip_final r hn hk (by ring) hn0 hk0

/-- Reciprocity of the lines through `V, W` in a subgroup and `Q, R` outside, `Q + R` outside. -/
theorem gv_recip (hV : V ∈ H) (hW : W ∈ H) (hQ : Q ∉ H) (hR : R ∉ H) (hQR : Q + R ∉ H) :
    gv V W Q * gv V W R * hv Q R (V + W) = -(hv Q R V * hv Q R W * gv V W (Q + R)) :=
  have hT := H.add_mem hV hW
  gv_recip' (ne_of_sub hV hQ).1 (ne_of_sub hV hR).1 (ne_of_sub hV hQR).1 (ne_of_sub hW hQ)
    (ne_of_sub hW hR) (ne_of_sub hW hQR) (ne_of_sub hV hQ) (ne_of_sub hV hR) (ne_of_sub hV hQR)
    (ne_of_sub hT hQ) (ne_of_sub hT hR) (ne_of_sub hT hQR)

/-- The vertical line through `Q`, extended by one at infinity. -/
noncomputable def kv (Q X : MPoint A) : K := if X = 0 then 1 else evalPt X (denC Q)

/-- Reciprocity for opposite points. -/
theorem gv_recip_neg (hV : V ∈ H) (hW : W ∈ H) (hQ : Q ∉ H) :
    gv V W Q * gv V W (-Q) * kv Q (V + W) = kv Q V * kv Q W := by
  have hQ' : -Q ∉ H := fun h => hQ (by simpa using H.neg_mem h)
  by_cases hV0 : V = 0
  · subst hV0
    have : kv Q 0 = 1 := if_pos rfl
    rw [gv_zero_left (denC_sub hW hQ), gv_zero_left (denC_sub hW hQ'), zero_add, this]; ring
  by_cases hW0 : W = 0
  · subst hW0
    have : kv Q 0 = 1 := if_pos rfl
    rw [gv_zero_right (denC_sub hV hQ), gv_zero_right (denC_sub hV hQ'), add_zero, this]; ring
  have eV : kv Q V = evalPt V (denC Q) := if_neg hV0
  have eW : kv Q W = evalPt W (denC Q) := if_neg hW0
  rcases Q with _ | ⟨u, v, k⟩
  · exact absurd H.zero_mem hQ
  rcases V with _ | ⟨x1, y1, g1⟩
  · exact absurd rfl hV0
  rcases W with _ | ⟨x2, y2, g2⟩
  · exact absurd rfl hW0
  obtain ⟨k', en⟩ := neg_pt k
  rw [en, eV, eW, evalPt_den, evalPt_den]
  have hVW := H.add_mem hV hW
  by_cases hVW0 : (Point.some x1 y1 g1 : MPoint A) + .some x2 y2 g2 = 0
  · have eO : kv (Point.some u v k : MPoint A)
      ((Point.some x1 y1 g1 : MPoint A) + .some x2 y2 g2) = 1 := if_pos hVW0
    rw [eO]
    have eN : (Point.some x2 y2 g2 : MPoint A) = -.some x1 y1 g1 :=
      (neg_eq_of_add_eq_zero_right hVW0).symm
    obtain ⟨g', en⟩ := neg_pt g1
    rw [en] at eN
    injection eN with ex ey
    subst ex; subst ey
    unfold gv
    rw [hVW0]
    have e0 : numC (Point.some x2 y1 g1 : MPoint A) (.some x2 (-y1) g2) = XClass (mont A) x2 :=
      if_pos ⟨rfl, by rw [negY_mont, neg_neg]⟩
    have e1 : denC (0 : MPoint A) = 1 := rfl
    rw [e0, e1, evalPt_X, evalPt_one, evalPt_X, evalPt_one]
    ring
  · obtain ⟨m, c, x3, g3, eT, l1, l2, l3, l4⟩ := line_data g1 g2 hVW0
    have eO : kv (Point.some u v k : MPoint A) ((Point.some x1 y1 g1 : MPoint A) + .some x2 y2 g2) =
        evalPt ((Point.some x1 y1 g1 : MPoint A) + .some x2 y2 g2) (denC (.some u v k)) :=
      if_neg hVW0
    rw [eO]
    rw [eT] at hVW
    unfold gv
    simp only [eT, evalPt_den, l4]
    have a := x_ne_sub hVW hQ
    have hc := curve_eq k
    have ht := l3 u
    field_simp
    linear_combination (u - x3) * (ht + hc)

/-- The quotient of lines has no zero outside the points that define it. -/
theorem gv_ne (hV : V ∈ H) (hW : W ∈ H) {X : MPoint A} (hX : X ∉ H) : gv V W X ≠ 0 := by
  have h := gv_recip_neg hV hW hX
  intro h0
  rw [h0, zero_mul, zero_mul] at h
  have hk : ∀ S ∈ H, kv X S ≠ 0 := by
    intro S hS
    unfold kv
    split
    · exact one_ne_zero
    · rename_i hS0
      have := ne_of_sub hS hX
      refine denC_eval_ne hS0 (Ne.symm this.2.1) (fun h => this.2.2 ?_)
      rw [h, neg_neg]
  exact mul_ne_zero (hk V hV) (hk W hW) h.symm

end
end Festa
