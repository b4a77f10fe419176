import Verif.Lemmas.GlueAlg
import Verif.Lemmas.EC
/-! One factor of the gluing isogeny: coordinates on a Montgomery curve adapted to two points of order
four. -/
namespace Festa
open WeierstrassCurve.Affine
variable {K : Type*} [Field K]

/-- `x = e + L s` brings the curve to the form `y² = L³ (s³ + α s² + s)` with
`α = -2 (1 + m⁴) / (1 - m⁴)`. -/
structure Fac (A e L m : K) : Prop where
  two : (2 : K) ≠ 0
  root : e * e * e + A * e * e + e = 0
  der : 3 * e * e + 2 * A * e + 1 = L ^ 2
  cub : (3 * e + A) * ((1 + m ^ 2) * (1 - m ^ 2)) = -2 * (1 + m ^ 4) * L
  nL : L ≠ 0
  nm : m ≠ 0
  np : 1 + m ^ 2 ≠ 0
  nq : 1 - m ^ 2 ≠ 0

/-- The first coordinate. -/
def gcs (e L x : K) : K := (x - e) / L
/-- The second coordinate. -/
def gcy (m yT y : K) : K := 2 * m ^ 2 * y / yT

section
variable [DecidableEq K]

theorem two_tangent {A t yT e y' : K} (h2 : (2 : K) ≠ 0) {h : (mont A).Nonsingular t yT}
    {h' : (mont A).Nonsingular e y'} (hT : 2 • (Point.some t yT h : MPoint A) = .some e y' h') :
    yT ≠ 0 ∧ ∃ l, l * (2 * yT) = 3 * t * t + 2 * A * t + 1 ∧ e = l * l - A - t - t ∧ y' = l * (t - e) - yT := by
  rw [two_nsmul] at hT
  have hy : yT ≠ 0 := by
    rintro rfl
    rw [add_opp (by ring)] at hT
    cases hT
  refine ⟨hy, (3 * t * t + 2 * A * t + 1) / (2 * yT), div_mul_cancel₀ _ (mul_ne_zero h2 hy), ?_⟩
  obtain ⟨h3, e3⟩ := add_dbl (h := h) (h' := h) h2 hy (div_mul_cancel₀ _ (mul_ne_zero h2 hy))
  rw [hT] at e3
  obtain ⟨k1, k2⟩ := Point.some.inj e3
  exact ⟨k1, by rw [k2, ← k1]⟩

/-- The tangent at a point of order four. -/
theorem four_tangent {A t yT e : K} (h2 : (2 : K) ≠ 0) {h : (mont A).Nonsingular t yT}
    {h' : (mont A).Nonsingular e 0} (hT : 2 • (Point.some t yT h : MPoint A) = .some e 0 h') :
    yT ≠ 0 ∧ t - e ≠ 0 ∧ e * e * e + A * e * e + e = 0 ∧ 3 * e * e + 2 * A * e + 1 = (t - e) ^ 2 := by
  obtain ⟨hy, l, h1, h3, h4⟩ := two_tangent h2 hT
  refine ⟨hy, ?_, by linear_combination -(curve_eq h'), ?_⟩
  · intro h0
    rw [h0] at h4
    exact hy (by linear_combination h4)
  · linear_combination -h1 + 2 * l * h4 - 2 * (t - e) * h3

theorem fac_of {A t yT e t' yT' e' : K} (h2 : (2 : K) ≠ 0) {h : (mont A).Nonsingular t yT}
    {k : (mont A).Nonsingular e 0} (hT : 2 • (Point.some t yT h : MPoint A) = .some e 0 k)
    {h' : (mont A).Nonsingular t' yT'} {k' : (mont A).Nonsingular e' 0}
    (hT' : 2 • (Point.some t' yT' h' : MPoint A) = .some e' 0 k') (hne : e ≠ e') {m : K}
    (hm : m = (t - e') / (t' - e')) :
    Fac A e (t - e) m ∧ (e' - e) * (1 - m ^ 2) = (t - e) * (1 + m ^ 2) ∧
      (t' - e') * (1 - m ^ 2) = -2 * m * (t - e) := by
  obtain ⟨hy, n1, r1, d1⟩ := four_tangent h2 hT
  obtain ⟨hy', n2, r2, d2⟩ := four_tangent h2 hT'
  have hd : e' - e ≠ 0 := sub_ne_zero.mpr hne.symm
  have d0 : e * e + e * e' + e' * e' + A * (e + e') + 1 = 0 := by
    apply mul_left_cancel₀ hd
    linear_combination r2 - r1
  have l1 : (t - e) ^ 2 = -((e' - e) * ((e' - e) + (3 * e + A))) := by linear_combination d0 - d1
  have l2 : (t' - e') ^ 2 = (e' - e) * (2 * (e' - e) + (3 * e + A)) := by linear_combination d0 - d2
  have hm' : m * (t' - e') = (t - e) - (e' - e) := by
    rw [hm, div_mul_cancel₀ _ n2]; ring
  generalize t' - e' = L' at *
  generalize t - e = L at *
  generalize e' - e = δ at *
  have l3 : L' ^ 2 = δ ^ 2 - L ^ 2 := by rw [l1, l2]; ring
  have hδ : δ - L ≠ 0 := by
    intro h0
    have : δ = L := sub_eq_zero.mp h0
    rw [this, sub_self] at l3
    exact n2 (pow_eq_zero_iff (n := 2) (by norm_num) |>.mp l3)
  have key : δ * (1 - m ^ 2) = L * (1 + m ^ 2) := by
    apply mul_left_cancel₀ hδ
    linear_combination -(m * L' + (L - δ)) * hm' + m ^ 2 * l3
  have nq : 1 - m ^ 2 ≠ 0 := by
    intro h0
    rw [h0, mul_zero] at key
    have hp := (mul_eq_zero.mp key.symm).resolve_left n1
    exact h2 (by linear_combination h0 + hp)
  have np : 1 + m ^ 2 ≠ 0 := by
    intro h0
    rw [h0, mul_zero] at key
    have hp := (mul_eq_zero.mp key).resolve_left hd
    exact nq hp
  have nm : m ≠ 0 := by
    rintro rfl
    apply hδ
    linear_combination key
  have kL : L' * (1 - m ^ 2) = -2 * m * L := by
    apply mul_left_cancel₀ nm
    linear_combination (1 - m ^ 2) * hm' - key
  refine ⟨⟨h2, r1, d1, ?_, n1, nm, np, nq⟩, key, kL⟩
  apply mul_left_cancel₀ (mul_ne_zero hd nq)
  apply mul_left_cancel₀ nq
  generalize 3 * e + A = g at *
  have hg : δ * g = -L ^ 2 - δ ^ 2 := by linear_combination l1
  linear_combination (1 - m ^ 2) ^ 3 * (1 + m ^ 2) * hg + (-(1 - m ^ 2) * (1 + m ^ 2) * (δ * (1 - m ^ 2) + L * (1 + m ^ 2)) +
    2 * L * (1 + m ^ 4) * (1 - m ^ 2)) * key

end

section
variable {A e L m : K}

/-- The equation of the curve. -/
theorem Fac.curve (h : Fac A e L m) {x y : K} (hc : y * y = x * x * x + A * x * x + x) :
    y ^ 2 * ((1 + m ^ 2) * (1 - m ^ 2)) = L ^ 3 * ((1 + m ^ 2) * (1 - m ^ 2) * (gcs e L x) ^ 3 -
      2 * (1 + m ^ 4) * (gcs e L x) ^ 2 + (1 + m ^ 2) * (1 - m ^ 2) * gcs e L x) := by
  have hx : x = e + L * gcs e L x := by rw [gcs, mul_div_cancel₀ _ h.nL]; ring
  generalize gcs e L x = s at *
  subst hx
  linear_combination ((1 + m ^ 2) * (1 - m ^ 2)) * hc + ((1 + m ^ 2) * (1 - m ^ 2)) * h.root +
    (1 + m ^ 2) * (1 - m ^ 2) * L * s * h.der + L ^ 2 * s ^ 2 * h.cub

/-- The equation at the point of order four. -/
theorem Fac.curveT (h : Fac A e L m) {yT : K}
    (hT : yT * yT = (e + L) * (e + L) * (e + L) + A * (e + L) * (e + L) + (e + L)) :
    yT ^ 2 * ((1 + m ^ 2) * (1 - m ^ 2)) = -4 * m ^ 4 * L ^ 3 := by
  have := h.curve hT
  have e1 : gcs e L (e + L) = 1 := by rw [gcs, add_sub_cancel_left, div_self h.nL]
  rw [this, e1]
  ring

variable (h : Fac A e L m) {yT : K} (hyT : yT ≠ 0)
  (hT : yT * yT = (e + L) * (e + L) * (e + L) + A * (e + L) * (e + L) + (e + L))
include h hyT hT

theorem Fac.gcy_sq {x y : K} (hc : y * y = x * x * x + A * x * x + x) :
    (gcy m yT y) ^ 2 = -((1 + m ^ 2) * (1 - m ^ 2) * (gcs e L x) ^ 3 -
      2 * (1 + m ^ 4) * (gcs e L x) ^ 2 + (1 + m ^ 2) * (1 - m ^ 2) * gcs e L x) := by
  have h1 := h.curve hc
  have h2 := h.curveT hT
  have hL3 := pow_ne_zero 3 h.nL
  apply mul_left_cancel₀ (mul_ne_zero hL3 (mul_ne_zero h.np h.nq))
  rw [gcy, div_pow]
  generalize (1 + m ^ 2) * (1 - m ^ 2) = N at *
  have hy2 : yT ^ 2 ≠ 0 := pow_ne_zero 2 hyT
  rw [mul_div_assoc', div_eq_iff hy2]
  linear_combination N * y ^ 2 * h2 + (-N * yT ^ 2) * h1

theorem Fac.onC {x y : K} (hc : y * y = x * x * x + A * x * x + x) :
    OnC m (gcs e L x - 1) (m * (gcs e L x + 1)) (gcy m yT y) := by
  rw [OnC, h.gcy_sq hyT hT hc]
  ring

variable [DecidableEq K]

omit hT in
/-- Doubling. -/
theorem Fac.dbl {x y x2 y2 : K} {k : (mont A).Nonsingular x y} {k2 : (mont A).Nonsingular x2 y2}
    (h2 : 2 • (Point.some x y k : MPoint A) = .some x2 y2 k2) :
    ∃ r : K, r ≠ 0 ∧ gd m (gcs e L x - 1) (m * (gcs e L x + 1)) = (r * (gcs e L x2 - 1), r * (m * (gcs e L x2 + 1))) ∧
      gy m (gcs e L x - 1) (m * (gcs e L x + 1)) (gcy m yT y) = r ^ 2 * gcy m yT y2 := by
  obtain ⟨hy, l, l1, l2, l3⟩ := two_tangent h.two h2
  have hc := h.curve (curve_eq k)
  have hL3 := pow_ne_zero 3 h.nL
  have h4 : (4 : K) ≠ 0 := four_ne h.two
  have h8 : (8 : K) ≠ 0 := by rw [show (8 : K) = 4 * 2 by norm_num]; exact mul_ne_zero h4 h.two
  have hx : x = e + L * gcs e L x := by rw [gcs, mul_div_cancel₀ _ h.nL]; ring
  have hx2 : x2 = e + L * gcs e L x2 := by rw [gcs, mul_div_cancel₀ _ h.nL]; ring
  have hm := h.nm; have hp := h.np; have hq := h.nq; have hL := h.nL
  have cub := h.cub; have der := h.der; have root := h.root
  generalize gcs e L x = s at *
  generalize gcs e L x2 = s2 at *
  have hN : (1 + m ^ 2) * (1 - m ^ 2) ≠ 0 := mul_ne_zero hp hq
  -- the derivative
  obtain ⟨α, hα, hA⟩ : ∃ α : K, α * ((1 + m ^ 2) * (1 - m ^ 2)) = -2 * (1 + m ^ 4) ∧ A = α * L - 3 * e := by
    refine ⟨(3 * e + A) / L, ?_, by rw [div_mul_cancel₀ _ hL]; ring⟩
    rw [div_mul_eq_mul_div, cub, mul_div_assoc, div_self hL, mul_one]
  have hc' : y ^ 2 = L ^ 3 * (s ^ 3 + α * s ^ 2 + s) := by
    apply mul_right_cancel₀ hN
    linear_combination hc - L ^ 3 * s ^ 2 * hα
  have hl : l * (2 * y) = L ^ 2 * (3 * s ^ 2 + 2 * α * s + 1) := by
    rw [l1, hx, hA]
    rw [hA] at der
    linear_combination der
  have e1 : 4 * y ^ 2 * s2 = L ^ 3 * (s ^ 2 - 1) ^ 2 := by
    apply mul_left_cancel₀ hL
    have : L * s2 = l * l - A - x - x - e := by rw [← l2, hx2]; ring
    have e0 : L * (4 * y ^ 2 * s2) = (l * (2 * y)) ^ 2 - 4 * y ^ 2 * (A + x + x + e) := by
      linear_combination 4 * y ^ 2 * this
    rw [e0, hl, hc', hx, hA]
    ring
  have e2 : 8 * y ^ 3 * y2 = L ^ 6 * ((s ^ 2 - 1) * (s ^ 4 + 2 * α * s ^ 3 + 6 * s ^ 2 + 2 * α * s + 1)) := by
    have e0 : 8 * y ^ 3 * y2 = (l * (2 * y)) * (4 * y ^ 2 * x - 4 * y ^ 2 * x2) - 8 * (y ^ 2) ^ 2 := by
      rw [l3]; ring
    have e3 : 4 * y ^ 2 * x - 4 * y ^ 2 * x2 = 4 * y ^ 2 * (L * s) - L * (L ^ 3 * (s ^ 2 - 1) ^ 2) := by
      rw [← e1, hx, hx2]; ring
    rw [e0, e3, hl, hc']
    ring
  have hr : 8 * y ^ 2 / L ^ 3 = 8 * (s ^ 3 + α * s ^ 2 + s) := by
    rw [hc']; field_simp
  have hrs : 8 * y ^ 2 / L ^ 3 * s2 = 2 * (s ^ 2 - 1) ^ 2 := by
    rw [div_mul_eq_mul_div, div_eq_iff hL3]
    linear_combination 2 * e1
  refine ⟨8 * y ^ 2 / L ^ 3, div_ne_zero (mul_ne_zero h8 (pow_ne_zero 2 hy)) hL3, ?_, ?_⟩
  · have hm2 : 8 * y ^ 2 / L ^ 3 * (m * (s2 + 1)) = m * (8 * y ^ 2 / L ^ 3 * s2 + 8 * y ^ 2 / L ^ 3) := by ring
    rw [hm2, gd, mul_sub, hrs, mul_one, hr]
    simp only [Prod.mk.injEq]
    constructor
    · field_simp
      linear_combination (8 * s ^ 2) * hα
    · field_simp
      linear_combination (-8 * m ^ 2 * s ^ 2) * hα
  · have e3 : (8 * y ^ 2 / L ^ 3) ^ 2 * gcy m yT y2 = 8 * gcy m yT y *
        ((s ^ 2 - 1) * (s ^ 4 + 2 * α * s ^ 3 + 6 * s ^ 2 + 2 * α * s + 1)) := by
      rw [gcy, gcy]
      field_simp
      linear_combination 2 * e2
    rw [e3, gy]
    generalize gcy m yT y = Y
    field_simp
    linear_combination (-2 * Y * (s ^ 5 - s)) * hα

/-- Doubling a point of order two. -/
theorem Fac.dbl_two {x : K} (hc : (0 : K) * 0 = x * x * x + A * x * x + x) : ∃ r : K, r ≠ 0 ∧
    gd m (gcs e L x - 1) (m * (gcs e L x + 1)) = (r * 1, r * m) := by
  have hy := h.gcy_sq hyT hT hc
  have h0 : gcy m yT 0 = 0 := by simp [gcy]
  rw [h0] at hy
  have hm := h.nm; have hp := h.np; have hq := h.nq
  have h4 := four_ne h.two
  generalize gcs e L x = s at *
  refine ⟨2 * (s ^ 2 - 1) ^ 2, mul_ne_zero h.two (pow_ne_zero 2 ?_), ?_⟩
  · intro h1
    have : (s - 1) * (s + 1) = 0 := by linear_combination h1
    rcases mul_eq_zero.mp this with h2 | h2
    · have : s = 1 := by linear_combination h2
      subst this
      exact mul_ne_zero h4 (pow_ne_zero 4 hm) (by linear_combination -hy)
    · have : s = -1 := by linear_combination h2
      subst this
      exact h4 (by linear_combination -hy)
  · rw [gd, Prod.mk.injEq]
    constructor
    · field_simp
      linear_combination -8 * hy
    · field_simp
      linear_combination 8 * m ^ 2 * hy

/-- Adding the point of order four. -/
theorem Fac.add {x y x3 y3 : K} {k : (mont A).Nonsingular x y} {kT : (mont A).Nonsingular (e + L) yT}
    {k3 : (mont A).Nonsingular x3 y3} (hne : gcs e L x ≠ 1)
    (h3 : (Point.some x y k : MPoint A) + .some (e + L) yT kT = .some x3 y3 k3) :
    ((gcs e L x - 1) ^ 2 - (m * (gcs e L x + 1)) ^ 2) * ((gcs e L x3 - 1) * (m * (gcs e L x3 + 1))) * (1 + m ^ 2) =
      2 * m * gcy m yT y * ((gcs e L x3 - 1) ^ 2 + (m * (gcs e L x3 + 1)) ^ 2) ∧
    ((gcs e L x - 1) ^ 2 + (m * (gcs e L x + 1)) ^ 2) * ((gcs e L x3 - 1) * (m * (gcs e L x3 + 1))) * (1 - m ^ 2) =
      -2 * m * gcy m yT y * ((gcs e L x3 - 1) ^ 2 - (m * (gcs e L x3 + 1)) ^ 2) := by
  have hL := h.nL
  have hcT := h.curveT hT
  have hcy := h.gcy_sq hyT hT (curve_eq k)
  have hc := h.curve (curve_eq k)
  have hx : x = e + L * gcs e L x := by rw [gcs, mul_div_cancel₀ _ hL]; ring
  have hx3 : x3 = e + L * gcs e L x3 := by rw [gcs, mul_div_cancel₀ _ hL]; ring
  have hY : y * (2 * m ^ 2) = gcy m yT y * yT := by rw [gcy, div_mul_cancel₀ _ hyT]; ring
  have hm := h.nm; have hp := h.np; have hq := h.nq
  have cub := h.cub
  generalize gcs e L x = s at *
  generalize gcs e L x3 = s3 at *
  generalize gcy m yT y = Y at *
  have hN : (1 + m ^ 2) * (1 - m ^ 2) ≠ 0 := mul_ne_zero hp hq
  have hs : 1 - s ≠ 0 := fun h0 => hne (sub_eq_zero.mp h0).symm
  have hd : e + L - x ≠ 0 := by rw [hx]; intro h0; exact mul_ne_zero hL hs (by linear_combination h0)
  obtain ⟨k', e'⟩ := add_gen (h1 := k) (h2 := kT) (fun h0 => hd (by rw [h0, sub_self]))
    (div_mul_cancel₀ (yT - y) hd)
  rw [h3] at e'
  have e1 := (Point.some.inj e').1
  have e2 : x3 * (e + L - x) ^ 2 = (yT - y) ^ 2 - (A + x + (e + L)) * (e + L - x) ^ 2 := by
    rw [e1]
    field_simp
    ring
  have hm2 : 2 * m ^ 2 ≠ 0 := mul_ne_zero h.two (pow_ne_zero 2 hm)
  -- the coordinate of the sum
  have e3 : ((1 + m ^ 2) * (1 - m ^ 2)) * (s3 * (1 - s) ^ 2) =
      (1 + m ^ 2) * (1 - m ^ 2) * (s ^ 2 + 2 * s + 1) - 4 * (1 + m ^ 4) * s + 4 * m ^ 2 * Y := by
    apply mul_left_cancel₀ (pow_ne_zero 3 hL)
    apply mul_left_cancel₀ (pow_ne_zero 2 hm)
    have e4 : ((1 + m ^ 2) * (1 - m ^ 2)) * (y * (2 * m ^ 2) * yT) = Y * (-4 * m ^ 4 * L ^ 3) := by
      rw [hY, ← hcT]; ring
    rw [hx, hx3] at e2
    linear_combination m ^ 2 * ((1 + m ^ 2) * (1 - m ^ 2)) * e2 + m ^ 2 * hcT + m ^ 2 * hc - e4 -
      m ^ 2 * L ^ 2 * (1 - s) ^ 2 * cub
  have qa : ((1 + m ^ 2) * (1 - m ^ 2)) * (1 - s) ^ 2 * (s3 - 1) = 4 * m ^ 2 * (Y - 2 * m ^ 2 * s) := by
    linear_combination e3
  have qb : ((1 + m ^ 2) * (1 - m ^ 2)) * (1 - s) ^ 2 * (s3 + 1) =
      2 * ((1 + m ^ 2) * (1 - m ^ 2)) * (s ^ 2 + 1) - 4 * (1 + m ^ 4) * s + 4 * m ^ 2 * Y := by
    linear_combination e3
  have hc0 : ((1 + m ^ 2) * (1 - m ^ 2)) * (1 - s) ^ 2 ≠ 0 := mul_ne_zero hN (pow_ne_zero 2 hs)
  have l : ∀ c B w : K, c * c * (B * ((s3 - 1) * (m * (s3 + 1))) * w) =
      B * m * w * ((c * (s3 - 1)) * (c * (s3 + 1))) := by intro c B w; ring
  have r : ∀ c : K, c * c * (2 * m * Y * ((s3 - 1) ^ 2 + (m * (s3 + 1)) ^ 2)) =
      2 * m * Y * ((c * (s3 - 1)) ^ 2 + m ^ 2 * (c * (s3 + 1)) ^ 2) := by intro c; ring
  have r' : ∀ c : K, c * c * (-2 * m * Y * ((s3 - 1) ^ 2 - (m * (s3 + 1)) ^ 2)) =
      -2 * m * Y * ((c * (s3 - 1)) ^ 2 - m ^ 2 * (c * (s3 + 1)) ^ 2) := by intro c; ring
  constructor
  · apply mul_left_cancel₀ (mul_ne_zero hc0 hc0)
    rw [l, r, qa, qb]
    linear_combination (-m * (32 * m ^ 4 * (1 + m ^ 2) * Y + (-128 * m ^ 6 * s + 16 * m ^ 4 *
      (2 * ((1 + m ^ 2) * (1 - m ^ 2)) * (s ^ 2 + 1) - 4 * (1 + m ^ 4) * s)
      - 16 * m ^ 4 * ((s - 1) ^ 2 - (m * (s + 1)) ^ 2) * (1 + m ^ 2)))) * hcy
  · apply mul_left_cancel₀ (mul_ne_zero hc0 hc0)
    rw [l, r', qa, qb]
    linear_combination (32 * m ^ 5 * (1 - m ^ 2) * Y + 16 * m ^ 5 * (1 - m ^ 2) * ((s - 1) ^ 2 + (m * (s + 1)) ^ 2)
      - 128 * m ^ 7 * s - 16 * m ^ 5 *
      (2 * ((1 + m ^ 2) * (1 - m ^ 2)) * (s ^ 2 + 1) - 4 * (1 + m ^ 4) * s)) * hcy

omit hT in
/-- No coordinate vanishes outside the points of order four. -/
theorem Fac.ne {x y x2 y2 : K} {k : (mont A).Nonsingular x y} {k2 : (mont A).Nonsingular x2 y2}
    (h2 : 2 • (Point.some x y k : MPoint A) = .some x2 y2 k2) (hy2 : y2 ≠ 0) :
    (gcs e L x - 1) ^ 2 + (m * (gcs e L x + 1)) ^ 2 ≠ 0 ∧ (gcs e L x - 1) ^ 2 - (m * (gcs e L x + 1)) ^ 2 ≠ 0 ∧
      (gcs e L x - 1) * (m * (gcs e L x + 1)) ≠ 0 := by
  obtain ⟨r, hr, -, h3⟩ := h.dbl hyT h2
  have : r ^ 2 * gcy m yT y2 ≠ 0 :=
    mul_ne_zero (pow_ne_zero 2 hr) (div_ne_zero (mul_ne_zero (mul_ne_zero h.two (pow_ne_zero 2 h.nm)) hy2) hyT)
  rw [← h3, gy] at this
  refine ⟨fun h0 => this ?_, fun h0 => this ?_, fun h0 => this ?_⟩ <;> simp [h0]

end
end Festa
