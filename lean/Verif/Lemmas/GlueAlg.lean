import Verif.Lemmas.ThetaMore
/-! The gluing isogeny in coordinates adapted to the kernel: polynomial identities.

On each factor the two points of order four above the kernel give coordinates `(u0 : u1)` with null
point `(1 : m)`; the points on the curve satisfy `4 m² Y² = (m² u0² - u1²) (u0² - m² u1²)`. -/
namespace Festa
variable {K : Type*} [Field K]

/-- The image of a point of the product in dual coordinates; `D`, `F` are the two nontrivial dual
coordinates of the null point. -/
def gw (D F u0 u1 v0 v1 Y Y' : K) : ThPt K :=
  ⟨(u0 ^ 2 + u1 ^ 2) * (v0 ^ 2 + v1 ^ 2), (u0 ^ 2 - u1 ^ 2) * (v0 ^ 2 - v1 ^ 2) / D, 4 * (u0 * u1) * (v0 * v1) / F,
    4 * F * Y * Y' / D⟩

/-- The dual coordinates of the null point. -/
def gn (D F : K) : ThPt K := ⟨1, D, F, 0⟩

/-- The doubled point. -/
def gd (m u0 u1 : K) : K × K :=
  ((u0 ^ 2 + u1 ^ 2) ^ 2 / (1 + m ^ 2) + (u0 ^ 2 - u1 ^ 2) ^ 2 / (1 - m ^ 2),
   ((u0 ^ 2 + u1 ^ 2) ^ 2 / (1 + m ^ 2) - (u0 ^ 2 - u1 ^ 2) ^ 2 / (1 - m ^ 2)) / m)

/-- Its ordinate. -/
def gy (m u0 u1 Y : K) : K :=
  8 * ((u0 ^ 2 + u1 ^ 2) * (u0 ^ 2 - u1 ^ 2) * (u0 * u1) * Y) / (m * ((1 + m ^ 2) * (1 - m ^ 2)))

/-- Conditions on the null points. -/
structure GOK (m m' D F : K) : Prop where
  two : (2 : K) ≠ 0
  nm : m ≠ 0
  nm' : m' ≠ 0
  p : 1 + m ^ 2 ≠ 0
  q : 1 - m ^ 2 ≠ 0
  p' : 1 + m' ^ 2 ≠ 0
  q' : 1 - m' ^ 2 ≠ 0
  nD : D ≠ 0
  nF : F ≠ 0
  hD : D ^ 2 = (1 - m ^ 2) * (1 - m' ^ 2) / ((1 + m ^ 2) * (1 + m' ^ 2))
  hF : F ^ 2 = 4 * (m * m') / ((1 + m ^ 2) * (1 + m' ^ 2))

/-- The point lies on the curve. -/
def OnC (m u0 u1 Y : K) : Prop := 4 * m ^ 2 * Y ^ 2 = (m ^ 2 * u0 ^ 2 - u1 ^ 2) * (u0 ^ 2 - m ^ 2 * u1 ^ 2)

section
variable {m m' D F u0 u1 v0 v1 Y Y' : K}

theorem OnC.sq (h2 : (2 : K) ≠ 0) (hm : m ≠ 0) (h : OnC m u0 u1 Y) :
    Y ^ 2 = ((1 + m ^ 2) ^ 2 * (u0 ^ 2 - u1 ^ 2) ^ 2 - (1 - m ^ 2) ^ 2 * (u0 ^ 2 + u1 ^ 2) ^ 2) / (16 * m ^ 2) := by
  have h16 : (16 : K) ≠ 0 := by
    rw [show (16 : K) = 2 * 2 * 2 * 2 by norm_num]
    exact mul_ne_zero (mul_ne_zero (mul_ne_zero h2 h2) h2) h2
  rw [OnC] at h
  rw [eq_div_iff (mul_ne_zero h16 (pow_ne_zero 2 hm))]
  linear_combination 4 * h

/-- What the coordinates of `gw` square to, with `a = (u0² + u1²)² / (1 + m²)` and
`b = (u0² - u1²)² / (1 - m²)`. -/
theorem gw_sq (h : GOK m m' D F) (hY : OnC m u0 u1 Y) (hY' : OnC m' v0 v1 Y') {a b a' b' : K}
    (ha : a = (u0 ^ 2 + u1 ^ 2) ^ 2 / (1 + m ^ 2)) (hb : b = (u0 ^ 2 - u1 ^ 2) ^ 2 / (1 - m ^ 2))
    (ha' : a' = (v0 ^ 2 + v1 ^ 2) ^ 2 / (1 + m' ^ 2)) (hb' : b' = (v0 ^ 2 - v1 ^ 2) ^ 2 / (1 - m' ^ 2)) :
    (gw D F u0 u1 v0 v1 Y Y').X ^ 2 = (1 + m ^ 2) * (1 + m' ^ 2) * (a * a') ∧
    (gw D F u0 u1 v0 v1 Y Y').Y ^ 2 = (1 + m ^ 2) * (1 + m' ^ 2) * (b * b') ∧
    (gw D F u0 u1 v0 v1 Y Y').Z ^ 2 = (1 + m ^ 2) * (1 + m' ^ 2) *
      (((1 + m ^ 2) * a - (1 - m ^ 2) * b) * ((1 + m' ^ 2) * a' - (1 - m' ^ 2) * b')) / (4 * (m * m')) ∧
    (gw D F u0 u1 v0 v1 Y Y').T ^ 2 = (1 + m ^ 2) * (1 + m' ^ 2) *
      (((1 + m ^ 2) * b - (1 - m ^ 2) * a) * ((1 + m' ^ 2) * b' - (1 - m' ^ 2) * a')) / (4 * (m * m')) := by
  obtain ⟨h2, hm, hm', hp, hq, hp', hq', hD0, hF0, hD, hF⟩ := h
  have hy := hY.sq h2 hm
  have hy' := hY'.sq h2 hm'
  have h4 : (4 : K) ≠ 0 := four_ne h2
  have h16 : (16 : K) ≠ 0 := by rw [show (16 : K) = 4 * 4 by norm_num]; exact mul_ne_zero h4 h4
  subst ha hb ha' hb'
  refine ⟨?_, ?_, ?_, ?_⟩
  · simp only [gw]; field_simp
  · simp only [gw, div_pow, hD]; field_simp
  · simp only [gw, div_pow, hF]; field_simp; ring
  · have e : (gw D F u0 u1 v0 v1 Y Y').T ^ 2 = 16 * (F ^ 2 / D ^ 2) * Y ^ 2 * Y' ^ 2 := by
      simp only [gw]; field_simp; ring
    rw [e, hD, hF, hy, hy']
    field_simp
    ring

/-- The product of the four coordinates. -/
theorem gw_prod (h : GOK m m' D F) :
    (gw D F u0 u1 v0 v1 Y Y').X * (gw D F u0 u1 v0 v1 Y Y').Y * ((gw D F u0 u1 v0 v1 Y Y').Z *
      (gw D F u0 u1 v0 v1 Y Y').T) = 16 * (((u0 ^ 2 + u1 ^ 2) * (u0 ^ 2 - u1 ^ 2) * (u0 * u1) * Y) *
        ((v0 ^ 2 + v1 ^ 2) * (v0 ^ 2 - v1 ^ 2) * (v0 * v1) * Y')) / D ^ 2 := by
  have := h.nD; have := h.nF
  simp only [gw]
  field_simp
  ring

theorem gy_mul (hm : m ≠ 0) (hm' : m' ≠ 0) (hp : 1 + m ^ 2 ≠ 0) (hq : 1 - m ^ 2 ≠ 0)
    (hp' : 1 + m' ^ 2 ≠ 0) (hq' : 1 - m' ^ 2 ≠ 0) : gy m u0 u1 Y * gy m' v0 v1 Y' =
      64 * (((u0 ^ 2 + u1 ^ 2) * (u0 ^ 2 - u1 ^ 2) * (u0 * u1) * Y) *
        ((v0 ^ 2 + v1 ^ 2) * (v0 ^ 2 - v1 ^ 2) * (v0 * v1) * Y')) /
        (m * m' * ((1 + m ^ 2) * (1 - m ^ 2)) * ((1 + m' ^ 2) * (1 - m' ^ 2))) := by
  rw [gy, gy]
  generalize (u0 ^ 2 + u1 ^ 2) * (u0 ^ 2 - u1 ^ 2) * (u0 * u1) * Y = x
  generalize (v0 ^ 2 + v1 ^ 2) * (v0 ^ 2 - v1 ^ 2) * (v0 * v1) * Y' = y
  field_simp
  ring

section
variable {a b a' b' S : K} (h2 : (2 : K) ≠ 0) (hm : m ≠ 0) (hm' : m' ≠ 0) (hp : 1 + m ^ 2 ≠ 0) (hq : 1 - m ^ 2 ≠ 0)
  (hp' : 1 + m' ^ 2 ≠ 0) (hq' : 1 - m' ^ 2 ≠ 0)
include h2 hm hm' hp hp'

private theorem aux0 : (((1 + m ^ 2) * (1 + m' ^ 2) * (a * a') + (1 + m ^ 2) * (1 + m' ^ 2) * (b * b') +
      (1 + m ^ 2) * (1 + m' ^ 2) *
      (((1 + m ^ 2) * a - (1 - m ^ 2) * b) * ((1 + m' ^ 2) * a' - (1 - m' ^ 2) * b')) / (4 * (m * m')) +
      (1 + m ^ 2) * (1 + m' ^ 2) *
      (((1 + m ^ 2) * b - (1 - m ^ 2) * a) * ((1 + m' ^ 2) * b' - (1 - m' ^ 2) * a')) / (4 * (m * m')))) ^ 2 =
    ((1 + m ^ 2) * (1 + m' ^ 2)) ^ 3 / 16 * ((1 + (1 - m ^ 2) * (1 - m' ^ 2) / ((1 + m ^ 2) * (1 + m' ^ 2)) +
      4 * (m * m') / ((1 + m ^ 2) * (1 + m' ^ 2))) *
      (((a + b) ^ 2 + ((a - b) / m) ^ 2) * ((a' + b') ^ 2 + ((a' - b') / m') ^ 2) +
      ((a + b) ^ 2 - ((a - b) / m) ^ 2) * ((a' + b') ^ 2 - ((a' - b') / m') ^ 2) +
      4 * ((a + b) * ((a - b) / m)) * ((a' + b') * ((a' - b') / m')))) := by
  have h4 : (4 : K) ≠ 0 := four_ne h2
  have h16 : (16 : K) ≠ 0 := by rw [show (16 : K) = 4 * 4 by norm_num]; exact mul_ne_zero h4 h4
  have l : ((1 + m ^ 2) * (1 + m' ^ 2) * (a * a') + (1 + m ^ 2) * (1 + m' ^ 2) * (b * b') +
      (1 + m ^ 2) * (1 + m' ^ 2) *
      (((1 + m ^ 2) * a - (1 - m ^ 2) * b) * ((1 + m' ^ 2) * a' - (1 - m' ^ 2) * b')) / (4 * (m * m')) +
      (1 + m ^ 2) * (1 + m' ^ 2) *
      (((1 + m ^ 2) * b - (1 - m ^ 2) * a) * ((1 + m' ^ 2) * b' - (1 - m' ^ 2) * a')) / (4 * (m * m'))) =
      (1 + m ^ 2) * (1 + m' ^ 2) * ((1 + m * m') *
        ((a * a' + b * b') * (1 + m * m') - (a * b' + b * a') * (1 - m * m'))) / (2 * (m * m')) := by
    field_simp
    ring
  have r1 : 1 + (1 - m ^ 2) * (1 - m' ^ 2) / ((1 + m ^ 2) * (1 + m' ^ 2)) +
      4 * (m * m') / ((1 + m ^ 2) * (1 + m' ^ 2)) = 2 * (1 + m * m') ^ 2 / ((1 + m ^ 2) * (1 + m' ^ 2)) := by
    field_simp
    ring
  have r2 : ((a + b) ^ 2 + ((a - b) / m) ^ 2) * ((a' + b') ^ 2 + ((a' - b') / m') ^ 2) +
      ((a + b) ^ 2 - ((a - b) / m) ^ 2) * ((a' + b') ^ 2 - ((a' - b') / m') ^ 2) +
      4 * ((a + b) * ((a - b) / m)) * ((a' + b') * ((a' - b') / m')) =
      2 * ((a * a' + b * b') * (1 + m * m') - (a * b' + b * a') * (1 - m * m')) ^ 2 / (m * m') ^ 2 := by
    field_simp
    ring
  rw [l, r1, r2]
  generalize (a * a' + b * b') * (1 + m * m') - (a * b' + b * a') * (1 - m * m') = z
  have h8 : (8 : K) ≠ 0 := by rw [show (8 : K) = 4 * 2 by norm_num]; exact mul_ne_zero h4 h2
  field_simp
  ring

include hq hq'

private theorem aux1 : 4 * ((1 + m ^ 2) * (1 + m' ^ 2) * (a * a') * ((1 + m ^ 2) * (1 + m' ^ 2) * (b * b')) +
      (1 + m ^ 2) * (1 + m' ^ 2) *
      (((1 + m ^ 2) * a - (1 - m ^ 2) * b) * ((1 + m' ^ 2) * a' - (1 - m' ^ 2) * b')) / (4 * (m * m')) *
      ((1 + m ^ 2) * (1 + m' ^ 2) *
      (((1 + m ^ 2) * b - (1 - m ^ 2) * a) * ((1 + m' ^ 2) * b' - (1 - m' ^ 2) * a')) / (4 * (m * m'))) +
      2 * (16 * S / ((1 - m ^ 2) * (1 - m' ^ 2) / ((1 + m ^ 2) * (1 + m' ^ 2))))) =
    ((1 + m ^ 2) * (1 + m' ^ 2)) ^ 3 / 16 * (2 * (((a + b) ^ 2 - ((a - b) / m) ^ 2) * ((a' + b') ^ 2 - ((a' - b') / m') ^ 2) +
      (1 - m ^ 2) * (1 - m' ^ 2) / ((1 + m ^ 2) * (1 + m' ^ 2)) *
        (((a + b) ^ 2 + ((a - b) / m) ^ 2) * ((a' + b') ^ 2 + ((a' - b') / m') ^ 2)) +
      4 * (m * m') / ((1 + m ^ 2) * (1 + m' ^ 2)) *
        (256 * S / (m * m' * ((1 + m ^ 2) * (1 - m ^ 2)) * ((1 + m' ^ 2) * (1 - m' ^ 2)))))) := by
  have h4 : (4 : K) ≠ 0 := four_ne h2
  have h16 : (16 : K) ≠ 0 := by rw [show (16 : K) = 4 * 4 by norm_num]; exact mul_ne_zero h4 h4
  field_simp
  ring

private theorem aux2 : 4 * ((1 + m ^ 2) * (1 + m' ^ 2) * (a * a') * ((1 + m ^ 2) * (1 + m' ^ 2) *
      (((1 + m ^ 2) * a - (1 - m ^ 2) * b) * ((1 + m' ^ 2) * a' - (1 - m' ^ 2) * b')) / (4 * (m * m'))) +
      (1 + m ^ 2) * (1 + m' ^ 2) * (b * b') *
      ((1 + m ^ 2) * (1 + m' ^ 2) *
      (((1 + m ^ 2) * b - (1 - m ^ 2) * a) * ((1 + m' ^ 2) * b' - (1 - m' ^ 2) * a')) / (4 * (m * m'))) +
      2 * (16 * S / ((1 - m ^ 2) * (1 - m' ^ 2) / ((1 + m ^ 2) * (1 + m' ^ 2))))) =
    ((1 + m ^ 2) * (1 + m' ^ 2)) ^ 3 / 16 * (2 * (4 * ((a + b) * ((a - b) / m)) * ((a' + b') * ((a' - b') / m')) +
      4 * (m * m') / ((1 + m ^ 2) * (1 + m' ^ 2)) *
        (((a + b) ^ 2 + ((a - b) / m) ^ 2) * ((a' + b') ^ 2 + ((a' - b') / m') ^ 2)) +
      4 * (m * m') / ((1 + m ^ 2) * (1 + m' ^ 2)) *
        (256 * S / (m * m' * ((1 + m ^ 2) * (1 - m ^ 2)) * ((1 + m' ^ 2) * (1 - m' ^ 2)))))) := by
  have h4 : (4 : K) ≠ 0 := four_ne h2
  have h16 : (16 : K) ≠ 0 := by rw [show (16 : K) = 4 * 4 by norm_num]; exact mul_ne_zero h4 h4
  field_simp
  ring

private theorem aux3 : 4 * ((1 + m ^ 2) * (1 + m' ^ 2) * (a * a') * ((1 + m ^ 2) * (1 + m' ^ 2) *
      (((1 + m ^ 2) * b - (1 - m ^ 2) * a) * ((1 + m' ^ 2) * b' - (1 - m' ^ 2) * a')) / (4 * (m * m'))) +
      (1 + m ^ 2) * (1 + m' ^ 2) * (b * b') *
      ((1 + m ^ 2) * (1 + m' ^ 2) *
      (((1 + m ^ 2) * a - (1 - m ^ 2) * b) * ((1 + m' ^ 2) * a' - (1 - m' ^ 2) * b')) / (4 * (m * m'))) +
      2 * (16 * S / ((1 - m ^ 2) * (1 - m' ^ 2) / ((1 + m ^ 2) * (1 + m' ^ 2))))) =
    ((1 + m ^ 2) * (1 + m' ^ 2)) ^ 3 / 16 * (2 * (4 * (m * m') / ((1 + m ^ 2) * (1 + m' ^ 2)) *
        (256 * S / (m * m' * ((1 + m ^ 2) * (1 - m ^ 2)) * ((1 + m' ^ 2) * (1 - m' ^ 2)))) +
      (1 - m ^ 2) * (1 - m' ^ 2) / ((1 + m ^ 2) * (1 + m' ^ 2)) *
        (4 * ((a + b) * ((a - b) / m)) * ((a' + b') * ((a' - b') / m'))) +
      4 * (m * m') / ((1 + m ^ 2) * (1 + m' ^ 2)) *
        (((a + b) ^ 2 - ((a - b) / m) ^ 2) * ((a' + b') ^ 2 - ((a' - b') / m') ^ 2)))) := by
  have h4 : (4 : K) ≠ 0 := four_ne h2
  have h16 : (16 : K) ≠ 0 := by rw [show (16 : K) = 4 * 4 by norm_num]; exact mul_ne_zero h4 h4
  field_simp
  ring

end

/-- Doubling in dual coordinates. -/
theorem gw_conv (h : GOK m m' D F) (hY : OnC m u0 u1 Y) (hY' : OnC m' v0 v1 Y') :
    let w := gw D F u0 u1 v0 v1 Y Y'
    let w2 := gw D F (gd m u0 u1).1 (gd m u0 u1).2 (gd m' v0 v1).1 (gd m' v0 v1).2 (gy m u0 u1 Y) (gy m' v0 v1 Y')
    let k := ((1 + m ^ 2) * (1 + m' ^ 2)) ^ 3 / 16
    (w.conv w).mul (w.conv w) = (((gn D F).conv (gn D F)).mul ((gn D F).conv w2)).scale k := by
  intro w w2 k
  obtain ⟨s0, s1, s2, s3⟩ := gw_sq h hY hY' rfl rfl rfl rfl
  have sp := gw_prod (u0 := u0) (u1 := u1) (v0 := v0) (v1 := v1) (Y := Y) (Y' := Y') h
  obtain ⟨h2, hm, hm', hp, hq, hp', hq', hD0, hF0, hD, hF⟩ := h
  have h16 : (16 : K) ≠ 0 := by
    rw [show (16 : K) = 2 * 2 * 2 * 2 by norm_num]
    exact mul_ne_zero (mul_ne_zero (mul_ne_zero h2 h2) h2) h2
  have h4 : (4 : K) ≠ 0 := four_ne h2
  change w.X ^ 2 = _ at s0
  change w.Y ^ 2 = _ at s1
  change w.Z ^ 2 = _ at s2
  change w.T ^ 2 = _ at s3
  change w.X * w.Y * (w.Z * w.T) = _ at sp
  -- the doubled point
  set a := (u0 ^ 2 + u1 ^ 2) ^ 2 / (1 + m ^ 2) with ha
  set b := (u0 ^ 2 - u1 ^ 2) ^ 2 / (1 - m ^ 2) with hb
  set a' := (v0 ^ 2 + v1 ^ 2) ^ 2 / (1 + m' ^ 2) with ha'
  set b' := (v0 ^ 2 - v1 ^ 2) ^ 2 / (1 - m' ^ 2) with hb'
  set S := ((u0 ^ 2 + u1 ^ 2) * (u0 ^ 2 - u1 ^ 2) * (u0 * u1) * Y) *
        ((v0 ^ 2 + v1 ^ 2) * (v0 ^ 2 - v1 ^ 2) * (v0 * v1) * Y') with hS
  have t0 : w2.X = ((a + b) ^ 2 + ((a - b) / m) ^ 2) * ((a' + b') ^ 2 + ((a' - b') / m') ^ 2) := rfl
  have t1 : D * w2.Y = ((a + b) ^ 2 - ((a - b) / m) ^ 2) * ((a' + b') ^ 2 - ((a' - b') / m') ^ 2) := by
    change D * (((a + b) ^ 2 - ((a - b) / m) ^ 2) * ((a' + b') ^ 2 - ((a' - b') / m') ^ 2) / D) = _
    rw [mul_div_cancel₀ _ hD0]
  have t2 : F * w2.Z = 4 * ((a + b) * ((a - b) / m)) * ((a' + b') * ((a' - b') / m')) := by
    change F * (4 * ((a + b) * ((a - b) / m)) * ((a' + b') * ((a' - b') / m')) / F) = _
    rw [mul_div_cancel₀ _ hF0]
  have t3 : D * w2.T = F * (256 * S / (m * m' * ((1 + m ^ 2) * (1 - m ^ 2)) * ((1 + m' ^ 2) * (1 - m' ^ 2)))) := by
    have : w2.T = 4 * F * gy m u0 u1 Y * gy m' v0 v1 Y' / D := rfl
    rw [this, mul_div_cancel₀ _ hD0, mul_assoc, gy_mul hm hm' hp hq hp' hq', ← hS]
    ring
  clear_value w w2 a b a' b' S
  simp only [ThPt.mul, ThPt.conv, ThPt.scale, gn, ThPt.mk.injEq]
  refine ⟨?_, ?_, ?_, ?_⟩
  · have l : w.X * w.X + w.Y * w.Y + w.Z * w.Z + w.T * w.T = w.X ^ 2 + w.Y ^ 2 + w.Z ^ 2 + w.T ^ 2 := by ring
    have r : 1 * 1 + D * D + F * F + 0 * 0 = 1 + D ^ 2 + F ^ 2 := by ring
    have r' : 1 * w2.X + D * w2.Y + F * w2.Z + 0 * w2.T = w2.X + D * w2.Y + F * w2.Z := by ring
    rw [l, r, r', s0, s1, s2, s3, hD, hF, t1, t2, t0, ← pow_two]
    exact aux0 h2 hm hm' hp hp'
  · have l : (w.X * w.Y + w.Y * w.X + w.Z * w.T + w.T * w.Z) * (w.X * w.Y + w.Y * w.X + w.Z * w.T + w.T * w.Z) =
        4 * (w.X ^ 2 * w.Y ^ 2 + w.Z ^ 2 * w.T ^ 2 + 2 * (w.X * w.Y * (w.Z * w.T))) := by ring
    have r : (1 * D + D * 1 + F * 0 + 0 * F) * (1 * w2.Y + D * w2.X + F * w2.T + 0 * w2.Z) =
        2 * (D * w2.Y + D ^ 2 * w2.X + F * (D * w2.T)) := by ring
    have f : F * (F * (256 * S / (m * m' * ((1 + m ^ 2) * (1 - m ^ 2)) * ((1 + m' ^ 2) * (1 - m' ^ 2))))) =
      F ^ 2 * (256 * S / (m * m' * ((1 + m ^ 2) * (1 - m ^ 2)) * ((1 + m' ^ 2) * (1 - m' ^ 2)))) := by ring
    rw [l, r, t3, f, t1, t0, sp, s0, s1, s2, s3, hF, hD]
    exact aux1 h2 hm hm' hp hq hp' hq'
  · have l : (w.X * w.Z + w.Z * w.X + w.Y * w.T + w.T * w.Y) * (w.X * w.Z + w.Z * w.X + w.Y * w.T + w.T * w.Y) =
        4 * (w.X ^ 2 * w.Z ^ 2 + w.Y ^ 2 * w.T ^ 2 + 2 * (w.X * w.Y * (w.Z * w.T))) := by ring
    have r : (1 * F + F * 1 + D * 0 + 0 * D) * (1 * w2.Z + F * w2.X + D * w2.T + 0 * w2.Y) =
        2 * (F * w2.Z + F ^ 2 * w2.X + F * (D * w2.T)) := by ring
    have f : F * (F * (256 * S / (m * m' * ((1 + m ^ 2) * (1 - m ^ 2)) * ((1 + m' ^ 2) * (1 - m' ^ 2))))) =
      F ^ 2 * (256 * S / (m * m' * ((1 + m ^ 2) * (1 - m ^ 2)) * ((1 + m' ^ 2) * (1 - m' ^ 2)))) := by ring
    rw [l, r, t3, f, t2, t0, sp, s0, s1, s2, s3, hF, hD]
    exact aux2 h2 hm hm' hp hq hp' hq'
  · have l : (w.X * w.T + w.T * w.X + w.Y * w.Z + w.Z * w.Y) * (w.X * w.T + w.T * w.X + w.Y * w.Z + w.Z * w.Y) =
        4 * (w.X ^ 2 * w.T ^ 2 + w.Y ^ 2 * w.Z ^ 2 + 2 * (w.X * w.Y * (w.Z * w.T))) := by ring
    have r : (1 * 0 + 0 * 1 + D * F + F * D) * (1 * w2.T + 0 * w2.X + D * w2.Z + F * w2.Y) =
        2 * (F * (D * w2.T) + D ^ 2 * (F * w2.Z) + F ^ 2 * (D * w2.Y)) := by ring
    have f : F * (F * (256 * S / (m * m' * ((1 + m ^ 2) * (1 - m ^ 2)) * ((1 + m' ^ 2) * (1 - m' ^ 2))))) =
      F ^ 2 * (256 * S / (m * m' * ((1 + m ^ 2) * (1 - m ^ 2)) * ((1 + m' ^ 2) * (1 - m' ^ 2)))) := by ring
    rw [l, r, t3, f, t2, t1, sp, s0, s1, s2, s3, hF, hD]
    exact aux3 h2 hm hm' hp hq hp' hq'

/-- The image lies on the Kummer surface. -/
theorem gw_kummer (h : GOK m m' D F) (hY : OnC m u0 u1 Y) (hY' : OnC m' v0 v1 Y') :
    OnKummer (gn D F).had (gw D F u0 u1 v0 v1 Y Y').had := by
  rw [OnKummer, kummer_had]
  refine mul_eq_zero_of_right _ ?_
  obtain ⟨s0, s1, s2, s3⟩ := gw_sq h hY hY' rfl rfl rfl rfl
  obtain ⟨h2, hm, hm', hp, hq, hp', hq', hD0, hF0, hD, hF⟩ := h
  generalize gw D F u0 u1 v0 v1 Y Y' = w at *
  have h4 : (4 : K) ≠ 0 := four_ne h2
  have e : kummer (gn D F) w = D ^ 2 * F ^ 2 * (-(D ^ 2 * F ^ 2) * ((w.X ^ 2) ^ 2 + (w.Y ^ 2) ^ 2 + (w.Z ^ 2) ^ 2 + (w.T ^ 2) ^ 2)
      + (1 + (D ^ 2) ^ 2 - (F ^ 2) ^ 2) * F ^ 2 * (w.X ^ 2 * w.Y ^ 2 + w.Z ^ 2 * w.T ^ 2)
      + (1 - (D ^ 2) ^ 2 + (F ^ 2) ^ 2) * D ^ 2 * (w.X ^ 2 * w.Z ^ 2 + w.Y ^ 2 * w.T ^ 2)
      - (1 - (D ^ 2) ^ 2 - (F ^ 2) ^ 2) * (w.X ^ 2 * w.T ^ 2 + w.Y ^ 2 * w.Z ^ 2)) := by
    simp only [kummer, gn]; ring
  rw [e, s0, s1, s2, s3, hD, hF]
  refine mul_eq_zero_of_right _ ?_
  field_simp
  ring

/-- Doubling of theta points. -/
theorem gw_double (h : GOK m m' D F) (hY : OnC m u0 u1 Y) (hY' : OnC m' v0 v1 Y') (hn : ThNull (gn D F).had) :
    ((ThStr.new (gn D F).had).double (gw D F u0 u1 v0 v1 Y Y').had).Same
      (gw D F (gd m u0 u1).1 (gd m u0 u1).2 (gd m' v0 v1).1 (gd m' v0 v1).2 (gy m u0 u1 Y) (gy m' v0 v1 Y')).had := by
  have h4 : (4 : K) ≠ 0 := four_ne h.two
  have h16 : (16 : K) ≠ 0 := by rw [show (16 : K) = 4 * 4 by norm_num]; exact mul_ne_zero h4 h4
  have e := gw_conv h hY hY'
  simp only at e
  have hk : ((1 + m ^ 2) * (1 + m' ^ 2)) ^ 3 / 16 ≠ 0 := div_ne_zero (pow_ne_zero 3 (mul_ne_zero h.p h.p')) h16
  generalize ((1 + m ^ 2) * (1 + m' ^ 2)) ^ 3 / 16 = k at *
  generalize gw D F u0 u1 v0 v1 Y Y' = w at *
  generalize gw D F _ _ _ _ _ _ = w2 at *
  have hd := hn.dual
  rw [double_eq hn, sqTheta_had] at *
  rw [sqTheta_had] at *
  refine ThPt.Same.symm ⟨4 * k * ((gn D F).had.X * (((gn D F).conv (gn D F)).scale 4).X),
    mul_ne_zero (mul_ne_zero h4 hk) (mul_ne_zero hn.nz.X hd.X), ?_⟩
  have e1 : ((((w.conv w).scale 4).mul ((w.conv w).scale 4)).div (((gn D F).conv (gn D F)).scale 4)) =
      ((gn D F).conv w2).scale (4 * k) := by
    have e2 : ((w.conv w).scale 4).mul ((w.conv w).scale 4) = ((w.conv w).mul (w.conv w)).scale 16 := by
      simp only [ThPt.scale, ThPt.mul, ThPt.mk.injEq]
      refine ⟨?_, ?_, ?_, ?_⟩ <;> ring
    rw [e2, e]
    generalize (gn D F).conv (gn D F) = c at *
    generalize (gn D F).conv w2 = d at *
    have hX := right_ne_zero_of_mul hd.X; have hY := right_ne_zero_of_mul hd.Y
    have hZ := right_ne_zero_of_mul hd.Z; have hT := right_ne_zero_of_mul hd.T
    simp only [ThPt.scale, ThPt.mul, ThPt.div, ThPt.mk.injEq]
    refine ⟨?_, ?_, ?_, ?_⟩ <;> · field_simp; try ring
  rw [e1, had_scale, ← had_mul_had, div_scale, scale_scale]
  congr 1
  have := hn.nz.X; have := hn.nz.Y; have := hn.nz.Z; have := hn.nz.T
  ext <;> simp only [ThPt.mul, ThPt.div] <;> field_simp

end
end Festa
