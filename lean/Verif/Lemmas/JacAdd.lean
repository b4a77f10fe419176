import Verif.Lemmas.GlueMat
/-! Addition on one factor of the gluing isogeny: products of the coordinates of a sum and of a
difference.  Nothing here models code. -/
namespace Festa
open WeierstrassCurve.Affine
variable {K : Type*} [Field K]

/-- Four functions of a point: `u0² + u1²`, `u0² - u1²`, `2 u0 u1` and the ordinate. -/
def jv (u0 u1 Y : K) : ThPt K := ⟨u0 ^ 2 + u1 ^ 2, u0 ^ 2 - u1 ^ 2, 2 * u0 * u1, Y⟩

/-- The coordinates of `S` and `D` are related to those of `V` and `W` like those of a sum and of a
difference. -/
structure JacAdd (m l : K) (V W S D : ThPt K) : Prop where
  ne : l ≠ 0
  aa : S.X * D.X * (4 * m ^ 2 * (1 - m ^ 2) ^ 2) = l * ((1 - m ^ 2) ^ 2 * (V.X ^ 2 * W.X ^ 2 - V.X ^ 2 * W.Y ^ 2
    - V.Y ^ 2 * W.X ^ 2) + (1 + m ^ 2) ^ 2 * (V.Y ^ 2 * W.Y ^ 2))
  bb : S.Y * D.Y * (4 * m ^ 2 * (1 + m ^ 2) ^ 2) = l * ((1 + m ^ 2) ^ 2 * (V.X ^ 2 * W.Y ^ 2
    + V.Y ^ 2 * W.X ^ 2 - V.Y ^ 2 * W.Y ^ 2) - (1 - m ^ 2) ^ 2 * (V.X ^ 2 * W.X ^ 2))
  cc : S.Z * D.Z * ((1 + m ^ 2) ^ 2 * (1 - m ^ 2) ^ 2) = l * ((1 - m ^ 2) ^ 2 * (V.X ^ 2 * W.X ^ 2)
    - (1 + m ^ 2) ^ 2 * (V.Y ^ 2 * W.Y ^ 2))
  yy : S.T * D.T * (16 * m ^ 2) = l * (V.Y ^ 2 * W.X ^ 2 - V.X ^ 2 * W.Y ^ 2)
  ab : S.X * D.Y * ((1 + m ^ 2) * (1 - m ^ 2)) = l * (V.X * V.Y * (W.X * W.Y) - 4 * (V.Z * V.T * (W.Z * W.T)))
  ba : S.Y * D.X * ((1 + m ^ 2) * (1 - m ^ 2)) = l * (V.X * V.Y * (W.X * W.Y) + 4 * (V.Z * V.T * (W.Z * W.T)))
  ac : S.X * D.Z * (2 * m * (1 + m ^ 2) * (1 - m ^ 2) ^ 2) = l * ((1 - m ^ 2) ^ 2 * (V.X * V.Z * (W.X * W.Z))
    + 16 * m ^ 2 * (V.Y * V.T * (W.Y * W.T)))
  ca : S.Z * D.X * (2 * m * (1 + m ^ 2) * (1 - m ^ 2) ^ 2) = l * ((1 - m ^ 2) ^ 2 * (V.X * V.Z * (W.X * W.Z))
    - 16 * m ^ 2 * (V.Y * V.T * (W.Y * W.T)))
  bc : S.Y * D.Z * (2 * m * (1 - m ^ 2) * (1 + m ^ 2) ^ 2) = l * ((1 + m ^ 2) ^ 2 * (V.Y * V.Z * (W.Y * W.Z))
    + 16 * m ^ 2 * (V.X * V.T * (W.X * W.T)))
  cb : S.Z * D.Y * (2 * m * (1 - m ^ 2) * (1 + m ^ 2) ^ 2) = l * ((1 + m ^ 2) ^ 2 * (V.Y * V.Z * (W.Y * W.Z))
    - 16 * m ^ 2 * (V.X * V.T * (W.X * W.T)))
  ay : S.X * D.T * (2 * m * (1 - m ^ 2)) = l * (V.X * V.T * (W.Y * W.Z) - V.Y * V.Z * (W.X * W.T))
  ya : S.T * D.X * (2 * m * (1 - m ^ 2)) = l * (V.X * V.T * (W.Y * W.Z) + V.Y * V.Z * (W.X * W.T))
  yb : S.T * D.Y * (2 * m * (1 + m ^ 2)) = l * (V.Y * V.T * (W.X * W.Z) + V.X * V.Z * (W.Y * W.T))
  byy : S.Y * D.T * (2 * m * (1 + m ^ 2)) = l * (V.Y * V.T * (W.X * W.Z) - V.X * V.Z * (W.Y * W.T))
  cy : S.Z * D.T * ((1 + m ^ 2) * (1 - m ^ 2)) = l * (V.Z * V.T * (W.X * W.Y) - V.X * V.Y * (W.Z * W.T))
  yc : S.T * D.Z * ((1 + m ^ 2) * (1 - m ^ 2)) = l * (V.Z * V.T * (W.X * W.Y) + V.X * V.Y * (W.Z * W.T))

section
variable {m : K}

/-- Replacing the second point by its opposite exchanges sum and difference. -/
theorem JacAdd.swap {l : K} {V W S D : ThPt K} (h : JacAdd m l V W S D) :
    JacAdd m l V ⟨W.X, W.Y, W.Z, -W.T⟩ D S := by
  refine ⟨h.ne, ?_, ?_, ?_, ?_, ?_, ?_, ?_, ?_, ?_, ?_, ?_, ?_, ?_, ?_, ?_, ?_⟩
  · linear_combination h.aa
  · linear_combination h.bb
  · linear_combination h.cc
  · linear_combination h.yy
  · linear_combination h.ba
  · linear_combination h.ab
  · linear_combination h.ca
  · linear_combination h.ac
  · linear_combination h.cb
  · linear_combination h.bc
  · linear_combination h.ya
  · linear_combination h.ay
  · linear_combination h.byy
  · linear_combination h.yb
  · linear_combination h.yc
  · linear_combination h.cy

/-- The products with the ordinate of the difference. -/
private theorem jac_y {s1 s2 s3 s4 Y1 Y2 Y4 κ β : K} (hκ : κ = -((1 + m ^ 2) * (1 - m ^ 2)))
    (hβ : β = 2 * (1 + m ^ 4)) (nκ : κ ≠ 0) (nw : s2 - s1 ≠ 0)
    (c1 : Y1 ^ 2 = κ * s1 ^ 3 + β * s1 ^ 2 + κ * s1) (c2 : Y2 ^ 2 = κ * s2 ^ 3 + β * s2 ^ 2 + κ * s2)
    (a3 : κ * (s2 - s1) ^ 2 * s3 = κ * (s1 + s2) * (s1 * s2 + 1) + 2 * β * s1 * s2 - 2 * Y1 * Y2)
    (a4 : κ * (s2 - s1) ^ 2 * s4 = κ * (s1 + s2) * (s1 * s2 + 1) + 2 * β * s1 * s2 + 2 * Y1 * Y2)
    (p' : s3 * s4 * (κ * (s2 - s1) ^ 2) = κ * (s1 * s2 - 1) ^ 2)
    (hY4 : (s2 - s1) * Y4 = (-Y2 - Y1) * (s1 - s4) - (s2 - s1) * Y1) :
    (s2 - s1) ^ 4 * (((s3 - 1) ^ 2 + (m * (s3 + 1)) ^ 2) * Y4 * (2 * m * (1 - m ^ 2))) =
      ((s1 - 1) ^ 2 + (m * (s1 + 1)) ^ 2) * Y1 * (((s2 - 1) ^ 2 - (m * (s2 + 1)) ^ 2) * (2 * (s2 - 1) * (m * (s2 + 1))))
      - ((s1 - 1) ^ 2 - (m * (s1 + 1)) ^ 2) * (2 * (s1 - 1) * (m * (s1 + 1))) * (((s2 - 1) ^ 2 + (m * (s2 + 1)) ^ 2) * Y2) ∧
    (s2 - s1) ^ 4 * (((s3 - 1) ^ 2 - (m * (s3 + 1)) ^ 2) * Y4 * (2 * m * (1 + m ^ 2))) =
      ((s1 - 1) ^ 2 - (m * (s1 + 1)) ^ 2) * Y1 * (((s2 - 1) ^ 2 + (m * (s2 + 1)) ^ 2) * (2 * (s2 - 1) * (m * (s2 + 1))))
      - ((s1 - 1) ^ 2 + (m * (s1 + 1)) ^ 2) * (2 * (s1 - 1) * (m * (s1 + 1))) * (((s2 - 1) ^ 2 - (m * (s2 + 1)) ^ 2) * Y2) ∧
    (s2 - s1) ^ 4 * (2 * (s3 - 1) * (m * (s3 + 1)) * Y4 * ((1 + m ^ 2) * (1 - m ^ 2))) =
      2 * (s1 - 1) * (m * (s1 + 1)) * Y1 * (((s2 - 1) ^ 2 + (m * (s2 + 1)) ^ 2) * ((s2 - 1) ^ 2 - (m * (s2 + 1)) ^ 2))
      - ((s1 - 1) ^ 2 + (m * (s1 + 1)) ^ 2) * ((s1 - 1) ^ 2 - (m * (s1 + 1)) ^ 2) * (2 * (s2 - 1) * (m * (s2 + 1)) * Y2) := by
  obtain ⟨F1, hF1⟩ : ∃ F, F = κ * s1 ^ 3 + β * s1 ^ 2 + κ * s1 := ⟨_, rfl⟩
  obtain ⟨F2, hF2⟩ : ∃ F, F = κ * s2 ^ 3 + β * s2 ^ 2 + κ * s2 := ⟨_, rfl⟩
  obtain ⟨R, hR⟩ : ∃ R, R = κ * (s1 + s2) * (s1 * s2 + 1) + 2 * β * s1 * s2 := ⟨_, rfl⟩
  obtain ⟨P, hP⟩ : ∃ P, P = κ * (s1 * s2 - 1) ^ 2 := ⟨_, rfl⟩
  rw [← hF1] at c1
  rw [← hF2] at c2
  rw [← hR] at a3 a4
  rw [← hP] at p'
  obtain ⟨W, hW⟩ : ∃ W, W = κ * (s2 - s1) ^ 2 := ⟨_, rfl⟩
  rw [← hW] at a3 a4 p'
  obtain ⟨w, hw⟩ : ∃ w, w = s2 - s1 := ⟨_, rfl⟩
  rw [← hw] at hY4
  have g0 : W * (w * Y4) = Y1 * (-s1 * W + R + 2 * F2 - w * W) + Y2 * (-s1 * W + R + 2 * F1) := by
    linear_combination W * hY4 + (Y2 + Y1) * a4 + 2 * Y1 * c2 + 2 * Y2 * c1
  have g1 : W * s3 * (w * Y4) = Y1 * (-s1 * R + P - w * R + 2 * s1 * F2)
      + Y2 * (-s1 * R + P + 2 * s1 * F1 + 2 * w * F1) := by
    linear_combination W * s3 * hY4 + (Y2 + Y1) * p' - (s1 * (Y2 + Y1) + w * Y1) * a3 + 2 * s1 * Y1 * c2
      + (2 * s1 * Y2 + 2 * w * Y2) * c1
  obtain ⟨G, hG⟩ : ∃ G, G = -s1 * R + P - w * R + 2 * s1 * F2 := ⟨_, rfl⟩
  obtain ⟨H, hH⟩ : ∃ H, H = -s1 * R + P + 2 * s1 * F1 + 2 * w * F1 := ⟨_, rfl⟩
  rw [← hG, ← hH] at g1
  have g2 : W * s3 * (W * s3) * (w * Y4) = Y1 * (R * G - 2 * F2 * H) + Y2 * (R * H - 2 * F1 * G) := by
    linear_combination W * s3 * g1 + (Y1 * G + Y2 * H) * a3 - 2 * Y1 * H * c2 - 2 * Y2 * G * c1
  have key : ∀ x y z : K, κ ^ 2 * (s2 - s1) * ((s2 - s1) ^ 4 * ((x * s3 ^ 2 + y * s3 + z) * Y4)) =
      x * (Y1 * (R * G - 2 * F2 * H) + Y2 * (R * H - 2 * F1 * G)) + y * (W * (Y1 * G + Y2 * H))
       + z * (W * (Y1 * (-s1 * W + R + 2 * F2 - w * W) + Y2 * (-s1 * W + R + 2 * F1))) := by
    intro x y z
    rw [← g2, ← g1, ← g0, hW, hw]; ring
  have nn := mul_ne_zero (pow_ne_zero 2 nκ) nw
  clear g0 g1 g2 hY4 a3 a4 p' c1 c2
  subst hG hH
  subst hF1 hF2 hR hP hW hw
  subst hκ hβ
  refine ⟨?_, ?_, ?_⟩ <;> apply mul_left_cancel₀ nn
  · have := key (1 + m ^ 2) (-2 * (1 - m ^ 2)) (1 + m ^ 2)
    linear_combination (2 * m * (1 - m ^ 2)) * this
  · have := key (1 - m ^ 2) (-2 * (1 + m ^ 2)) (1 - m ^ 2)
    linear_combination (2 * m * (1 + m ^ 2)) * this
  · have := key (2 * m) 0 (-2 * m)
    linear_combination ((1 + m ^ 2) * (1 - m ^ 2)) * this

section
variable {s1 s2 s3 s4 Y1 Y2 κ β : K} (hκ : κ = -((1 + m ^ 2) * (1 - m ^ 2))) (hβ : β = 2 * (1 + m ^ 4)) (nκ : κ ≠ 0)
  (q' : (s3 + s4) * (κ * (s2 - s1) ^ 2) = 2 * (κ * (s1 + s2) * (s1 * s2 + 1) + 2 * β * s1 * s2))
  (d' : (s3 - s4) * (κ * (s2 - s1) ^ 2) = -4 * (Y1 * Y2))
  (p' : s3 * s4 * (κ * (s2 - s1) ^ 2) = κ * (s1 * s2 - 1) ^ 2)
include hκ hβ nκ q' p'

private theorem jac_aa : (s2 - s1) ^ 4 * (((s3 - 1) ^ 2 + (m * (s3 + 1)) ^ 2) * ((s4 - 1) ^ 2 + (m * (s4 + 1)) ^ 2) * (4 * m ^ 2 * (1 - m ^ 2) ^ 2)) =
    (1 - m ^ 2) ^ 2 * (((s1 - 1) ^ 2 + (m * (s1 + 1)) ^ 2) ^ 2 * ((s2 - 1) ^ 2 + (m * (s2 + 1)) ^ 2) ^ 2 - ((s1 - 1) ^ 2 + (m * (s1 + 1)) ^ 2) ^ 2 * ((s2 - 1) ^ 2 - (m * (s2 + 1)) ^ 2) ^ 2 - ((s1 - 1) ^ 2 - (m * (s1 + 1)) ^ 2) ^ 2 * ((s2 - 1) ^ 2 + (m * (s2 + 1)) ^ 2) ^ 2) + (1 + m ^ 2) ^ 2 * (((s1 - 1) ^ 2 - (m * (s1 + 1)) ^ 2) ^ 2 * ((s2 - 1) ^ 2 - (m * (s2 + 1)) ^ 2) ^ 2) := by
  apply mul_left_cancel₀ (pow_ne_zero 2 nκ)
  have e : κ ^ 2 * ((s2 - s1) ^ 4 * (((s3 - 1) ^ 2 + (m * (s3 + 1)) ^ 2) * ((s4 - 1) ^ 2 + (m * (s4 + 1)) ^ 2) * (4 * m ^ 2 * (1 - m ^ 2) ^ 2))) =
      (4 * m ^ 2 * (1 - m ^ 2) ^ 2) * ((1 + m ^ 2) ^ 2 * ((s3 * s4 * (κ * (s2 - s1) ^ 2)) ^ 2 + ((s3 + s4) * (κ * (s2 - s1) ^ 2)) ^ 2 - 2 * (s3 * s4 * (κ * (s2 - s1) ^ 2)) * (κ * (s2 - s1) ^ 2) + (κ * (s2 - s1) ^ 2) ^ 2) - 2 * ((1 + m ^ 2) * (1 - m ^ 2)) * (((s3 + s4) * (κ * (s2 - s1) ^ 2)) * ((s3 * s4 * (κ * (s2 - s1) ^ 2)) + (κ * (s2 - s1) ^ 2))) + 4 * (1 - m ^ 2) ^ 2 * (s3 * s4 * (κ * (s2 - s1) ^ 2)) * (κ * (s2 - s1) ^ 2)) := by ring
  rw [e, p', q']
  clear e p' q'
  subst hκ hβ
  ring

private theorem jac_bb : (s2 - s1) ^ 4 * (((s3 - 1) ^ 2 - (m * (s3 + 1)) ^ 2) * ((s4 - 1) ^ 2 - (m * (s4 + 1)) ^ 2) * (4 * m ^ 2 * (1 + m ^ 2) ^ 2)) =
    (1 + m ^ 2) ^ 2 * (((s1 - 1) ^ 2 + (m * (s1 + 1)) ^ 2) ^ 2 * ((s2 - 1) ^ 2 - (m * (s2 + 1)) ^ 2) ^ 2 + ((s1 - 1) ^ 2 - (m * (s1 + 1)) ^ 2) ^ 2 * ((s2 - 1) ^ 2 + (m * (s2 + 1)) ^ 2) ^ 2 - ((s1 - 1) ^ 2 - (m * (s1 + 1)) ^ 2) ^ 2 * ((s2 - 1) ^ 2 - (m * (s2 + 1)) ^ 2) ^ 2) - (1 - m ^ 2) ^ 2 * (((s1 - 1) ^ 2 + (m * (s1 + 1)) ^ 2) ^ 2 * ((s2 - 1) ^ 2 + (m * (s2 + 1)) ^ 2) ^ 2) := by
  apply mul_left_cancel₀ (pow_ne_zero 2 nκ)
  have e : κ ^ 2 * ((s2 - s1) ^ 4 * (((s3 - 1) ^ 2 - (m * (s3 + 1)) ^ 2) * ((s4 - 1) ^ 2 - (m * (s4 + 1)) ^ 2) * (4 * m ^ 2 * (1 + m ^ 2) ^ 2))) =
      (4 * m ^ 2 * (1 + m ^ 2) ^ 2) * ((1 - m ^ 2) ^ 2 * ((s3 * s4 * (κ * (s2 - s1) ^ 2)) ^ 2 + ((s3 + s4) * (κ * (s2 - s1) ^ 2)) ^ 2 - 2 * (s3 * s4 * (κ * (s2 - s1) ^ 2)) * (κ * (s2 - s1) ^ 2) + (κ * (s2 - s1) ^ 2) ^ 2) - 2 * ((1 + m ^ 2) * (1 - m ^ 2)) * (((s3 + s4) * (κ * (s2 - s1) ^ 2)) * ((s3 * s4 * (κ * (s2 - s1) ^ 2)) + (κ * (s2 - s1) ^ 2))) + 4 * (1 + m ^ 2) ^ 2 * (s3 * s4 * (κ * (s2 - s1) ^ 2)) * (κ * (s2 - s1) ^ 2)) := by ring
  rw [e, p', q']
  clear e p' q'
  subst hκ hβ
  ring

private theorem jac_cc : (s2 - s1) ^ 4 * ((2 * (s3 - 1) * (m * (s3 + 1))) * (2 * (s4 - 1) * (m * (s4 + 1))) * ((1 + m ^ 2) ^ 2 * (1 - m ^ 2) ^ 2)) =
    (1 - m ^ 2) ^ 2 * (((s1 - 1) ^ 2 + (m * (s1 + 1)) ^ 2) ^ 2 * ((s2 - 1) ^ 2 + (m * (s2 + 1)) ^ 2) ^ 2) - (1 + m ^ 2) ^ 2 * (((s1 - 1) ^ 2 - (m * (s1 + 1)) ^ 2) ^ 2 * ((s2 - 1) ^ 2 - (m * (s2 + 1)) ^ 2) ^ 2) := by
  apply mul_left_cancel₀ (pow_ne_zero 2 nκ)
  have e : κ ^ 2 * ((s2 - s1) ^ 4 * ((2 * (s3 - 1) * (m * (s3 + 1))) * (2 * (s4 - 1) * (m * (s4 + 1))) * ((1 + m ^ 2) ^ 2 * (1 - m ^ 2) ^ 2))) =
      ((1 + m ^ 2) ^ 2 * (1 - m ^ 2) ^ 2) * (4 * m ^ 2 * ((s3 * s4 * (κ * (s2 - s1) ^ 2)) ^ 2 - ((s3 + s4) * (κ * (s2 - s1) ^ 2)) ^ 2 + 2 * (s3 * s4 * (κ * (s2 - s1) ^ 2)) * (κ * (s2 - s1) ^ 2) + (κ * (s2 - s1) ^ 2) ^ 2)) := by ring
  rw [e, p', q']
  clear e p' q'
  subst hκ hβ
  ring

include d'

private theorem jac_ab : (s2 - s1) ^ 4 * (((s3 - 1) ^ 2 + (m * (s3 + 1)) ^ 2) * ((s4 - 1) ^ 2 - (m * (s4 + 1)) ^ 2) * ((1 + m ^ 2) * (1 - m ^ 2))) =
    ((s1 - 1) ^ 2 + (m * (s1 + 1)) ^ 2) * ((s1 - 1) ^ 2 - (m * (s1 + 1)) ^ 2) * (((s2 - 1) ^ 2 + (m * (s2 + 1)) ^ 2) * ((s2 - 1) ^ 2 - (m * (s2 + 1)) ^ 2)) - 4 * ((2 * (s1 - 1) * (m * (s1 + 1))) * Y1 * ((2 * (s2 - 1) * (m * (s2 + 1))) * Y2)) := by
  apply mul_left_cancel₀ (pow_ne_zero 2 nκ)
  have e : κ ^ 2 * ((s2 - s1) ^ 4 * (((s3 - 1) ^ 2 + (m * (s3 + 1)) ^ 2) * ((s4 - 1) ^ 2 - (m * (s4 + 1)) ^ 2) * ((1 + m ^ 2) * (1 - m ^ 2)))) =
      ((1 + m ^ 2) * (1 - m ^ 2)) * ((1 + m ^ 2) * (1 - m ^ 2) * ((s3 * s4 * (κ * (s2 - s1) ^ 2)) ^ 2 + ((s3 + s4) * (κ * (s2 - s1) ^ 2)) ^ 2 - 2 * (s3 * s4 * (κ * (s2 - s1) ^ 2)) * (κ * (s2 - s1) ^ 2) + (κ * (s2 - s1) ^ 2) ^ 2) - ((1 + m ^ 2) ^ 2 + (1 - m ^ 2) ^ 2) * (((s3 + s4) * (κ * (s2 - s1) ^ 2)) * ((s3 * s4 * (κ * (s2 - s1) ^ 2)) + (κ * (s2 - s1) ^ 2))) - ((1 + m ^ 2) ^ 2 - (1 - m ^ 2) ^ 2) * (((s3 - s4) * (κ * (s2 - s1) ^ 2)) * ((s3 * s4 * (κ * (s2 - s1) ^ 2)) - (κ * (s2 - s1) ^ 2))) + 4 * ((1 + m ^ 2) * (1 - m ^ 2)) * (s3 * s4 * (κ * (s2 - s1) ^ 2)) * (κ * (s2 - s1) ^ 2)) := by ring
  rw [e, p', q', d']
  clear e p' q' d'
  subst hκ hβ
  ring

private theorem jac_ac : (s2 - s1) ^ 4 * (((s3 - 1) ^ 2 + (m * (s3 + 1)) ^ 2) * (2 * (s4 - 1) * (m * (s4 + 1))) * (2 * m * (1 + m ^ 2) * (1 - m ^ 2) ^ 2)) =
    (1 - m ^ 2) ^ 2 * (((s1 - 1) ^ 2 + (m * (s1 + 1)) ^ 2) * (2 * (s1 - 1) * (m * (s1 + 1))) * (((s2 - 1) ^ 2 + (m * (s2 + 1)) ^ 2) * (2 * (s2 - 1) * (m * (s2 + 1))))) + 16 * m ^ 2 * (((s1 - 1) ^ 2 - (m * (s1 + 1)) ^ 2) * Y1 * (((s2 - 1) ^ 2 - (m * (s2 + 1)) ^ 2) * Y2)) := by
  apply mul_left_cancel₀ (pow_ne_zero 2 nκ)
  have e : κ ^ 2 * ((s2 - s1) ^ 4 * (((s3 - 1) ^ 2 + (m * (s3 + 1)) ^ 2) * (2 * (s4 - 1) * (m * (s4 + 1))) * (2 * m * (1 + m ^ 2) * (1 - m ^ 2) ^ 2))) =
      (2 * m * (1 + m ^ 2) * (1 - m ^ 2) ^ 2) * (2 * m * ((1 + m ^ 2) * ((s3 * s4 * (κ * (s2 - s1) ^ 2)) ^ 2 - ((s3 + s4) * (κ * (s2 - s1) ^ 2)) * ((s3 - s4) * (κ * (s2 - s1) ^ 2)) - (κ * (s2 - s1) ^ 2) ^ 2) - (1 - m ^ 2) * (((s3 + s4) * (κ * (s2 - s1) ^ 2)) * ((s3 * s4 * (κ * (s2 - s1) ^ 2)) - (κ * (s2 - s1) ^ 2)) - ((s3 - s4) * (κ * (s2 - s1) ^ 2)) * ((s3 * s4 * (κ * (s2 - s1) ^ 2)) + (κ * (s2 - s1) ^ 2))))) := by ring
  rw [e, p', q', d']
  clear e p' q' d'
  subst hκ hβ
  ring

private theorem jac_bc : (s2 - s1) ^ 4 * (((s3 - 1) ^ 2 - (m * (s3 + 1)) ^ 2) * (2 * (s4 - 1) * (m * (s4 + 1))) * (2 * m * (1 - m ^ 2) * (1 + m ^ 2) ^ 2)) =
    (1 + m ^ 2) ^ 2 * (((s1 - 1) ^ 2 - (m * (s1 + 1)) ^ 2) * (2 * (s1 - 1) * (m * (s1 + 1))) * (((s2 - 1) ^ 2 - (m * (s2 + 1)) ^ 2) * (2 * (s2 - 1) * (m * (s2 + 1))))) + 16 * m ^ 2 * (((s1 - 1) ^ 2 + (m * (s1 + 1)) ^ 2) * Y1 * (((s2 - 1) ^ 2 + (m * (s2 + 1)) ^ 2) * Y2)) := by
  apply mul_left_cancel₀ (pow_ne_zero 2 nκ)
  have e : κ ^ 2 * ((s2 - s1) ^ 4 * (((s3 - 1) ^ 2 - (m * (s3 + 1)) ^ 2) * (2 * (s4 - 1) * (m * (s4 + 1))) * (2 * m * (1 - m ^ 2) * (1 + m ^ 2) ^ 2))) =
      (2 * m * (1 - m ^ 2) * (1 + m ^ 2) ^ 2) * (2 * m * ((1 - m ^ 2) * ((s3 * s4 * (κ * (s2 - s1) ^ 2)) ^ 2 - ((s3 + s4) * (κ * (s2 - s1) ^ 2)) * ((s3 - s4) * (κ * (s2 - s1) ^ 2)) - (κ * (s2 - s1) ^ 2) ^ 2) - (1 + m ^ 2) * (((s3 + s4) * (κ * (s2 - s1) ^ 2)) * ((s3 * s4 * (κ * (s2 - s1) ^ 2)) - (κ * (s2 - s1) ^ 2)) - ((s3 - s4) * (κ * (s2 - s1) ^ 2)) * ((s3 * s4 * (κ * (s2 - s1) ^ 2)) + (κ * (s2 - s1) ^ 2))))) := by ring
  rw [e, p', q', d']
  clear e p' q' d'
  subst hκ hβ
  ring

end

theorem jac_gen (hp : 1 + m ^ 2 ≠ 0) (hq : 1 - m ^ 2 ≠ 0)
    {s1 s2 s3 s4 Y1 Y2 Y3 Y4 l l' κ β : K} (hκ : κ = -((1 + m ^ 2) * (1 - m ^ 2))) (hβ : β = 2 * (1 + m ^ 4))
    (hs : s1 ≠ s2) (c1 : Y1 ^ 2 = κ * s1 ^ 3 + β * s1 ^ 2 + κ * s1) (c2 : Y2 ^ 2 = κ * s2 ^ 3 + β * s2 ^ 2 + κ * s2)
    (hl : l * (s2 - s1) = Y2 - Y1) (h3 : κ * s3 = l ^ 2 - β - κ * (s1 + s2)) (hY3 : Y3 = l * (s1 - s3) - Y1)
    (hl' : l' * (s2 - s1) = -Y2 - Y1) (h4 : κ * s4 = l' ^ 2 - β - κ * (s1 + s2)) (hY4 : Y4 = l' * (s1 - s4) - Y1) :
    JacAdd m (((s2 - s1) ^ 4)⁻¹) (jv (s1 - 1) (m * (s1 + 1)) Y1) (jv (s2 - 1) (m * (s2 + 1)) Y2)
      (jv (s3 - 1) (m * (s3 + 1)) Y3) (jv (s4 - 1) (m * (s4 + 1)) Y4) := by
  have nκ : κ ≠ 0 := by rw [hκ]; exact neg_ne_zero.mpr (mul_ne_zero hp hq)
  have nw : s2 - s1 ≠ 0 := sub_ne_zero.mpr (Ne.symm hs)
  have a3 : κ * (s2 - s1) ^ 2 * s3 = κ * (s1 + s2) * (s1 * s2 + 1) + 2 * β * s1 * s2 - 2 * Y1 * Y2 := by
    linear_combination (s2 - s1) ^ 2 * h3 + (l * (s2 - s1) + Y2 - Y1) * hl + c1 + c2
  have a4 : κ * (s2 - s1) ^ 2 * s4 = κ * (s1 + s2) * (s1 * s2 + 1) + 2 * β * s1 * s2 + 2 * Y1 * Y2 := by
    linear_combination (s2 - s1) ^ 2 * h4 + (l' * (s2 - s1) - Y2 - Y1) * hl' + c1 + c2
  have q : s3 + s4 = 2 * (κ * (s1 + s2) * (s1 * s2 + 1) + 2 * β * s1 * s2) / (κ * (s2 - s1) ^ 2) := by
    rw [eq_div_iff (mul_ne_zero nκ (pow_ne_zero 2 nw))]; linear_combination a3 + a4
  have d : s3 - s4 = -4 * (Y1 * Y2) / (κ * (s2 - s1) ^ 2) := by
    rw [eq_div_iff (mul_ne_zero nκ (pow_ne_zero 2 nw))]; linear_combination a3 - a4
  have p : s3 * s4 = (s1 * s2 - 1) ^ 2 / (s2 - s1) ^ 2 := by
    rw [eq_div_iff (pow_ne_zero 2 nw)]
    apply mul_left_cancel₀ (mul_ne_zero (mul_ne_zero nκ nκ) (pow_ne_zero 2 nw))
    linear_combination (κ * (s2 - s1) ^ 2 * s4) * a3 +
      (κ * (s1 + s2) * (s1 * s2 + 1) + 2 * β * s1 * s2 - 2 * Y1 * Y2) * a4 - 4 * Y2 ^ 2 * c1
      - 4 * (κ * s1 ^ 3 + β * s1 ^ 2 + κ * s1) * c2
  have nw4 := pow_ne_zero 4 nw
  have nw2 := pow_ne_zero 2 nw
  have nκw := mul_ne_zero nκ nw2
  have q' : (s3 + s4) * (κ * (s2 - s1) ^ 2) = 2 * (κ * (s1 + s2) * (s1 * s2 + 1) + 2 * β * s1 * s2) := by
    rw [q, div_mul_cancel₀ _ nκw]
  have d' : (s3 - s4) * (κ * (s2 - s1) ^ 2) = -4 * (Y1 * Y2) := by
    rw [d, div_mul_cancel₀ _ nκw]
  have p' : s3 * s4 * (κ * (s2 - s1) ^ 2) = κ * (s1 * s2 - 1) ^ 2 := by
    rw [p, div_mul_eq_mul_div, div_eq_iff nw2]; ring
  obtain ⟨y1, y2, y3⟩ := jac_y (Y4 := Y4) hκ hβ nκ nw c1 c2 a3 a4 p' (by rw [hY4]; linear_combination (s1 - s4) * hl')
  obtain ⟨z1, z2, z3⟩ := jac_y (s3 := s4) (s4 := s3) (Y2 := -Y2) hκ hβ nκ nw c1 (by linear_combination c2) (by linear_combination a4)
    (by linear_combination a3) (by linear_combination p') (Y4 := Y3) (by rw [hY3]; linear_combination (s1 - s3) * hl)
  have yy : (s2 - s1) ^ 2 * (κ * (s2 - s1) ^ 2) * (Y3 * Y4) =
      ((κ * s1 ^ 3 + β * s1 ^ 2 + κ * s1) - (κ * s2 ^ 3 + β * s2 ^ 2 + κ * s2)) * (s1 ^ 2 * (κ * (s2 - s1) ^ 2) -
        s1 * (2 * (κ * (s1 + s2) * (s1 * s2 + 1) + 2 * β * s1 * s2)) + κ * (s1 * s2 - 1) ^ 2)
      + (s2 - s1) * (κ * s1 ^ 3 + β * s1 ^ 2 + κ * s1) * (2 * s1 * (κ * (s2 - s1) ^ 2) -
        2 * (κ * (s1 + s2) * (s1 * s2 + 1) + 2 * β * s1 * s2))
      - 4 * (s2 - s1) * (κ * s1 ^ 3 + β * s1 ^ 2 + κ * s1) * (κ * s2 ^ 3 + β * s2 ^ 2 + κ * s2)
      + (s2 - s1) ^ 2 * (κ * (s2 - s1) ^ 2) * (κ * s1 ^ 3 + β * s1 ^ 2 + κ * s1) := by
    have e3 : (s2 - s1) * Y3 = (Y2 - Y1) * (s1 - s3) - (s2 - s1) * Y1 := by rw [hY3]; linear_combination (s1 - s3) * hl
    have e4 : (s2 - s1) * Y4 = (-Y2 - Y1) * (s1 - s4) - (s2 - s1) * Y1 := by rw [hY4]; linear_combination (s1 - s4) * hl'
    have : (s2 - s1) ^ 2 * (κ * (s2 - s1) ^ 2) * (Y3 * Y4) = (Y1 ^ 2 - Y2 ^ 2) * (s1 ^ 2 * (κ * (s2 - s1) ^ 2) -
        s1 * ((s3 + s4) * (κ * (s2 - s1) ^ 2)) + s3 * s4 * (κ * (s2 - s1) ^ 2))
        + (s2 - s1) * Y1 ^ 2 * (2 * s1 * (κ * (s2 - s1) ^ 2) - (s3 + s4) * (κ * (s2 - s1) ^ 2))
        + (s2 - s1) * Y1 * Y2 * ((s3 - s4) * (κ * (s2 - s1) ^ 2)) + (s2 - s1) ^ 2 * (κ * (s2 - s1) ^ 2) * Y1 ^ 2 := by
      linear_combination (κ * (s2 - s1) ^ 2) * ((s2 - s1) * Y4 * e3 + ((Y2 - Y1) * (s1 - s3) - (s2 - s1) * Y1) * e4)
    rw [this, p', q', d', ← c1, ← c2]; ring
  clear h3 h4 hl hl' hY3 hY4 c1 c2 a3 a4 q d p hs
  refine ⟨inv_ne_zero nw4, ?_, ?_, ?_, ?_, ?_, ?_, ?_, ?_, ?_, ?_, ?_, ?_, ?_, ?_, ?_, ?_⟩ <;>
    rw [eq_inv_mul_iff_mul_eq₀ nw4] <;> simp only [jv]
  · exact jac_aa hκ hβ nκ q' p'
  · exact jac_bb hκ hβ nκ q' p'
  · exact jac_cc hκ hβ nκ q' p'
  · apply mul_left_cancel₀ nκ
    subst hκ hβ
    linear_combination (16 * m ^ 2) * yy
  · exact jac_ab hκ hβ nκ q' d' p'
  · have := jac_ab (s1 := s1) (s2 := s2) (s3 := s4) (s4 := s3) (Y1 := Y1) (Y2 := -Y2) hκ hβ nκ (by linear_combination q')
      (by linear_combination -d') (by linear_combination p')
    linear_combination this
  · exact jac_ac hκ hβ nκ q' d' p'
  · have := jac_ac (s1 := s1) (s2 := s2) (s3 := s4) (s4 := s3) (Y1 := Y1) (Y2 := -Y2) hκ hβ nκ (by linear_combination q')
      (by linear_combination -d') (by linear_combination p')
    linear_combination this
  · exact jac_bc hκ hβ nκ q' d' p'
  · have := jac_bc (s1 := s1) (s2 := s2) (s3 := s4) (s4 := s3) (Y1 := Y1) (Y2 := -Y2) hκ hβ nκ (by linear_combination q')
      (by linear_combination -d') (by linear_combination p')
    linear_combination this
  · exact y1
  · linear_combination z1
  · linear_combination z2
  · exact y2
  · exact y3
  · linear_combination z3
end
end Festa
