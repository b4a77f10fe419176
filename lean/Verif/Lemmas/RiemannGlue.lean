import Verif.Lemmas.RiemannStep
import Verif.Lemmas.JacPts
import Verif.Lemmas.Glue
/-! Gluing carries sums and differences of points to the Riemann relations. -/
namespace Festa
variable {K : Type*} [Field K]

/-- The dual coordinates of an image from the functions on both factors. -/
def gj (D F : K) (V V' : ThPt K) : ThPt K :=
  ⟨V.X * V'.X, V.Y * V'.Y / D, V.Z * V'.Z / F, 4 * F * V.T * V'.T / D⟩

theorem gw_gj (D F u0 u1 v0 v1 Y Y' : K) : gw D F u0 u1 v0 v1 Y Y' = gj D F (jv u0 u1 Y) (jv v0 v1 Y') := by
  simp only [gw, gj, jv, ThPt.mk.injEq]
  refine ⟨trivial, trivial, ?_, trivial⟩
  ring

section
variable {M N m M' N' m' D F l l' : K} {V W S E V' W' S' E' : ThPt K}

private theorem mixed4 (nM : M ≠ 0) (nN : N ≠ 0) (nM' : M' ≠ 0) (nN' : N' ≠ 0)
    (nD : D ≠ 0) (nF : F ≠ 0) (hD : D ^ 2 * (M * M') = N * N')
    (ab : S.X * E.Y * (M * N) = l * (V.X * V.Y * (W.X * W.Y) - 4 * (V.Z * V.T * (W.Z * W.T))))
    (ba : S.Y * E.X * (M * N) = l * (V.X * V.Y * (W.X * W.Y) + 4 * (V.Z * V.T * (W.Z * W.T))))
    (cy : S.Z * E.T * (M * N) = l * (V.Z * V.T * (W.X * W.Y) - V.X * V.Y * (W.Z * W.T)))
    (yc : S.T * E.Z * (M * N) = l * (V.Z * V.T * (W.X * W.Y) + V.X * V.Y * (W.Z * W.T)))
    (ab' : S'.X * E'.Y * (M' * N') = l' * (V'.X * V'.Y * (W'.X * W'.Y) - 4 * (V'.Z * V'.T * (W'.Z * W'.T))))
    (ba' : S'.Y * E'.X * (M' * N') = l' * (V'.X * V'.Y * (W'.X * W'.Y) + 4 * (V'.Z * V'.T * (W'.Z * W'.T))))
    (cy' : S'.Z * E'.T * (M' * N') = l' * (V'.Z * V'.T * (W'.X * W'.Y) - V'.X * V'.Y * (W'.Z * W'.T)))
    (yc' : S'.T * E'.Z * (M' * N') = l' * (V'.Z * V'.T * (W'.X * W'.Y) + V'.X * V'.Y * (W'.Z * W'.T))) (j : Fin 10)
    (hj : j = 4 ∨ j = 5) :
    wf j (gj D F S S') (gj D F E E') * wf j (gn D F) (gn D F) =
      l * l' / (M * M') ^ 2 * (wf j (gj D F V V') (gj D F V V') * wf j (gj D F W W') (gj D F W W')) := by
  have key : M * N * (M' * N') = (M * M') ^ 2 * D ^ 2 := by linear_combination -(M * M') * hD
  have n1 : M * N * (M' * N') ≠ 0 := mul_ne_zero (mul_ne_zero nM nN) (mul_ne_zero nM' nN')
  have n2 : M * M' ≠ 0 := mul_ne_zero nM nM'
  have p1 : S.X * E.Y * (S'.X * E'.Y) = l * l' * ((V.X * V.Y * (W.X * W.Y) - 4 * (V.Z * V.T * (W.Z * W.T))) *
      (V'.X * V'.Y * (W'.X * W'.Y) - 4 * (V'.Z * V'.T * (W'.Z * W'.T)))) / ((M * M') ^ 2 * D ^ 2) := by
    rw [← key, eq_div_iff n1]
    linear_combination (S'.X * E'.Y * (M' * N')) * ab +
      l * (V.X * V.Y * (W.X * W.Y) - 4 * (V.Z * V.T * (W.Z * W.T))) * ab'
  have p2 : S.Y * E.X * (S'.Y * E'.X) = l * l' * ((V.X * V.Y * (W.X * W.Y) + 4 * (V.Z * V.T * (W.Z * W.T))) *
      (V'.X * V'.Y * (W'.X * W'.Y) + 4 * (V'.Z * V'.T * (W'.Z * W'.T)))) / ((M * M') ^ 2 * D ^ 2) := by
    rw [← key, eq_div_iff n1]
    linear_combination (S'.Y * E'.X * (M' * N')) * ba +
      l * (V.X * V.Y * (W.X * W.Y) + 4 * (V.Z * V.T * (W.Z * W.T))) * ba'
  have p3 : S.Z * E.T * (S'.Z * E'.T) = l * l' * ((V.Z * V.T * (W.X * W.Y) - V.X * V.Y * (W.Z * W.T)) *
      (V'.Z * V'.T * (W'.X * W'.Y) - V'.X * V'.Y * (W'.Z * W'.T))) / ((M * M') ^ 2 * D ^ 2) := by
    rw [← key, eq_div_iff n1]
    linear_combination (S'.Z * E'.T * (M' * N')) * cy + l * (V.Z * V.T * (W.X * W.Y) - V.X * V.Y * (W.Z * W.T)) * cy'
  have p4 : S.T * E.Z * (S'.T * E'.Z) = l * l' * ((V.Z * V.T * (W.X * W.Y) + V.X * V.Y * (W.Z * W.T)) *
      (V'.Z * V'.T * (W'.X * W'.Y) + V'.X * V'.Y * (W'.Z * W'.T))) / ((M * M') ^ 2 * D ^ 2) := by
    rw [← key, eq_div_iff n1]
    linear_combination (S'.T * E'.Z * (M' * N')) * yc + l * (V.Z * V.T * (W.X * W.Y) + V.X * V.Y * (W.Z * W.T)) * yc'
  have s : ∀ ε : K, S.X * S'.X * (E.Y * E'.Y / D) + S.Y * S'.Y / D * (E.X * E'.X) +
      ε * (S.Z * S'.Z / F * (4 * F * E.T * E'.T / D) + 4 * F * S.T * S'.T / D * (E.Z * E'.Z / F)) =
      (S.X * E.Y * (S'.X * E'.Y) + S.Y * E.X * (S'.Y * E'.X)
        + 4 * ε * (S.Z * E.T * (S'.Z * E'.T) + S.T * E.Z * (S'.T * E'.Z))) / D := by
    intro ε; field_simp
  rcases hj with rfl | rfl
  · have := s 1
    simp only [wf, gj, gn]
    rw [one_mul] at this
    rw [this, p1, p2, p3, p4]
    field_simp
    ring
  · have := s (-1)
    simp only [wf, gj, gn]
    rw [neg_one_mul, ← sub_eq_add_neg] at this
    rw [this, p1, p2, p3, p4]
    field_simp
    ring

private theorem mixed6 (nM : M ≠ 0) (nN : N ≠ 0) (nM' : M' ≠ 0) (nN' : N' ≠ 0) (nm : 2 * m ≠ 0) (nm' : 2 * m' ≠ 0)
    (nD : D ≠ 0) (nF : F ≠ 0) (hD : D ^ 2 * (M * M') = N * N') (hF : F ^ 2 * (M * M') = 4 * (m * m'))
    (ac : S.X * E.Z * (2 * m * M * N ^ 2) = l * (N ^ 2 * (V.X * V.Z * (W.X * W.Z)) + 16 * m ^ 2 * (V.Y * V.T * (W.Y * W.T))))
    (ca : S.Z * E.X * (2 * m * M * N ^ 2) = l * (N ^ 2 * (V.X * V.Z * (W.X * W.Z)) - 16 * m ^ 2 * (V.Y * V.T * (W.Y * W.T))))
    (byy : S.Y * E.T * (2 * m * M) = l * (V.Y * V.T * (W.X * W.Z) - V.X * V.Z * (W.Y * W.T)))
    (yb : S.T * E.Y * (2 * m * M) = l * (V.Y * V.T * (W.X * W.Z) + V.X * V.Z * (W.Y * W.T)))
    (ac' : S'.X * E'.Z * (2 * m' * M' * N' ^ 2) = l' * (N' ^ 2 * (V'.X * V'.Z * (W'.X * W'.Z)) + 16 * m' ^ 2 * (V'.Y * V'.T * (W'.Y * W'.T))))
    (ca' : S'.Z * E'.X * (2 * m' * M' * N' ^ 2) = l' * (N' ^ 2 * (V'.X * V'.Z * (W'.X * W'.Z)) - 16 * m' ^ 2 * (V'.Y * V'.T * (W'.Y * W'.T))))
    (byy' : S'.Y * E'.T * (2 * m' * M') = l' * (V'.Y * V'.T * (W'.X * W'.Z) - V'.X * V'.Z * (W'.Y * W'.T)))
    (yb' : S'.T * E'.Y * (2 * m' * M') = l' * (V'.Y * V'.T * (W'.X * W'.Z) + V'.X * V'.Z * (W'.Y * W'.T))) (j : Fin 10)
    (hj : j = 6 ∨ j = 7) :
    wf j (gj D F S S') (gj D F E E') * wf j (gn D F) (gn D F) =
      l * l' / (M * M') ^ 2 * (wf j (gj D F V V') (gj D F V V') * wf j (gj D F W W') (gj D F W W')) := by
  have n2 : M * M' ≠ 0 := mul_ne_zero nM nM'
  -- `f = 4 m m' / (N N')`
  have key : 2 * m * M * (2 * m' * M') = (M * M') ^ 2 * F ^ 2 := by linear_combination -(M * M') * hF
  have n1 : 2 * m * M * (2 * m' * M') ≠ 0 := mul_ne_zero (mul_ne_zero nm nM) (mul_ne_zero nm' nM')
  have nNN : (N * N') ^ 2 ≠ 0 := pow_ne_zero 2 (mul_ne_zero nN nN')
  have hf : 4 * (m * m') / (N * N') = F ^ 2 / D ^ 2 := by
    rw [div_eq_div_iff (mul_ne_zero nN nN') (pow_ne_zero 2 nD)]
    linear_combination -D ^ 2 * hF + F ^ 2 * hD
  have div_N : ∀ u v u' v' : K, (N ^ 2 * u + 16 * m ^ 2 * v) * (N' ^ 2 * u' + 16 * m' ^ 2 * v') / (N * N') ^ 2 +
      (N ^ 2 * u - 16 * m ^ 2 * v) * (N' ^ 2 * u' - 16 * m' ^ 2 * v') / (N * N') ^ 2 =
      2 * (u * u' + 16 * (F ^ 2 / D ^ 2) ^ 2 * (v * v')) := by
    intro u v u' v'
    rw [← hf]; field_simp; ring
  have p1 : S.X * E.Z * (S'.X * E'.Z) = l * l' * ((N ^ 2 * (V.X * V.Z * (W.X * W.Z)) + 16 * m ^ 2 * (V.Y * V.T * (W.Y * W.T))) *
      (N' ^ 2 * (V'.X * V'.Z * (W'.X * W'.Z)) + 16 * m' ^ 2 * (V'.Y * V'.T * (W'.Y * W'.T))) / (N * N') ^ 2) / ((M * M') ^ 2 * F ^ 2) := by
    rw [← key, eq_div_iff n1, mul_div_assoc', eq_div_iff nNN]
    linear_combination (S'.X * E'.Z * (2 * m' * M' * N' ^ 2)) * ac +
      l * (N ^ 2 * (V.X * V.Z * (W.X * W.Z)) + 16 * m ^ 2 * (V.Y * V.T * (W.Y * W.T))) * ac'
  have p2 : S.Z * E.X * (S'.Z * E'.X) = l * l' * ((N ^ 2 * (V.X * V.Z * (W.X * W.Z)) - 16 * m ^ 2 * (V.Y * V.T * (W.Y * W.T))) *
      (N' ^ 2 * (V'.X * V'.Z * (W'.X * W'.Z)) - 16 * m' ^ 2 * (V'.Y * V'.T * (W'.Y * W'.T))) / (N * N') ^ 2) / ((M * M') ^ 2 * F ^ 2) := by
    rw [← key, eq_div_iff n1, mul_div_assoc', eq_div_iff nNN]
    linear_combination (S'.Z * E'.X * (2 * m' * M' * N' ^ 2)) * ca +
      l * (N ^ 2 * (V.X * V.Z * (W.X * W.Z)) - 16 * m ^ 2 * (V.Y * V.T * (W.Y * W.T))) * ca'
  have p12 : S.X * E.Z * (S'.X * E'.Z) + S.Z * E.X * (S'.Z * E'.X) = l * l' * (2 * (V.X * V.Z * (W.X * W.Z) * (V'.X * V'.Z * (W'.X * W'.Z))
      + 16 * (F ^ 2 / D ^ 2) ^ 2 * (V.Y * V.T * (W.Y * W.T) * (V'.Y * V'.T * (W'.Y * W'.T))))) / ((M * M') ^ 2 * F ^ 2) := by
    rw [← div_N, p1, p2]; ring
  have p3 : S.Y * E.T * (S'.Y * E'.T) = l * l' * ((V.Y * V.T * (W.X * W.Z) - V.X * V.Z * (W.Y * W.T)) *
      (V'.Y * V'.T * (W'.X * W'.Z) - V'.X * V'.Z * (W'.Y * W'.T))) / ((M * M') ^ 2 * F ^ 2) := by
    rw [← key, eq_div_iff n1]
    linear_combination (S'.Y * E'.T * (2 * m' * M')) * byy + l * (V.Y * V.T * (W.X * W.Z) - V.X * V.Z * (W.Y * W.T)) * byy'
  have p4 : S.T * E.Y * (S'.T * E'.Y) = l * l' * ((V.Y * V.T * (W.X * W.Z) + V.X * V.Z * (W.Y * W.T)) *
      (V'.Y * V'.T * (W'.X * W'.Z) + V'.X * V'.Z * (W'.Y * W'.T))) / ((M * M') ^ 2 * F ^ 2) := by
    rw [← key, eq_div_iff n1]
    linear_combination (S'.T * E'.Y * (2 * m' * M')) * yb + l * (V.Y * V.T * (W.X * W.Z) + V.X * V.Z * (W.Y * W.T)) * yb'
  have s : ∀ ε : K, S.X * S'.X * (E.Z * E'.Z / F) + S.Z * S'.Z / F * (E.X * E'.X) +
      ε * (S.Y * S'.Y / D * (4 * F * E.T * E'.T / D) + 4 * F * S.T * S'.T / D * (E.Y * E'.Y / D)) =
      (S.X * E.Z * (S'.X * E'.Z) + S.Z * E.X * (S'.Z * E'.X)) / F
        + 4 * ε * F / D ^ 2 * (S.Y * E.T * (S'.Y * E'.T) + S.T * E.Y * (S'.T * E'.Y)) := by
    intro ε; field_simp
  rcases hj with rfl | rfl
  · have := s 1
    simp only [wf, gj, gn]
    rw [one_mul] at this
    rw [this, p12, p3, p4]
    field_simp
    ring
  · have := s (-1)
    simp only [wf, gj, gn]
    rw [neg_one_mul, ← sub_eq_add_neg] at this
    rw [this, p12, p3, p4]
    field_simp
    ring

private theorem mixed8 (nM : M ≠ 0) (nN : N ≠ 0) (nM' : M' ≠ 0) (nN' : N' ≠ 0) (nm : 2 * m ≠ 0) (nm' : 2 * m' ≠ 0)
    (nD : D ≠ 0) (nF : F ≠ 0) (hD : D ^ 2 * (M * M') = N * N') (hF : F ^ 2 * (M * M') = 4 * (m * m'))
    (bc : S.Y * E.Z * (2 * m * N * M ^ 2) = l * (M ^ 2 * (V.Y * V.Z * (W.Y * W.Z)) + 16 * m ^ 2 * (V.X * V.T * (W.X * W.T))))
    (cb : S.Z * E.Y * (2 * m * N * M ^ 2) = l * (M ^ 2 * (V.Y * V.Z * (W.Y * W.Z)) - 16 * m ^ 2 * (V.X * V.T * (W.X * W.T))))
    (ay : S.X * E.T * (2 * m * N) = l * (V.X * V.T * (W.Y * W.Z) - V.Y * V.Z * (W.X * W.T)))
    (ya : S.T * E.X * (2 * m * N) = l * (V.X * V.T * (W.Y * W.Z) + V.Y * V.Z * (W.X * W.T)))
    (bc' : S'.Y * E'.Z * (2 * m' * N' * M' ^ 2) = l' * (M' ^ 2 * (V'.Y * V'.Z * (W'.Y * W'.Z)) + 16 * m' ^ 2 * (V'.X * V'.T * (W'.X * W'.T))))
    (cb' : S'.Z * E'.Y * (2 * m' * N' * M' ^ 2) = l' * (M' ^ 2 * (V'.Y * V'.Z * (W'.Y * W'.Z)) - 16 * m' ^ 2 * (V'.X * V'.T * (W'.X * W'.T))))
    (ay' : S'.X * E'.T * (2 * m' * N') = l' * (V'.X * V'.T * (W'.Y * W'.Z) - V'.Y * V'.Z * (W'.X * W'.T)))
    (ya' : S'.T * E'.X * (2 * m' * N') = l' * (V'.X * V'.T * (W'.Y * W'.Z) + V'.Y * V'.Z * (W'.X * W'.T))) (j : Fin 10)
    (hj : j = 8 ∨ j = 9) :
    wf j (gj D F S S') (gj D F E E') * wf j (gn D F) (gn D F) =
      l * l' / (M * M') ^ 2 * (wf j (gj D F V V') (gj D F V V') * wf j (gj D F W W') (gj D F W W')) := by
  have n2 : M * M' ≠ 0 := mul_ne_zero nM nM'
  have key : 2 * m * N * (2 * m' * N') = (M * M') ^ 2 * (F ^ 2 * D ^ 2) := by
    linear_combination -(N * N') * hF - (F ^ 2 * (M * M')) * hD
  have n1 : 2 * m * N * (2 * m' * N') ≠ 0 := mul_ne_zero (mul_ne_zero nm nN) (mul_ne_zero nm' nN')
  have nMM : (M * M') ^ 2 ≠ 0 := pow_ne_zero 2 n2
  have hf : 4 * (m * m') / (M * M') = F ^ 2 := by
    rw [div_eq_iff n2, hF]
  have div_N : ∀ u v u' v' : K, (M ^ 2 * u + 16 * m ^ 2 * v) * (M' ^ 2 * u' + 16 * m' ^ 2 * v') / (M * M') ^ 2 +
      (M ^ 2 * u - 16 * m ^ 2 * v) * (M' ^ 2 * u' - 16 * m' ^ 2 * v') / (M * M') ^ 2 =
      2 * (u * u' + 16 * (F ^ 2) ^ 2 * (v * v')) := by
    intro u v u' v'
    rw [← hf]; field_simp; ring
  have p1 : S.Y * E.Z * (S'.Y * E'.Z) = l * l' * ((M ^ 2 * (V.Y * V.Z * (W.Y * W.Z)) + 16 * m ^ 2 * (V.X * V.T * (W.X * W.T))) *
      (M' ^ 2 * (V'.Y * V'.Z * (W'.Y * W'.Z)) + 16 * m' ^ 2 * (V'.X * V'.T * (W'.X * W'.T))) / (M * M') ^ 2) / ((M * M') ^ 2 * (F ^ 2 * D ^ 2)) := by
    rw [← key, eq_div_iff n1, mul_div_assoc', eq_div_iff nMM]
    linear_combination (S'.Y * E'.Z * (2 * m' * N' * M' ^ 2)) * bc +
      l * (M ^ 2 * (V.Y * V.Z * (W.Y * W.Z)) + 16 * m ^ 2 * (V.X * V.T * (W.X * W.T))) * bc'
  have p2 : S.Z * E.Y * (S'.Z * E'.Y) = l * l' * ((M ^ 2 * (V.Y * V.Z * (W.Y * W.Z)) - 16 * m ^ 2 * (V.X * V.T * (W.X * W.T))) *
      (M' ^ 2 * (V'.Y * V'.Z * (W'.Y * W'.Z)) - 16 * m' ^ 2 * (V'.X * V'.T * (W'.X * W'.T))) / (M * M') ^ 2) / ((M * M') ^ 2 * (F ^ 2 * D ^ 2)) := by
    rw [← key, eq_div_iff n1, mul_div_assoc', eq_div_iff nMM]
    linear_combination (S'.Z * E'.Y * (2 * m' * N' * M' ^ 2)) * cb +
      l * (M ^ 2 * (V.Y * V.Z * (W.Y * W.Z)) - 16 * m ^ 2 * (V.X * V.T * (W.X * W.T))) * cb'
  have p12 : S.Y * E.Z * (S'.Y * E'.Z) + S.Z * E.Y * (S'.Z * E'.Y) = l * l' * (2 * (V.Y * V.Z * (W.Y * W.Z) * (V'.Y * V'.Z * (W'.Y * W'.Z))
      + 16 * (F ^ 2) ^ 2 * (V.X * V.T * (W.X * W.T) * (V'.X * V'.T * (W'.X * W'.T))))) / ((M * M') ^ 2 * (F ^ 2 * D ^ 2)) := by
    rw [← div_N, p1, p2]; ring
  have p3 : S.X * E.T * (S'.X * E'.T) = l * l' * ((V.X * V.T * (W.Y * W.Z) - V.Y * V.Z * (W.X * W.T)) *
      (V'.X * V'.T * (W'.Y * W'.Z) - V'.Y * V'.Z * (W'.X * W'.T))) / ((M * M') ^ 2 * (F ^ 2 * D ^ 2)) := by
    rw [← key, eq_div_iff n1]
    linear_combination (S'.X * E'.T * (2 * m' * N')) * ay + l * (V.X * V.T * (W.Y * W.Z) - V.Y * V.Z * (W.X * W.T)) * ay'
  have p4 : S.T * E.X * (S'.T * E'.X) = l * l' * ((V.X * V.T * (W.Y * W.Z) + V.Y * V.Z * (W.X * W.T)) *
      (V'.X * V'.T * (W'.Y * W'.Z) + V'.Y * V'.Z * (W'.X * W'.T))) / ((M * M') ^ 2 * (F ^ 2 * D ^ 2)) := by
    rw [← key, eq_div_iff n1]
    linear_combination (S'.T * E'.X * (2 * m' * N')) * ya + l * (V.X * V.T * (W.Y * W.Z) + V.Y * V.Z * (W.X * W.T)) * ya'
  have s : ∀ ε : K, S.X * S'.X * (4 * F * E.T * E'.T / D) + 4 * F * S.T * S'.T / D * (E.X * E'.X) +
      ε * (S.Y * S'.Y / D * (E.Z * E'.Z / F) + S.Z * S'.Z / F * (E.Y * E'.Y / D)) =
      4 * F / D * (S.X * E.T * (S'.X * E'.T) + S.T * E.X * (S'.T * E'.X)) +
      ε * ((S.Y * E.Z * (S'.Y * E'.Z) + S.Z * E.Y * (S'.Z * E'.Y)) / (D * F)) := by
    intro ε; field_simp
  rcases hj with rfl | rfl
  · have := s 1
    simp only [wf, gj, gn]
    rw [one_mul] at this
    rw [this, p12, p3, p4]
    field_simp
    ring
  · have := s (-1)
    simp only [wf, gj, gn]
    rw [neg_one_mul, ← sub_eq_add_neg] at this
    rw [this, p12, p3, p4]
    field_simp
    ring

private theorem diag_ring (a b a1 b1 a' b' a1' b1' ε1 ε2 : K) (h1 : ε1 ^ 2 = 1) (h2 : ε2 ^ 2 = 1)
    (hM : M = 1 + m ^ 2) (hN : N = 1 - m ^ 2) (hM' : M' = 1 + m' ^ 2) (hN' : N' = 1 - m' ^ 2) :
    ((M * (a * a1 + b * b1) - N * (a * b1 + b * a1)) * (M' * (a' * a1' + b' * b1') - N' * (a' * b1' + b' * a1'))
      + ε1 * ((M * (a * b1 + b * a1) - N * (a * a1 + b * b1)) * (M' * (a' * b1' + b' * a1') - N' * (a' * a1' + b' * b1')))
      + 4 * (m * m') * (ε2 * ((a * a1 - b * b1) * (a' * a1' - b' * b1')) + ε1 * ε2 * ((b * a1 - a * b1) * (b' * a1' - a' * b1'))))
      * (M * M' + ε1 * (N * N') + ε2 * (4 * (m * m'))) =
    (4 * (m * m') * (a * a' + ε1 * (b * b')) + ε2 * ((M * a - N * b) * (M' * a' - N' * b')) + ε1 * ε2 * ((M * b - N * a) * (M' * b' - N' * a')))
    * (4 * (m * m') * (a1 * a1' + ε1 * (b1 * b1')) + ε2 * ((M * a1 - N * b1) * (M' * a1' - N' * b1')) + ε1 * ε2 * ((M * b1 - N * a1) * (M' * b1' - N' * a1'))) := by
  have e : ∀ {ε : K}, ε ^ 2 = 1 → ε = 1 ∨ ε = -1 := fun h => mul_self_eq_one_iff.mp (by rw [← pow_two, h])
  subst hM hN hM' hN'
  rcases e h1 with rfl | rfl <;> rcases e h2 with rfl | rfl <;> ring

/-- Coordinates of a point of the curve. -/
structure JV (m : K) (V : ThPt K) : Prop where
  c : V.Z ^ 2 = V.X ^ 2 - V.Y ^ 2
  y : 16 * m ^ 2 * V.T ^ 2 = (1 + m ^ 2) ^ 2 * V.Y ^ 2 - (1 - m ^ 2) ^ 2 * V.X ^ 2

theorem jv_jv {u0 u1 Y : K} (hY : OnC m u0 u1 Y) : JV m (jv u0 u1 Y) := by
  rw [OnC] at hY
  constructor <;> simp only [jv]
  · ring
  · linear_combination 4 * hY

/-- **Gluing carries sums to sums**, in dual coordinates. -/
theorem riem_gj (h : GOK m m' D F) (hV : JV m V) (hW : JV m W) (hV' : JV m' V') (hW' : JV m' W')
    (a : JacAdd m l V W S E) (a' : JacAdd m' l' V' W' S' E') :
    Riem (gn D F) (gj D F V V') (gj D F W W') (gj D F S S') (gj D F E E') := by
  obtain ⟨M, hM⟩ : ∃ M, M = 1 + m ^ 2 := ⟨_, rfl⟩
  obtain ⟨N, hN⟩ : ∃ N, N = 1 - m ^ 2 := ⟨_, rfl⟩
  obtain ⟨M', hM'⟩ : ∃ M, M = 1 + m' ^ 2 := ⟨_, rfl⟩
  obtain ⟨N', hN'⟩ : ∃ N, N = 1 - m' ^ 2 := ⟨_, rfl⟩
  obtain ⟨h2, nm, nm', nM, nN, nM', nN', nD, nF, hD, hF⟩ := h
  obtain ⟨nl, aa, bb, cc, yy, ab, ba, ac, ca, bc, cb, ay, ya, yb, byy, cy, yc⟩ := a
  obtain ⟨nl', aa', bb', cc', yy', ab', ba', ac', ca', bc', cb', ay', ya', yb', byy', cy', yc'⟩ := a'
  obtain ⟨vc, vy⟩ := hV
  obtain ⟨wc, wy⟩ := hW
  obtain ⟨vc', vy'⟩ := hV'
  obtain ⟨wc', wy'⟩ := hW'
  simp only [← hM, ← hN, ← hM', ← hN'] at nM nN nM' nN' hD hF aa bb cc ab ba ac ca bc cb ay ya yb byy cy yc aa' bb' cc' ab' ba' ac' ca' bc' cb' ay' ya' yb' byy' cy' yc' vy wy vy' wy'
  have nMM := mul_ne_zero nM nM'
  rw [eq_div_iff nMM] at hD hF
  have k2 := mul_ne_zero h2 nm
  have k2' := mul_ne_zero h2 nm'
  refine ⟨l * l' / (M * M') ^ 2, div_ne_zero (mul_ne_zero nl nl') (pow_ne_zero 2 nMM), ?_⟩
  have j4 := mixed4 nM nN nM' nN' nD nF hD ab ba cy yc ab' ba' cy' yc'
  have j6 := mixed6 nM nN nM' nN' k2 k2' nD nF hD hF ac ca byy yb ac' ca' byy' yb'
  have j8 := mixed8 nM nN nM' nN' k2 k2' nD nF hD hF bc cb ay ya bc' cb' ay' ya'
  have diag : ∀ ε1 ε2 : K, ε1 ^ 2 = 1 → ε2 ^ 2 = 1 →
      (S.X * S'.X * (E.X * E'.X) + ε1 * (S.Y * S'.Y / D * (E.Y * E'.Y / D)) + ε2 * (S.Z * S'.Z / F * (E.Z * E'.Z / F))
        + ε1 * ε2 * (4 * F * S.T * S'.T / D * (4 * F * E.T * E'.T / D))) * (1 + ε1 * D ^ 2 + ε2 * F ^ 2) =
      l * l' / (M * M') ^ 2 * ((V.X * V'.X * (V.X * V'.X) + ε1 * (V.Y * V'.Y / D * (V.Y * V'.Y / D))
        + ε2 * (V.Z * V'.Z / F * (V.Z * V'.Z / F)) + ε1 * ε2 * (4 * F * V.T * V'.T / D * (4 * F * V.T * V'.T / D)))
      * (W.X * W'.X * (W.X * W'.X) + ε1 * (W.Y * W'.Y / D * (W.Y * W'.Y / D))
        + ε2 * (W.Z * W'.Z / F * (W.Z * W'.Z / F)) + ε1 * ε2 * (4 * F * W.T * W'.T / D * (4 * F * W.T * W'.T / D)))) := by
    intro ε1 ε2 h1 h2'
    have n4 := four_ne h2
    have n16 : (16 : K) ≠ 0 := by rw [show (16 : K) = 4 * 4 by norm_num]; exact mul_ne_zero n4 n4
    have sq : ∀ x k : K, k ≠ 0 → ∃ a, x ^ 2 = k * a := fun x k hk => ⟨x ^ 2 / k, by rw [mul_div_cancel₀ _ hk]⟩
    obtain ⟨a, ha⟩ := sq V.X M nM
    obtain ⟨b, hb⟩ := sq V.Y N nN
    obtain ⟨a1, ha1⟩ := sq W.X M nM
    obtain ⟨b1, hb1⟩ := sq W.Y N nN
    obtain ⟨a', ha'⟩ := sq V'.X M' nM'
    obtain ⟨b', hb'⟩ := sq V'.Y N' nN'
    obtain ⟨a1', ha1'⟩ := sq W'.X M' nM'
    obtain ⟨b1', hb1'⟩ := sq W'.Y N' nN'
    have hd := diag_ring (m := m) (m' := m') a b a1 b1 a' b' a1' b1' ε1 ε2 h1 h2' hM hN hM' hN'
    -- the squares of one point
    have vv : ∀ {V V' : ThPt K} {a b a' b' : K}, V.X ^ 2 = M * a → V.Y ^ 2 = N * b → V'.X ^ 2 = M' * a' → V'.Y ^ 2 = N' * b' →
        V.Z ^ 2 = V.X ^ 2 - V.Y ^ 2 → V'.Z ^ 2 = V'.X ^ 2 - V'.Y ^ 2 →
        16 * m ^ 2 * V.T ^ 2 = M ^ 2 * V.Y ^ 2 - N ^ 2 * V.X ^ 2 → 16 * m' ^ 2 * V'.T ^ 2 = M' ^ 2 * V'.Y ^ 2 - N' ^ 2 * V'.X ^ 2 →
        V.X * V'.X * (V.X * V'.X) + ε1 * (V.Y * V'.Y / D * (V.Y * V'.Y / D))
          + ε2 * (V.Z * V'.Z / F * (V.Z * V'.Z / F)) + ε1 * ε2 * (4 * F * V.T * V'.T / D * (4 * F * V.T * V'.T / D)) =
        M * M' / (4 * (m * m')) * (4 * (m * m') * (a * a' + ε1 * (b * b')) + ε2 * ((M * a - N * b) * (M' * a' - N' * b'))
          + ε1 * ε2 * ((M * b - N * a) * (M' * b' - N' * a'))) := by
      intro V V' a b a' b' e1 e2 e3 e4 e5 e6 e7 e8
      rw [e1, e2] at e5 e7
      rw [e3, e4] at e6 e8
      have t1 : V.X * V'.X * (V.X * V'.X) = M * M' * (a * a') := by
        linear_combination V'.X ^ 2 * e1 + M * a * e3
      have t2 : V.Y * V'.Y / D * (V.Y * V'.Y / D) = M * M' * (b * b') := by
        rw [div_mul_div_comm, div_eq_iff (mul_ne_zero nD nD)]
        linear_combination V'.Y ^ 2 * e2 + N * b * e4 - b * b' * hD
      have t3 : V.Z * V'.Z / F * (V.Z * V'.Z / F) = M * M' / (4 * (m * m')) * ((M * a - N * b) * (M' * a' - N' * b')) := by
        rw [div_mul_div_comm, div_mul_eq_mul_div, div_eq_div_iff (mul_ne_zero nF nF) (mul_ne_zero n4 (mul_ne_zero nm nm'))]
        linear_combination (4 * (m * m')) * (V'.Z ^ 2 * e5 + (M * a - N * b) * e6) - ((M * a - N * b) * (M' * a' - N' * b')) * hF
      have t4 : 4 * F * V.T * V'.T / D * (4 * F * V.T * V'.T / D) =
          M * M' / (4 * (m * m')) * ((M * b - N * a) * (M' * b' - N' * a')) := by
        rw [div_mul_div_comm, div_mul_eq_mul_div, div_eq_div_iff (mul_ne_zero nD nD) (mul_ne_zero n4 (mul_ne_zero nm nm'))]
        apply mul_left_cancel₀ (mul_ne_zero n4 (mul_ne_zero nm nm'))
        apply mul_left_cancel₀ nMM
        linear_combination (F ^ 2 * (M * M')) * (16 * m' ^ 2 * V'.T ^ 2 * e7 + (M ^ 2 * (N * b) - N ^ 2 * (M * a)) * e8)
          + (M * M') * (N * N') * ((M * b - N * a) * (M' * b' - N' * a')) * hF
          - (4 * (m * m') * (M * M')) * ((M * b - N * a) * (M' * b' - N' * a')) * hD
      rw [t1, t2, t3, t4]
      field_simp
    have sd : S.X * S'.X * (E.X * E'.X) + ε1 * (S.Y * S'.Y / D * (E.Y * E'.Y / D)) + ε2 * (S.Z * S'.Z / F * (E.Z * E'.Z / F))
        + ε1 * ε2 * (4 * F * S.T * S'.T / D * (4 * F * E.T * E'.T / D)) = l * l' * (M * M') / (16 * (m * m') ^ 2) *
        ((M * (a * a1 + b * b1) - N * (a * b1 + b * a1)) * (M' * (a' * a1' + b' * b1') - N' * (a' * b1' + b' * a1'))
      + ε1 * ((M * (a * b1 + b * a1) - N * (a * a1 + b * b1)) * (M' * (a' * b1' + b' * a1') - N' * (a' * a1' + b' * b1')))
      + 4 * (m * m') * (ε2 * ((a * a1 - b * b1) * (a' * a1' - b' * b1')) + ε1 * ε2 * ((b * a1 - a * b1) * (b' * a1' - a' * b1')))) := by
      rw [ha, hb, ha1, hb1] at aa bb cc yy
      rw [ha', hb', ha1', hb1'] at aa' bb' cc' yy'
      have nN2 := pow_ne_zero 2 nN
      have nN2' := pow_ne_zero 2 nN'
      have nM2 := pow_ne_zero 2 nM
      have nM2' := pow_ne_zero 2 nM'
      have u1 : S.X * E.X * (4 * m ^ 2) = l * M * (M * (a * a1 + b * b1) - N * (a * b1 + b * a1)) := by
        apply mul_left_cancel₀ nN2; linear_combination aa
      have u1' : S'.X * E'.X * (4 * m' ^ 2) = l' * M' * (M' * (a' * a1' + b' * b1') - N' * (a' * b1' + b' * a1')) := by
        apply mul_left_cancel₀ nN2'; linear_combination aa'
      have u2 : S.Y * E.Y * (4 * m ^ 2) = l * N * (M * (a * b1 + b * a1) - N * (a * a1 + b * b1)) := by
        apply mul_left_cancel₀ nM2; linear_combination bb
      have u2' : S'.Y * E'.Y * (4 * m' ^ 2) = l' * N' * (M' * (a' * b1' + b' * a1') - N' * (a' * a1' + b' * b1')) := by
        apply mul_left_cancel₀ nM2'; linear_combination bb'
      have u3 : S.Z * E.Z = l * (a * a1 - b * b1) := by
        apply mul_left_cancel₀ (mul_ne_zero nM2 nN2); linear_combination cc
      have u3' : S'.Z * E'.Z = l' * (a' * a1' - b' * b1') := by
        apply mul_left_cancel₀ (mul_ne_zero nM2' nN2'); linear_combination cc'
      have u4 : S.T * E.T * (16 * m ^ 2) = l * (M * N) * (b * a1 - a * b1) := by linear_combination yy
      have u4' : S'.T * E'.T * (16 * m' ^ 2) = l' * (M' * N') * (b' * a1' - a' * b1') := by linear_combination yy'
      generalize M * (a * a1 + b * b1) - N * (a * b1 + b * a1) = P at *
      generalize M' * (a' * a1' + b' * b1') - N' * (a' * b1' + b' * a1') = P' at *
      generalize M * (a * b1 + b * a1) - N * (a * a1 + b * b1) = Q at *
      generalize M' * (a' * b1' + b' * a1') - N' * (a' * a1' + b' * b1') = Q' at *
      generalize a * a1 - b * b1 = R at *
      generalize a' * a1' - b' * b1' = R' at *
      generalize b * a1 - a * b1 = T at *
      generalize b' * a1' - a' * b1' = T' at *
      have nmm : 16 * (m * m') ^ 2 ≠ 0 := mul_ne_zero n16 (pow_ne_zero 2 (mul_ne_zero nm nm'))
      have t1 : S.X * S'.X * (E.X * E'.X) = l * l' * (M * M') / (16 * (m * m') ^ 2) * (P * P') := by
        rw [div_mul_eq_mul_div, eq_div_iff nmm]
        linear_combination (S'.X * E'.X * (4 * m' ^ 2)) * u1 + l * M * P * u1'
      have t2 : S.Y * S'.Y / D * (E.Y * E'.Y / D) = l * l' * (M * M') / (16 * (m * m') ^ 2) * (Q * Q') := by
        rw [div_mul_div_comm, div_mul_eq_mul_div, div_eq_div_iff (mul_ne_zero nD nD) nmm]
        linear_combination (S'.Y * E'.Y * (4 * m' ^ 2)) * u2 + l * N * Q * u2' - l * l' * (Q * Q') * hD
      have t3 : S.Z * S'.Z / F * (E.Z * E'.Z / F) = l * l' * (M * M') / (16 * (m * m') ^ 2) * (4 * (m * m') * (R * R')) := by
        rw [div_mul_div_comm, div_mul_eq_mul_div, div_eq_div_iff (mul_ne_zero nF nF) nmm]
        linear_combination (16 * (m * m') ^ 2) * (S'.Z * E'.Z * u3 + l * R * u3') - l * l' * (4 * (m * m') * (R * R')) * hF
      have t4 : 4 * F * S.T * S'.T / D * (4 * F * E.T * E'.T / D) =
          l * l' * (M * M') / (16 * (m * m') ^ 2) * (4 * (m * m') * (T * T')) := by
        rw [div_mul_div_comm, div_mul_eq_mul_div, div_eq_div_iff (mul_ne_zero nD nD) nmm]
        apply mul_left_cancel₀ nMM
        linear_combination (F ^ 2 * (M * M')) * (S'.T * E'.T * (16 * m' ^ 2) * u4 + l * (M * N) * T * u4')
          + l * l' * (M * M') * (N * N') * (T * T') * hF - l * l' * (M * M') * (4 * (m * m')) * (T * T') * hD
      rw [t1, t2, t3, t4]
      ring
    have kk : 1 + ε1 * D ^ 2 + ε2 * F ^ 2 = (M * M' + ε1 * (N * N') + ε2 * (4 * (m * m'))) / (M * M') := by
      rw [eq_div_iff nMM]; linear_combination ε1 * hD + ε2 * hF
    rw [vv ha hb ha' hb' vc vc' vy vy', vv ha1 hb1 ha1' hb1' wc wc' wy wy', sd, kk]
    have : l * l' * (M * M') / (16 * (m * m') ^ 2) *
        ((M * (a * a1 + b * b1) - N * (a * b1 + b * a1)) * (M' * (a' * a1' + b' * b1') - N' * (a' * b1' + b' * a1'))
      + ε1 * ((M * (a * b1 + b * a1) - N * (a * a1 + b * b1)) * (M' * (a' * b1' + b' * a1') - N' * (a' * a1' + b' * b1')))
      + 4 * (m * m') * (ε2 * ((a * a1 - b * b1) * (a' * a1' - b' * b1')) + ε1 * ε2 * ((b * a1 - a * b1) * (b' * a1' - a' * b1'))))
      * ((M * M' + ε1 * (N * N') + ε2 * (4 * (m * m'))) / (M * M')) = l * l' / (16 * (m * m') ^ 2) * (
        ((M * (a * a1 + b * b1) - N * (a * b1 + b * a1)) * (M' * (a' * a1' + b' * b1') - N' * (a' * b1' + b' * a1'))
      + ε1 * ((M * (a * b1 + b * a1) - N * (a * a1 + b * b1)) * (M' * (a' * b1' + b' * a1') - N' * (a' * a1' + b' * b1')))
      + 4 * (m * m') * (ε2 * ((a * a1 - b * b1) * (a' * a1' - b' * b1')) + ε1 * ε2 * ((b * a1 - a * b1) * (b' * a1' - a' * b1'))))
      * (M * M' + ε1 * (N * N') + ε2 * (4 * (m * m')))) := by
      generalize ((M * (a * a1 + b * b1) - N * (a * b1 + b * a1)) * (M' * (a' * a1' + b' * b1') - N' * (a' * b1' + b' * a1'))
      + ε1 * ((M * (a * b1 + b * a1) - N * (a * a1 + b * b1)) * (M' * (a' * b1' + b' * a1') - N' * (a' * a1' + b' * b1')))
      + 4 * (m * m') * (ε2 * ((a * a1 - b * b1) * (a' * a1' - b' * b1')) + ε1 * ε2 * ((b * a1 - a * b1) * (b' * a1' - a' * b1')))) = Z
      generalize (M * M' + ε1 * (N * N') + ε2 * (4 * (m * m'))) = Z'
      field_simp
    rw [this, hd]
    generalize (4 * (m * m') * (a * a' + ε1 * (b * b')) + ε2 * ((M * a - N * b) * (M' * a' - N' * b'))
          + ε1 * ε2 * ((M * b - N * a) * (M' * b' - N' * a'))) = Z
    generalize (4 * (m * m') * (a1 * a1' + ε1 * (b1 * b1')) + ε2 * ((M * a1 - N * b1) * (M' * a1' - N' * b1'))
          + ε1 * ε2 * ((M * b1 - N * a1) * (M' * b1' - N' * a1'))) = Z'
    have n16' : (16 : K) = 4 * 4 := by norm_num
    rw [n16']
    field_simp
  intro j
  fin_cases j
  · have := diag 1 1 (one_pow 2) (one_pow 2)
    simp only [wf, gj, gn] at this ⊢; linear_combination this
  · have := diag (-1) 1 (by ring) (one_pow 2)
    simp only [wf, gj, gn] at this ⊢; linear_combination this
  · have := diag 1 (-1) (one_pow 2) (by ring)
    simp only [wf, gj, gn] at this ⊢; linear_combination this
  · have := diag (-1) (-1) (by ring) (by ring)
    simp only [wf, gj, gn] at this ⊢; linear_combination this
  · exact j4 4 (.inl rfl)
  · exact j4 5 (.inr rfl)
  · exact j6 6 (.inl rfl)
  · exact j6 7 (.inr rfl)
  · exact j8 8 (.inl rfl)
  · exact j8 9 (.inr rfl)

end
end Festa
