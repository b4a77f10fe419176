import Verif.Lemmas.ThetaSigns
import Verif.Lemmas.RankOne
import Verif.Lemmas.ChainDeg
/-! Linear forms on a curve on a Kummer surface: a form that kills almost all points kills all of them. -/
namespace Festa
open WeierstrassCurve.Affine Polynomial Filter
variable {L : Type*} [Field L]

/-- Products of two linear forms are combinations of the ten forms. -/
theorem exists_coeff (h2 : (2 : L) ≠ 0) (u v : ThPt L) : ∃ c : Fin 10 → L, ∀ S D : ThPt L,
    wf 0 u S * wf 0 v D + wf 0 u D * wf 0 v S = ∑ j, c j * wf j S D := by
  have n4 := four_ne h2
  refine ⟨![(u.X * v.X + u.Y * v.Y + u.Z * v.Z + u.T * v.T) / 2, (u.X * v.X - u.Y * v.Y + u.Z * v.Z - u.T * v.T) / 2,
    (u.X * v.X + u.Y * v.Y - u.Z * v.Z - u.T * v.T) / 2, (u.X * v.X - u.Y * v.Y - u.Z * v.Z + u.T * v.T) / 2,
    (u.X * v.Y + u.Y * v.X + (u.Z * v.T + u.T * v.Z)) / 2, (u.X * v.Y + u.Y * v.X - (u.Z * v.T + u.T * v.Z)) / 2,
    (u.X * v.Z + u.Z * v.X + (u.Y * v.T + u.T * v.Y)) / 2, (u.X * v.Z + u.Z * v.X - (u.Y * v.T + u.T * v.Y)) / 2,
    (u.X * v.T + u.T * v.X + (u.Y * v.Z + u.Z * v.Y)) / 2, (u.X * v.T + u.T * v.X - (u.Y * v.Z + u.Z * v.Y)) / 2], fun S D => ?_⟩
  simp only [Fin.sum_univ_succ, Fin.sum_univ_zero, Matrix.cons_val_zero, Matrix.cons_val_succ]
  simp only [wf, Fin.succ]
  field_simp
  ring

theorem exists_wf_poly (v : ThPt L[X]) (j : Fin 10) : ∃ P : L[X], ∀ x, P.eval x = wf j (v.ev x) (v.ev x) := by
  fin_cases j
  · exact ⟨v.X * v.X + v.Y * v.Y + v.Z * v.Z + v.T * v.T, fun x => by simp [wf, ThPt.ev]⟩
  · exact ⟨v.X * v.X - v.Y * v.Y + v.Z * v.Z - v.T * v.T, fun x => by simp [wf, ThPt.ev]⟩
  · exact ⟨v.X * v.X + v.Y * v.Y - v.Z * v.Z - v.T * v.T, fun x => by simp [wf, ThPt.ev]⟩
  · exact ⟨v.X * v.X - v.Y * v.Y - v.Z * v.Z + v.T * v.T, fun x => by simp [wf, ThPt.ev]⟩
  · exact ⟨v.X * v.Y + v.Y * v.X + (v.Z * v.T + v.T * v.Z), fun x => by simp [wf, ThPt.ev]⟩
  · exact ⟨v.X * v.Y + v.Y * v.X - (v.Z * v.T + v.T * v.Z), fun x => by simp [wf, ThPt.ev]⟩
  · exact ⟨v.X * v.Z + v.Z * v.X + (v.Y * v.T + v.T * v.Y), fun x => by simp [wf, ThPt.ev]⟩
  · exact ⟨v.X * v.Z + v.Z * v.X - (v.Y * v.T + v.T * v.Y), fun x => by simp [wf, ThPt.ev]⟩
  · exact ⟨v.X * v.T + v.T * v.X + (v.Y * v.Z + v.Z * v.Y), fun x => by simp [wf, ThPt.ev]⟩
  · exact ⟨v.X * v.T + v.T * v.X - (v.Y * v.Z + v.Z * v.Y), fun x => by simp [wf, ThPt.ev]⟩

theorem exists_quad_poly (v : ThPt L[X]) (c : Fin 10 → L) : ∃ P : L[X], ∀ x, P.eval x = ∑ j, c j * wf j (v.ev x) (v.ev x) := by
  choose P hP using exists_wf_poly v
  refine ⟨∑ j, C (c j) * P j, fun x => ?_⟩
  rw [eval_finsetSum]
  exact Finset.sum_congr rfl fun j _ => by rw [eval_mul, eval_C, hP]

variable [DecidableEq L] [IsAlgClosed L] {A : L}

/-- Coordinates on a Kummer surface for the elements of a group, without exceptions. -/
structure SurfNet {G : Type*} [AddCommGroup G] (O : ThPt L) (θ : G → ThPt L) : Prop where
  ten : ∀ j, wf j O O ≠ 0
  ne : ∀ x, θ x ≠ ThPt.zero
  zero : O.Same (θ 0)
  riem : ∀ x y, Riem O (θ x) (θ y) (θ (x + y)) (θ (x - y))

namespace SurfNet

omit [DecidableEq L] [IsAlgClosed L] in
theorem add_null {G : Type*} [AddCommGroup G] {O : ThPt L} {θ : G → ThPt L} (h : SurfNet O θ) (h2 : (2 : L) ≠ 0) (x : G) {k : G}
    (hk : O.Same (θ k)) : (θ x).Same (θ (x + k)) := by
  obtain ⟨c, hc, e⟩ := (h.riem x k).same (.refl _) (.refl _) hk.symm (.refl _) (.refl _)
  refine same_of_wf_square h2 hc (h.ne x) (D := θ (x - k)) fun j => mul_right_cancel₀ (h.ten j) ?_
  rw [e j]; ring

variable {O : ThPt L} {θ : MPoint A → ThPt L} {v : ThPt L[X]} {d : ℕ}

omit [DecidableEq L] [IsAlgClosed L] in
theorem wf_same {u X Y : ThPt L} (h : X.Same Y) : wf 0 u X = 0 ↔ wf 0 u Y = 0 := by
  obtain ⟨c, hc, rfl⟩ := h
  rw [wf_scale_right, mul_eq_zero, or_iff_right hc]

/-- A linear form that kills almost all images kills all of them. -/
theorem extend (h : SurfNet O θ) (h2 : (2 : L) ≠ 0) (hA : A * A ≠ 4) (hv : ∀ᶠ T in cofinite, (θ T).Same (v.ev (xc T))) {u : ThPt L}
    (hu : ∀ᶠ T in cofinite, wf 0 u (θ T) = 0) (T : MPoint A) : wf 0 u (θ T) = 0 := by
  have := infinite_points h2 hA
  have riem_sum : ∀ (c : Fin 10 → L) (X Y : MPoint A), (∑ j, c j * wf j (θ (X + Y)) (θ (X - Y))) = 0 ↔
      (∑ j, c j * (wf j (θ X) (θ X) / wf j O O) * wf j (θ Y) (θ Y)) = 0 := by
    intro c X Y
    obtain ⟨k, hk, e⟩ := h.riem X Y
    have : (∑ j, c j * wf j (θ (X + Y)) (θ (X - Y))) = k * ∑ j, c j * (wf j (θ X) (θ X) / wf j O O) * wf j (θ Y) (θ Y) := by
      rw [Finset.mul_sum]
      refine Finset.sum_congr rfl fun j _ => ?_
      rw [eq_div_of_mul_eq (h.ten j) (e j)]
      ring
    rw [this, mul_eq_zero, or_iff_right hk]
  have sum_same : ∀ (c : Fin 10 → L) {X Y : ThPt L}, X.Same Y → ((∑ j, c j * wf j X X) = 0 ↔ (∑ j, c j * wf j Y Y) = 0) := by
    rintro c X Y ⟨k, hk, rfl⟩
    have : (∑ j, c j * wf j (X.scale k) (X.scale k)) = k ^ 2 * ∑ j, c j * wf j X X := by
      rw [Finset.mul_sum]
      refine Finset.sum_congr rfl fun j _ => ?_
      rw [wf_scale_both]
      ring
    rw [this, mul_eq_zero, or_iff_right (pow_ne_zero 2 hk)]
  -- all products with `u`
  have key : ∀ (u' : ThPt L) (X Y : MPoint A), (θ Y).Same (v.ev (xc Y)) →
      wf 0 u (θ (X + Y)) * wf 0 u' (θ (X - Y)) + wf 0 u (θ (X - Y)) * wf 0 u' (θ (X + Y)) = 0 := by
    intro u' X Y hY
    obtain ⟨c, hc⟩ := exists_coeff h2 u u'
    rw [hc, riem_sum, sum_same (fun j => c j * (wf j (θ X) (θ X) / wf j O O)) hY]
    obtain ⟨P, hP⟩ := exists_quad_poly v fun j => c j * (wf j (θ X) (θ X) / wf j O O)
    rw [← hP]
    suffices P = 0 by rw [this, eval_zero]
    refine poly_zero h2 hA ?_
    have e1 : ∀ᶠ Y : MPoint A in cofinite, wf 0 u (θ (X + Y)) = 0 :=
      (Function.Injective.tendsto_cofinite (add_right_injective X)).eventually hu
    have e2 : ∀ᶠ Y : MPoint A in cofinite, wf 0 u (θ (X - Y)) = 0 :=
      (Function.Injective.tendsto_cofinite (sub_right_injective (b := X))).eventually hu
    filter_upwards [hv, e1, e2] with Y hY y1 y2
    rw [hP, ← sum_same (fun j => c j * (wf j (θ X) (θ X) / wf j O O)) hY, ← riem_sum, ← hc, y1, y2, zero_mul, zero_mul, add_zero]
  have g1 : ∀ᶠ Y : MPoint A in cofinite, wf 0 u (θ (T + Y + Y)) = 0 := by
    have t : Tendsto (fun Y : MPoint A => 2 • Y) cofinite cofinite :=
      tendsto_hom (φ := nsmulAddMonoidHom (α := MPoint A) 2) (torsion_finite h2 hA two_ne_zero)
    filter_upwards [((Function.Injective.tendsto_cofinite (add_right_injective T)).comp t).eventually hu] with Y hY
    rw [add_assoc, ← two_nsmul]
    exact hY
  obtain ⟨Y, y1, y2⟩ := (hv.and g1).exists
  obtain ⟨u', hu'⟩ : ∃ u', wf 0 u' (θ (T + Y + Y)) ≠ 0 := by
    rcases ThPt.ne_zero_iff.mp (h.ne (T + Y + Y)) with n | n | n | n
    · exact ⟨⟨1, 0, 0, 0⟩, by simpa [wf] using n⟩
    · exact ⟨⟨0, 1, 0, 0⟩, by simpa [wf] using n⟩
    · exact ⟨⟨0, 0, 1, 0⟩, by simpa [wf] using n⟩
    · exact ⟨⟨0, 0, 0, 1⟩, by simpa [wf] using n⟩
  have := key u' (T + Y) Y y1
  rw [y2, zero_mul, zero_add, add_sub_cancel_right] at this
  exact (mul_eq_zero.mp this).resolve_right hu'

end SurfNet
end Festa
