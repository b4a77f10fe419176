import Verif.Props.EC
/-!
C31: the exact condition under which the isomorphism of the code is one.
-/
namespace Festa
open RootOps WeierstrassCurve.Affine
variable {K : Type*} [Field K] [DecidableEq K] [RootOps K]

/-- The points of the code's map, from the equations of an isomorphism for its numbers. -/
theorem iso_of_eqs {E1 E2 : Crv K} (h1 : E1.Good) (h2 : E2.Good) {w0 : K} (hw0 : w0 ≠ 0)
    (hu : (CrvIso.new E1 E2).u = w0 * w0)
    (e1 : 3 * (CrvIso.new E1 E2).v + E2.A = (CrvIso.new E1 E2).u * E1.A)
    (e2 : 3 * (CrvIso.new E1 E2).v * (CrvIso.new E1 E2).v + 2 * E2.A * (CrvIso.new E1 E2).v + 1 =
      (CrvIso.new E1 E2).u * (CrvIso.new E1 E2).u)
    (e3 : (CrvIso.new E1 E2).v * ((CrvIso.new E1 E2).v * (CrvIso.new E1 E2).v + E2.A * (CrvIso.new E1 E2).v + 1) = 0) :
    ∃ φ : MPoint E1.A ≃+ MPoint E2.A, ∀ (P : Pt K) (Q : MPoint E1.A), PRep P Q → Q ≠ 0 →
      PRep ((CrvIso.new E1 E2).eval P) (φ Q) := by
  have hwd : (CrvIso.new E1 E2).w = (sqrt ((CrvIso.new E1 E2).u * ((CrvIso.new E1 E2).u * (CrvIso.new E1 E2).u))).1 := rfl
  generalize CrvIso.new E1 E2 = f at *
  obtain ⟨u, v, w⟩ := f
  dsimp only at *
  have hu0 : u ≠ 0 := by rw [hu]; exact mul_ne_zero hw0 hw0
  have hsq : IsSquare (u * (u * u)) := ⟨w0 * w0 * w0, by rw [hu]; ring⟩
  have hw : w * w = u * u * u := by rw [hwd, (sqrt_sq _ hsq).2]; ring
  have hw1 : w ≠ 0 := by
    rintro rfl
    rw [mul_zero] at hw
    exact mul_ne_zero (mul_ne_zero hu0 hu0) hu0 hw.symm
  have hp := fun x y h => iso_point (x := x) (y := y) h1.two h2.disc hw e1 e2 e3 h
  obtain ⟨φ, hφ⟩ := exists_iso hp (isoMap_bij hu0 hw1 hp h1.two h1.disc hw e1 e2 e3)
    (isoMap_add h1.two hu0 hw1 hw e1 e2 hp)
  refine ⟨φ, fun P Q hPQ hQ => ?_⟩
  rcases Q with _ | ⟨x, y, k⟩
  · exact absurd rfl hQ
  · have hxy := ((C24_to_xy hPQ).2 x y k rfl).2
    rw [hφ]
    unfold CrvIso.eval Pt.newXY
    rw [hxy]
    exact ⟨one_ne_zero, (mul_one _).symm, (mul_one _).symm⟩

omit [DecidableEq K] in
/-- A map with `u = 0` sends all points to one. -/
theorem iso_const {E1 E2 : Crv K} (hu : (CrvIso.new E1 E2).u = 0) (P : Pt K) :
    (CrvIso.new E1 E2).eval P = ⟨(CrvIso.new E1 E2).v, 0, 1⟩ := by
  have hw : (CrvIso.new E1 E2).w = 0 := by
    have hwd : (CrvIso.new E1 E2).w = (sqrt ((CrvIso.new E1 E2).u * ((CrvIso.new E1 E2).u * (CrvIso.new E1 E2).u))).1 := rfl
    rw [hwd, hu]
    have := (sqrt_sq (0 * (0 * 0) : K) ⟨0, by ring⟩).2
    rw [show (0 * (0 * 0) : K) = 0 by ring] at this ⊢
    exact mul_self_eq_zero.mp this
  unfold CrvIso.eval Pt.newXY
  rw [hu, hw, zero_mul, zero_add, zero_mul]

omit [DecidableEq K] in
/-- Two different points of order 2 on the curve with coefficient 0. -/
theorem two_points {E : Crv K} (hE : E.Good) (h0 : E.A = 0) : ∃ P Q : MPoint E.A, P ≠ 0 ∧ Q ≠ 0 ∧ P ≠ Q := by
  have hz := zeta_sq (K := K)
  have n1 : (mont E.A).Nonsingular 0 0 := nonsing_of hE.two hE.disc (by ring)
  have n2 : (mont E.A).Nonsingular zeta 0 := nonsing_of hE.two hE.disc (by
    rw [h0]; linear_combination (-(zeta : K)) * hz)
  refine ⟨.some 0 0 n1, .some zeta 0 n2, Point.some_ne_zero _, Point.some_ne_zero _, fun h => ?_⟩
  have : (0 : K) = zeta := by injection h
  rw [← this, mul_zero] at hz
  exact one_ne_zero (neg_eq_zero.mp hz.symm)

/-- C31, the exact condition (characteristic other than 2 and 3): between isomorphic curves the code's map is an
isomorphism of groups, infinity aside, exactly if no coefficient is zero and the coefficients are not equal or opposite;
with the two exceptions `A^2 = 3` (j-invariant 0) and `2 A^2 = 9` (j-invariant 1728) for the latter. -/
theorem C31_exact {E1 E2 : Crv K} (h1 : E1.Good) (h2 : E2.Good) (h3 : (3 : K) ≠ 0) (hiso : IsoOver E1.A E2.A) :
    (∃ φ : MPoint E1.A ≃+ MPoint E2.A, ∀ (P : Pt K) (Q : MPoint E1.A), PRep P Q → Q ≠ 0 →
      PRep ((CrvIso.new E1 E2).eval P) (φ Q)) ↔
    E1.A ≠ 0 ∧ E2.A ≠ 0 ∧ (E1.A * E1.A ≠ E2.A * E2.A ∨ E1.A * E1.A = 3 ∨ 2 * (E1.A * E1.A) = 9) := by
  have dv : (CrvIso.new E1 E2).v = (E2.A * E2.A + 2 * (E1.A * E1.A) - 3 * 3) / (E2.A * (3 - E1.A * E1.A)) := rfl
  have du : (CrvIso.new E1 E2).u = (3 * (CrvIso.new E1 E2).v + E2.A) / E1.A := rfl
  constructor
  · rintro ⟨φ, hφ⟩
    -- a constant map is not injective
    have hinj : ∀ P Q : MPoint E1.A, P ≠ 0 → Q ≠ 0 → P ≠ Q → (CrvIso.new E1 E2).u ≠ 0 := by
      intro P Q hP hQ hne hu
      obtain ⟨p, hp⟩ := exists_prep P
      obtain ⟨q, hq⟩ := exists_prep Q
      have a1 := hφ p P hp hP
      have a2 := hφ q Q hq hQ
      rw [iso_const hu] at a1 a2
      exact hne (φ.injective (prep_unique a1 a2))
    have ha : E1.A ≠ 0 := by
      intro ha
      obtain ⟨P, Q, hP, hQ, hne⟩ := two_points h1 ha
      exact hinj P Q hP hQ hne (by rw [du, ha, div_zero])
    have hb : E2.A ≠ 0 := by
      intro hb
      obtain ⟨P, Q, hP, hQ, hne⟩ := two_points h2 hb
      refine hinj (φ.symm P) (φ.symm Q) (fun h => hP ?_) (fun h => hQ ?_) (fun h => hne (φ.symm.injective h)) ?_
      · simpa using congrArg φ h
      · simpa using congrArg φ h
      · rw [du, dv, hb, zero_mul (3 - _), div_zero, mul_zero, add_zero, zero_div]
    refine ⟨ha, hb, ?_⟩
    by_contra hn
    push Not at hn
    obtain ⟨hab, hn3, hn9⟩ := hn
    have h3' : 3 - E1.A * E1.A ≠ 0 := sub_ne_zero.mpr hn3.symm
    have hv : (CrvIso.new E1 E2).v * E2.A = -3 := by
      rw [dv, div_mul_eq_mul_div, div_eq_iff (mul_ne_zero hb h3')]
      linear_combination -E2.A * hab
    have n1 : (mont E1.A).Nonsingular 0 0 := nonsing_of h1.two h1.disc (by ring)
    have hr : PRep (⟨0, 0, 1⟩ : Pt K) (.some 0 0 n1 : MPoint E1.A) :=
      ⟨one_ne_zero, (mul_one _).symm, (mul_one _).symm⟩
    have hm := hφ _ _ hr (Point.some_ne_zero _)
    have he : (CrvIso.new E1 E2).eval ⟨0, 0, 1⟩ = ⟨(CrvIso.new E1 E2).v, 0, 1⟩ := by
      simp [CrvIso.eval, Pt.newXY, Pt.toXY]
    rw [he] at hm
    generalize (CrvIso.new E1 E2).v = v at hv hm
    have hc := (exists_prep_iff h2.two h2.disc ⟨v, 0, 1⟩).mp ⟨_, hm⟩
    rcases hc with hc | hc
    · exact one_ne_zero hc
    · simp only at hc
      have hv0 : v ≠ 0 := by
        rintro rfl
        rw [zero_mul] at hv
        exact h3 (by linear_combination hv)
      have h' : v * (v * v + E2.A * v + 1) = 0 := by linear_combination -hc
      have h'' := (mul_eq_zero.mp h').resolve_left hv0
      apply hn9
      linear_combination -(E2.A * E2.A) * h'' + (v * E2.A - 3) * hv + E2.A * E2.A * hv + 2 * hab
  · rintro ⟨ha, hb, h⟩
    by_cases hab : E1.A * E1.A = E2.A * E2.A
    · have hpm : E2.A = E1.A ∨ E2.A = -E1.A := by
        rcases mul_self_eq_mul_self_iff.mp hab with h | h
        · exact Or.inl h.symm
        · exact Or.inr (by rw [h, neg_neg])
      rcases h with h | h | h
      · exact absurd hab h
      · have v0 : (CrvIso.new E1 E2).v = 0 := by rw [dv, h, sub_self, mul_zero, div_zero]
        rcases hpm with e | e
        · have u1 : (CrvIso.new E1 E2).u = 1 := by rw [du, v0, mul_zero, zero_add, e, div_self ha]
          refine iso_of_eqs h1 h2 one_ne_zero (by rw [u1, mul_one]) ?_ ?_ ?_
          · rw [v0, u1, e]; ring
          · rw [v0, u1]; ring
          · rw [v0]; ring
        · have u1 : (CrvIso.new E1 E2).u = -1 := by rw [du, v0, mul_zero, zero_add, e, neg_div, div_self ha]
          have hz0 : (zeta : K) ≠ 0 := by
            intro h0
            have := zeta_sq (K := K)
            rw [h0, mul_zero] at this
            exact one_ne_zero (neg_eq_zero.mp this.symm)
          refine iso_of_eqs h1 h2 hz0 (by rw [u1, zeta_sq]) ?_ ?_ ?_
          · rw [v0, u1, e]; ring
          · rw [v0, u1]; ring
          · rw [v0]; ring
      · have hn3 : 3 - E1.A * E1.A ≠ 0 := by
          intro h0
          exact h3 (by linear_combination -h - 2 * h0)
        have hv : (CrvIso.new E1 E2).v * E2.A = -3 := by
          rw [dv, div_mul_eq_mul_div, div_eq_iff (mul_ne_zero hb hn3)]
          linear_combination -E2.A * hab
        have hb9 : 2 * (E2.A * E2.A) = 9 := by rw [← hab]; exact h
        have hv2 : (CrvIso.new E1 E2).v * (CrvIso.new E1 E2).v = 2 := by
          have : (E2.A * E2.A) * ((CrvIso.new E1 E2).v * (CrvIso.new E1 E2).v - 2) = 0 := by
            linear_combination ((CrvIso.new E1 E2).v * E2.A - 3) * hv - hb9
          exact sub_eq_zero.mp ((mul_eq_zero.mp this).resolve_left (mul_ne_zero hb hb))
        have h3v : 3 * (CrvIso.new E1 E2).v = -(2 * E2.A) := by
          refine mul_right_cancel₀ hb ?_
          linear_combination 3 * hv + hb9
        have ue : (CrvIso.new E1 E2).u * E1.A = -E2.A := by
          rw [du, div_mul_cancel₀ _ ha, h3v]; ring
        rcases hpm with e | e
        · have u1 : (CrvIso.new E1 E2).u = -1 := mul_right_cancel₀ ha (by rw [ue, e]; ring)
          have hz0 : (zeta : K) ≠ 0 := by
            intro h0
            have := zeta_sq (K := K)
            rw [h0, mul_zero] at this
            exact one_ne_zero (neg_eq_zero.mp this.symm)
          refine iso_of_eqs h1 h2 hz0 (by rw [u1, zeta_sq]) ?_ ?_ ?_
          · rw [ue, h3v]; ring
          · rw [u1]; linear_combination 3 * hv2 + 2 * hv
          · rw [mul_comm E2.A, hv, hv2]; ring
        · have u1 : (CrvIso.new E1 E2).u = 1 := mul_right_cancel₀ ha (by rw [ue, e]; ring)
          refine iso_of_eqs h1 h2 one_ne_zero (by rw [u1, mul_one]) ?_ ?_ ?_
          · rw [ue, h3v]; ring
          · rw [u1]; linear_combination 3 * hv2 + 2 * hv
          · rw [mul_comm E2.A, hv, hv2]; ring
    · have hn3 : E1.A * E1.A ≠ 3 := by
        intro e3
        have hj := C32_isomorphic h1 h2 hiso
        unfold Crv.jInvariant at hj
        rw [e3, sub_self, zero_pow (by decide), mul_zero, zero_div, eq_comm, div_eq_zero_iff] at hj
        rcases hj with hj | hj
        · rcases mul_eq_zero.mp hj with hj | hj
          · exact pow_ne_zero 8 h1.two hj
          · exact hab (e3.trans (sub_eq_zero.mp (pow_eq_zero_iff (by decide) |>.mp hj)).symm)
        · exact h2.disc (sub_eq_zero.mp hj)
      exact C31_isomorphism_partial h1 h2 hiso hab ha hb hn3

/-- The curves of `C31_isomorphism_partial`, and a curve to itself, where the condition fails. -/
example : tE.Good ∧ tE2.Good ∧ (3 : F29) ≠ 0 ∧ IsoOver tE.A tE2.A ∧
    tE.A ≠ 0 ∧ tE2.A ≠ 0 ∧ tE.A * tE.A ≠ tE2.A * tE2.A :=
  ⟨tE_good, tE2_good, by decide, tE_iso, by decide, by decide, by decide⟩

example : ¬∃ φ : MPoint tE.A ≃+ MPoint tE.A, ∀ (P : Pt F29) (Q : MPoint tE.A), PRep P Q → Q ≠ 0 →
    PRep ((CrvIso.new tE tE).eval P) (φ Q) := by
  rw [C31_exact tE_good tE_good (by decide) ⟨1, one_smul _ _⟩]
  decide

end Festa
