import Verif.Lemmas.FrobExt
import Verif.Lemmas.KummerAdd
/-! The isogeny of degree two from `y^2 = x^3 + 6 x^2 + x` to `y^2 = x^3 + x` on abscissae, and Frobenius
on the first curve. -/
namespace Festa
open WeierstrassCurve.Affine
variable {L : Type*} [Field L] [DecidableEq L] {A : L}

omit [DecidableEq L] in
theorem krep_exists (P : MPoint A) : ∃ X Z, KRep X Z P := by
  rcases P with _ | ⟨x, y, k⟩
  · exact ⟨1, 0, one_ne_zero, rfl⟩
  · exact ⟨x, 1, one_ne_zero, (mul_one _).symm⟩

omit [DecidableEq L] in
theorem krep_scaled {X Z X' Z' : L} {P : MPoint A} (h : KRep X Z P) (h' : KRep X' Z' P) :
    ∃ c, c ≠ 0 ∧ X' = c * X ∧ Z' = c * Z := by
  rcases P with _ | ⟨x, y, k⟩
  · obtain ⟨h1, rfl⟩ := h
    obtain ⟨h3, rfl⟩ := h'
    exact ⟨X' / X, div_ne_zero h3 h1, by field_simp, by ring⟩
  · obtain ⟨h1, rfl⟩ := h
    obtain ⟨h3, rfl⟩ := h'
    exact ⟨Z' / Z, div_ne_zero h3 h1, by field_simp, by field_simp⟩

omit [DecidableEq L] in
theorem six_good (h2 : (2 : L) ≠ 0) : (6 : L) * 6 ≠ 4 := by
  intro e
  have : (2 : L) ^ 5 = 0 := by linear_combination e
  exact h2 (pow_eq_zero_iff (by norm_num) |>.mp this)

omit [DecidableEq L] in
theorem krep_opp {X Z : L} {P : MPoint A} (h : KRep X Z P) : KRep X Z (-P) := by
  rcases P with _ | ⟨x, y, k⟩
  · exact h
  · exact h

theorem krep_sign {X Z : L} {P Q : MPoint A} (h : KRep X Z P) (h' : KRep X Z Q) : Q = P ∨ Q = -P := by
  by_cases hP : P = 0
  · subst hP
    by_cases hQ : Q = 0
    · exact .inl hQ
    · exact absurd h.2 ((krep_iff hQ).mp h').1
  · have hQ : Q ≠ 0 := by
      rintro rfl
      exact ((krep_iff hP).mp h).1 h'.2
    rw [krep_iff hP] at h
    rw [krep_iff hQ] at h'
    exact (xc_eq_iff hQ hP).mp (mul_right_cancel₀ h.1 (h'.2.symm.trans h.2))

/-- Over an algebraically closed field every point of the projective line is an abscissa. -/
theorem krep_lift [IsAlgClosed L] (h2 : (2 : L) ≠ 0) (hA : A * A ≠ 4) {X Z : L} (h : X ≠ 0 ∨ Z ≠ 0) :
    ∃ P : MPoint A, KRep X Z P := by
  by_cases hZ : Z = 0
  · exact ⟨0, h.resolve_right (not_not.mpr hZ), hZ⟩
  · obtain ⟨y, hy⟩ := IsAlgClosed.exists_pow_nat_eq
      ((X / Z) * (X / Z) * (X / Z) + A * (X / Z) * (X / Z) + X / Z) (n := 2) (by norm_num)
    exact ⟨.some (X / Z) y (nonsing_of h2 hA (by rw [← hy, sq])), hZ, (div_mul_cancel₀ _ hZ).symm⟩

theorem krep_fix (f : L →+* L) (h : f A = A) {X Z : L} {P : MPoint A} (k : KRep X Z P) :
    KRep (f X) (f Z) (fixHom f h P) := by
  by_cases h0 : P = 0
  · subst h0
    rw [map_zero]
    exact ⟨(map_ne_zero f).mpr k.1, by rw [k.2, map_zero]⟩
  · rw [krep_iff h0] at k
    rw [krep_iff (fix_ne f h h0), xc_fix, k.2, map_mul]
    exact ⟨(map_ne_zero f).mpr k.1, rfl⟩

/-- `P'` is up to sign the image of `P` under the isogeny `x ↦ (x + 1)^2 / (4 j x)`. -/
def TwoRel (j : L) (P : MPoint (6 : L)) (P' : MPoint (0 : L)) : Prop :=
  ∃ X Z, KRep X Z P ∧ KRep ((X + Z) ^ 2) (4 * j * (X * Z)) P'

section
variable {j : L}

omit [DecidableEq L] in
theorem TwoRel.all {P : MPoint (6 : L)} {P' : MPoint (0 : L)} (h : TwoRel j P P') {X Z : L} (k : KRep X Z P) :
    KRep ((X + Z) ^ 2) (4 * j * (X * Z)) P' := by
  obtain ⟨X0, Z0, k0, k1⟩ := h
  obtain ⟨c, hc, rfl, rfl⟩ := krep_scaled k0 k
  have := krep_mul (pow_ne_zero 2 hc) k1
  convert this using 1 <;> ring

theorem TwoRel.neg {P : MPoint (6 : L)} {P' : MPoint (0 : L)} (h : TwoRel j P P') : TwoRel j P (-P') := by
  obtain ⟨X0, Z0, k0, k1⟩ := h
  exact ⟨X0, Z0, k0, krep_opp k1⟩

theorem TwoRel.fix {P : MPoint (6 : L)} {P' : MPoint (0 : L)} (h : TwoRel j P P') (f : L →+* L) (hj : f j = j)
    (h6 : f (6 : L) = 6) (h0 : f (0 : L) = 0) : TwoRel j (fixHom f h6 P) (fixHom f h0 P') := by
  obtain ⟨X0, Z0, k0, k1⟩ := h
  refine ⟨f X0, f Z0, krep_fix f h6 k0, ?_⟩
  have := krep_fix f h0 k1
  simpa [hj, map_ofNat f 4] using this

omit [DecidableEq L] in
theorem TwoRel.zero : TwoRel j (0 : MPoint (6 : L)) 0 :=
  ⟨1, 0, ⟨one_ne_zero, rfl⟩, by simp, by simp⟩

variable (h2 : (2 : L) ≠ 0) (hj : j * j = -1)
include h2 hj

omit [DecidableEq L] in
theorem four_j_ne : 4 * j ≠ 0 := by
  have hj0 : j ≠ 0 := by rintro rfl; simp at hj
  rw [show (4 : L) = 2 * 2 by norm_num]
  exact mul_ne_zero (mul_ne_zero h2 h2) hj0

omit [DecidableEq L] in
theorem kappa_ne {X Z : L} (h : X ≠ 0 ∨ Z ≠ 0) : (X + Z) ^ 2 ≠ 0 ∨ 4 * j * (X * Z) ≠ 0 := by
  by_contra hc
  push Not at hc
  obtain ⟨h1, h3⟩ := hc
  have h1 : X + Z = 0 := pow_eq_zero_iff (two_ne_zero) |>.mp h1
  rcases mul_eq_zero.mp ((mul_eq_zero.mp h3).resolve_left (four_j_ne h2 hj)) with e | e
  · rw [e, zero_add] at h1
    exact h.elim (fun x => x e) (fun x => x h1)
  · rw [e, add_zero] at h1
    exact h.elim (fun x => x h1) (fun x => x e)

omit h2 [DecidableEq L] in
/-- The biquadratic relations are carried over. -/
theorem biq_two {X1 Z1 X2 Z2 Xs Zs Xd Zd : L} (h : Biq 6 X1 Z1 X2 Z2 Xs Zs Xd Zd) :
    Biq 0 ((X1 + Z1) ^ 2) (4 * j * (X1 * Z1)) ((X2 + Z2) ^ 2) (4 * j * (X2 * Z2)) ((Xs + Zs) ^ 2) (4 * j * (Xs * Zs))
      ((Xd + Zd) ^ 2) (4 * j * (Xd * Zd)) := by
  obtain ⟨c, hc, e1, e2, e3⟩ := h
  have s4 : (Xs + Zs) * (Xd + Zd) = c * ((X1 * X2 - Z1 * Z2) ^ 2 + (X1 * Z2 - Z1 * X2) ^ 2 +
      2 * ((X1 * Z2 + Z1 * X2) * (X1 * X2 + Z1 * Z2) + 2 * 6 * (X1 * X2 * (Z1 * Z2)))) := by
    linear_combination e1 + e2 + e3
  have z : 4 * j * (X1 * Z1) * (4 * j * (X2 * Z2)) = -16 * (X1 * Z1 * (X2 * Z2)) := by
    linear_combination 16 * (X1 * Z1 * (X2 * Z2)) * hj
  refine ⟨c ^ 2, pow_ne_zero 2 hc, ?_, ?_, ?_⟩
  · rw [← mul_pow, s4, z]; ring
  · have : 4 * j * (Xs * Zs) * (4 * j * (Xd * Zd)) = (4 * j) ^ 2 * ((Xs * Xd) * (Zs * Zd)) := by ring
    rw [this, e1, e2]; ring
  · have : (Xs + Zs) ^ 2 * (4 * j * (Xd * Zd)) + 4 * j * (Xs * Zs) * (Xd + Zd) ^ 2 =
        4 * j * ((Xs * Xd + Zs * Zd) * (Xs * Zd + Zs * Xd) + 4 * ((Xs * Xd) * (Zs * Zd))) := by ring
    rw [this, e1, e2, e3, z]; ring

/-- Multiples go to multiples. -/
theorem TwoRel.nsmul {P : MPoint (6 : L)} {P' : MPoint (0 : L)} (h : TwoRel j P P') (n : Nat) :
    TwoRel j (n • P) (n • P') := by
  have : TwoRel j (n • P) (n • P') ∧ TwoRel j ((n + 1) • P) ((n + 1) • P') := by
    induction n with
    | zero => exact ⟨by rw [zero_nsmul, zero_nsmul]; exact TwoRel.zero, by rwa [zero_add, one_nsmul, one_nsmul]⟩
    | succ n ih =>
      refine ⟨ih.2, ?_⟩
      obtain ⟨X1, Z1, k1, k1'⟩ := ih.2
      obtain ⟨X2, Z2, k2, k2'⟩ := h
      obtain ⟨Xs, Zs, Xd, Zd, ks, kd, hb⟩ := biq_exists h2 k1 k2
      have es : (n + 1) • P + P = (n + 1 + 1) • P := (succ_nsmul _ _).symm
      have ed : (n + 1) • P - P = n • P := by rw [succ_nsmul, add_sub_cancel_right]
      have es' : (n + 1) • P' + P' = (n + 1 + 1) • P' := (succ_nsmul _ _).symm
      have ed' : (n + 1) • P' - P' = n • P' := by rw [succ_nsmul, add_sub_cancel_right]
      rw [es] at ks
      rw [ed] at kd
      have key := biq_krep h2 k1' k2' (biq_two hj hb) (kappa_ne h2 hj ks.ne)
      rw [es', ed'] at key
      refine ⟨Xs, Zs, ks, ?_⟩
      rcases key with k | k
      · exact k.1
      · have kn := ih.1.all kd
        rcases krep_sign kn k.2 with e | e
        · rw [e]; exact k.1
        · rw [e]; exact krep_opp k.1
  exact this.1

theorem TwoRel.exists [IsAlgClosed L] (P : MPoint (6 : L)) : ∃ P', TwoRel j P P' := by
  obtain ⟨X, Z, k⟩ := krep_exists P
  have hA : (0 : L) * 0 ≠ 4 := by
    intro e
    apply h2
    have : (2 : L) * 2 = 0 := by linear_combination -e
    exact (mul_eq_zero.mp this).elim id id
  obtain ⟨P', k'⟩ := krep_lift h2 hA (kappa_ne h2 hj k.ne)
  exact ⟨P', X, Z, k, k'⟩

/-- The double is determined by the image. -/
theorem TwoRel.dbl {P Q : MPoint (6 : L)} {P' : MPoint (0 : L)} (h : TwoRel j P P') (h' : TwoRel j Q P') :
    (2 • Q : MPoint (6 : L)) = 2 • P ∨ (2 • Q : MPoint (6 : L)) = -(2 • P) := by
  obtain ⟨X, Z, k, k1⟩ := h
  obtain ⟨X', Z', k', k1'⟩ := h'
  obtain ⟨c, hc, e1, e2⟩ := krep_scaled k1 k1'
  have hE := crv_good h2 (six_good h2)
  have d := krep_dbl hE k
  have d' := krep_dbl hE k'
  have h4 := four_j_ne h2 hj
  have e3 : X' * Z' = c * (X * Z) := mul_left_cancel₀ h4 (by linear_combination e2)
  have t4 : (4 : L) ≠ 0 := fun h => h4 (by rw [h, zero_mul])
  have := krep_mul (pow_ne_zero 2 hc) d
  refine krep_sign (X := (Crv.xDbl ⟨6, (6 + 2) / 4⟩ X' Z').1) (Z := (Crv.xDbl ⟨6, (6 + 2) / 4⟩ X' Z').2) ?_ d'
  have a24 : ((6 : L) + 2) / 4 = 2 := by rw [div_eq_iff t4]; norm_num
  convert this using 1
  · simp only [Crv.xDbl]
    have : (X' + Z') * (X' + Z') * ((X' - Z') * (X' - Z')) = (X' + Z') ^ 2 * ((X' + Z') ^ 2 - 4 * (X' * Z')) := by ring
    rw [this, e1, e3]; ring
  · simp only [Crv.xDbl, a24]
    have : (((X' + Z') * (X' + Z') - (X' - Z') * (X' - Z')) * 2 + (X' - Z') * (X' - Z')) *
      ((X' + Z') * (X' + Z') - (X' - Z') * (X' - Z')) = ((X' + Z') ^ 2 + 4 * (X' * Z')) * (4 * (X' * Z')) := by ring
    rw [this, e1, e3]; ring

omit hj in
theorem xc_one_dbl {y : L} (k : (mont (6 : L)).Nonsingular 1 y) :
    (Point.some 1 y k : MPoint (6 : L)) + .some 1 y k ≠ 0 ∧ 4 • (Point.some 1 y k : MPoint (6 : L)) = 0 := by
  have hc := curve_eq k
  have hy : y ≠ 0 := by
    rintro rfl
    have : (2 : L) ^ 3 = 0 := by linear_combination -hc
    exact h2 (pow_eq_zero_iff (by norm_num) |>.mp this)
  have h1 : (Point.some 1 y k : MPoint (6 : L)) + .some 1 y k ≠ 0 := fun e =>
    hy ((add_self_iff h2 (Point.some_ne_zero k)).mp e)
  refine ⟨h1, ?_⟩
  have hE := crv_good h2 (six_good h2)
  have d := krep_dbl hE (X := 1) (Z := 1) (Q := (Point.some 1 y k : MPoint (6 : L))) ⟨one_ne_zero, (mul_one _).symm⟩
  rw [two_nsmul, krep_iff h1] at d
  have hx : xc ((Point.some 1 y k : MPoint (6 : L)) + .some 1 y k) = 0 := by
    have := d.2
    have e1 : (Crv.xDbl (⟨6, (6 + 2) / 4⟩ : Crv L) 1 1).1 = 0 := by simp [Crv.xDbl]
    rw [e1] at this
    exact (mul_eq_zero.mp this.symm).resolve_right d.1
  have := (add_self_iff h2 h1).mpr (yc_of_xc_zero hx)
  rw [← this]; abel

/-- Frobenius on the start curve. -/
theorem frob_six [IsAlgClosed L] {p : Nat} (hp : p % 4 = 3) (f : L →+* L) (hfj : f j = j) {y : L} (hy : y * y = 8)
    (hfy : f y = y) (h6 : f (6 : L) = 6) (h0 : f (0 : L) = 0)
    (hz : ∀ X : MPoint (0 : L), fixHom f h0 X = -((p : Int) • X)) (X : MPoint (6 : L)) :
    fixHom f h6 X = -((p : Int) • X) := by
  have hor : ∀ X : MPoint (6 : L), fixHom f h6 X = (zsmulAddGroupHom (p : Int)) X ∨ fixHom f h6 X = -(zsmulAddGroupHom (p : Int)) X := by
    intro X
    obtain ⟨P, rfl⟩ := exists_half h2 (six_good h2) X
    obtain ⟨P', hP⟩ := TwoRel.exists h2 hj P
    have r1 := hP.nsmul h2 hj p
    have r2 := (hP.fix f hfj h6 h0).neg
    rw [hz, neg_neg, natCast_zsmul] at r2
    have := r1.dbl h2 hj r2
    rw [← two_nsmul, map_nsmul, map_nsmul]
    simpa using this
  have k : (mont (6 : L)).Nonsingular 1 y := nonsing_of h2 (six_good h2) (by linear_combination hy)
  obtain ⟨d1, d2⟩ := xc_one_dbl h2 k
  have hpT : (p : Int) • (Point.some 1 y k : MPoint (6 : L)) = -.some 1 y k := by
    obtain ⟨r, hr⟩ : ∃ r : Int, (p : Int) = r * 4 - 1 := ⟨(p + 1) / 4, by omega⟩
    rw [hr, sub_zsmul, mul_zsmul, show (4 : Int) = ((4 : Nat) : Int) from rfl, natCast_zsmul, d2, zsmul_zero, one_zsmul, zero_add]
  refine opp_of_or hor (T := .some 1 y k) ?_ ?_ X
  · change _ = -((p : Int) • (Point.some 1 y k : MPoint (6 : L)))
    rw [hpT, neg_neg]
    exact fix_of_coords f h6 (map_one f) hfy
  · change (p : Int) • (Point.some 1 y k : MPoint (6 : L)) + (p : Int) • (Point.some 1 y k : MPoint (6 : L)) ≠ 0
    rw [hpT, ← neg_add]
    exact neg_ne_zero.mpr d1

end
end Festa
