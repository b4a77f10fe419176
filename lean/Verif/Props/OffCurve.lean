import Verif.Props.EC
import Verif.Lemmas.OffCurve
import Verif.Lemmas.MulMap
import Mathlib.FieldTheory.IsAlgClosed.AlgebraicClosure
/-!
Property C90: what the point arithmetic does with coordinates that are not on the curve.
The decoding functions accept such coordinates (C89).
-/
namespace Festa
open WeierstrassCurve.Affine

section
variable {K : Type*} [Field K] [DecidableEq K]

omit [DecidableEq K] in
/-- C90: any two coordinates are a point of `y² = x³ + A x² + x + c` for `c = y² - x³ - A x² - x`, provided that this curve is
not singular. -/
theorem C90_cover (A x y : K) (hd : (montC A (y * y - (x * x * x + A * x * x + x))).Δ ≠ 0) :
    ∃ Q : (montC A (y * y - (x * x * x + A * x * x + x))).Point, Q ≠ 0 ∧ PRepC ⟨x, y, 1⟩ Q := by
  have h : (montC A (y * y - (x * x * x + A * x * x + x))).Equation x y :=
    ((montC _ _).equation_iff x y).mpr (by simp only [montC]; ring)
  exact ⟨.some x y ((equation_iff_nonsingular_of_Δ_ne_zero hd).mp h), Point.some_ne_zero _, one_ne_zero,
    (mul_one _).symm, (mul_one _).symm⟩

/-- C90: `add` is the group law of `y² = x³ + A x² + x + c` for all `c`: the code of `add` does not depend on the constant term. -/
theorem C90_add {E : Crv K} {c : K} (h2 : (2 : K) ≠ 0) {P1 P2 : Pt K} {Q1 Q2 : (montC E.A c).Point} (h1 : PRepC P1 Q1)
    (h2' : PRepC P2 Q2) : PRepC (E.add P1 P2) (Q1 + Q2) := prep_addC h2 h1 h2'

/-- C90: `double` disagrees with `add` off the curve. -/
theorem C90_double_differs {E : Crv K} (h2 : (2 : K) ≠ 0) (x y : K) (hc : y * y ≠ x * x * x + E.A * x * x + x)
    (hy : y ≠ 0) (hx : 2 * x + E.A ≠ 0) : (E.double ⟨x, y, 1⟩).equals (E.add ⟨x, y, 1⟩ ⟨x, y, 1⟩) = false := by
  have h4 : (4 : K) ≠ 0 := by
    rw [show (4 : K) = 2 * 2 by norm_num]; exact mul_ne_zero h2 h2
  have hne : (E.double ⟨x, y, 1⟩).X * (E.add ⟨x, y, 1⟩ ⟨x, y, 1⟩).Z ≠
      (E.add ⟨x, y, 1⟩ ⟨x, y, 1⟩).X * (E.double ⟨x, y, 1⟩).Z := by
    simp only [Crv.double, Crv.add, Pt.cond, cond', mul_one, sub_self, one_ne_zero, decide_false, decide_true, Bool.and_self,
      if_true, Bool.false_eq_true, if_false]
    intro h
    have : (2 * y) ^ 4 * (4 * ((y * y - (x * x * x + E.A * x * x + x)) * (2 * x + E.A))) = 0 := by
      linear_combination h
    rcases mul_eq_zero.mp this with h | h
    · exact absurd h (pow_ne_zero _ (mul_ne_zero h2 hy))
    · rcases mul_eq_zero.mp ((mul_eq_zero.mp h).resolve_left h4) with h | h
      · exact hc (sub_eq_zero.mp h)
      · exact hx h
  have hz : (E.double ⟨x, y, 1⟩).Z ≠ 0 := by
    simp only [Crv.double, mul_one]
    have := mul_ne_zero h2 hy
    exact mul_ne_zero this (mul_ne_zero this this)
  unfold Pt.equals
  simp [hz, hne]

theorem mulBig_x {E : Crv K} (hE : E.Good) {x s y z : K} {k : (mont E.A).Nonsingular x s} (hs : s ≠ 0) (hy : y ≠ 0)
    (hz : z ≠ 0) (n : Nat)
    (hn : n • (Point.some x s k : MPoint E.A) = 0 ∨ (n + 2) • (Point.some x s k : MPoint E.A) ≠ 0) :
    ∃ R, E.mulBig ⟨x * z, y * z, z⟩ n = some R ∧
      (n • (Point.some x s k : MPoint E.A) = 0 → R.Z = 0) ∧
      ∀ x' s' k', n • (Point.some x s k : MPoint E.A) = .some x' s' k' → R.Z ≠ 0 ∧ R.X = x' * R.Z := by
  obtain ⟨h1, h2⟩ := toBytesLe_spec n
  have hne : toBytesLe n ≠ [] := by unfold toBytesLe; split_ifs <;> simp
  unfold Crv.mulBig
  by_cases h0 : n = 0
  · rw [if_pos h0]
    refine mul_x hE hz rfl (mul_ne_zero hy hz) hs (toBytesLe n) 0 hne (by omega) ?_ hn
    rw [pow_zero, Nat.mod_one, h0]
  · rw [if_neg h0]
    refine mul_x hE hz rfl (mul_ne_zero hy hz) hs (toBytesLe n) _ hne (h2 h0) ?_ hn
    rw [h1, Nat.mod_eq_of_lt Nat.lt_log2_self]

/-- C90: `mul_big` looks at the first coordinate only: off the curve, too, it gives the first coordinate of the multiple of the
point of the curve `y² = x³ + A x² + x` above it.  That point may have its second coordinate in a larger field `L`, so that all first
coordinates with `x³ + A x² + x ≠ 0` are covered. -/
theorem C90_mul_x {L : Type*} [Field L] [DecidableEq L] (φ : K →+* L) {E : Crv K} (hE : E.Good) {x y z : K} {s : L}
    {k : (mont (φ E.A)).Nonsingular (φ x) s} (hs : s ≠ 0) (hy : y ≠ 0) (hz : z ≠ 0) (n : Nat)
    (hn : n • (Point.some (φ x) s k : MPoint (φ E.A)) = 0 ∨ (n + 2) • (Point.some (φ x) s k : MPoint (φ E.A)) ≠ 0) :
    ∃ R, E.mulBig ⟨x * z, y * z, z⟩ n = some R ∧
      (n • (Point.some (φ x) s k : MPoint (φ E.A)) = 0 → R.Z = 0) ∧
      ∀ x' s' k', n • (Point.some (φ x) s k : MPoint (φ E.A)) = .some x' s' k' → R.Z ≠ 0 ∧ φ R.X = x' * φ R.Z := by
  have hE' : (E.mapK φ).Good := by
    refine ⟨?_, ?_, ?_⟩
    · rw [← map_two φ]; exact (map_ne_zero φ).mpr hE.two
    · show φ E.A * φ E.A ≠ 4
      rw [← map_mul, show (4 : L) = φ 4 by
        rw [show (4 : K) = 2 * 2 by norm_num, map_mul, map_two]; norm_num]
      exact fun h => hE.disc (φ.injective h)
    · show 4 * φ E.A24 = φ E.A + 2
      have := congrArg φ hE.a24
      rw [map_mul, map_add, map_two, show φ 4 = 4 by
        rw [show (4 : K) = 2 * 2 by norm_num, map_mul, map_two]; norm_num] at this
      exact this
  obtain ⟨R', e, r0, r1⟩ := mulBig_x hE' (k := k) hs ((map_ne_zero φ).mpr hy) ((map_ne_zero φ).mpr hz) n hn
  have hP : (⟨φ x * φ z, φ y * φ z, φ z⟩ : Pt L) = (⟨x * z, y * z, z⟩ : Pt K).mapK φ := by
    simp only [Pt.mapK, map_mul]
  rw [hP, mulBig_mapK, Option.map_eq_some_iff] at e
  obtain ⟨R, hR, rfl⟩ := e
  refine ⟨R, hR, fun h => (map_eq_zero φ).mp (r0 h), fun x' s' k' h => ?_⟩
  obtain ⟨h1, h2⟩ := r1 x' s' k' h
  exact ⟨fun h0 => h1 ((map_eq_zero φ).mpr h0), h2⟩

/-- C90: the exception in `C90_mul_x` is one: if `(n+2)Q = 0` and `nQ` is not 0, the first coordinate of the result is not the one of
`nQ`, for all `y` that belong to no point of the curve. -/
theorem C90_mul_exception {E : Crv K} (hE : E.Good) {x s y : K} {k : (mont E.A).Nonsingular x s} (hs : s ≠ 0) (hy : y ≠ 0)
    (hys : y * y ≠ s * s) (hx : x * x ≠ 1) (n : Nat) (hn : n • (Point.some x s k : MPoint E.A) ≠ 0)
    (hn2 : (n + 2) • (Point.some x s k : MPoint E.A) = 0) :
    ∃ R, E.mulBig ⟨x, y, 1⟩ n = some R ∧ R.Z ≠ 0 ∧
      ∀ x' s' k', n • (Point.some x s k : MPoint E.A) = .some x' s' k' → R.X ≠ x' * R.Z := by
  have h0 : n ≠ 0 := by rintro rfl; exact hn (zero_nsmul _)
  obtain ⟨h1, h2⟩ := toBytesLe_spec n
  have hne : toBytesLe n ≠ [] := by unfold toBytesLe; split_ifs <;> simp
  obtain ⟨t, n0, e, hl⟩ := mul_lad hE (P := ⟨x, y, 1⟩) (kp := k) one_ne_zero (mul_one x).symm hs (toBytesLe n)
    (Nat.log2 n + 1) hne (h2 h0) (k := n) (by rw [h1, Nat.mod_eq_of_lt Nat.lt_log2_self])
  rw [mulFinish_exc (P := ⟨x, y, 1⟩) one_ne_zero (mul_one x).symm hy n0 hl hn hn2] at e
  refine ⟨_, by unfold Crv.mulBig; rw [if_neg h0]; exact e, ?_, ?_⟩
  · simp only [Pt.neg, Crv.double, mul_one]
    have := mul_ne_zero hE.two hy
    exact mul_ne_zero this (mul_ne_zero this this)
  · intro x' s' k' hq hX
    obtain ⟨x2, s2, k2, e2, f, -⟩ := two_mul_pt hE k hs
    have hneg : n • (Point.some x s k : MPoint E.A) = -(.some x s k + .some x s k) := by
      rw [add_nsmul, two_nsmul] at hn2
      exact eq_neg_of_add_eq_zero_left hn2
    obtain ⟨h', en⟩ := neg_pt k2
    rw [e2, en, hq, Point.some.injEq] at hneg
    rw [hneg.1] at hX
    simp only [Pt.neg, Crv.double, mul_one] at hX
    have hv : x * x - 1 ≠ 0 := sub_ne_zero.mpr hx
    have : 2 * y * ((x * x - 1) * (x * x - 1)) * (s * s - y * y) = 0 := by
      linear_combination s * s * hX + 2 * y * y * y * f
    rcases mul_eq_zero.mp this with h | h
    · exact mul_ne_zero (mul_ne_zero hE.two hy) (mul_ne_zero hv hv) h
    · exact hys (sub_eq_zero.mp h).symm

/-- C90: off the curve `mul_big` by 2 disagrees with `double`. -/
theorem C90_mul_differs {E : Crv K} (hE : E.Good) {x s y : K} {k : (mont E.A).Nonsingular x s} (hs : s ≠ 0) (hy : y ≠ 0)
    (hys : y * y ≠ s * s) (hx : x * x ≠ 1) (h4Q : 4 • (Point.some x s k : MPoint E.A) ≠ 0) :
    ∃ R, E.mulBig ⟨x, y, 1⟩ 2 = some R ∧ (E.double ⟨x, y, 1⟩).equals R = false := by
  have h4 : (4 : K) ≠ 0 := by
    rw [show (4 : K) = 2 * 2 by norm_num]; exact mul_ne_zero hE.two hE.two
  obtain ⟨R, hR, -, h⟩ := mulBig_x hE (y := y) (k := k) hs hy one_ne_zero 2 (Or.inr h4Q)
  rw [mul_one, mul_one] at hR
  obtain ⟨x', s', k', e, f, -⟩ := two_mul_pt hE k hs
  obtain ⟨rz, rx⟩ := h x' s' k' (by rw [two_nsmul]; exact e)
  refine ⟨R, hR, ?_⟩
  have hv : x * x - 1 ≠ 0 := sub_ne_zero.mpr hx
  have hne : (E.double ⟨x, y, 1⟩).X * R.Z ≠ R.X * (E.double ⟨x, y, 1⟩).Z := by
    rw [rx]
    simp only [Crv.double, mul_one]
    intro h
    have : 2 * y * R.Z * ((x * x - 1) * (x * x - 1)) * (s * s - y * y) = 0 := by
      linear_combination s * s * h + 2 * y * y * y * R.Z * f
    rcases mul_eq_zero.mp this with h | h
    · exact mul_ne_zero (mul_ne_zero (mul_ne_zero hE.two hy) rz) (mul_ne_zero hv hv) h
    · exact hys (sub_eq_zero.mp h).symm
  unfold Pt.equals
  simp [rz, hne]

end

/-! A case of all six: `(2, 1)` and the curve `y² = x³ + 7x² + x` over `F29`, which has the point `(2, 3)`. -/

theorem offQ : (mont tE.A).Nonsingular 2 3 := nonsing_of (by decide) (by decide) (by decide)

theorem offQ4 : 4 • (Point.some 2 3 offQ : MPoint tE.A) ≠ 0 := by
  intro h
  obtain ⟨R, e, r⟩ := C27_mul_big tE_good (P := ⟨2, 3, 1⟩) (Q := .some 2 3 offQ) ⟨by decide, by decide, by decide⟩ 4
  rw [h] at r
  have hz : (tE.mulBig ⟨2, 3, 1⟩ 4).map (fun R => decide (R.Z = 0)) = some false := by decide +kernel
  rw [e, Option.map_some, Option.some.injEq, decide_eq_false_iff_not] at hz
  exact hz r

example : tE.onCurve ⟨2, 1, 1⟩ = false ∧
    (∃ c : F29, c = 21 ∧ ∃ Q : (montC tE.A c).Point, Q ≠ 0 ∧ PRepC (⟨2, 1, 1⟩ : Pt F29) Q ∧
      PRepC (tE.add ⟨2, 1, 1⟩ ⟨2, 1, 1⟩) (Q + Q)) ∧
    (tE.double ⟨2, 1, 1⟩).equals (tE.add ⟨2, 1, 1⟩ ⟨2, 1, 1⟩) = false ∧
    ∃ R, tE.mulBig ⟨2, 1, 1⟩ 2 = some R ∧ (tE.double ⟨2, 1, 1⟩).equals R = false := by
  refine ⟨by decide +kernel, ?_, C90_double_differs (by decide) 2 1 (by decide) (by decide) (by decide),
    C90_mul_differs tE_good (k := offQ) (by decide) (by decide) (by decide) (by decide) offQ4⟩
  obtain ⟨Q, h0, hQ⟩ := C90_cover tE.A (2 : F29) 1 (by decide)
  exact ⟨_, by decide, Q, h0, hQ, C90_add (by decide) hQ hQ⟩

/-- The point `(2, 3)` has order 8, so `6` is a scalar of the exception in `C90_mul_x`. -/
example : ∃ R, tE.mulBig ⟨2, 1, 1⟩ 6 = some R ∧ R.Z ≠ 0 ∧
    ∀ x' s' k', 6 • (Point.some 2 3 offQ : MPoint tE.A) = .some x' s' k' → R.X ≠ x' * R.Z := by
  refine C90_mul_exception tE_good (k := offQ) (by decide) (by decide) (by decide) (by decide) 6 ?_ ?_
  · intro h
    obtain ⟨R, e, r⟩ := C27_mul_big tE_good (P := ⟨2, 3, 1⟩) (Q := .some 2 3 offQ) ⟨by decide, by decide, by decide⟩ 6
    rw [h] at r
    have hz : (tE.mulBig ⟨2, 3, 1⟩ 6).map (fun R => decide (R.Z = 0)) = some false := by decide +kernel
    rw [e, Option.map_some, Option.some.injEq, decide_eq_false_iff_not] at hz
    exact hz r
  · obtain ⟨R, e, r⟩ := C27_mul_big tE_good (P := ⟨2, 3, 1⟩) (Q := .some 2 3 offQ) ⟨by decide, by decide, by decide⟩ 8
    have hz : (tE.mulBig ⟨2, 3, 1⟩ 8).map (fun R => decide (R.Z = 0)) = some true := by decide +kernel
    rw [e, Option.map_some, Option.some.injEq, decide_eq_true_iff] at hz
    by_contra h
    change 8 • _ ≠ _ at h
    generalize 8 • (Point.some 2 3 offQ : MPoint tE.A) = T at r h
    rcases T with _ | ⟨x, y, k⟩
    · exact h rfl
    · exact r.1 hz

/-- A first coordinate that no point of the curve over `F29` has: `x = 5`, where `x³ + 7x² + x = 15` is not a square.  The
second coordinate of the point above it is in a larger field. -/
example (y : F29) (hy : y ≠ 0) : (∀ s : F29, s * s ≠ 15) ∧
    ∃ R, tE.mulBig ⟨5, y, 1⟩ 2 = some R ∧ R.Z ≠ 0 ∧ R.X * (4 * 15) = (24 * 24) * R.Z := by
  refine ⟨by decide, ?_⟩
  classical
  let φ := algebraMap F29 (AlgebraicClosure F29)
  obtain ⟨s, hs⟩ := IsAlgClosed.exists_pow_nat_eq (φ 15) (n := 2) (by norm_num)
  have hs2 : s * s = φ 15 := by rw [← hs]; ring
  have h15 : φ 15 ≠ 0 := (map_ne_zero φ).mpr (by decide)
  have hs0 : s ≠ 0 := fun h => h15 (by rw [← hs2, h, mul_zero])
  have h2 : (2 : AlgebraicClosure F29) ≠ 0 := by rw [← map_two φ]; exact (map_ne_zero φ).mpr (by decide)
  have hE : (tE.mapK φ).Good := by
    refine ⟨h2, ?_, ?_⟩
    · show φ 7 * φ 7 ≠ 4
      rw [← map_mul, show (4 : AlgebraicClosure F29) = φ 4 from (map_ofNat φ 4).symm]
      exact fun h => absurd (φ.injective h) (by decide)
    · show 4 * φ (9 / 4) = φ 7 + 2
      rw [show (4 : AlgebraicClosure F29) = φ 4 from (map_ofNat φ 4).symm, ← map_two φ, ← map_mul, ← map_add]
      exact congrArg φ (by decide +kernel)
  have k : (mont (φ 7)).Nonsingular (φ 5) s := by
    refine nonsing_of h2 hE.disc ?_
    rw [hs2, ← map_mul, ← map_mul, ← map_mul, ← map_mul, ← map_add, ← map_add]
    exact congrArg φ (by decide)
  obtain ⟨x', y', k', e, f, g⟩ := two_mul_pt hE k hs0
  have hy' : y' ≠ 0 := by
    rintro rfl
    rw [zero_mul] at g
    have : φ ((5 * 5 - 1) * ((5 * 5 + 1) * (5 * 5 + 1 + 7 * (2 * 5)) + (2 * 5) * (2 * 5))) = 0 := by
      rw [g]
      simp only [map_mul, map_add, map_sub, map_one, map_two]
      rfl
    exact absurd ((map_eq_zero φ).mp this) (by decide)
  obtain ⟨x'', y'', k'', e', -, -⟩ := two_mul_pt hE k' hy'
  have h4 : (2 + 2) • (Point.some (φ 5) s k : MPoint (φ 7)) ≠ 0 := by
    rw [add_nsmul, two_nsmul]
    have e2 : (Point.some (φ 5) s k : MPoint (φ 7)) + .some (φ 5) s k = .some x' y' k' := e
    rw [e2]
    have e3 : (Point.some x' y' k' : MPoint (φ 7)) + .some x' y' k' = .some x'' y'' k'' := e'
    rw [e3]
    exact Point.some_ne_zero _
  obtain ⟨R, hR, -, hR'⟩ := C90_mul_x φ tE_good (x := 5) (y := y) (z := 1) (k := k) hs0 hy one_ne_zero 2 (Or.inr h4)
  rw [mul_one, mul_one] at hR
  obtain ⟨r0, r1⟩ := hR' x' y' k' (by rw [two_nsmul]; exact e)
  refine ⟨R, hR, r0, φ.injective ?_⟩
  have f' : x' * φ (4 * 15) = φ (24 * 24) := by
    rw [map_mul, ← hs2, show φ 4 = 4 from map_ofNat φ 4, f, show (24 : F29) = 5 * 5 - 1 by decide]
    simp only [map_mul, map_sub, map_one]
  rw [map_mul, r1, map_mul _ (24 * 24), ← f']
  ring

end Festa
