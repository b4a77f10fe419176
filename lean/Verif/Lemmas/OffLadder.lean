import Verif.Lemmas.ECLadder
/-! Scalar multiplication when the second coordinate is not the one of the point. -/
namespace Festa
open WeierstrassCurve.Affine
variable {K : Type*} [Field K] [DecidableEq K]

/-- The end of `mul_into` with a wrong second coordinate: the first coordinate is right. -/
theorem mulFinish_x {E : Crv K} (hE : E.Good) {P : Pt K} {xp yp : K} {kp : (mont E.A).Nonsingular xp yp}
    (hz : P.Z ≠ 0) (hX : P.X = xp * P.Z) (hY0 : P.Y ≠ 0) {k : Nat} {s : Lad K} (n0 : UInt8)
    (hs : LadInv (.some xp yp kp : MPoint E.A) k s)
    (hk : k • (Point.some xp yp kp : MPoint E.A) = 0 ∨ (k + 2) • (Point.some xp yp kp : MPoint E.A) ≠ 0) :
    (k • (Point.some xp yp kp : MPoint E.A) = 0 → (E.mulFinish P s n0).Z = 0) ∧
    ∀ x y h, k • (Point.some xp yp kp : MPoint E.A) = .some x y h →
      (E.mulFinish P s n0).Z ≠ 0 ∧ (E.mulFinish P s n0).X = x * (E.mulFinish P s n0).Z := by
  obtain ⟨i0, i1⟩ := hs
  have ek : (k + 1) • (Point.some xp yp kp : MPoint E.A) =
    k • (Point.some xp yp kp : MPoint E.A) + .some xp yp kp := succ_nsmul _ _
  have ek2 : (k + 2) • (Point.some xp yp kp : MPoint E.A) =
    (k + 1) • (Point.some xp yp kp : MPoint E.A) + .some xp yp kp := succ_nsmul _ _
  rw [ek2, ek] at hk
  rw [ek] at i1
  have hfin : ∀ t : Lad K, s.swap s.cc = t → E.mulFinish P s n0 =
      (let P3 : Pt K := ⟨t.X0 * ((2 * P.Y) * (P.Z * t.Z0) * t.Z1),
        ((P.X * t.X0 + P.Z * t.Z0) * (P.X * t.Z0 + t.X0 * P.Z + (2 * E.A) * (P.Z * t.Z0)) -
          (2 * E.A) * (P.Z * t.Z0) * (P.Z * t.Z0)) * t.Z1 -
          (P.X * t.Z0 - t.X0 * P.Z) * (P.X * t.Z0 - t.X0 * P.Z) * t.X1,
        if t.Z0 = 0 then 0 else t.Z0 * ((2 * P.Y) * (P.Z * t.Z0) * t.Z1)⟩
       if t.Z0 = 0 then P3 else if t.Z1 = 0 then P.neg
       else if t.X1 * P.Z = P.X * t.Z1 then (E.double P).neg else P3) := by
    intro t ht
    simp only [Crv.mulFinish, ht]
    by_cases c0 : t.Z0 = 0 <;> by_cases c1 : t.Z1 = 0 <;>
      by_cases c2 : t.X1 * P.Z = P.X * t.Z1 <;>
      simp [Pt.cond, Pt.condNeg, Pt.neg, cond', hz, hY0, c0, c1, c2]
  rw [hfin _ rfl]
  generalize s.swap s.cc = t at i0 i1
  generalize hR : k • (Point.some xp yp kp : MPoint E.A) = R at i0 i1 hk
  rcases R with _ | ⟨x0, y0, k0⟩
  · obtain ⟨-, e0⟩ := i0
    simp only [e0, if_true]
    refine ⟨fun _ => trivial, fun x y h e => ?_⟩
    cases e
  · refine ⟨fun e => absurd e (Point.some_ne_zero _), fun x y h e => ?_⟩
    rw [Point.some.injEq] at e
    obtain ⟨rfl, rfl⟩ := e
    have hk2 := hk.resolve_left (Point.some_ne_zero _)
    obtain ⟨z0, e0⟩ := i0
    generalize hS : (Point.some x0 y0 k0 : MPoint E.A) + .some xp yp kp = S at i1 hk2
    rcases S with _ | ⟨x1, y1, k1⟩
    · obtain ⟨-, e1⟩ := i1
      simp only [z0, e1, if_true, if_false]
      have : (Point.some x0 y0 k0 : MPoint E.A) = -.some xp yp kp := eq_neg_of_add_eq_zero_left hS
      obtain ⟨h', e⟩ := neg_pt kp
      rw [e, Point.some.injEq] at this
      exact ⟨hz, by rw [this.1]; exact hX⟩
    · obtain ⟨z1, e1⟩ := i1
      have hx1 : t.X1 * P.Z = P.X * t.Z1 ↔ x1 = xp := by
        rw [e1, hX, show x1 * t.Z1 * P.Z = x1 * (P.Z * t.Z1) by ring,
          show xp * P.Z * t.Z1 = xp * (P.Z * t.Z1) by ring]
        exact mul_left_inj' (mul_ne_zero hz z1)
      have hx : x1 ≠ xp := by
        rintro rfl
        rcases y_of_x_eq k1 kp with hyy | hyy
        · subst hyy
          have : (Point.some x0 y0 k0 : MPoint E.A) = 0 := by
            rw [← add_sub_cancel_right (Point.some x0 y0 k0 : MPoint E.A) (.some x1 y1 kp), hS]
            exact sub_self _
          exact Point.some_ne_zero _ this
        · exact hk2 (add_opp hyy)
      simp only [z0, z1, hx1, hx, if_false]
      refine ⟨mul_ne_zero z0 (mul_ne_zero (mul_ne_zero (mul_ne_zero hE.two hY0) (mul_ne_zero hz z0)) z1), ?_⟩
      rw [e0]; ring

/-- The end of `mul_into` when `(k+2)Q = 0`: the result is made by `double`. -/
theorem mulFinish_exc {E : Crv K} {P : Pt K} {xp yp : K} {kp : (mont E.A).Nonsingular xp yp}
    (hz : P.Z ≠ 0) (hX : P.X = xp * P.Z) (hY0 : P.Y ≠ 0) {k : Nat} {s : Lad K} (n0 : UInt8)
    (hs : LadInv (.some xp yp kp : MPoint E.A) k s)
    (hk : k • (Point.some xp yp kp : MPoint E.A) ≠ 0) (hk2 : (k + 2) • (Point.some xp yp kp : MPoint E.A) = 0) :
    E.mulFinish P s n0 = (E.double P).neg := by
  obtain ⟨i0, i1⟩ := hs
  have e1 : (k + 1) • (Point.some xp yp kp : MPoint E.A) = -.some xp yp kp := by
    rw [show k + 2 = k + 1 + 1 from rfl, succ_nsmul] at hk2
    exact eq_neg_of_add_eq_zero_left hk2
  obtain ⟨h', e⟩ := neg_pt kp
  rw [e1, e] at i1
  have hfin : ∀ t : Lad K, s.swap s.cc = t → E.mulFinish P s n0 =
      (let P3 : Pt K := ⟨t.X0 * ((2 * P.Y) * (P.Z * t.Z0) * t.Z1),
        ((P.X * t.X0 + P.Z * t.Z0) * (P.X * t.Z0 + t.X0 * P.Z + (2 * E.A) * (P.Z * t.Z0)) -
          (2 * E.A) * (P.Z * t.Z0) * (P.Z * t.Z0)) * t.Z1 -
          (P.X * t.Z0 - t.X0 * P.Z) * (P.X * t.Z0 - t.X0 * P.Z) * t.X1,
        if t.Z0 = 0 then 0 else t.Z0 * ((2 * P.Y) * (P.Z * t.Z0) * t.Z1)⟩
       if t.Z0 = 0 then P3 else if t.Z1 = 0 then P.neg
       else if t.X1 * P.Z = P.X * t.Z1 then (E.double P).neg else P3) := by
    intro t ht
    simp only [Crv.mulFinish, ht]
    by_cases c0 : t.Z0 = 0 <;> by_cases c1 : t.Z1 = 0 <;>
      by_cases c2 : t.X1 * P.Z = P.X * t.Z1 <;>
      simp [Pt.cond, Pt.condNeg, Pt.neg, cond', hz, hY0, c0, c1, c2]
  rw [hfin _ rfl]
  generalize s.swap s.cc = t at i0 i1
  generalize hR : k • (Point.some xp yp kp : MPoint E.A) = R at i0 hk
  rcases R with _ | ⟨x0, y0, k0⟩
  · exact absurd rfl hk
  · have c : t.X1 * P.Z = P.X * t.Z1 := by rw [i1.2, hX]; ring
    simp only [i0.1, i1.1, c, if_true, if_false]

/-- The ladder of `mul_into` does not look at the second coordinate. -/
theorem mul_lad {E : Crv K} (hE : E.Good) {P : Pt K} {xp yp : K} {kp : (mont E.A).Nonsingular xp yp}
    (hz : P.Z ≠ 0) (hX : P.X = xp * P.Z) (hy : yp ≠ 0) (n : List UInt8) (nbitlen : Nat) (hn : n ≠ [])
    (hl : nbitlen ≤ 8 * n.length) {k : Nat} (hk : bval n % 2 ^ nbitlen = k) :
    ∃ s n0, E.mul P n nbitlen = some (E.mulFinish P s n0) ∧ LadInv (.some xp yp kp : MPoint E.A) k s := by
  obtain ⟨n0, ns, rfl⟩ := List.exists_cons_of_ne_nil hn
  have hxp : xp ≠ 0 := by
    rintro rfl
    apply hy
    have := curve_eq kp
    exact mul_self_eq_zero.mp (by rw [this]; ring)
  have fin : ∀ (Xp Zp : K), Zp ≠ 0 → Xp = xp * Zp →
      ∃ s, ladLoop (n0 :: ns) (E.ladStep (xAdd Xp Zp)) nbitlen ⟨1, 0, P.X, P.Z, false⟩ = some s ∧
        LadInv (.some xp yp kp : MPoint E.A) k s := by
    intro Xp Zp hZ hXZ
    obtain ⟨s, hs1, hs2⟩ := ladLoop_spec (n0 :: ns) (E.ladStep (xAdd Xp Zp))
      (fun k s => LadInv (.some xp yp kp : MPoint E.A) k s)
      (fun k s b ih => ladStep_inv hE hxp hZ hXZ ih b)
      nbitlen 0 ⟨1, 0, P.X, P.Z, false⟩
      (by
        refine ⟨?_, ?_⟩
        · rw [zero_nsmul]
          simp only [Lad.swap, cond', Bool.false_eq_true, if_false]
          exact ⟨one_ne_zero, rfl⟩
        · rw [zero_add, one_nsmul]
          simp only [Lad.swap, cond', Bool.false_eq_true, if_false]
          exact ⟨hz, hX⟩)
      hl
    rw [mul_zero, zero_add, hk] at hs2
    exact ⟨s, hs1, hs2⟩
  unfold Crv.mul
  dsimp only
  by_cases h21 : nbitlen > 21
  · rw [if_pos h21]
    obtain ⟨s, h1, h2⟩ := fin (P.X / P.Z) 1 one_ne_zero (by rw [hX, mul_div_cancel_right₀ _ hz, mul_one])
    have : xAddAff (P.X / P.Z) = xAdd (P.X / P.Z) 1 := by
      funext a b c d; exact xAddAff_eq _ _ _ _ _
    rw [this, h1]
    exact ⟨s, n0, rfl, h2⟩
  · rw [if_neg h21]
    obtain ⟨s, h1, h2⟩ := fin P.X P.Z hz hX
    rw [h1]
    exact ⟨s, n0, rfl, h2⟩

/-- `mul_into` with a wrong second coordinate. -/
theorem mul_x {E : Crv K} (hE : E.Good) {P : Pt K} {xp yp : K} {kp : (mont E.A).Nonsingular xp yp}
    (hz : P.Z ≠ 0) (hX : P.X = xp * P.Z) (hY0 : P.Y ≠ 0) (hy : yp ≠ 0) (n : List UInt8) (nbitlen : Nat) (hn : n ≠ [])
    (hl : nbitlen ≤ 8 * n.length) {k : Nat} (hk : bval n % 2 ^ nbitlen = k)
    (hk2 : k • (Point.some xp yp kp : MPoint E.A) = 0 ∨ (k + 2) • (Point.some xp yp kp : MPoint E.A) ≠ 0) :
    ∃ R, E.mul P n nbitlen = some R ∧
      (k • (Point.some xp yp kp : MPoint E.A) = 0 → R.Z = 0) ∧
      ∀ x y h, k • (Point.some xp yp kp : MPoint E.A) = .some x y h → R.Z ≠ 0 ∧ R.X = x * R.Z := by
  obtain ⟨s, n0, e, h⟩ := mul_lad hE hz hX (kp := kp) hy n nbitlen hn hl hk
  exact ⟨_, e, mulFinish_x hE hz hX hY0 n0 h hk2⟩

end Festa
