import Verif.Lemmas.EC
import Verif.Lemmas.FpPow
/-! The Montgomery ladder of `mul_into`. -/
namespace Festa
open WeierstrassCurve.Affine
variable {K : Type*} [Field K] [DecidableEq K]

theorem krep_dbl {E : Crv K} (hE : E.Good) {X Z : K} {Q : MPoint E.A} (h : KRep X Z Q) :
    KRep (E.xDbl X Z).1 (E.xDbl X Z).2 (2 • Q) := by
  have ha := hE.a24
  rw [two_nsmul]
  rcases Q with _ | ⟨x, y, k⟩
  · obtain ⟨hX, hZ⟩ := h
    change (E.xDbl X Z).1 ≠ 0 ∧ (E.xDbl X Z).2 = 0
    simp only [Crv.xDbl, hZ]
    refine ⟨?_, by ring⟩
    simp only [add_zero, sub_zero]
    exact mul_ne_zero (mul_ne_zero hX hX) (mul_ne_zero hX hX)
  · obtain ⟨hz, rfl⟩ := h
    have hc := curve_eq k
    have e1 : (E.xDbl (x * Z) Z).1 = (x * x - 1) * (x * x - 1) * (Z * Z * Z * Z) := by
      simp only [Crv.xDbl]; ring
    have e2 : (E.xDbl (x * Z) Z).2 = 4 * (y * y) * (Z * Z * Z * Z) := by
      simp only [Crv.xDbl]
      linear_combination 4 * x ^ 2 * Z ^ 4 * ha - 4 * Z ^ 4 * hc
    rw [e1, e2]
    have hz4 : Z * Z * Z * Z ≠ 0 := mul_ne_zero (mul_ne_zero (mul_ne_zero hz hz) hz) hz
    have h4 : (4 : K) ≠ 0 := by
      rw [show (4 : K) = 2 * 2 by norm_num]; exact mul_ne_zero hE.two hE.two
    by_cases hy : y = 0
    · subst hy
      rw [add_opp (by ring)]
      have := x_sq_ne_one hE k
      exact ⟨mul_ne_zero (mul_ne_zero this this) hz4, by ring⟩
    · obtain ⟨x', y', k', e, f1, -⟩ := two_mul_pt hE k hy
      rw [e]
      refine ⟨mul_ne_zero (mul_ne_zero h4 (mul_ne_zero hy hy)) hz4, ?_⟩
      rw [← f1]; ring

/-- Product of the x-coordinates of the sum and the difference. -/
theorem sum_diff_x {A x0 y0 x1 y1 l m : K} (hx : x0 ≠ x1)
    (h0 : y0 * y0 = x0 * x0 * x0 + A * x0 * x0 + x0)
    (h1 : y1 * y1 = x1 * x1 * x1 + A * x1 * x1 + x1)
    (hl : l * (x1 - x0) = y1 - y0) (hm : m * (x0 - x1) = -y0 - y1) :
    (l * l - A - x0 - x1) * (m * m - A - x1 - x0) * ((x0 - x1) * (x0 - x1)) =
      (x0 * x1 - 1) * (x0 * x1 - 1) := by
  have hd : (x0 - x1) * (x0 - x1) ≠ 0 := mul_ne_zero (sub_ne_zero.mpr hx) (sub_ne_zero.mpr hx)
  have e1 : (l * l - A - x0 - x1) * ((x0 - x1) * (x0 - x1)) =
      (y1 - y0) * (y1 - y0) - (A + x0 + x1) * ((x0 - x1) * (x0 - x1)) := by
    linear_combination (l * (x1 - x0) + (y1 - y0)) * hl
  have e2 : (m * m - A - x1 - x0) * ((x0 - x1) * (x0 - x1)) =
      (y1 + y0) * (y1 + y0) - (A + x0 + x1) * ((x0 - x1) * (x0 - x1)) := by
    linear_combination (m * (x0 - x1) + (-y0 - y1)) * hm
  apply mul_right_cancel₀ hd
  have e3 : (l * l - A - x0 - x1) * (m * m - A - x1 - x0) * ((x0 - x1) * (x0 - x1)) *
      ((x0 - x1) * (x0 - x1)) =
      ((y1 - y0) * (y1 - y0) - (A + x0 + x1) * ((x0 - x1) * (x0 - x1))) *
      ((y1 + y0) * (y1 + y0) - (A + x0 + x1) * ((x0 - x1) * (x0 - x1))) := by
    rw [← e1, ← e2]; ring
  rw [e3]
  have e4 : ((y1 - y0) * (y1 - y0) - (A + x0 + x1) * ((x0 - x1) * (x0 - x1))) *
      ((y1 + y0) * (y1 + y0) - (A + x0 + x1) * ((x0 - x1) * (x0 - x1))) =
      (y1 * y1 - y0 * y0) * (y1 * y1 - y0 * y0) -
      (A + x0 + x1) * ((x0 - x1) * (x0 - x1)) * (2 * (y1 * y1 + y0 * y0)) +
      (A + x0 + x1) * ((x0 - x1) * (x0 - x1)) * ((A + x0 + x1) * ((x0 - x1) * (x0 - x1))) := by
    ring
  rw [e4, h0, h1]; ring

/-- Differential addition: `D` is the difference of the two points. -/
theorem krep_xadd {E : Crv K} (hE : E.Good) {xp yd Xp Zp X0 Z0 X1 Z1 : K} {Q : MPoint E.A}
    {hD : (mont E.A).Nonsingular xp yd} (h0 : KRep X0 Z0 Q)
    (h1 : KRep X1 Z1 (Q + .some xp yd hD)) (hxp : xp ≠ 0) (hZp : Zp ≠ 0) (hXp : Xp = xp * Zp) :
    KRep (xAdd Xp Zp X0 Z0 X1 Z1).1 (xAdd Xp Zp X0 Z0 X1 Z1).2 (Q + (Q + .some xp yd hD)) := by
  have h4 : (4 : K) ≠ 0 := by
    rw [show (4 : K) = 2 * 2 by norm_num]; exact mul_ne_zero hE.two hE.two
  have eX : (xAdd Xp Zp X0 Z0 X1 Z1).1 = Zp * (4 * ((X0 * X1 - Z0 * Z1) * (X0 * X1 - Z0 * Z1))) := by
    simp only [xAdd]; ring
  have eZ : (xAdd Xp Zp X0 Z0 X1 Z1).2 =
      xp * Zp * (4 * ((X0 * Z1 - Z0 * X1) * (X0 * Z1 - Z0 * X1))) := by
    simp only [xAdd, hXp]; ring
  rw [eX, eZ]
  rcases Q with _ | ⟨x0, y0, k0⟩
  · obtain ⟨hX0, hZ0⟩ := h0
    change KRep X1 Z1 (0 + _) at h1
    change KRep _ _ (0 + (0 + _))
    rw [zero_add] at h1 ⊢
    rw [zero_add]
    obtain ⟨hz1, rfl⟩ := h1
    subst hZ0
    refine ⟨?_, by ring⟩
    have : X0 * Z1 - 0 * (xp * Z1) ≠ 0 := by
      rw [zero_mul, sub_zero]; exact mul_ne_zero hX0 hz1
    exact mul_ne_zero (mul_ne_zero hxp hZp) (mul_ne_zero h4 (mul_ne_zero this this))
  obtain ⟨hz0, rfl⟩ := h0
  generalize hb : (Point.some x0 y0 k0 : MPoint E.A) + .some xp yd hD = Qb at h1 ⊢
  obtain ⟨k0', en⟩ := neg_pt k0
  have hDb : (Point.some xp yd hD : MPoint E.A) = Qb + Point.some x0 (-y0) k0' := by
    rw [← en, ← hb]; abel
  rcases Qb with _ | ⟨x1, y1, k1⟩
  · obtain ⟨hX1, hZ1⟩ := h1
    change _ = 0 + _ at hDb
    rw [zero_add, Point.some.injEq] at hDb
    change KRep _ _ (_ + 0)
    rw [add_zero, hDb.1]
    subst hZ1
    refine ⟨?_, by ring⟩
    have : x0 * Z0 * 0 - Z0 * X1 ≠ 0 := by
      rw [mul_zero, zero_sub]; exact neg_ne_zero.mpr (mul_ne_zero hz0 hX1)
    exact mul_ne_zero (mul_ne_zero (hDb.1 ▸ hxp) hZp) (mul_ne_zero h4 (mul_ne_zero this this))
  · obtain ⟨hz1, rfl⟩ := h1
    by_cases hx : x0 = x1
    · subst hx
      rcases y_of_x_eq k0 k1 with hy | hy
      · exfalso
        rw [add_opp (by rw [hy]; ring)] at hDb
        exact Point.some_ne_zero _ hDb
      · rw [add_opp hy]
        refine ⟨?_, by ring⟩
        have hy1 : y1 ≠ 0 := by
          rintro rfl
          rw [add_opp (by rw [hy]; ring)] at hDb
          exact Point.some_ne_zero _ hDb
        obtain ⟨x', y', k', e, f1, -⟩ := two_mul_pt hE k1 hy1
        have e2 : (Point.some x0 y1 k1 : MPoint E.A) + .some x0 (-y0) k0' = .some x' y' k' := by
          rw [← e]; congr 2; rw [hy]; ring
        rw [e2, Point.some.injEq] at hDb
        have hne : x0 * x0 - 1 ≠ 0 := by
          intro h
          rw [h, ← hDb.1] at f1
          have : xp * (4 * (y1 * y1)) = 0 := by rw [f1]; ring
          exact mul_ne_zero hxp (mul_ne_zero h4 (mul_ne_zero hy1 hy1)) this
        have e3 : x0 * Z0 * (x0 * Z1) - Z0 * Z1 = (x0 * x0 - 1) * (Z0 * Z1) := by ring
        rw [e3]
        have := mul_ne_zero hne (mul_ne_zero hz0 hz1)
        exact mul_ne_zero hZp (mul_ne_zero h4 (mul_ne_zero this this))
    · have hd : x1 - x0 ≠ 0 := sub_ne_zero.mpr (Ne.symm hx)
      have hd' : x0 - x1 ≠ 0 := sub_ne_zero.mpr hx
      have hl : (y1 - y0) / (x1 - x0) * (x1 - x0) = y1 - y0 := div_mul_cancel₀ _ hd
      have hm : (-y0 - y1) / (x0 - x1) * (x0 - x1) = -y0 - y1 := div_mul_cancel₀ _ hd'
      generalize (y1 - y0) / (x1 - x0) = l at hl
      generalize (-y0 - y1) / (x0 - x1) = m at hm
      obtain ⟨h3, e⟩ := add_gen (h1 := k0) (h2 := k1) hx hl
      obtain ⟨h4', e'⟩ := add_gen (h1 := k1) (h2 := k0') (Ne.symm hx) hm
      rw [e', Point.some.injEq] at hDb
      have key := sum_diff_x hx (curve_eq k0) (curve_eq k1) hl hm
      rw [← hDb.1] at key
      rw [e]
      have e5 : x0 * Z0 * Z1 - Z0 * (x1 * Z1) = (x0 - x1) * (Z0 * Z1) := by ring
      have e6 : x0 * Z0 * (x1 * Z1) - Z0 * Z1 = (x0 * x1 - 1) * (Z0 * Z1) := by ring
      rw [e5, e6]
      refine ⟨?_, ?_⟩
      · have := mul_ne_zero hd' (mul_ne_zero hz0 hz1)
        exact mul_ne_zero (mul_ne_zero hxp hZp) (mul_ne_zero h4 (mul_ne_zero this this))
      · linear_combination -4 * Zp * (Z0 * Z1) ^ 2 * key

/-! ### The loop -/

/-- The state holds `(x(kP), x((k+1)P))`, up to the pending swap. -/
def LadInv {A : K} (Q : MPoint A) (k : Nat) (s : Lad K) : Prop :=
  KRep (s.swap s.cc).X0 (s.swap s.cc).Z0 (k • Q) ∧
  KRep (s.swap s.cc).X1 (s.swap s.cc).Z1 ((k + 1) • Q)

theorem ladStep_inv {E : Crv K} (hE : E.Good) {xp yp Xp Zp : K}
    {hP : (mont E.A).Nonsingular xp yp} (hxp : xp ≠ 0) (hZp : Zp ≠ 0) (hXp : Xp = xp * Zp)
    {k : Nat} {s : Lad K} (h : LadInv (.some xp yp hP : MPoint E.A) k s) (b : Bool) :
    LadInv (.some xp yp hP : MPoint E.A) (2 * k + b.toNat) (E.ladStep (xAdd Xp Zp) s b) := by
  obtain ⟨h0, h1⟩ := h
  obtain ⟨hP', en⟩ := neg_pt hP
  have hs : s.swap (b ^^ s.cc) = (s.swap s.cc).swap b := by
    cases b <;> cases hc : s.cc <;> simp [Lad.swap, cond']
  generalize hQ : (Point.some xp yp hP : MPoint E.A) = Q at h0 h1 ⊢
  have hstep : E.ladStep (xAdd Xp Zp) s b =
      ⟨(E.xDbl ((s.swap s.cc).swap b).X0 ((s.swap s.cc).swap b).Z0).1,
       (E.xDbl ((s.swap s.cc).swap b).X0 ((s.swap s.cc).swap b).Z0).2,
       (xAdd Xp Zp ((s.swap s.cc).swap b).X0 ((s.swap s.cc).swap b).Z0
          ((s.swap s.cc).swap b).X1 ((s.swap s.cc).swap b).Z1).1,
       (xAdd Xp Zp ((s.swap s.cc).swap b).X0 ((s.swap s.cc).swap b).Z0
          ((s.swap s.cc).swap b).X1 ((s.swap s.cc).swap b).Z1).2, b⟩ := by
    unfold Crv.ladStep; rw [hs]
  rw [hstep]
  generalize s.swap s.cc = t at h0 h1
  cases b
  · have d := krep_dbl hE h0
    have a := krep_xadd hE (hD := hP) (X1 := t.X1) (Z1 := t.Z1) h0
      (by rw [hQ, ← succ_nsmul]; exact h1) hxp hZp hXp
    simp only [LadInv, Lad.swap, cond', Bool.false_eq_true, if_false, Bool.toNat_false, add_zero]
    refine ⟨?_, ?_⟩
    · rw [mul_comm, mul_nsmul]; exact d
    · refine cast (congrArg _ ?_) a
      rw [hQ, succ_nsmul, mul_comm, mul_nsmul, two_nsmul, ← add_assoc]
  · have d := krep_dbl hE h1
    have a := krep_xadd hE (hD := hP') (X1 := t.X0) (Z1 := t.Z0) h1
      (by rw [← en, hQ, succ_nsmul, add_neg_cancel_right]; exact h0) hxp hZp hXp
    simp only [LadInv, Lad.swap, cond', if_true, Bool.toNat_true]
    refine ⟨?_, ?_⟩
    · refine cast (congrArg _ ?_) a
      rw [← en, hQ, succ_nsmul _ k, succ_nsmul, mul_comm, mul_nsmul, two_nsmul]; abel
    · rw [show 2 * k + 1 + 1 = (k + 1) * 2 by ring, mul_nsmul]; exact d

theorem bitAt_spec (n : List UInt8) (i : Nat) :
    (i < 8 * n.length → bitAt n i = some (decide (bval n / 2 ^ i % 2 = 1))) ∧
    (8 * n.length ≤ i → bitAt n i = none) := by
  unfold bitAt
  rw [Nat.shiftRight_eq_div_pow, show (2 : Nat) ^ 3 = 8 from rfl]
  constructor
  · intro h
    have hlt : i / 8 < n.length := by omega
    rw [List.getElem?_eq_getElem hlt]
    have hb := bval_bit n i _ (List.getElem?_eq_getElem hlt)
    rw [← hb]
    simp only
    congr 1
    have := UInt32.toNat_inj (a := (n[i / 8] >>> UInt8.ofNat (i &&& 7)).toUInt32 &&& 1) (b := 0)
    have e : ((n[i / 8] >>> UInt8.ofNat (i &&& 7)).toUInt32 &&& 1).toNat =
        n[i / 8].toNat / 2 ^ (i % 8) % 2 := by
      have h7 : i &&& 7 = i % 8 := Nat.and_two_pow_sub_one_eq_mod i 3
      have hm : i % 8 < 8 := Nat.mod_lt _ (by norm_num)
      rw [UInt32.toNat_and, UInt8.toNat_toUInt32, UInt8.toNat_shiftRight, h7,
        show (1 : UInt32).toNat = 2 ^ 1 - 1 from rfl, Nat.and_two_pow_sub_one_eq_mod,
        UInt8.toNat_ofNat', Nat.shiftRight_eq_div_pow, Nat.mod_eq_of_lt (b := 2 ^ 8) (by omega),
        Nat.mod_eq_of_lt hm, pow_one]
    rw [e] at this
    apply decide_eq_decide.mpr
    rw [ne_eq, ← this, UInt32.toNat_zero]
    omega
  · intro h
    rw [List.getElem?_eq_none_iff.mpr (by omega)]

theorem ladLoop_spec {S : Type*} (n : List UInt8) (step : S → Bool → S) (I : Nat → S → Prop)
    (hI : ∀ k s b, I k s → I (2 * k + b.toNat) (step s b)) (i k : Nat) (s : S) (hs : I k s)
    (hi : i ≤ 8 * n.length) :
    ∃ s', ladLoop n step i s = some s' ∧ I (2 ^ i * k + bval n % 2 ^ i) s' := by
  induction i generalizing k s with
  | zero => exact ⟨s, rfl, by simpa [Nat.mod_one] using hs⟩
  | succ i ih =>
    unfold ladLoop
    rw [(bitAt_spec n i).1 (by omega)]
    simp only
    obtain ⟨s', h1, h2⟩ := ih _ _ (hI k s (decide (bval n / 2 ^ i % 2 = 1)) hs) (by omega)
    refine ⟨s', h1, ?_⟩
    have : 2 ^ (i + 1) * k + bval n % 2 ^ (i + 1) =
        2 ^ i * (2 * k + (decide (bval n / 2 ^ i % 2 = 1)).toNat) + bval n % 2 ^ i := by
      rw [pow_succ 2 i, Nat.mod_mul]
      rcases Nat.mod_two_eq_zero_or_one (bval n / 2 ^ i) with h0 | h0 <;> simp [h0] <;> ring
    rw [this]; exact h2

theorem ladLoop_none {S : Type*} (n : List UInt8) (step : S → Bool → S) (i : Nat) (s : S)
    (hi : 8 * n.length < i) : ladLoop n step i s = none := by
  obtain ⟨j, rfl⟩ : ∃ j, i = j + 1 := ⟨i - 1, by omega⟩
  unfold ladLoop
  rw [(bitAt_spec n j).2 (by omega)]

theorem xAddAff_eq (Xp X0 Z0 X1 Z1 : K) : xAddAff Xp X0 Z0 X1 Z1 = xAdd Xp 1 X0 Z0 X1 Z1 := by
  simp only [xAddAff, xAdd, one_mul]

/-! ### Recovery of the y coordinate -/

theorem okeya {E : Crv K} {xp yp x0 y0 x1 y1 : K}
    {kp : (mont E.A).Nonsingular xp yp} {k0 : (mont E.A).Nonsingular x0 y0}
    {k1 : (mont E.A).Nonsingular x1 y1} (h2 : (2 : K) ≠ 0) (hyp : yp ≠ 0)
    (h : (Point.some x0 y0 k0 : MPoint E.A) + .some xp yp kp = .some x1 y1 k1) :
    2 * yp * y0 = (xp * x0 + 1) * (xp + x0 + 2 * E.A) - 2 * E.A - (xp - x0) * (xp - x0) * x1 := by
  have c0 := curve_eq k0
  have cp := curve_eq kp
  by_cases hx : x0 = xp
  · subst hx
    rcases y_of_x_eq k0 kp with hy | hy
    · subst hy; linear_combination 2 * c0
    · rw [add_opp hy] at h
      exact absurd h.symm (Point.some_ne_zero _)
  · have hd : xp - x0 ≠ 0 := sub_ne_zero.mpr (Ne.symm hx)
    have hl : (yp - y0) / (xp - x0) * (xp - x0) = yp - y0 := div_mul_cancel₀ _ hd
    generalize (yp - y0) / (xp - x0) = l at hl
    obtain ⟨h3, e⟩ := add_gen (h1 := k0) (h2 := kp) hx hl
    rw [e, Point.some.injEq] at h
    have e1 : (xp - x0) * (xp - x0) * x1 =
        (yp - y0) * (yp - y0) - (E.A + x0 + xp) * ((xp - x0) * (xp - x0)) := by
      rw [← h.1]
      linear_combination (l * (xp - x0) + (yp - y0)) * hl
    rw [e1]
    linear_combination c0 + cp

theorem mulFinish_spec {E : Crv K} (hE : E.Good) {P : Pt K} {Q : MPoint E.A} (hP : PRep P Q)
    {k : Nat} {s : Lad K} (n0 : UInt8)
    (hs : ∀ xp yp h, Q = .some xp yp h → yp ≠ 0 → LadInv Q k s)
    (hodd : n0.toNat % 2 = k % 2 ∨ ∀ xp h, Q ≠ .some xp 0 h) :
    PRep (E.mulFinish P s n0) (k • Q) := by
  have hbit : decide (n0.toUInt32 &&& 1 ≠ 0) = decide (n0.toNat % 2 = 1) := by
    apply decide_eq_decide.mpr
    rw [ne_eq, ← UInt32.toNat_inj, UInt32.toNat_and, UInt8.toNat_toUInt32,
      show (1 : UInt32).toNat = 2 ^ 1 - 1 from rfl, Nat.and_two_pow_sub_one_eq_mod,
      UInt32.toNat_zero]
    omega
  rcases Q with _ | ⟨xp, yp, kp⟩
  · have hz : P.Z = 0 := hP
    change PRep _ (k • (0 : MPoint E.A))
    rw [nsmul_zero]
    change (E.mulFinish P s n0).Z = 0
    simp [Crv.mulFinish, Pt.cond, Pt.condNeg, cond', hz]
  obtain ⟨hz, hX, hY⟩ := hP
  by_cases hy : yp = 0
  · subst hy
    have hY0 : P.Y = 0 := by rw [hY]; ring
    have hp := hodd.resolve_right (fun h => h xp kp rfl)
    have hdbl : (2 : Nat) • (Point.some xp 0 kp : MPoint E.A) = 0 := by
      rw [two_nsmul, add_opp (by ring)]
    simp only [Crv.mulFinish, Pt.cond, Pt.condNeg, cond', hz, hY0, hbit, decide_false, decide_true,
      Bool.not_false, Bool.and_self, Bool.not_true, Bool.and_false, Bool.false_and, Bool.false_or,
      Bool.or_false, Bool.true_and, Bool.false_eq_true, if_false]
    obtain ⟨j, hj⟩ : ∃ j, k = 2 * j + k % 2 := ⟨k / 2, by omega⟩
    rcases Nat.mod_two_eq_zero_or_one k with h0 | h0
    · have hk : k • (Point.some xp 0 kp : MPoint E.A) = 0 := by
        rw [hj, h0, add_zero, mul_nsmul, hdbl, nsmul_zero]
      rw [hk, hp, h0]
      change Pt.Z _ = 0
      simp
    · have hk : k • (Point.some xp 0 kp : MPoint E.A) = .some xp 0 kp := by
        rw [hj, h0, add_nsmul, mul_nsmul, hdbl, nsmul_zero, zero_add, one_nsmul]
      rw [hk, hp, h0]
      simp only [decide_true, if_true]
      exact ⟨hz, hX, (zero_mul _).symm⟩
  · obtain ⟨i0, i1⟩ := hs xp yp kp rfl hy
    have hY0 : P.Y ≠ 0 := by rw [hY]; exact mul_ne_zero hy hz
    have ek : (k + 1) • (Point.some xp yp kp : MPoint E.A) =
      k • (Point.some xp yp kp : MPoint E.A) + .some xp yp kp := succ_nsmul _ _
    rw [ek] at i1
    have hfin : ∀ t : Lad K, s.swap s.cc = t → E.mulFinish P s n0 =
        (let P3 : Pt K := ⟨t.X0 * ((2 * P.Y) * (P.Z * t.Z0) * t.Z1),
          ((P.X * t.X0 + P.Z * t.Z0) * (P.X * t.Z0 + t.X0 * P.Z + (2 * E.A) * (P.Z * t.Z0)) -
            (2 * E.A) * (P.Z * t.Z0) * (P.Z * t.Z0)) * t.Z1 -
            (P.X * t.Z0 - t.X0 * P.Z) * (P.X * t.Z0 - t.X0 * P.Z) * t.X1,
          if t.Z0 = 0 then 0 else t.Z0 * ((2 * P.Y) * (P.Z * t.Z0) * t.Z1)⟩
         if t.Z0 = 0 then P3 else if t.Z1 = 0 then P.neg
         else if t.X1 * P.Z = P.X * t.Z1 then (E.double P).neg else P3) := by
      intro t ht
      simp only [Crv.mulFinish, ht]
      by_cases c0 : t.Z0 = 0 <;> by_cases c1 : t.Z1 = 0 <;>
        by_cases c2 : t.X1 * P.Z = P.X * t.Z1 <;>
        simp [Pt.cond, Pt.condNeg, Pt.neg, cond', hz, hY0, c0, c1, c2]
    rw [hfin _ rfl]
    generalize s.swap s.cc = t at i0 i1
    generalize hR : k • (Point.some xp yp kp : MPoint E.A) = R at i0 i1
    rcases R with _ | ⟨x0, y0, k0⟩
    · obtain ⟨-, e0⟩ := i0
      simp only [e0, if_true]
      change Pt.Z _ = 0
      rfl
    · obtain ⟨z0, e0⟩ := i0
      generalize hS : (Point.some x0 y0 k0 : MPoint E.A) + .some xp yp kp = S at i1
      rcases S with _ | ⟨x1, y1, k1⟩
      · obtain ⟨-, e1⟩ := i1
        simp only [z0, e1, if_true, if_false]
        have : (Point.some x0 y0 k0 : MPoint E.A) = -.some xp yp kp := eq_neg_of_add_eq_zero_left hS
        rw [this]
        exact prep_neg ⟨hz, hX, hY⟩
      · obtain ⟨z1, e1⟩ := i1
        have hx1 : t.X1 * P.Z = P.X * t.Z1 ↔ x1 = xp := by
          rw [e1, hX, show x1 * t.Z1 * P.Z = x1 * (P.Z * t.Z1) by ring,
            show xp * P.Z * t.Z1 = xp * (P.Z * t.Z1) by ring]
          exact mul_left_inj' (mul_ne_zero hz z1)
        simp only [z0, z1, hx1, if_false]
        by_cases hx : x1 = xp
        · subst hx
          rw [if_pos rfl]
          have hS' : (Point.some x0 y0 k0 : MPoint E.A) = .some x1 y1 k1 - .some x1 yp kp := by
            rw [← hS, add_sub_cancel_right]
          rcases y_of_x_eq k1 kp with hyy | hyy
          · exfalso
            subst hyy
            rw [sub_self] at hS'
            exact Point.some_ne_zero _ hS'
          · have hneg : (Point.some x1 y1 k1 : MPoint E.A) = -.some x1 yp kp := by
              obtain ⟨h', e⟩ := neg_pt kp
              rw [e]
              subst hyy; rfl
            have : (Point.some x0 y0 k0 : MPoint E.A) = -(2 • .some x1 yp kp) := by
              rw [hS', hneg, two_nsmul]; abel
            rw [this]
            exact prep_neg (prep_double hE ⟨hz, hX, hY⟩)
        · rw [if_neg hx]
          have ok := okeya hE.two hy hS
          refine ⟨?_, ?_, ?_⟩
          · exact mul_ne_zero z0 (mul_ne_zero (mul_ne_zero (mul_ne_zero hE.two hY0)
              (mul_ne_zero hz z0)) z1)
          · simp only; rw [e0]; ring
          · simp only
            rw [e0, e1, hX, hY]
            linear_combination -(P.Z ^ 2 * t.Z0 ^ 2 * t.Z1) * ok

/-- Scalar multiplication, for a slice covering the requested bits. -/
theorem mul_spec {E : Crv K} (hE : E.Good) {P : Pt K} {Q : MPoint E.A} (hP : PRep P Q)
    (n : List UInt8) (nbitlen : Nat) (hn : n ≠ []) (hl : nbitlen ≤ 8 * n.length)
    (h0 : nbitlen ≠ 0 ∨ bval n % 2 = 0 ∨ ∀ xp h, Q ≠ .some xp 0 h) :
    ∃ R, E.mul P n nbitlen = some R ∧ PRep R ((bval n % 2 ^ nbitlen) • Q) := by
  obtain ⟨n0, ns, rfl⟩ := List.exists_cons_of_ne_nil hn
  have hb0 : bval (n0 :: ns) % 2 = n0.toNat % 2 := by simp only [bval]; omega
  have hodd : n0.toNat % 2 = (bval (n0 :: ns) % 2 ^ nbitlen) % 2 ∨ ∀ xp h, Q ≠ .some xp 0 h := by
    rcases Nat.eq_zero_or_pos nbitlen with h | h
    · subst h
      rcases h0 with h0 | h0 | h0
      · exact absurd rfl h0
      · left; rw [hb0] at h0; simp [Nat.mod_one, h0]
      · exact Or.inr h0
    · left
      rw [Nat.mod_mod_of_dvd _ (dvd_pow_self 2 (by omega)), hb0]
  have fin : ∀ (Xp Zp : K), (∀ xp yp h, Q = .some xp yp h → Zp ≠ 0 ∧ Xp = xp * Zp) →
      ∃ s, ladLoop (n0 :: ns) (E.ladStep (xAdd Xp Zp)) nbitlen ⟨1, 0, P.X, P.Z, false⟩ = some s ∧
        PRep (E.mulFinish P s n0) ((bval (n0 :: ns) % 2 ^ nbitlen) • Q) := by
    intro Xp Zp hXZ
    obtain ⟨s, hs1, hs2⟩ := ladLoop_spec (n0 :: ns) (E.ladStep (xAdd Xp Zp))
      (fun k s => ∀ xp yp h, Q = .some xp yp h → yp ≠ 0 → LadInv Q k s)
      (fun k s b ih xp yp h hQ hy => by
        have hi := ih xp yp h hQ hy
        obtain ⟨hz, hx⟩ := hXZ xp yp h hQ
        subst hQ
        have hxp : xp ≠ 0 := by
          rintro rfl
          apply hy
          have := curve_eq h
          exact mul_self_eq_zero.mp (by rw [this]; ring)
        exact ladStep_inv hE hxp hz hx hi b)
      nbitlen 0 ⟨1, 0, P.X, P.Z, false⟩
      (fun xp yp h hQ hy => by
        subst hQ
        refine ⟨?_, ?_⟩
        · rw [zero_nsmul]
          simp only [Lad.swap, cond', Bool.false_eq_true, if_false]
          exact ⟨one_ne_zero, rfl⟩
        · rw [zero_add, one_nsmul]
          simp only [Lad.swap, cond', Bool.false_eq_true, if_false]
          exact ⟨hP.1, hP.2.1⟩)
      hl
    rw [mul_zero, zero_add] at hs2
    exact ⟨s, hs1, mulFinish_spec hE hP n0 hs2 hodd⟩
  unfold Crv.mul
  dsimp only
  by_cases h21 : nbitlen > 21
  · rw [if_pos h21]
    obtain ⟨s, h1, h2⟩ := fin (P.X / P.Z) 1 (fun xp yp h hQ => by
      subst hQ
      refine ⟨one_ne_zero, ?_⟩
      rw [hP.2.1, mul_div_cancel_right₀ _ hP.1, mul_one])
    have : xAddAff (P.X / P.Z) = xAdd (P.X / P.Z) 1 := by
      funext a b c d; exact xAddAff_eq _ _ _ _ _
    rw [this, h1]
    exact ⟨_, rfl, h2⟩
  · rw [if_neg h21]
    obtain ⟨s, h1, h2⟩ := fin P.X P.Z (fun xp yp h hQ => by
      subst hQ
      exact ⟨hP.1, hP.2.1⟩)
    rw [h1]
    exact ⟨_, rfl, h2⟩

theorem mul_none (E : Crv K) (P : Pt K) (n : List UInt8) (nbitlen : Nat) :
    E.mul P n nbitlen = none ↔ (n = [] ∨ 8 * n.length < nbitlen) := by
  unfold Crv.mul
  dsimp only
  constructor
  · intro h
    by_contra hc
    rw [not_or, not_lt] at hc
    obtain ⟨n0, ns, rfl⟩ := List.exists_cons_of_ne_nil hc.1
    by_cases h21 : nbitlen > 21
    · rw [if_pos h21] at h
      obtain ⟨s, h1, -⟩ := ladLoop_spec (n0 :: ns) (E.ladStep (xAddAff (P.X / P.Z)))
        (fun _ _ => True) (fun _ _ _ _ => trivial) nbitlen 0 ⟨1, 0, P.X, P.Z, false⟩ trivial hc.2
      rw [h1] at h
      simp at h
    · rw [if_neg h21] at h
      obtain ⟨s, h1, -⟩ := ladLoop_spec (n0 :: ns) (E.ladStep (xAdd P.X P.Z))
        (fun _ _ => True) (fun _ _ _ _ => trivial) nbitlen 0 ⟨1, 0, P.X, P.Z, false⟩ trivial hc.2
      rw [h1] at h
      simp at h
  · rintro (rfl | h)
    · simp
    · rw [ladLoop_none _ _ _ _ h, ladLoop_none _ _ _ _ h]
      simp

end Festa
