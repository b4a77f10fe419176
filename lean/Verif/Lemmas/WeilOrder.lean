import Verif.Lemmas.WeilBasis
import Verif.Lemmas.GvFormula
/-! The Weil pairing of a basis of even order: its power with half the order is `-1`, so for the orders
`2^e` it is a primitive root of unity. -/
namespace Festa
open WeierstrassCurve.Affine
variable {K : Type*} [Field K] [DecidableEq K] {A : K}

section
variable {H : Type*} [AddCommGroup H] {P Q : H}

theorem zsmul_pair (a b : Int) (m : Nat) : a • m • P + b • m • Q = (a * m) • P + (b * m) • Q := by
  rw [← natCast_zsmul P, ← natCast_zsmul Q, ← mul_zsmul', ← mul_zsmul', mul_comm, mul_comm (m : Int)]

theorem IsBasis.nd {n : Nat} (hb : IsBasis n P Q) (hn : 2 ≤ n) : ND P Q := by
  have h1 : ¬(n : Int) ∣ 1 := by intro h; have := Int.le_of_dvd one_pos h; omega
  constructor <;> intro h <;> obtain ⟨k, hk⟩ := AddSubgroup.mem_zmultiples_iff.mp h
  · exact h1 ((hb 1 (-k)).mp (by rw [neg_zsmul, hk, one_zsmul, add_neg_cancel])).1
  · exact h1 ((hb (-k) 1).mp (by rw [neg_zsmul, hk, one_zsmul, neg_add_cancel])).2

theorem IsBasis.nsmul {m n : Nat} (h : IsBasis (m * n) P Q) (hm : 0 < m) :
    IsBasis n (m • P) (m • Q) := by
  intro a b
  have h0 : (m : Int) ≠ 0 := by exact_mod_cast hm.ne'
  rw [zsmul_pair, h, Nat.cast_mul, mul_comm a, mul_comm b, mul_dvd_mul_iff_left h0,
    mul_dvd_mul_iff_left h0]

end

section
variable {P Q R X : MPoint A}

/-- One more step of Miller's function. -/
theorem mil_succ (hX : X ∉ AddSubgroup.zmultiples P) (n : Nat) (hn : 1 ≤ n) :
    mil P X (n + 1) = mil P X n * gv (n • P) P X := by
  induction n using Nat.strong_induction_on with
  | _ n ih =>
    rcases Nat.even_or_odd' n with ⟨k, e | e⟩
    · rw [e]; exact mil_odd _ _ (by omega)
    · rcases Nat.eq_zero_or_pos k with rfl | hk
      · rw [e]
        have := mil_even P X (k := 1) le_rfl
        rw [mil_one] at this ⊢
        simpa using this
      rw [e]
      have e1 : 2 * k + 1 + 1 = 2 * (k + 1) := by ring
      rw [e1, mil_even _ _ (by omega), ih k (by omega) hk, mil_odd _ _ hk, mil_even _ _ hk]
      have d := den_mult hX
      have a1 : k • P + P = (k + 1) • P := (succ_nsmul P k).symm
      have a2 : k • P + k • P = (2 * k) • P := by rw [← add_nsmul, two_mul]
      have a3 : P + P = 2 • P := (two_nsmul P).symm
      have a4 : (2 * k) • P + P = (2 * k + 1) • P := (succ_nsmul P _).symm
      have f1 := gv_four (a := k • P) (b := P) (c := k • P) (d := P) (X := X) (by rw [a1]; exact d _)
        (by rw [a1]; exact d _) (by rw [a2]; exact d _) (by rw [a3]; exact d _)
        (by rw [a1, ← add_nsmul]; exact d _)
      have f2 := gv_four (a := (2 * k) • P) (b := 0) (c := P) (d := P) (X := X) (by rw [add_zero]; exact d _)
        (by rw [a3]; exact d _) (by rw [a4]; exact d _) (by rw [zero_add]; simpa using d 1)
        (by rw [add_zero, a3, ← add_nsmul]; exact d _)
      rw [add_zero, zero_add, gv_zero_right (d _), gv_zero_left (by simpa using d 1), one_mul, mul_one,
        a3, a4] at f2
      rw [a1, a2, a3] at f1
      linear_combination mil P X k ^ 2 * f1 + mil P X k ^ 2 * gv (k • P) (k • P) X * f2

theorem mil_add (hX : X ∉ AddSubgroup.zmultiples P) (a b : Nat) (ha : 1 ≤ a) (hb : 1 ≤ b) :
    mil P X (a + b) = mil P X a * mil P X b * gv (a • P) (b • P) X := by
  induction b, hb using Nat.le_induction with
  | base => rw [mil_succ hX a ha, mil_one, mul_one, one_nsmul]
  | succ b hb ih =>
    rw [← add_assoc, mil_succ hX _ (by omega), ih, mil_succ hX b hb]
    have d := den_mult hX
    have a1 : a • P + b • P = (a + b) • P := (add_nsmul P a b).symm
    have a2 : b • P + P = (b + 1) • P := (succ_nsmul P b).symm
    have f := gv_four (a := a • P) (b := b • P) (c := 0) (d := P) (X := X) (by rw [a1]; exact d _)
      (by rw [zero_add]; simpa using d 1) (by rw [add_zero]; exact d _) (by rw [a2]; exact d _)
      (by rw [zero_add, a1, ← succ_nsmul]; exact d _)
    rw [zero_add, add_zero, gv_zero_right (d _), gv_zero_left (by simpa using d 1), one_mul, mul_one,
      a1, a2] at f
    linear_combination mil P X a * mil P X b * f

/-- Miller's function of a product. -/
theorem mil_mul (hX : X ∉ AddSubgroup.zmultiples P) (m n : Nat) (hm : 1 ≤ m) (hn : 1 ≤ n) :
    mil P X (n * m) = mil (m • P) X n * mil P X m ^ n := by
  have hX' : X ∉ AddSubgroup.zmultiples (m • P) := fun h => hX (by
    obtain ⟨j, rfl⟩ := AddSubgroup.mem_zmultiples_iff.mp h
    exact AddSubgroup.zsmul_mem _ (AddSubgroup.nsmul_mem_zmultiples P m) j)
  induction n, hn using Nat.le_induction with
  | base => rw [one_mul, mil_one, one_mul, pow_one]
  | succ n hn ih =>
    rw [Nat.succ_mul, mil_add hX _ _ (Nat.mul_pos hn hm) hm, ih, mil_succ hX' n hn, mul_nsmul', pow_succ]
    ring

/-- Compatibility of the pairings of orders `m n` and `n`. -/
theorem we_mul {m n : Nat} (hm : 1 ≤ m) (hn : 1 ≤ n)
    (h1 : ∀ i, 1 ≤ i → i ≤ m → i • P ∉ AddSubgroup.zmultiples R)
    (h2 : R ∉ AddSubgroup.zmultiples P) (hR : n • R = 0) : we (n * m) P R = we n (m • P) R := by
  have hR0 : R ≠ 0 := fun h => h2 (by rw [h]; exact zero_mem _)
  have hP0 := h1 1 le_rfl hm
  rw [one_nsmul] at hP0
  have hPz : P ≠ 0 := fun h => hP0 (by rw [h]; exact zero_mem _)
  -- the values at the multiples of `P`
  have key : ∀ i, 1 ≤ i → i ≤ m →
      mil R (i • P) n * mil P R i ^ n = (-1) ^ (n * (i - 1)) * mil R P n ^ i ∧ mil P R i ≠ 0 := by
    intro i hi
    induction i, hi using Nat.le_induction with
    | base => intro _; simp [mil_one]
    | succ i hi ih =>
      intro him
      obtain ⟨ih1, ih2⟩ := ih (by omega)
      have a := mil_arg_add (h1 i hi (by omega)) hP0 (by rw [← succ_nsmul]; exact h1 _ (by omega) him) n hn
      have e0 : hv (i • P) P 0 = -1 := if_pos rfl
      rw [hR, e0, hv_self hR0, ← succ_nsmul] at a
      rw [mil_succ h2 i hi]
      refine ⟨?_, mul_ne_zero ih2 ?_⟩
      · have e : n * (i + 1 - 1) = n * (i - 1) + n := by
          obtain ⟨j, rfl⟩ : ∃ j, i = j + 1 := ⟨i - 1, by omega⟩
          simp; ring
        rw [e, mul_pow, pow_add, pow_succ]
        linear_combination mil P R i ^ n * a + (-1) ^ n * mil R P n * ih1
      · intro h
        rw [h, zero_pow (by omega), mul_zero] at a
        have k1 := mil_ne (h1 i hi (by omega)) n hn
        have k2 := mil_ne hP0 n hn
        have : (-1 : K) ^ n * (mil R (i • P) n * mil R P n * -1) ≠ 0 :=
          mul_ne_zero (pow_ne_zero _ (by simp)) (mul_ne_zero (mul_ne_zero k1 k2) (by simp))
        exact this (neg_eq_zero.mp a.symm)
  obtain ⟨k1, k2⟩ := key m hm le_rfl
  have k3 := mil_mul hP0 n m hn hm
  rw [hR, mil_zero P hPz m hm, one_mul, mul_comm] at k3
  unfold we
  rw [mil_mul h2 m n hm hn, k3]
  have n1 := mil_ne hP0 n hn
  have n2 := mil_ne (h1 m hm le_rfl) n hn
  rw [div_eq_div_iff (pow_ne_zero _ n1) n2]
  have e : ((-1 : K) ^ (n * m)) * (-1) ^ (n * (m - 1)) = (-1) ^ n := by
    obtain ⟨j, rfl⟩ : ∃ j, m = j + 1 := ⟨m - 1, by omega⟩
    have : ((-1 : K) ^ (n * j)) * (-1) ^ (n * j) = 1 := by rw [← mul_pow]; simp
    rw [Nat.mul_succ, pow_add, Nat.add_sub_cancel]
    linear_combination (-1) ^ n * this
  linear_combination (-1) ^ (n * m) * mil (m • P) R n * k1 + mil (m • P) R n * mil R P n ^ m * e

theorem two_gv {T X : MPoint A} (hT : T + T = 0) (h0 : T ≠ 0) (hX : X ≠ 0) :
    mil T X 2 = xc X - xc T := by
  have := mil_even T X (k := 1) le_rfl
  rw [mul_one, mil_one, one_nsmul] at this
  have e : T = -T := eq_neg_of_add_eq_zero_left hT
  have g := gv_opp h0 hX
  rw [← e] at g
  rw [this, g]; ring

end

/-- The pairing of a basis of order `2 m` raised to `m` is `-1`. -/
theorem IsBasis.we_half (h2 : (2 : K) ≠ 0) (hA : A * A ≠ 4) {P Q : MPoint A} {m : Nat} (hm : 1 ≤ m)
    (hb : IsBasis (2 * m) P Q) : we (2 * m) P Q ^ m = -1 := by
  have r := (hb.symm.we_eq h2 hA (by omega) m 0 hm (by omega)).1
  rw [zero_nsmul, add_zero] at r
  rw [← r]
  have key : ∀ P Q : MPoint A, IsBasis (2 * m) P Q → ∀ i, 1 ≤ i → i ≤ m →
      i • P ∉ AddSubgroup.zmultiples Q := by
    intro P Q hb i h1 h3 hmem
    obtain ⟨j, hj⟩ := AddSubgroup.mem_zmultiples_iff.mp hmem
    have := ((hb i (-j)).mp (by rw [neg_zsmul, hj, natCast_zsmul, add_neg_cancel])).1
    exact not_dvd_lt (d := 2 * m) h1 (by omega) this
  have sub : ∀ {S : MPoint A}, S ∈ AddSubgroup.zmultiples (m • Q) → S ∈ AddSubgroup.zmultiples Q := by
    intro S hS
    obtain ⟨j, rfl⟩ := AddSubgroup.mem_zmultiples_iff.mp hS
    exact AddSubgroup.zsmul_mem _ (AddSubgroup.nsmul_mem_zmultiples Q m) j
  rw [we_mul hm (by omega) (fun i h1 h3 hmem => key P Q hb i h1 h3 (sub hmem))
    (key Q P hb.symm m hm le_rfl) (by rw [← mul_nsmul']; exact hb.nsmul_right)]
  have z : ∀ P Q : MPoint A, IsBasis (2 * m) P Q → m • P ≠ 0 := fun P Q hb h =>
    key P Q hb m hm le_rfl (by rw [h]; exact zero_mem _)
  have zP := z P Q hb
  have zQ := z Q P hb.symm
  have tP : m • P + m • P = 0 := by rw [← two_nsmul, ← mul_nsmul']; exact hb.nsmul_left
  have tQ : m • Q + m • Q = 0 := by rw [← two_nsmul, ← mul_nsmul']; exact hb.nsmul_right
  unfold we
  rw [two_gv tP zP zQ, two_gv tQ zQ zP]
  have hne : xc (m • P) - xc (m • Q) ≠ 0 := by
    refine sub_ne_zero.mpr fun h => ?_
    rcases (xc_eq_iff zP zQ).mp h with e | e
    · exact key P Q hb m hm le_rfl (e ▸ AddSubgroup.nsmul_mem_zmultiples Q m)
    · exact key P Q hb m hm le_rfl (e ▸ neg_mem (AddSubgroup.nsmul_mem_zmultiples Q m))
  rw [div_eq_iff hne]; ring

/-- The pairing of a basis of order `2^e` is a primitive root of unity. -/
theorem IsBasis.we_order (h2 : (2 : K) ≠ 0) (hA : A * A ≠ 4) {P Q : MPoint A} {e : Nat}
    (hb : IsBasis (2 ^ e) P Q) (he : 1 ≤ e) : orderOf (we (2 ^ e) P Q) = 2 ^ e := by
  obtain ⟨j, rfl⟩ : ∃ j, e = j + 1 := ⟨e - 1, by omega⟩
  have e1 : 2 ^ (j + 1) = 2 * 2 ^ j := by ring
  have h := hb
  rw [e1] at h
  have hh := h.we_half h2 hA Nat.one_le_two_pow
  rw [← e1] at hh
  refine orderOf_eq_prime_pow ?_ ?_
  · rw [hh]
    intro h1
    apply h2
    linear_combination -h1
  · generalize we (2 ^ (j + 1)) P Q = w at hh
    rw [pow_succ, pow_mul, hh]; ring

end Festa
